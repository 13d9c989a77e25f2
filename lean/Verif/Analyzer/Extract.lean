import Verif.Analyzer.Edit
import Verif.Ir.Kinds

/-!
# Extraction of events

Models `crates/analyzer/src/analysis/extract.rs:29-94` and `item_insert_offset_start`,
`crates/analyzer/src/analysis/utils.rs:1626-1644`.
-/

namespace Verif.Analyzer.Extract

open Verif.Ir
open Verif.Ir.Token (bytes)

/-- What is read of an ink! attribute: its kind, and the kinds and texts of its arguments
(`InkAttribute::kind`, `InkAttribute::args`, `InkArg: Display`).
As used in `crates/analyzer/src/analysis/extract.rs:41-43,62-67`. -/
structure InkAttr where
  kind : AttrKind
  args : List (ArgKind × List Char)
deriving DecidableEq, Repr

/-- A direct child of a `struct` item: a comment, whitespace, an attribute (with what is read of it if
it is an ink! attribute), or anything else.
As used in `crates/analyzer/src/analysis/extract.rs:54-78`. -/
inductive Part where
  | comment (text : List Char)
  | ws (text : List Char)
  | attr (text : List Char) (ink : Option InkAttr)
  | code (text : List Char)
deriving DecidableEq, Repr

/-- The source text of a child. As used in `crates/analyzer/src/analysis/extract.rs:54-78`. -/
def Part.text : Part → List Char
  | .comment t | .ws t | .attr t _ | .code t => t

/-- `remove_attrs_and_docs` of `ra_ap_syntax` (`ast::edit_in_place::AttrsOwnerEdit`), called in
`crates/analyzer/src/analysis/extract.rs:71`: detaches the comments and attributes and the whitespace
right behind each of them. The flag is `remove_next_ws`. -/
def strip : Bool → List Part → List Part
  | _, [] => []
  | _, .comment _ :: ps => strip true ps
  | _, .attr _ _ :: ps => strip true ps
  | removeWs, .ws t :: ps => if removeWs then strip false ps else .ws t :: strip false ps
  | _, .code t :: ps => .code t :: strip false ps

/-- The text of a comment, `crates/analyzer/src/analysis/extract.rs:55-57`. -/
def commentOf : Part → Option (List Char)
  | .comment t => some t
  | _ => none

/-- The text of an attribute that is not an ink! attribute,
`crates/analyzer/src/analysis/extract.rs:58-61`. -/
def plainAttrOf : Part → Option (List Char)
  | .attr t none => some t
  | _ => none

/-- `ink_attrs` of the item. As used in `crates/analyzer/src/analysis/extract.rs:41-43,62-67`. -/
def inkOf : Part → Option InkAttr
  | .attr _ ink => ink
  | _ => none

/-- `ink_arg_by_kind`, `crates/ir/src/tree/utils.rs:116-118`. -/
def argByKind (parts : List Part) (k : ArgKind) : Option (List Char) :=
  (parts.filterMap inkOf).findSome? fun a => (a.args.find? fun x => x.1 == k).map (·.2)

/-- The attribute of the extracted event, `crates/analyzer/src/analysis/extract.rs:62-67`. -/
def eventAttr (parts : List Part) : List Char :=
  "#[ink::event".toList ++
    (((argByKind parts .anonymous).or (argByKind parts .signatureTopic)).map
      (fun t => '(' :: t ++ [')'])).getD [] ++ [']']

/-- `reduce_indenting` by the indent of the item, if any,
`crates/analyzer/src/analysis/extract.rs:69-75`. -/
def outdent (prevWs : Option (List Char)) (body : List Char) : List Char :=
  match itemIndenting prevWs with
  | some i => reduceIndenting body i
  | none => body

/-- The content of the new file, `crates/analyzer/src/analysis/extract.rs:54-78`. -/
def content (parts : List Part) (prevWs : Option (List Char)) : List Char :=
  let body := outdent prevWs ((strip false parts).flatMap Part.text)
  List.intercalate ['\n'] (([List.intercalate ['\n'] (parts.filterMap commentOf),
    List.intercalate ['\n'] (parts.filterMap plainAttrOf), eventAttr parts, body]).filter
      fun t => !t.isEmpty)

/-- An item of an item list: whether it is a `use` item, and its range.
As used in `crates/analyzer/src/analysis/utils.rs:1627-1644`. -/
structure Item where
  isUse : Bool
  start : Nat
  stop : Nat
deriving DecidableEq, Repr

/-- An item list: the end of its left curly bracket, its items and its own start.
As used in `crates/analyzer/src/analysis/utils.rs:1627-1644`. -/
structure ItemList where
  lCurly : Option Nat
  items : List Item
  start : Nat
deriving DecidableEq, Repr

/-- `item_insert_offset_start`, `crates/analyzer/src/analysis/utils.rs:1627-1644`. -/
def insertStart (l : ItemList) : Nat :=
  ((((l.items.filter (·.isUse)).getLast?.map (·.stop)).or l.lCurly).or
    (l.items.head?.map (·.start))).getD l.start

/-- The `struct` item in focus: its children, its name, the whitespace before it and its start.
As used in `crates/analyzer/src/analysis/extract.rs:31-94`. -/
structure Struct where
  parts : List Part
  name : Option (List Char)
  prevWs : Option (List Char)
  start : Nat
deriving DecidableEq, Repr

/-- The end of the item. As used in `crates/analyzer/src/analysis/extract.rs:31-94`. -/
def Struct.stop (s : Struct) : Nat := s.start + bytes (s.parts.flatMap Part.text)

/-- `Event::can_cast(…) || EventV2::can_cast(…)`,
`crates/analyzer/src/analysis/extract.rs:41-43`. -/
def isEvent (parts : List Part) : Bool :=
  (parts.filterMap inkOf).any fun a => a.kind == .arg .event || a.kind == .macro .event

/-- The module around the item: the whitespace before it and its item list.
As used in `crates/analyzer/src/analysis/extract.rs:69-94`. -/
structure Module where
  prevWs : Option (List Char)
  list : Option ItemList
deriving DecidableEq, Repr

/-- `Extraction`, `crates/analyzer/src/analysis/extract.rs:14-26`. There is one edit; `none` is a
panic in `format_edit`. -/
structure Extraction where
  name : List Char
  content : List Char
  edit : Option Edit
  importOffset : Nat
  importIndent : List Char
deriving DecidableEq, Repr

/-- `extract`, `crates/analyzer/src/analysis/extract.rs:29-94`. The struct in focus
(`crates/analyzer/src/analysis/extract.rs:31-40`) and the closest module around it are inputs. -/
def extract (file : List FTok) (parent : Nat → Option (Option (List Char))) (item : Option Struct)
    (module : Option Module) : Option Extraction :=
  match item.filter (fun s => isEvent s.parts) with
  | none => none
  | some s =>
    match s.name with
    | none => none
    | some name =>
      match module with
      | none => none
      | some m =>
        match m.list with
        | none => none
        | some l => some {
            name
            content := content s.parts s.prevWs
            edit := formatEdit file parent ⟨[], s.start, s.stop, none⟩
            importOffset := insertStart l
            importIndent := '\n' :: itemChildrenIndenting m.prevWs }

end Verif.Analyzer.Extract
