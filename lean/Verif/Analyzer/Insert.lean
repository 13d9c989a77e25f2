import Verif.Analyzer.Remove
import Verif.Ir.Attr

/-!
# Adding an argument to an ink! attribute

Models `crates/analyzer/src/analysis/utils.rs:1006-1122,1135-1185`, the quick fixes and actions that
insert at the computed place, and `Display` of arguments (`crates/ir/src/attrs/meta.rs:226-245`).
-/

namespace Verif.Analyzer.Insert
open Verif.Ir

/-- An attribute in its file: the elements before its token tree (`#[ink` and everything in front of
it), the children of the token tree, the elements between the tree and the closing bracket, whether
there is a closing bracket, and the rest of the file (`ast::Attr` with `token_tree` and
`r_brack_token`, as read at `crates/analyzer/src/analysis/utils.rs:1018-1024`). -/
structure AttrIn where
  before : List Elem
  tree : Option (List Elem)
  gap : List Elem
  closed : Bool
  after : List Elem

/-- The closing bracket (`r_brack_token`, `crates/analyzer/src/analysis/utils.rs:1018`). -/
def AttrIn.bracket (a : AttrIn) : List Elem := if a.closed then [.tok .rBrack "]"] else []

/-- The elements of the whole file (`token_tree().syntax()` and its surroundings,
`crates/analyzer/src/analysis/utils.rs:1018-1024`). -/
def AttrIn.file (a : AttrIn) : List Elem :=
  a.before ++ ((a.tree.map Elem.tree).toList ++ (a.gap ++ (a.bracket ++ a.after)))

/-- Start of the token tree (`crates/analyzer/src/analysis/utils.rs:1019-1022`). -/
def AttrIn.treeStart (a : AttrIn) : Nat := Elem.lenList a.before

/-- Start of the closing bracket (`r_bracket.text_range().start()`,
`crates/analyzer/src/analysis/utils.rs:1120`). -/
def AttrIn.bracketStart (a : AttrIn) : Nat :=
  Elem.lenList (a.before ++ ((a.tree.map Elem.tree).toList ++ a.gap))

/-- The first child that satisfies `p`, of the children that start at `o` (`support::token`, behind
`l_paren_token` and `r_paren_token`, `crates/analyzer/src/analysis/utils.rs:1030,1037`). -/
def childAt (p : Elem → Bool) (o : Nat) : List Elem → Option Placed
  | [] => none
  | c :: cs => if p c then some ⟨c, o⟩ else childAt p (o + c.len) cs

/-- Where and with which affixes to insert (the triples of
`crates/analyzer/src/analysis/utils.rs:1009`). -/
structure Place where
  offset : Nat
  before : Option String
  after : Option String
  deriving DecidableEq

/-- `prev_token` (`crates/analyzer/src/analysis/utils.rs:1053`): tokens are never empty, so that the
tokens before `t` are those that start earlier. -/
def prevToken (file : List Leaf) (t : Placed) : Option Leaf :=
  (file.takeWhile fun l => l.start < t.start).getLast?

/-- `next_token` (`crates/analyzer/src/analysis/utils.rs:1086`). -/
def nextToken (file : List Leaf) (t : Placed) : Option Leaf :=
  (file.dropWhile fun l => l.start ≤ t.start).head?

/-- A comma unless the token is one of the given kinds
(`crates/analyzer/src/analysis/utils.rs:1054-1059,1067-1076,1087-1092,1098-1108`). -/
def commaUnless (kinds : List Ir.TokKind) (t : Leaf) : Option String :=
  if t.kind ∈ kinds then none else some ", "

/-- The insert offset in a token tree, `crates/analyzer/src/analysis/utils.rs:1027-1043`. -/
def treeOffset (o : Nat) (cs : List Elem) (primary : Bool) : Nat :=
  if primary then ((childAt Elem.isLParen o cs).map Placed.stop).getD (o + Elem.lenList cs)
  else ((childAt Elem.isRParen o cs).map Placed.start).getD (o + Elem.lenList cs)

/-- The prefix in a token tree, `crates/analyzer/src/analysis/utils.rs:1045-1081`. -/
def treePrefix (file : List Leaf) (o : Nat) (cs : List Elem) (primary : Bool) : Option String :=
  match childAt Elem.isLParen o cs with
  | some _ =>
    if primary then none
    else
      ((childAt Elem.isRParen o cs).bind fun r =>
        (prevToken file r).bind (commaUnless [.comma, .lParen])).or
      ((leavesList o cs).getLast?.bind (commaUnless [.comma, .lParen, .rParen]))
  | none => some "("

/-- The suffix in a token tree, `crates/analyzer/src/analysis/utils.rs:1083-1117`. -/
def treeSuffix (file : List Leaf) (o : Nat) (cs : List Elem) (primary : Bool) : Option String :=
  match childAt Elem.isRParen o cs with
  | some _ =>
    if primary then
      ((childAt Elem.isLParen o cs).bind fun l =>
        (nextToken file l).bind (commaUnless [.comma, .rParen])).or
      ((leavesList o cs).head?.bind (commaUnless [.comma, .lParen, .rParen]))
    else none
  | none => some ")"

/-- `ink_arg_insert_offset_and_affixes`, `crates/analyzer/src/analysis/utils.rs:1006-1122`. -/
def argPlace (a : AttrIn) (kind : Option ArgKind) : Option Place :=
  if a.closed then
    some (match a.tree with
      | some cs =>
        let primary := kind.any ArgKind.isEntityType
        { offset := treeOffset a.treeStart cs primary
          before := treePrefix (leavesList 0 a.file) a.treeStart cs primary
          after := treeSuffix (leavesList 0 a.file) a.treeStart cs primary }
      | none => ⟨a.bracketStart, some "(", some ")"⟩)
  else none

/-- The arguments of the attribute (`ink_attr.args()`, `crates/ir/src/attrs.rs:43-101`). `none` is a
panic. -/
def AttrIn.args (pe : ExprParser) (a : AttrIn) : Option (List Arg) :=
  parseInkArgs pe ⟨["ink"], a.tree.map fun cs => (.tree cs, a.treeStart)⟩

/-- The place when there is no argument, `crates/analyzer/src/analysis/utils.rs:1146-1184`. -/
def firstPlaceEmpty (a : AttrIn) : Option Place :=
  let cs := a.tree.getD []
  let l := childAt Elem.isLParen a.treeStart cs
  let r := childAt Elem.isRParen a.treeStart cs
  (l.map fun l => ⟨l.stop, none, if r.isSome then none else some ")"⟩).or
    ((r.map fun r => ⟨r.start, if l.isSome then none else some "(", none⟩).or
      (if a.closed then some ⟨a.bracketStart, some "(", some ")"⟩ else none))

/-- `first_ink_arg_insert_offset_and_affixes`, `crates/analyzer/src/analysis/utils.rs:1135-1185`. The
outer `none` is a panic. -/
def firstPlace (pe : ExprParser) (a : AttrIn) : Option (Option Place) :=
  (a.args pe).bind fun args =>
    match args with
    | arg :: _ => arg.item.textRange.map fun r => some ⟨r.1, none, some ", "⟩
    | [] => some (firstPlaceEmpty a)

/-- The insertion of `text` at a place: `format!("{}{text}{}", prefix.unwrap_or_default(),
suffix.unwrap_or_default())` at the offset (`crates/analyzer/src/analysis/actions/attr.rs:86-93`,
`crates/analyzer/src/analysis/diagnostics/common.rs:618-632,830-838`,
`crates/analyzer/src/analysis/migrate.rs:127-134`). -/
def Place.insertion (p : Place) (text : String) : Nat × String :=
  (p.offset, p.before.getD "" ++ text ++ p.after.getD "")

/-- `Display for MetaOption`, `crates/ir/src/attrs/meta/option.rs:67-79`. -/
def optText (f : α → String) : MetaOpt α → String
  | .ok a => f a
  | .err items => Elem.textList (items.map Placed.elem)
  | .none => ""

/-- `Display for MetaNameValue`, `crates/ir/src/attrs/meta.rs:226-245` (and of `InkArg`,
`crates/ir/src/attrs/args.rs:76-80`). -/
def display : Meta → String
  | .mk name eq value nested _ _ =>
    optText (fun p => p.elem.text) name ++
      (match nested with
        | some m => "(" ++ display m ++ ")"
        | none => "") ++
      (if eq.isSome then " = " else "") ++ optText MetaValue.text value

/-- The quick fix "Make … the first argument", `crates/analyzer/src/analysis/diagnostics/common.rs:809-849`:
an insertion and the deletion of a range. `attr` is what the removal reads from the attribute. The
outer `none` is a panic. -/
def makeFirst (pe : ExprParser) (a : AttrIn) (attr : Option RemAttr) (m : Meta) :
    Option (Option ((Nat × String) × (Nat × Nat))) :=
  (firstPlace pe a).bind fun place =>
    match place with
    | some p => (removalRange (leavesList 0 a.file) attr m).map fun r =>
        some (p.insertion (display m), r)
    | none => some none

/-- The arguments printed in a new attribute
(`crates/analyzer/src/analysis/diagnostics/common.rs:938-949`). -/
def printArgs (args : List Arg) : String := ", ".intercalate (args.map fun a => display a.item)

/-- The text of the attribute with the suggested macro,
`crates/analyzer/src/analysis/diagnostics/common.rs:940-948`. -/
def macroAttr (path : String) (args : List Arg) : String := "#[" ++ path ++ "(" ++ printArgs args ++ ")]"

end Verif.Analyzer.Insert
