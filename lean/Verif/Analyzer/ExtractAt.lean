import Verif.Ir.Cover
import Verif.Ir.Kinds

/-!
# Where an event extraction is offered, and what it finds there

Models the choice of the struct and of the module in `extract`
(`crates/analyzer/src/analysis/extract.rs:29-49`) on whole syntax trees, and the two places that offer an
extraction (`crates/analyzer/src/analysis/actions/attr.rs:11-62` and
`crates/analyzer/src/analysis/actions/item.rs:17-125,521-563`). What an extraction consists of is the
subject of `Verif.Analyzer.Extract`.
-/

namespace Verif.Analyzer.ExtractAt

open Verif.Ir

/-- The node kinds that matter: structs (with or without a name), modules, item lists, other items, and
everything else. As used in `crates/analyzer/src/analysis/extract.rs:31-49`. -/
inductive Kind where
  | struct (named : Bool)
  | module
  | itemList
  | item
  | other
deriving DecidableEq, Repr

/-- A syntax tree with the kinds of its ink! attributes.
As used in `crates/analyzer/src/analysis/extract.rs:31-49`. -/
abbrev Tree := Node AttrKind Kind

/-- `ast::Item::can_cast`, as used in `crates/ir/src/tree/ast_ext.rs:31`. -/
def Kind.isItem : Kind → Bool
  | .struct _ | .module | .item => true
  | _ => false

/-- `ast::Struct::can_cast`, `crates/analyzer/src/analysis/extract.rs:32`. -/
def Kind.isStruct : Kind → Bool
  | .struct _ => true
  | _ => false

/-- Whether the element at a path is a node of a kind (not a token, not an attribute).
As used in `crates/ir/src/tree/ast_ext.rs:12-23`. -/
def kindAt (root : Tree) (f : Kind → Bool) (p : List Nat) : Bool :=
  match root.at? p with
  | some (.node k _) => f k
  | _ => false

/-- `closest_ancestor_ast_type`, `crates/ir/src/tree/ast_ext.rs:12-23`: the closest ancestor of a kind,
without the element itself. -/
def closestAbove (root : Tree) (f : Kind → Bool) (p : List Nat) : Option (List Nat) :=
  ((Node.ancestorPaths p.reverse).drop 1).find? (kindAt root f)

/-- The ranges of the attributes of a node (`item.attrs()`, `crates/ir/src/tree/ast_ext.rs:35`). -/
def attrRanges (root : Tree) (p : List Nat) : List (Option (Nat × Nat)) :=
  match root.at? p with
  | some n => ((List.range n.children.length).filter fun i => root.isAttrAt (p ++ [i])).map fun i =>
      root.rangeAt (p ++ [i]) 0
  | none => []

/-- `parent_ast_item`, `crates/ir/src/tree/ast_ext.rs:27-45`: for an attribute, only the item that has an
attribute with this range. -/
def parentItem (root : Tree) (p : List Nat) : Option (List Nat) :=
  (closestAbove root Kind.isItem p).filter fun q =>
    !root.isAttrAt p || (attrRanges root q).contains (root.rangeAt p 0)

/-- `focused_element`, `crates/analyzer/src/analysis/utils.rs:1216-1233`. The panic for an empty range
outside the file is left out (see `Verif.Ir.Node.coveringAttr`). -/
def focused (trivia : List Nat → Bool) (root : Tree) (r : Nat × Nat) : Option (List Nat) :=
  if r.1 = r.2 then Node.focusedToken trivia root r.1
  else if r.2 ≤ root.len then some (Node.coverPath r.1 r.2 root 0)
  else none

/-- The struct in focus, `crates/analyzer/src/analysis/extract.rs:31-40`. -/
def structIn (root : Tree) (p : List Nat) : Option (List Nat) :=
  if kindAt root Kind.isStruct p then some p
  else (parentItem root p).filter (kindAt root Kind.isStruct)

/-- `Event::can_cast(…) || EventV2::can_cast(…)`, `crates/analyzer/src/analysis/extract.rs:41-43`. -/
def isEvent (root : Tree) (p : List Nat) : Bool :=
  (root.inkAttrsAt p).any fun k => k == .arg .event || k == .macro .event

/-- `module_item.item_list()`, `crates/analyzer/src/analysis/extract.rs:49-51`. -/
def hasList (root : Tree) (p : List Nat) : Bool :=
  match root.at? p with
  | some n => n.children.any fun c => match c with
    | .node k _ => k == .itemList
    | _ => false
  | none => false

/-- What `extract` finds for a range: the struct and the module, or nothing if there is no extraction,
`crates/analyzer/src/analysis/extract.rs:29-51`. What follows there always succeeds. -/
def extractAt (trivia : List Nat → Bool) (root : Tree) (r : Nat × Nat) :
    Option (List Nat × List Nat) :=
  (((focused trivia root r).bind (structIn root)).filter (isEvent root)).bind fun s =>
    if kindAt root (· == .struct true) s then
      ((closestAbove root (· == .module) s).filter (hasList root)).map fun m => (s, m)
    else none

/-- The range of the extraction that is offered for an attribute,
`crates/analyzer/src/analysis/actions/attr.rs:13-62`: `closed` says which attributes have a right bracket,
`traitFn` which nodes are messages that implement a trait definition
(`is_trait_definition_impl_message`). -/
def attrOffer (trivia closed traitFn : List Nat → Bool) (version : Version) (root : Tree)
    (sel : Nat × Nat) : Option (Nat × Nat) :=
  match Node.coveringAttr trivia root sel.1 sel.2 with
  | some (some a) =>
    match (root.at? a).bind Node.ink? with
    | some k =>
      if closed a && !traitFn a.dropLast && version == .v5 &&
          (k == .macro .event || k == .arg .event) then
        (root.rangeAt a 0).map fun x => (x.1, x.1 + x.2)
      else none
    | none => none
  | _ => none

/-- The item of the actions, `crates/analyzer/src/analysis/utils.rs:1269-1282`: the focused element itself
or the item around it. -/
def itemIn (root : Tree) (p : List Nat) : Option (List Nat) :=
  if kindAt root Kind.isItem p then some p else parentItem root p

/-- The range of the extraction that is offered for a struct,
`crates/analyzer/src/analysis/actions/item.rs:17-125,521-563`: `onItem` says whether the selection is on
the declaration or in the body of an item (`crates/analyzer/src/analysis/actions/item.rs:44-47,84-88`,
modelled in `Verif.Analyzer.Offer`), `decl` is `ast_item_declaration_range`
(`crates/analyzer/src/analysis/utils.rs:1285-1397`). -/
def itemOffer (trivia : List Nat → Bool) (onItem : List Nat → Nat × Nat → Bool)
    (decl : List Nat → Option (Nat × Nat)) (version : Version) (root : Tree) (sel : Nat × Nat) :
    Option (Nat × Nat) :=
  match Node.coveringAttr trivia root sel.1 sel.2, (focused trivia root sel).bind (itemIn root) with
  | some none, some s =>
    if kindAt root Kind.isStruct s && onItem s sel then
      if ((root.inkAttrsAt s).any (· == .arg .event) && version == .v5) ||
          (!(root.inkAttrsAt s).any (· == .arg .event) &&
            (root.inkAttrsAt s).any (· == .macro .event)) then
        (decl s).or ((root.rangeAt s 0).map fun x => (x.1, x.1 + x.2))
      else none
    else none
  | _, _ => none

end Verif.Analyzer.ExtractAt
