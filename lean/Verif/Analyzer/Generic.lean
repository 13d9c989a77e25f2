import Verif.Analyzer.Missing

/-!
# Rules for all ink! attributes of a file, and ink! attributes on the wrong items

Models `run_generic_diagnostics` and `ensure_no_unknown_ink_attributes`
(`crates/analyzer/src/analysis/diagnostics/common.rs:26-73,117-143`), the code generated for entities
(`crates/macro/src/entity.rs:174-260`), and the rules for the items of entities: `ensure_fn`,
`ensure_trait`, `ensure_pub_struct` (as far as other items go), `ensure_adt`, `ensure_impl`,
`ensure_inline_module` (as far as other items go). Messages, labels and ranges of reports are left out.
-/

namespace Verif.Analyzer.Generic

open Verif.Ir Verif.Ir.Token Verif.Analyzer.Move Verif.Analyzer.Missing

/-- `InkAttribute::cast`, for attributes. As used in `crates/ir/src/tree/utils.rs:18-21`. -/
def isInk : Option NKind → Bool
  | some (.attr (some _)) => true
  | _ => false

/-- `ast::Attr::can_cast`. As used in `crates/ir/src/tree/utils.rs:24-34`. -/
def isAttr : Option NKind → Bool
  | some (.attr _) => true
  | _ => false

/-- `ink_attrs`, `crates/ir/src/tree/utils.rs:18-21`. -/
def ownAttrs (root : Src) (p : List Nat) : List (List Nat) :=
  match root.at? p with
  | some n => ((List.range n.children.length).map fun i => p ++ [i]).filter fun q =>
      isInk (kindAt root q)
  | none => []

mutual

/-- The ink! attributes among a node and its descendants (`descendants()`), which is at `p`,
`crates/ir/src/tree/utils.rs:29-33`. -/
def attrsFrom (p : List Nat) : Src → List (List Nat)
  | .tok _ _ => []
  | .node k cs => (if isInk (some k) then [p] else []) ++ attrsFromAll p 0 cs

/-- The same for the children of the node at `p` from number `i` on,
`crates/ir/src/tree/utils.rs:29-33`. -/
def attrsFromAll (p : List Nat) (i : Nat) : List Src → List (List Nat)
  | [] => []
  | c :: cs => attrsFrom (p ++ [i]) c ++ attrsFromAll p (i + 1) cs

end

/-- The descendants of the children that are no attributes, from number `i` on,
`crates/ir/src/tree/utils.rs:27-28`. -/
def attrsBelow (p : List Nat) (i : Nat) : List Src → List (List Nat)
  | [] => []
  | c :: cs => (if isAttr c.kind? then [] else attrsFrom (p ++ [i]) c) ++ attrsBelow p (i + 1) cs

/-- `ink_attrs_in_scope`, `crates/ir/src/tree/utils.rs:55-61`. -/
def inScope (root : Src) (p : List Nat) : List (List Nat) :=
  ownAttrs root p ++
    match root.at? p with
    | some n => attrsBelow p 0 n.children
    | none => []

/-- The text range of a node.
As used in `crates/analyzer/src/analysis/diagnostics/common.rs:57`. -/
def rangeOf (root : Src) (p : List Nat) : Nat × Nat :=
  (startAt 0 root p, startAt 0 root p + bytes (((root.at? p).map Src.text).getD []))

/-- The annotated nodes in scope, `crates/analyzer/src/analysis/diagnostics/common.rs:52-57`. -/
def parents (root : Src) (p : List Nat) : List (List Nat) :=
  Util.uniqueBy (rangeOf root) ((inScope root p).map List.dropLast)

/-- An unknown attribute, `crates/analyzer/src/analysis/diagnostics/common.rs:119-123`. -/
def isUnknown : Option NKind → Bool
  | some (.attr (some (.macro .unknown))) => true
  | some (.attr (some (.arg .unknown))) => true
  | _ => false

/-- Reports of the generic rules, with what they are about. `R` are the reports of the rules that are
modelled elsewhere. As used in `crates/analyzer/src/analysis/diagnostics/common.rs:26-73`. -/
inductive Found (R : Type) where
  | unknown (attr : List Nat)
  | arg (attr : List Nat) (r : R)
  | group (node : List Nat) (r : R)
deriving DecidableEq, Repr

/-- `run_generic_diagnostics`, `crates/analyzer/src/analysis/diagnostics/common.rs:26-73`, without
`ensure_no_ink_identifiers` (`Verif.Analyzer.Reserved`). `argRule` gives the reports on the arguments of
an attribute (`validate_arg`, `Verif.Analyzer.ArgCheck`), `groupRule` those on all attributes of a node
(`ensure_no_duplicate_attributes_and_arguments`, `validate_entity_attributes`). -/
def generic (argRule : List Nat → List R) (groupRule : List (List Nat) → List R) (root : Src)
    (p : List Nat) : List (Found R) :=
  ((inScope root p).filter fun q => isUnknown (kindAt root q)).map .unknown ++
  (inScope root p).flatMap (fun q => (argRule q).map (.arg q)) ++
  (parents root p).flatMap fun q => (groupRule (ownAttrs root q)).map (.group q)

/-- `TextEdit::delete` of the range of a node: `Action::remove_attribute` and `Action::remove_item`,
`crates/analyzer/src/analysis/actions.rs:64-81`. -/
def removeNode (root : Src) (p : List Nat) : Edit :=
  ⟨[], (rangeOf root p).1, (rangeOf root p).2, none⟩

/-- The fix for an unknown attribute, `crates/analyzer/src/analysis/diagnostics/common.rs:138`. -/
def unknownFix (root : Src) (attr : List Nat) : Edit := removeNode root attr

/-- `ink_attr` of an entity with the attribute, `crates/macro/src/entity.rs:196-204` (the node is no
attribute), and `impl_attr`, `crates/ir/src/ink_impl.rs:28-32`. -/
def inkAttr (root : Src) (k : AttrKind) (p : List Nat) : Option (List Nat) :=
  (ownAttrs root p).find? fun q => kindAt root q == some (.attr (some k))

/-- The `ast` of an entity is there, `crates/macro/src/entity.rs:222`: the node is of the type that is
given in `crates/ir/src/storage.rs:10`, `crates/ir/src/event.rs:12` and so on. -/
def hasAst (test : IKind → Bool) (root : Src) (p : List Nat) : Bool :=
  match kindAt root p with
  | some (.item i) => test i
  | _ => false

/-- Reports with their fixes.
As used in `crates/analyzer/src/analysis/diagnostics/common.rs:1195-1271`. -/
structure Wrong where
  fixes : List Edit
deriving DecidableEq

/-- An entity that must be another item. Models `ensure_pub_struct` for entities that are no `struct`,
`crates/analyzer/src/analysis/diagnostics/common.rs:1236-1243`, `ensure_fn`,
`crates/analyzer/src/analysis/diagnostics/common.rs:1248-1260`, `ensure_trait`,
`crates/analyzer/src/analysis/diagnostics/common.rs:1263-1275`, `ensure_adt`,
`crates/analyzer/src/analysis/diagnostics/storage_item.rs:38-55`, and `ensure_impl`,
`crates/analyzer/src/analysis/diagnostics/contract/ink_impl.rs:86-95`. -/
def ensureItem (test : IKind → Bool) (root : Src) (k : AttrKind) (p : List Nat) : Option Wrong :=
  if hasAst test root p then none
  else some ⟨((inkAttr root k p).map (removeNode root)).toList⟩

/-- `ensure_inline_module` for contracts that are no module,
`crates/analyzer/src/analysis/diagnostics/contract.rs:149-169`. -/
def ensureModule (root : Src) (p : List Nat) : Option Wrong :=
  if hasAst (· == .module) root p then none
  else if kindAt root p == some .list then
    some ⟨((inkAttr root (.macro .contract) p).map (removeNode root)).toList⟩
  else
    some ⟨match inkAttr root (.macro .contract) p with
      | some a => [removeNode root a, removeNode root p]
      | none => [removeNode root p]⟩

/-- `ast::Fn::can_cast`. As used in `crates/ir/src/constructor.rs:11-12`. -/
def isFn (i : IKind) : Bool := i == .fn

/-- `ast::Trait::can_cast`. As used in `crates/ir/src/trait_definition.rs:12-13`. -/
def isTrait (i : IKind) : Bool := i == .trait

/-- `ast::Struct::can_cast`. As used in `crates/ir/src/storage.rs:9-10`. -/
def isStruct (i : IKind) : Bool := i == .struct

/-- `ast::Adt::can_cast`. As used in `crates/ir/src/storage_item.rs:9-10`. -/
def isAdt (i : IKind) : Bool := i == .struct || i == .enum || i == .union

/-- `ast::Impl::can_cast`. As used in `crates/ir/src/ink_impl.rs:13-14`. -/
def isImplItem : IKind → Bool
  | .impl _ => true
  | _ => false

/-- The rule for the item of an entity:
`crates/analyzer/src/analysis/diagnostics/contract.rs:30-33`,
`crates/analyzer/src/analysis/diagnostics/trait_definition.rs:34`,
`crates/analyzer/src/analysis/diagnostics/chain_extension.rs:46`,
`crates/analyzer/src/analysis/diagnostics/storage_item.rs:20`,
`crates/analyzer/src/analysis/diagnostics/event.rs:29`,
`crates/analyzer/src/analysis/diagnostics/contract/storage.rs:22`,
`crates/analyzer/src/analysis/diagnostics/contract/constructor.rs:25`,
`crates/analyzer/src/analysis/diagnostics/message.rs:25`,
`crates/analyzer/src/analysis/diagnostics/contract/ink_impl.rs:38`,
`crates/analyzer/src/analysis/diagnostics/chain_extension/extension_fn.rs:34`,
`crates/analyzer/src/analysis/diagnostics/ink_test.rs:24` and
`crates/analyzer/src/analysis/diagnostics/ink_e2e_test.rs:22`. (Topics are in `Verif.Analyzer.Event`.) -/
def wrongItem (root : Src) (k : AttrKind) (p : List Nat) : Option Wrong :=
  match k with
  | .macro .contract => ensureModule root p
  | .macro .traitDefinition => ensureItem isTrait root k p
  | .macro .chainExtension => ensureItem isTrait root k p
  | .macro .storageItem => ensureItem isAdt root k p
  | .macro .event => ensureItem isStruct root k p
  | .macro .test => ensureItem isFn root k p
  | .macro .e2eTest => ensureItem isFn root k p
  | .arg .storage => ensureItem isStruct root k p
  | .arg .event => ensureItem isStruct root k p
  | .arg .constructor => ensureItem isFn root k p
  | .arg .message => ensureItem isFn root k p
  | .arg .extension => ensureItem isFn root k p
  | .arg .function => ensureItem isFn root k p
  | .arg .impl => ensureItem isImplItem root k p
  | _ => none

/-- The entities of a file that are on the wrong items, with their fixes: the rule is run on each item
that is visited (`crates/analyzer/src/analysis/diagnostics/file.rs:13-57`, `Verif.Analyzer.Walk`). -/
def wrongItems (implements : List Nat → Bool) (v : Version) (root : Src) :
    List (AttrKind × List Nat × Wrong) :=
  (Walk.visits id shape implements v (toNode root)).filterMap fun e =>
    (wrongItem root e.1 e.2).map fun w => (e.1, e.2, w)

end Verif.Analyzer.Generic
