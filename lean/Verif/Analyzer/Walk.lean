import Verif.Analyzer.Scope

/-!
# Which rules are run on which items of a file

Models the structure of `crates/analyzer/src/analysis/diagnostics/file.rs:13-57`,
`crates/analyzer/src/analysis/diagnostics/contract.rs:27-112` and the `diagnostics` functions of the
entities they call: on which items the rules of which entity are run, and which ink! attributes are
reported as misplaced. The rules themselves are modelled elsewhere.
An item is given by its path in the file.
-/

namespace Verif.Analyzer.Walk

open Verif.Ir

variable {α κ : Type}

/-- What is asked of syntax kinds: `ast::Impl::can_cast`, `ast::Item::can_cast`,
`ast::Trait::can_cast`, `ast::AssocItemList::can_cast`, `ast::Fn::can_cast`.
As used in `crates/ir/src/tree/utils.rs:136-255`. -/
structure Shape (κ : Type) where
  isImpl : κ → Bool
  isItem : κ → Bool
  isTrait : κ → Bool
  isList : κ → Bool
  isFn : κ → Bool

/-- The node at the path is of a kind with the property (`T::can_cast(node.kind())`).
As used in `crates/ir/src/tree/ast_ext.rs:12-45`. -/
def kindAt (test : κ → Bool) (file : Node α κ) (p : List Nat) : Bool :=
  match file.at? p with
  | some (.node k _) => test k
  | _ => false

/-- `ink_closest_descendants::<T>` below the item at `p`
(`crates/ir/src/tree/utils.rs:136-144`). -/
def below (kind : α → AttrKind) (k : AttrKind) (file : Node α κ) (p : List Nat) : List (List Nat) :=
  match file.at? p with
  | some n => (n.entities kind k).map (p ++ ·)
  | none => []

/-- The closure of `ink_peekable_quasi_closest_descendants` for `peek_macro = Contract`,
`crates/ir/src/tree/utils.rs:238-252` with `crates/macro/src/entity.rs:88-100`. -/
def peekStep (kind : α → AttrKind) (k : AttrKind) (file : Node α κ) (e : List Nat × α) :
    List (List Nat) :=
  if kind e.2 == k then [e.1.dropLast]
  else if kind e.2 == .macro .contract then below kind k file e.1.dropLast
  else []

/-- The fields of `InkFile` with `peek_macro = Contract`
(`crates/ir/src/file.rs:16-27`, `crates/ir/src/tree/utils.rs:230-255`). -/
def peeked (kind : α → AttrKind) (k : AttrKind) (file : Node α κ) : List (List Nat) :=
  Util.uniqueBy id ((Node.closestIdx file).flatMap (peekStep kind k file))

/-- `ink_callable_closest_descendants` below the contract at `c`
(`crates/ir/src/contract.rs:22-27`). -/
def callablesBelow (kind : α → AttrKind) (sh : Shape κ) (k : AttrKind) (file : Node α κ)
    (c : List Nat) : List (List Nat) :=
  match file.at? c with
  | some n => (n.callables kind sh.isImpl k).map (c ++ ·)
  | none => []

/-- `closest_ancestor_ast_type::<_, ast::Item>`, `crates/ir/src/tree/ast_ext.rs:12-23`: the path of
the closest proper ancestor that is an item. The argument is the reversed path. -/
def closestItem (sh : Shape κ) (file : Node α κ) : List Nat → Option (List Nat)
  | [] => none
  | _ :: rp => if kindAt sh.isItem file rp.reverse then some rp.reverse else closestItem sh file rp

/-- `parent_ast_item` of an attribute of the node at `p`, `crates/ir/src/tree/ast_ext.rs:27-45`:
the closest item if the attribute is one of its attributes, that is, if it is the node itself. -/
def ownItem (sh : Shape κ) (file : Node α κ) (p : List Nat) : Option (List Nat) :=
  if kindAt sh.isItem file p then some p else none

/-- `parent_impl_item` of the callable at `p`, `crates/ir/src/traits/ast_type.rs:33-43`. -/
def parentImpl (sh : Shape κ) (file : Node α κ) (p : List Nat) : Option (List Nat) :=
  if kindAt sh.isFn file p then
    (closestItem sh file p.reverse).filter (kindAt sh.isImpl file)
  else none

/-- `can_cast` of an ink! impl, `crates/ir/src/ink_impl.rs:47-71`. `implements p` says that the
`impl` item at `p` implements a trait that resolves to an ink! trait definition
(`crates/ir/src/ink_impl.rs:74-83`; resolution is modelled in `Verif.Ir.Resolve`). -/
def canCastImpl (kind : α → AttrKind) (sh : Shape κ) (implements : List Nat → Bool)
    (file : Node α κ) (p : List Nat) : Bool :=
  (file.inkAttrsAt p).any (fun a => kind a == .arg .impl) ||
    (kindAt sh.isImpl file p &&
      ((match file.at? p with
        | some n => n.inkClosest.any fun a =>
            kind a == .arg .constructor || kind a == .arg .message
        | none => false) || implements p))

/-- The candidate for the closest attribute `a` at `q` (relative to the contract `c`),
`crates/ir/src/tree/utils.rs:196-215`. -/
def implStep (kind : α → AttrKind) (sh : Shape κ) (file n : Node α κ) (c : List Nat)
    (e : List Nat × α) : Option (List Nat) :=
  if n.peekable kind sh.isImpl e.1 e.2 then ownItem sh file (c ++ e.1.dropLast)
  else if kind e.2 == .arg .constructor then parentImpl sh file (c ++ e.1.dropLast)
  else if kind e.2 == .arg .message then parentImpl sh file (c ++ e.1.dropLast)
  else none

/-- The `impl` children of a node, `crates/ir/src/tree/utils.rs:191-194`. -/
def implChildren (sh : Shape κ) (n : Node α κ) (c : List Nat) : List (List Nat) :=
  ((List.range n.children.length).filter fun i => kindAt sh.isImpl n [i]).map fun i => c ++ [i]

/-- `ink_impl_closest_descendants` of the contract at `c`,
`crates/ir/src/tree/utils.rs:190-219`. -/
def implsBelow (kind : α → AttrKind) (sh : Shape κ) (implements : List Nat → Bool)
    (file : Node α κ) (c : List Nat) : List (List Nat) :=
  match file.at? c with
  | some n =>
    Util.uniqueBy id ((implChildren sh n c ++
      (Node.closestIdx n).filterMap (implStep kind sh file n c)).filter
        (canCastImpl kind sh implements file))
  | none => []

/-- The first child of the node at `p` that is an associated item list
(`trait_item.assoc_item_list()`).
As used in `crates/analyzer/src/analysis/diagnostics/common.rs:1637-1671`. -/
def assocList (sh : Shape κ) (file : Node α κ) (p : List Nat) : Option Nat :=
  match file.at? p with
  | some n => (List.range n.children.length).find? fun i => kindAt sh.isList file (p ++ [i])
  | none => none

/-- The functions of the trait at `p` (`ensure_trait_item_invariants`,
`crates/analyzer/src/analysis/diagnostics/common.rs:1637-1671`) that carry an attribute of kind `k`
(`crates/analyzer/src/analysis/diagnostics/trait_definition.rs:86-90`,
`crates/analyzer/src/analysis/diagnostics/chain_extension.rs:252-257`). -/
def members (kind : α → AttrKind) (sh : Shape κ) (k : AttrKind) (file : Node α κ) (p : List Nat) :
    List (List Nat) :=
  if kindAt sh.isTrait file p then
    match assocList sh file p with
    | some i =>
      match file.at? (p ++ [i]) with
      | some l => ((List.range l.children.length).filter fun j =>
          kindAt sh.isFn file (p ++ [i, j]) &&
            (file.inkAttrsAt (p ++ [i, j])).any fun a => kind a == k).map fun j => p ++ [i, j]
      | none => []
    | none => []
  else []

/-- The rules of an entity run on an item.
As used in `crates/analyzer/src/analysis/diagnostics/file.rs:13-57`. -/
abbrev Visit := AttrKind × List Nat

/-- `event::diagnostics`, `crates/analyzer/src/analysis/diagnostics/event.rs:19-62`: the event (of
either kind) and its topics. -/
def eventVisits (kind : α → AttrKind) (file : Node α κ) (k : AttrKind) (p : List Nat) : List Visit :=
  (k, p) :: (below kind (.arg .topic) file p).map fun q => (.arg .topic, q)

/-- `contract::diagnostics`, `crates/analyzer/src/analysis/diagnostics/contract.rs:27-112`. -/
def contractVisits (kind : α → AttrKind) (sh : Shape κ) (implements : List Nat → Bool)
    (file : Node α κ) (c : List Nat) : List Visit :=
  (.macro .contract, c) ::
    ((below kind (.arg .storage) file c).map fun p => (.arg .storage, p)) ++
    (below kind (.arg .event) file c).flatMap (eventVisits kind file (.arg .event)) ++
    ((implsBelow kind sh implements file c).map fun p => (.arg .impl, p)) ++
    ((callablesBelow kind sh (.arg .constructor) file c).map fun p => (.arg .constructor, p)) ++
    ((callablesBelow kind sh (.arg .message) file c).map fun p => (.arg .message, p)) ++
    ((below kind (.macro .test) file c).map fun p => (.macro .test, p)) ++
    ((below kind (.macro .e2eTest) file c).map fun p => (.macro .e2eTest, p))

/-- `trait_definition::diagnostics`,
`crates/analyzer/src/analysis/diagnostics/trait_definition.rs:24-60`. -/
def traitVisits (kind : α → AttrKind) (sh : Shape κ) (file : Node α κ) (p : List Nat) :
    List Visit :=
  (.macro .traitDefinition, p) ::
    ((members kind sh (.arg .message) file p).map fun q => (.arg .message, q)) ++
    ((below kind (.arg .message) file p).map fun q => (.arg .message, q))

/-- The kind of the functions of a chain extension
(`crates/analyzer/src/analysis/diagnostics/chain_extension.rs:268-274`,
`crates/analyzer/src/analysis/diagnostics/chain_extension/extension_fn.rs:56-62`). -/
def fnKind : Version → AttrKind
  | .v4 => .arg .extension
  | .v5 => .arg .function

/-- `chain_extension::diagnostics`,
`crates/analyzer/src/analysis/diagnostics/chain_extension.rs:29-78`. -/
def chainVisits (kind : α → AttrKind) (sh : Shape κ) (v : Version) (file : Node α κ)
    (p : List Nat) : List Visit :=
  (.macro .chainExtension, p) ::
    ((members kind sh (fnKind v) file p).map fun q => (fnKind v, q)) ++
    ((below kind (.arg .extension) file p).map fun q => (.arg .extension, q))

/-- `file::diagnostics`, `crates/analyzer/src/analysis/diagnostics/file.rs:13-57`. -/
def visits (kind : α → AttrKind) (sh : Shape κ) (implements : List Nat → Bool) (v : Version)
    (file : Node α κ) : List Visit :=
  (file.entities kind (.macro .contract)).flatMap (contractVisits kind sh implements file) ++
  (peeked kind (.macro .event) file).flatMap (eventVisits kind file (.macro .event)) ++
  (peeked kind (.macro .traitDefinition) file).flatMap (traitVisits kind sh file) ++
  (peeked kind (.macro .chainExtension) file).flatMap (chainVisits kind sh v file) ++
  ((peeked kind (.macro .storageItem) file).map fun p => (.macro .storageItem, p)) ++
  ((file.entities kind (.macro .test)).map fun p => (.macro .test, p)) ++
  ((file.entities kind (.macro .e2eTest)).map fun p => (.macro .e2eTest, p))

/-- `ensure_only_ink_topic_descendants`,
`crates/analyzer/src/analysis/diagnostics/event.rs:94-109`. -/
def onlyTopics (kind : α → AttrKind) (n : Node α κ) : List α :=
  n.inkDescendants.filter fun a => kind a != .arg .topic

/-- The check for misplaced attributes that each entity runs on itself:
`crates/analyzer/src/analysis/diagnostics/contract/storage.rs:35`,
`crates/analyzer/src/analysis/diagnostics/storage_item.rs:25`,
`crates/analyzer/src/analysis/diagnostics/event/topic.rs:25`,
`crates/analyzer/src/analysis/diagnostics/event.rs:52`,
`crates/analyzer/src/analysis/diagnostics/chain_extension/extension_fn.rs:56-62`,
`crates/analyzer/src/analysis/diagnostics/chain_extension.rs:482-494`,
`crates/analyzer/src/analysis/diagnostics/trait_definition.rs:208-220`,
`crates/analyzer/src/analysis/diagnostics/contract.rs:679-691`,
`crates/analyzer/src/analysis/diagnostics/contract/ink_impl.rs:933-945`,
`crates/analyzer/src/analysis/diagnostics/contract/constructor.rs:50-56`,
`crates/analyzer/src/analysis/diagnostics/message.rs:48-50`,
`crates/analyzer/src/analysis/diagnostics/ink_test.rs:29-35`,
`crates/analyzer/src/analysis/diagnostics/ink_e2e_test.rs:27-33`. -/
def check (kind : α → AttrKind) (v : Version) (k : AttrKind) (n : Node α κ) : List α :=
  match k with
  | .arg .storage | .arg .topic | .macro .storageItem => anyDescendants kind false n
  | .arg .event | .macro .event => onlyTopics kind n
  | .arg .extension | .arg .function => scopeCheck kind (fnKind v) v n
  | k => scopeCheck kind k v n

/-- The check of a visited item.
As used in `crates/analyzer/src/analysis/diagnostics/file.rs:13-57`. -/
def checkAt (kind : α → AttrKind) (v : Version) (file : Node α κ) (e : Visit) : List α :=
  match file.at? e.2 with
  | some n => check kind v e.1 n
  | none => []

/-- All attributes reported as misplaced,
`crates/analyzer/src/analysis/diagnostics/file.rs:13-57`. -/
def misplaced (kind : α → AttrKind) (sh : Shape κ) (implements : List Nat → Bool) (v : Version)
    (file : Node α κ) : List α :=
  (visits kind sh implements v file).flatMap (checkAt kind v file) ++
    (fileScopeCheck kind v file).map (·.2)

end Verif.Analyzer.Walk
