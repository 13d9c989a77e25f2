import Verif.Analyzer.Move
import Verif.Analyzer.Walk
import Verif.Analyzer.Templates

/-!
# Missing parts of contracts, trait definitions and `impl` blocks

Models `ensure_storage_quantity` (as far as a missing storage goes), `ensure_contains_constructor` and
`ensure_contains_message` (`crates/analyzer/src/analysis/diagnostics/contract.rs:176-242`),
`ensure_contains_message` of trait definitions
(`crates/analyzer/src/analysis/diagnostics/trait_definition.rs:178-201`) and
`ensure_annotation_or_contains_callable`
(`crates/analyzer/src/analysis/diagnostics/contract/ink_impl.rs:282-305`), with the edits they offer
(`crates/analyzer/src/analysis/actions/entity.rs`). Messages and labels are left out.
-/

namespace Verif.Analyzer.Missing

open Verif.Ir Verif.Ir.Token Verif.Analyzer.Move

/-- A node of the tree of `Verif.Ir.Tree`, in which attributes are set apart.
As used in `crates/ir/src/tree/utils.rs:11-101`. -/
def wrap : NKind → List (Node AttrKind NKind) → Node AttrKind NKind
  | .attr a, cs => .attr a cs
  | k, cs => .node k cs

mutual

/-- The tree as `crates/ir/src/tree/utils.rs:11-101` reads it. -/
def toNode : Src → Node AttrKind NKind
  | .tok _ t => .tok (bytes t)
  | .node k cs => wrap k (toNodes cs)

/-- The same for trees in a row. As used in `crates/ir/src/tree/utils.rs:11-101`. -/
def toNodes : List Src → List (Node AttrKind NKind)
  | [] => []
  | c :: cs => toNode c :: toNodes cs

end

/-- `ast::Impl::can_cast`. As used in `crates/ir/src/tree/utils.rs:216-226`. -/
def implKind : NKind → Bool
  | .item (.impl _) => true
  | _ => false

/-- What is asked of syntax kinds. As used in `crates/ir/src/tree/utils.rs:136-255`. -/
def shape : Walk.Shape NKind where
  isImpl := implKind
  isItem k := match k with
    | .item _ => true
    | _ => false
  isTrait k := k == .item .trait
  isList k := k == .list
  isFn k := k == .item .fn

/-- The constructors or messages of the contract at `c` (`contract.constructors()`,
`contract.messages()`, `crates/ir/src/contract.rs:22-27`). -/
def callables (k : AttrKind) (root : Src) (c : List Nat) : List (List Nat) :=
  Walk.callablesBelow id shape k (toNode root) c

/-- `ink_closest_descendants` below the node at `c`, `crates/ir/src/tree/utils.rs:136-144`. -/
def below (k : AttrKind) (root : Src) (c : List Nat) : List (List Nat) :=
  Walk.below id k (toNode root) c

/-- `fn_item().name()` of the entities. `nm` gives the names of items.
As used in `crates/analyzer/src/analysis/actions/entity.rs:190-198`. -/
def fnNames (nm : List Nat → Option String) (root : Src) (ps : List (List Nat)) : List String :=
  (ps.filter fun p => kindAt root p == some (.item .fn)).filterMap nm

/-- `contract_fn_names`, `crates/analyzer/src/analysis/actions/entity.rs:190-198`. -/
def contractFnNames (nm : List Nat → Option String) (root : Src) (c : List Nat) : List String :=
  fnNames nm root (callables (.arg .constructor) root c ++ callables (.arg .message) root c)

/-- `resolve_contract_name`, `crates/analyzer/src/analysis/utils.rs:1904-1920`. -/
def contractName (nm : List Nat → Option String) (root : Src) (c : List Nat) : Option (List Char) :=
  ((((below (.arg .storage) root c).head?.filter fun p =>
    kindAt root p == some (.item .struct)).bind nm).map String.toList).or
  (if kindAt root c == some (.item .module) then (nm c).map fun n => pascalCase n.toList else none)

/-- An edit that puts the text in front of an offset of the list at `l`
(`TextEdit::replace_with_snippet` with an empty range).
As used in `crates/analyzer/src/analysis/actions/entity.rs:159-186`. -/
def putEdit (root : Src) (l : List Nat) (offset : Nat → List Src → Nat) (t : Insertion) :
    Option Edit :=
  (root.at? l).map fun n =>
    let o := offset (startAt 0 root l) n.children
    ⟨t.plain, o, o, some t.snippet⟩

/-- `add_storage`, `crates/analyzer/src/analysis/actions/entity.rs:22-45`, with
`crates/analyzer/src/analysis/text_edit/common.rs:94-119`. -/
def addStorage (nm : List Nat → Option String) (root : Src) (c : List Nat) : Option Edit :=
  (moduleList root c).bind fun l => putEdit root l insertStart
    ((storageInsertion (contractName nm root c)).withIndent
      (some (itemChildrenIndenting (wsBefore root c))))

/-- The first ink! `impl` block of the contract that is of no trait,
`crates/analyzer/src/analysis/utils.rs:1847-1853`; an ink! impl that is no `impl` block counts as one
of no trait, but then there is no block. -/
def inkImpl (implements : List Nat → Bool) (root : Src) (c : List Nat) : Option (List Nat) :=
  ((Walk.implsBelow id shape implements (toNode root) c).find? fun p =>
    kindAt root p != some (.item (.impl true))).filter fun p =>
      kindAt root p == some (.item (.impl false))

/-- The text with an `impl` block around it, `crates/analyzer/src/analysis/actions/entity.rs:167-184`
with `callable_impl_indent_and_affixes`, `crates/analyzer/src/analysis/utils.rs:1886-1898`. -/
def inImpl (indent name : List Char) (t : Insertion) : Insertion :=
  let (i, pre, post) := implAffixes indent name
  let u := t.withIndent (some i)
  ⟨pre ++ u.plain ++ post, pre ++ u.snippet ++ post⟩

/-- `add_callable_to_contract` without a range,
`crates/analyzer/src/analysis/actions/entity.rs:118-187`, with
`callable_insert_offset_indent_and_affixes`, `crates/analyzer/src/analysis/utils.rs:1832-1882`. -/
def addCallable (nm : List Nat → Option String) (implements : List Nat → Bool) (root : Src)
    (c : List Nat) (t : Insertion) : Option Edit :=
  match ((rootImpl root c).or (inkImpl implements root c)).bind fun i =>
      (listOf root i).map fun l => (i, l) with
  | some (i, l) => putEdit root l insertAssocEnd
      (t.withIndent (some (itemChildrenIndenting (wsBefore root i))))
  | none => (moduleList root c).bind fun l => (contractName nm root c).bind fun name =>
      putEdit root l insertImpl (inImpl (itemChildrenIndenting (wsBefore root c)) name t)

/-- `add_constructor_to_contract`, `crates/analyzer/src/analysis/actions/entity.rs:202-219`. -/
def addConstructor (nm : List Nat → Option String) (implements : List Nat → Bool) (root : Src)
    (c : List Nat) : Option Edit :=
  addCallable nm implements root c (constructorInsertion (contractFnNames nm root c))

/-- `add_message_to_contract`, `crates/analyzer/src/analysis/actions/entity.rs:223-240`. -/
def addMessage (nm : List Nat → Option String) (implements : List Nat → Bool) (root : Src)
    (c : List Nat) : Option Edit :=
  addCallable nm implements root c (messageInsertion (contractFnNames nm root c))

/-- A report with its fixes. As used in `crates/analyzer/src/analysis/diagnostics/common.rs:1141-1146`. -/
structure Report where
  fixes : List Edit
deriving DecidableEq

/-- `ensure_at_least_one_item`, `crates/analyzer/src/analysis/diagnostics/common.rs:1141-1146`. -/
def atLeastOne (found : List (List Nat)) (fix : Option Edit) : Option Report :=
  if found.isEmpty then some ⟨fix.toList⟩ else none

/-- The report of a missing storage, `ensure_storage_quantity`,
`crates/analyzer/src/analysis/diagnostics/contract.rs:176-192`. -/
def ensureStorage (nm : List Nat → Option String) (root : Src) (c : List Nat) : Option Report :=
  atLeastOne (below (.arg .storage) root c) (addStorage nm root c)

/-- `ensure_contains_constructor`, `crates/analyzer/src/analysis/diagnostics/contract.rs:199-217`. -/
def ensureConstructor (nm : List Nat → Option String) (implements : List Nat → Bool) (root : Src)
    (c : List Nat) : Option Report :=
  atLeastOne (callables (.arg .constructor) root c) (addConstructor nm implements root c)

/-- `ensure_contains_message`, `crates/analyzer/src/analysis/diagnostics/contract.rs:224-242`. -/
def ensureMessage (nm : List Nat → Option String) (implements : List Nat → Bool) (root : Src)
    (c : List Nat) : Option Report :=
  atLeastOne (callables (.arg .message) root c) (addMessage nm implements root c)

/-- `add_message_to_trait_def`, `crates/analyzer/src/analysis/actions/entity.rs:345-370`, with
`crates/analyzer/src/analysis/text_edit/common.rs:250-271`. -/
def addTraitMessage (nm : List Nat → Option String) (root : Src) (c : List Nat) : Option Edit :=
  if kindAt root c == some (.item .trait) then
    (listOf root c).bind fun l => putEdit root l insertAssocEnd
      ((traitMessageInsertion (fnNames nm root (below (.arg .message) root c))).withIndent
        (some (itemChildrenIndenting (wsBefore root c))))
  else none

/-- `ensure_contains_message` of a trait definition,
`crates/analyzer/src/analysis/diagnostics/trait_definition.rs:178-201`. -/
def ensureTraitMessage (nm : List Nat → Option String) (root : Src) (c : List Nat) : Option Report :=
  atLeastOne (below (.arg .message) root c) (addTraitMessage nm root c)

/-- `impl_fn_names`, `crates/analyzer/src/analysis/text_edit/common.rs:193-207`. -/
def implFnNames (nm : List Nat → Option String) (root : Src) (i : List Nat) : List String :=
  match listOf root i with
  | some l =>
    match root.at? l with
    | some n => fnNames nm root ((List.range n.children.length).map fun j => l ++ [j])
    | none => []
  | none => []

/-- `add_constructor_to_impl` and `add_message_to_impl`,
`crates/analyzer/src/analysis/actions/entity.rs:303-342`, with
`crates/analyzer/src/analysis/text_edit/common.rs:210-237`. -/
def addToImpl (nm : List Nat → Option String) (root : Src) (i : List Nat)
    (insertion : List String → Insertion) : Option Edit :=
  (listOf root i).bind fun l => putEdit root l insertAssocEnd
    ((insertion (implFnNames nm root i)).withIndent
      (some (itemChildrenIndenting (wsBefore root i))))

/-- `ensure_annotation_or_contains_callable`,
`crates/analyzer/src/analysis/diagnostics/contract/ink_impl.rs:282-305`, for the ink! impl at `i`. -/
def ensureImpl (nm : List Nat → Option String) (root : Src) (i : List Nat) : Option Report :=
  if !((toNode root).inkAttrsAt i).any (· == .arg .impl) &&
      (below (.arg .constructor) root i).isEmpty && (below (.arg .message) root i).isEmpty then
    some ⟨if implKind <$> kindAt root i == some true then
      (addToImpl nm root i constructorInsertion).toList ++
        (addToImpl nm root i messageInsertion).toList
    else []⟩
  else none

end Verif.Analyzer.Missing
