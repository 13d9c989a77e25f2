import Verif.Analyzer.Missing
import Verif.Analyzer.Offer

/-!
# What the actions that add ink! entities insert

Models the edits of `crates/analyzer/src/analysis/actions/entity.rs:22-71,118-187,268-491` with their
texts (`crates/analyzer/src/analysis/text_edit/common.rs`). Which of the actions are offered, and for
which range, is modelled in `Verif.Analyzer.Offer`; labels and the ranges shown are left out.
-/

namespace Verif.Analyzer.EntityActions

open Verif.Ir Verif.Ir.Token Verif.Analyzer.Move Verif.Analyzer.Missing

/-- What is added to an item: constructors and messages to an `impl` block, `traitMessage` to a trait
definition, error codes and extensions to a chain extension, the others to a module.
As used in `crates/analyzer/src/analysis/actions/entity.rs:22-71,301-491`. -/
inductive Entity where
  | storage | event | constructor | message | traitMessage | errorCode
  | extension (v : Version) | test | e2eTest (v : Version)
deriving DecidableEq, Repr

/-- The kinds of items the functions can be called for: `contract.module()`, `trait_item()`, and the
types `ast::Module` and `ast::Impl` of their arguments.
As used in `crates/analyzer/src/analysis/actions/entity.rs:22-71,301-491`. -/
def Entity.host : Entity → IKind → Bool
  | .storage, k | .event, k | .test, k | .e2eTest _, k => k == .module
  | .constructor, k | .message, k => k.isImpl
  | .traitMessage, k | .errorCode, k | .extension _, k => k == .trait

/-- Where the entity goes if no range is given.
As used in `crates/analyzer/src/analysis/actions/entity.rs:29-36,55-62,310-317,333-340,359-366,385-392,412-419,447-454,473-480`. -/
def Entity.offset : Entity → Nat → List Src → Nat
  | .storage => insertStart
  | .event => insertAfterStruct
  | .errorCode => Offer.insertAssocStart
  | .test | .e2eTest _ => insertEnd
  | .constructor | .message | .traitMessage | .extension _ => insertAssocEnd

/-- The names of the items of a kind in the list of an item (`mod_item_names!`,
`crates/analyzer/src/analysis/text_edit/common.rs:61-73`). -/
def itemNames (k : IKind) (nm : List Nat → Option String) (root : Src) (c : List Nat) : List String :=
  match listOf root c with
  | some l =>
    match root.at? l with
    | some n => (((List.range n.children.length).map fun j => l ++ [j]).filter fun p =>
        kindAt root p == some (.item k)).filterMap nm
    | none => []
  | none => []

/-- `add_extension`, `crates/analyzer/src/analysis/text_edit/common.rs:304-341`, for the names of the
functions and the ids of the extensions. -/
def extensionText (v : Version) (names : List String) (ids : List Nat) : Insertion :=
  extensionTexts v (suggestName (match v with | .v5 => "my_function" | .v4 => "my_extension") names).toList
    ((suggestId 4294967295 none ids).getD 1)

/-- The text and snippet, `crates/analyzer/src/analysis/text_edit/common.rs:94-134,193-237,250-271,292-347,439-478`,
not indented. `nm` gives the names of items, `ids` the ids of extensions (`Extension::id`). -/
def Entity.insertion (nm : List Nat → Option String) (ids : List Nat → Option Nat) (root : Src)
    (c : List Nat) : Entity → Insertion
  | .storage => storageInsertion (contractName nm root c)
  | .event => eventInsertion (itemNames .struct nm root c)
  | .constructor => constructorInsertion (implFnNames nm root c)
  | .message => messageInsertion (implFnNames nm root c)
  | .traitMessage => traitMessageInsertion (fnNames nm root (below (.arg .message) root c))
  | .errorCode => errorCodeInsertion
  | .extension v =>
    let es := below (.arg .extension) root c
    extensionText v (fnNames nm root es) (es.filterMap ids)
  | .test => testInsertion (itemNames .fn nm root c)
  | .e2eTest v => e2eTestInsertion v (itemNames .fn nm root c)

/-- The indent: for events only if it is not empty.
As used in `crates/analyzer/src/analysis/text_edit/common.rs:94-134,193-237,250-271,292-347,439-478`. -/
def Entity.indent (root : Src) (c : List Nat) (en : Entity) : Option (List Char) :=
  let i := itemChildrenIndenting (wsBefore root c)
  if en = .event ∧ i.isEmpty then none else some i

/-- The edit for a range, or else at an offset of the list of the item at `c`, if it has one.
As used in `crates/analyzer/src/analysis/actions/entity.rs:29-42,55-68,278-296,310-318,333-341,359-368,385-398,412-438,447-463,473-489`. -/
def editAt (root : Src) (c : List Nat) (range : Option (Nat × Nat))
    (offset : Nat → List Src → Nat) (t : Insertion) : Option Edit :=
  match range with
  | some r => some ⟨t.plain, r.1, r.2, some t.snippet⟩
  | none => (listOf root c).bind fun l => putEdit root l offset t

/-- `add_storage`, `add_event_v1`, `add_constructor_to_impl`, `add_message_to_impl`,
`add_message_to_trait_def`, `add_error_code`, `add_extension`, `add_ink_test`, `add_ink_e2e_test`,
`crates/analyzer/src/analysis/actions/entity.rs:22-71,301-491`, for the item at `c`. -/
def add (nm : List Nat → Option String) (ids : List Nat → Option Nat) (root : Src) (c : List Nat)
    (range : Option (Nat × Nat)) (en : Entity) : Option Edit :=
  match kindAt root c with
  | some (.item k) =>
    if en.host k then
      editAt root c range en.offset ((en.insertion nm ids root c).withIndent (en.indent root c))
    else none
  | _ => none

/-- `add_callable_to_contract`, `crates/analyzer/src/analysis/actions/entity.rs:118-187`, with
`add_callable_to_impl`, lines 268-298. `around` gives the `impl` block around a range that is inside of
the contract (`parent_ast_item` and the two steps behind it). -/
def addCallableAt (nm : List Nat → Option String) (implements : List Nat → Bool)
    (around : Nat × Nat → Option (List Nat)) (root : Src) (c : List Nat)
    (range : Option (Nat × Nat)) (t : Insertion) : Option Edit :=
  match range.bind around with
  | some i => editAt root i range insertAssocEnd
      (t.withIndent (some (itemChildrenIndenting (wsBefore root i))))
  | none =>
    match range, (if kindAt root c == some (.item .module) then contractName nm root c else none) with
    | some r, some name =>
      let u := inImpl (itemChildrenIndenting (wsBefore root c)) name t
      some ⟨u.plain, r.1, r.2, some u.snippet⟩
    | _, _ => addCallable nm implements root c t

/-- `add_constructor_to_contract`, `crates/analyzer/src/analysis/actions/entity.rs:202-219`. -/
def addConstructorAt (nm : List Nat → Option String) (implements : List Nat → Bool)
    (around : Nat × Nat → Option (List Nat)) (root : Src) (c : List Nat)
    (range : Option (Nat × Nat)) : Option Edit :=
  addCallableAt nm implements around root c range (constructorInsertion (contractFnNames nm root c))

/-- `add_message_to_contract`, `crates/analyzer/src/analysis/actions/entity.rs:223-240`. -/
def addMessageAt (nm : List Nat → Option String) (implements : List Nat → Bool)
    (around : Nat × Nat → Option (List Nat)) (root : Src) (c : List Nat)
    (range : Option (Nat × Nat)) : Option Edit :=
  addCallableAt nm implements around root c range (messageInsertion (contractFnNames nm root c))

/-- `add_topic`, `crates/analyzer/src/analysis/actions/entity.rs:85-113`, with its text edit,
`crates/analyzer/src/analysis/text_edit/common.rs:154-192`, at a range: `ws` is the white space before the
`struct`, `names` are the names of its fields (if they have names). There are no affixes then. Without a
range: `Offer.topicEdit`. -/
def addTopicAt (names : List String) (ws : Option (List Char)) (r : Nat × Nat) : Edit :=
  let t := (topicInsertion names).withIndent (some (itemChildrenIndenting ws))
  ⟨t.plain, r.1, r.2, some t.snippet⟩

end Verif.Analyzer.EntityActions
