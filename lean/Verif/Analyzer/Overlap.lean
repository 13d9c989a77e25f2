import Verif.Analyzer.Dedup
import Verif.Ir.Selector

/-!
# Selector and id checks

Models `crates/analyzer/src/analysis/diagnostics/contract.rs:244-579` and
`crates/analyzer/src/analysis/diagnostics/chain_extension.rs:152-326,385-476,496-517`.
-/

namespace Verif.Analyzer

open Verif.Ir

/-- Text ranges of arguments and values. Models `InkArg::text_range`, `MetaValue::text_range`
(modelled in detail in `Verif.Ir.Meta`) and `ink_arg_and_delimiter_removal_range`
(`crates/analyzer/src/analysis/utils.rs:1533-1624`), which here are parameters. -/
structure Ranges where
  arg : Arg → Nat × Nat
  value : MetaValue → Nat × Nat
  removal : Arg → Nat × Nat

/-- An ink! constructor or message: its attributes, name and `impl` item, and the text ranges
of its name, declaration and node
(`crates/analyzer/src/analysis/diagnostics/contract.rs:298-317`). -/
structure CallItem where
  call : Callable
  nameRange : Nat × Nat
  declRange : Option (Nat × Nat)
  nodeRange : Nat × Nat

/-- `utils::ink_args_by_kind`, `crates/ir/src/tree/utils.rs:110-113`: per attribute the first
argument of the kind. -/
def argsByKind (attrs : List InkAttr) (kind : ArgKind) : List Arg :=
  attrs.filterMap fun attr => attr.args.find? fun arg => arg.kind == kind

/-- A call of `suggest_unique_id_mut(None, ..)` with its effect on the set of unavailable ids
(`crates/analyzer/src/analysis/utils.rs:1968-1983`). -/
def takeId (max : Nat) (unavailable : List Nat) : Option Nat × List Nat :=
  match suggestIdMut max none unavailable with
  | some (i, u) => (some i, u)
  | none => (none, unavailable)

/-- The loop shared by `ensure_no_overlapping_selectors`
(`crates/analyzer/src/analysis/diagnostics/contract.rs:287-360`) and
`ensure_no_overlapping_ids_inner`
(`crates/analyzer/src/analysis/diagnostics/chain_extension.rs:420-475`): items without a key
are skipped; a key seen before yields a diagnostic, which is given the next free id. -/
def reportRepeats {α : Type} (max : Nat) (key : α → Option Nat) (diag : α → Option Nat → Diag) :
    List Nat → List Nat → List α → List Diag
  | _, _, [] => []
  | seen, unavailable, x :: xs =>
    match key x with
    | none => reportRepeats max key diag seen unavailable xs
    | some k =>
      if k ∈ seen then
        diag x (takeId max unavailable).1 ::
          reportRepeats max key diag (k :: seen) (takeId max unavailable).2 xs
      else reportRepeats max key diag (k :: seen) unavailable xs

/-- A quickfix that replaces a range by an id,
`crates/analyzer/src/analysis/diagnostics/contract.rs:333-343` and
`crates/analyzer/src/analysis/diagnostics/chain_extension.rs:452-468`. -/
def replaceIdFix (label : String) (range : Nat × Nat) (i : Nat) : Action :=
  { label, kind := .quickFix, range
    edits := [⟨i.repr.toList, range.1, range.2, some ("${1:" ++ i.repr ++ "}").toList⟩] }

/-- The rename quickfix, `crates/analyzer/src/analysis/diagnostics/contract.rs:345-356`. -/
def renameFix (name : String) (range : Nat × Nat) : Action :=
  { label := "Replace with a unique name.", kind := .quickFix, range
    edits := [⟨(name ++ "2").toList, range.1, range.2, some ("${1:" ++ name ++ "2}").toList⟩] }

/-- `composed_selector().map(into_be_u32)`,
`crates/analyzer/src/analysis/diagnostics/contract.rs:274,283,289`. -/
def selectorKey (hash : String → Vector UInt8 32) (c : CallItem) : Option Nat :=
  (compose hash c.call).map beValue

/-- `value_range_option`, `crates/analyzer/src/analysis/diagnostics/contract.rs:293-297`. -/
def selectorValueRange (r : Ranges) (c : CallItem) : Option (Nat × Nat) :=
  (c.call.selectorArg.bind SelectorArg.value).map r.value

/-- The diagnostic for an overlapping selector,
`crates/analyzer/src/analysis/diagnostics/contract.rs:318-358`. -/
def selectorDiag (r : Ranges) (what : String) (c : CallItem) (i : Option Nat) : Diag :=
  { message := "Selector" ++ (if (selectorValueRange r c).isSome then " values" else "s") ++
      " must be unique across all ink! " ++ what ++ "s in an ink! contract."
    range := (((selectorValueRange r c).or (c.call.fnName.map fun _ => c.nameRange)).or
      c.declRange).getD c.nodeRange
    severity := .error
    quickfixes := match selectorValueRange r c, i with
      | some range, some i => some [replaceIdFix "Replace with a unique selector." range i]
      | _, _ => c.call.fnName.map fun name => [renameFix name c.nameRange] }

/-- The part of `ensure_no_overlapping_selectors` for one kind of callable,
`crates/analyzer/src/analysis/diagnostics/contract.rs:286-360`. -/
def overlappingSelectors (hash : String → Vector UInt8 32) (r : Ranges) (what : String)
    (items : List CallItem) : List Diag :=
  reportRepeats maxU32 (selectorKey hash) (selectorDiag r what) []
    (items.filterMap (selectorKey hash)) items

/-- The parts of an ink! contract the checks look at.
As used in `crates/analyzer/src/analysis/diagnostics/contract.rs:244-579`. -/
structure ContractItems where
  constructors : List CallItem
  messages : List CallItem

/-- `ensure_no_overlapping_selectors`,
`crates/analyzer/src/analysis/diagnostics/contract.rs:266-361`. -/
def noOverlappingSelectors (hash : String → Vector UInt8 32) (r : Ranges) (c : ContractItems) :
    List Diag :=
  overlappingSelectors hash r "constructor" c.constructors ++
    overlappingSelectors hash r "message" c.messages

/-- Whether an argument is a wildcard selector (`SelectorArg::is_wildcard`,
`crates/analyzer/src/analysis/diagnostics/contract.rs:395`). -/
def argIsWildcard (a : Arg) : Bool :=
  match SelectorArg.cast a with
  | some s => s.isWildcard
  | none => false

/-- `get_selector_args`, `crates/analyzer/src/analysis/diagnostics/contract.rs:364-376`. -/
def selectorArgs (items : List CallItem) : List Arg :=
  items.flatMap fun c => (argsByKind c.call.attrs .selector).filter fun a =>
    (SelectorArg.cast a).isSome

/-- The diagnostic for a further wildcard,
`crates/analyzer/src/analysis/diagnostics/contract.rs:398-409`. -/
def wildcardDiag (r : Ranges) (what : String) (a : Arg) : Diag :=
  { message := "At most one wildcard (`_`) selector can be defined across all ink! " ++ what ++
      "s in an ink! contract."
    range := r.arg a
    severity := .error
    quickfixes := some [{ label := "Remove wildcard selector.", kind := .quickFix
                          range := r.removal a
                          edits := [⟨[], (r.removal a).1, (r.removal a).2, none⟩] }] }

/-- The loop of `ensure_at_most_one_wildcard_selector`,
`crates/analyzer/src/analysis/diagnostics/contract.rs:393-414`. -/
def wildcardLoop (r : Ranges) (what : String) : Bool → List Arg → List Diag
  | _, [] => []
  | seen, a :: as =>
    if argIsWildcard a then
      if seen then wildcardDiag r what a :: wildcardLoop r what seen as
      else wildcardLoop r what true as
    else wildcardLoop r what seen as

/-- `ensure_at_most_one_wildcard_selector`,
`crates/analyzer/src/analysis/diagnostics/contract.rs:388-416`. -/
def atMostOneWildcard (r : Ranges) (c : ContractItems) : List Diag :=
  wildcardLoop r "constructor" false (selectorArgs c.constructors) ++
    wildcardLoop r "message" false (selectorArgs c.messages)

/-- `has_wildcard_selector`, `crates/analyzer/src/analysis/diagnostics/contract.rs:426-431`. -/
def hasWildcard (c : CallItem) : Bool :=
  (argsByKind c.call.attrs .selector).any fun a => a.value.any MetaValue.isWildcard

/-- Whether an argument is a wildcard complement selector
(`SelectorArg::is_wildcard_complement`,
`crates/analyzer/src/analysis/diagnostics/contract.rs:437-439,498`). -/
def argIsComplement (a : Arg) : Bool :=
  match SelectorArg.cast a with
  | some s => s.isComplement
  | none => false

/-- `has_wildcard_complement_selector`,
`crates/analyzer/src/analysis/diagnostics/contract.rs:432-441`. -/
def hasComplement (c : CallItem) : Bool :=
  (argsByKind c.call.attrs .selector).any argIsComplement

/-- The diagnostics of `validate_wildcard_complement_selector`: one for a contract without
another message, and three kinds about a message
(`crates/analyzer/src/analysis/diagnostics/contract.rs:462-478,506-513,553-566,568-577`).
Simplified: the message text is represented by the constructor; texts, ranges and quickfixes are in
`Verif.Analyzer.Complement`. -/
inductive ComplementDiag where
  | noOther
  | second (m : CallItem) (sel : Arg)
  | notComplement (m : CallItem)
  | noWildcard (m : CallItem) (sel : Arg)

/-- The loop over the other messages,
`crates/analyzer/src/analysis/diagnostics/contract.rs:491-578`. -/
def complementLoop (wildcardExists : Bool) : Bool → List CallItem → List ComplementDiag
  | _, [] => []
  | seen, m :: ms =>
    match (argsByKind m.call.attrs .selector).find? argIsComplement with
    | some sel =>
      if wildcardExists then
        if seen then .second m sel :: complementLoop wildcardExists true ms
        else complementLoop wildcardExists true ms
      else .noWildcard m sel :: complementLoop wildcardExists true ms
    | none =>
      if wildcardExists then .notComplement m :: complementLoop wildcardExists seen ms
      else complementLoop wildcardExists seen ms

/-- `validate_wildcard_complement_selector`,
`crates/analyzer/src/analysis/diagnostics/contract.rs:425-579`. -/
def wildcardComplement (messages : List CallItem) : List ComplementDiag :=
  let wildcardExists := messages.any hasWildcard
  if !wildcardExists && !messages.any hasComplement then []
  else
    let others := messages.filter fun m => !hasWildcard m
    if wildcardExists && others.isEmpty then [.noOther]
    else complementLoop wildcardExists false others

/-! ## Chain extensions -/

/-- An associated function of a chain extension: its ink! attributes and the text ranges of
its attribute and node.
As used in `crates/analyzer/src/analysis/diagnostics/chain_extension.rs:388-476`. -/
structure ExtFn where
  attrs : List InkAttr
  attrRange : Option (Nat × Nat)
  nodeRange : Nat × Nat

/-- Argument kind that carries the id, `crates/ir/src/traits/shared.rs:64` (`function` in
ink! 5, `extension` in ink! 4). -/
def idArgKind : Version → ArgKind
  | .v5 => .function
  | .v4 => .extension

/-- Largest id: ids are `u16` in ink! 5 and `u32` in ink! 4
(`crates/analyzer/src/analysis/diagnostics/chain_extension.rs:395,403`). -/
def maxId : Version → Nat
  | .v5 => maxU16
  | .v4 => maxU32

/-- `IsChainExtensionFn::id`, `crates/ir/src/traits/shared.rs:67-72`. -/
def ExtFn.id (v : Version) (f : ExtFn) : Option Nat :=
  (argByKind f.attrs (idArgKind v)).bind fun a => a.value.bind fun x =>
    asInt (maxId v) x.kind x.text

/-- The diagnostic for an overlapping id,
`crates/analyzer/src/analysis/diagnostics/chain_extension.rs:424-471`. -/
def idDiag (v : Version) (r : Ranges) (f : ExtFn) (i : Option Nat) : Diag :=
  let range := ((argByKind f.attrs (idArgKind v)).bind Arg.value).map r.value
  { message := (if v = .v5 then "Function" else "Extension") ++
      " ids must be unique across all associated functions in an ink! chain extension."
    range := (range.or f.attrRange).getD f.nodeRange
    severity := .error
    quickfixes := match range, i with
      | some range, some i => some [replaceIdFix ("Replace with a unique " ++
          (if v = .v5 then "function" else "extension") ++ " id.") range i]
      | _, _ => none }

/-- `ensure_no_overlapping_ids`,
`crates/analyzer/src/analysis/diagnostics/chain_extension.rs:388-476`, from
`chain_extension.functions()` or `.extensions()`. -/
def noOverlappingIds (v : Version) (r : Ranges) (fns : List ExtFn) : List Diag :=
  reportRepeats (maxId v) (ExtFn.id v) (idDiag v r) [] (fns.filterMap (ExtFn.id v)) fns

/-- The ids suggested by `assoc_fn_validator` for the `n` associated functions that are not
ink! functions/extensions,
`crates/analyzer/src/analysis/diagnostics/chain_extension.rs:265-280`. -/
def missingIds (max : Nat) : Nat → List Nat → List Nat
  | 0, _ => []
  | n + 1, unavailable =>
    (takeId max unavailable).1.getD 1 :: missingIds max n (takeId max unavailable).2

/-- The ids suggested for functions without an id,
`crates/analyzer/src/analysis/diagnostics/chain_extension.rs:229-254`. -/
def suggestedIds (v : Version) (fns : List ExtFn) (missing : Nat) : List Nat :=
  missingIds (maxId v) missing (fns.filterMap (ExtFn.id v))

end Verif.Analyzer
