import Verif.Analyzer.Edit
import Verif.Util.Sort

/-!
# Assembly of diagnostics and code actions

Models `crates/analyzer/src/analysis/diagnostics.rs:48-98`, `crates/analyzer/src/analysis.rs:62-80`
and `crates/analyzer/src/analysis/actions.rs:17-62,139-161`.
-/

namespace Verif.Analyzer

open Verif.Util

/-- `ActionKind`, `crates/analyzer/src/analysis/actions.rs:31-38`. -/
inductive ActionKind where
  | quickFix | refactor | migrate | extract
deriving DecidableEq, Repr

/-- `action_kind_sort_order`, `crates/analyzer/src/analysis/actions.rs:154-161`. -/
def ActionKind.order : ActionKind → Nat
  | .migrate => 0
  | .quickFix => 1
  | .refactor => 2
  | .extract => 3

/-- `Action`, `crates/analyzer/src/analysis/actions.rs:17-28`. Ranges are pairs of offsets. -/
structure Action where
  label : String
  kind : ActionKind
  range : Nat × Nat
  edits : List Edit
deriving DecidableEq, Repr

/-- `Severity`, `crates/analyzer/src/analysis/diagnostics.rs:62-68`. -/
inductive Severity where
  | error | warning
deriving DecidableEq, Repr

/-- `Diagnostic`, `crates/analyzer/src/analysis/diagnostics.rs:48-59`. -/
structure Diag where
  message : String
  range : Nat × Nat
  severity : Severity
  quickfixes : Option (List Action)
deriving DecidableEq, Repr

/-- The formatting of an action's edits,
`crates/analyzer/src/analysis/actions.rs:57-60`. -/
def Action.format (fmt : Edit → Edit) (a : Action) : Action :=
  { a with edits := a.edits.map fmt }

/-- The key of the deduplication, `crates/analyzer/src/analysis/diagnostics.rs:77-83`. -/
def Diag.key (d : Diag) : (Nat × Nat) × Severity × Option (List Edit) :=
  (d.range, d.severity, d.quickfixes.map fun fixes => fixes.flatMap (·.edits))

/-- The formatting of a diagnostic, `crates/analyzer/src/analysis/diagnostics.rs:85-96`. -/
def Diag.format (fmt : Edit → Edit) (d : Diag) : Diag :=
  { d with quickfixes := d.quickfixes.map fun fixes => fixes.map (Action.format fmt) }

/-- `diagnostics`, `crates/analyzer/src/analysis/diagnostics.rs:71-98`, from the raw
diagnostics. `fmt` is `format_edit` for the file. -/
def diagnostics (fmt : Edit → Edit) (raw : List Diag) : List Diag :=
  (uniqueBy Diag.key raw).map (Diag.format fmt)

/-- `actions::actions`, `crates/analyzer/src/analysis/actions.rs:41-62`, from the raw
actions. -/
def fileActions (fmt : Edit → Edit) (raw : List Action) : List Action :=
  (uniqueBy (·.edits) raw).map (Action.format fmt)

/-- `TextRange::contains_range` (text-size 1.1). As used in `crates/analyzer/src/analysis.rs:67`. -/
def containsRange (a b : Nat × Nat) : Bool := decide (a.1 ≤ b.1) && decide (b.2 ≤ a.2)

/-- Quickfixes for a range, `crates/analyzer/src/analysis.rs:65-72`. -/
def quickfixesFor (diags : List Diag) (range : Nat × Nat) : List Action :=
  (diags.filterMap (·.quickfixes)).flatten.filter fun a =>
    containsRange range a.range || containsRange a.range range

/-- `Analysis::actions`, `crates/analyzer/src/analysis.rs:62-80`, from the raw diagnostics of
the file and the raw actions for the range. -/
def actions (fmt : Edit → Edit) (rawDiags : List Diag) (rawActions : List Action)
    (range : Nat × Nat) : List Action :=
  sortBy (·.kind.order) (uniqueBy (·.edits)
    (quickfixesFor (diagnostics fmt rawDiags) range ++ fileActions fmt rawActions))

end Verif.Analyzer
