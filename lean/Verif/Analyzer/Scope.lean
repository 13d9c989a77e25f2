import Verif.Ir.Entities
import Verif.Analyzer.Tables

/-!
# Quantities and scopes of ink! entities

Models `crates/analyzer/src/analysis/diagnostics/common.rs:1141-1193,1782-1907`,
`crates/analyzer/src/analysis/diagnostics/contract.rs:176-242` and
`crates/analyzer/src/analysis/diagnostics/file.rs:64-98`.
Diagnostics are represented by their kind and the node or attribute they are about.
-/

namespace Verif.Analyzer

open Verif.Ir

variable {α κ : Type}

/-- `ensure_at_most_one_item`, `crates/analyzer/src/analysis/diagnostics/common.rs:1167-1193`:
the items reported. -/
def atMostOne {β : Type} (items : List β) : List β := if items.length > 1 then items.drop 1 else []

/-- Diagnostics about quantities,
`crates/analyzer/src/analysis/diagnostics/contract.rs:176-242` and
`crates/analyzer/src/analysis/diagnostics/file.rs:69-76`. -/
inductive QuantityDiag where
  | missingStorage | extraStorage (p : List Nat)
  | missingConstructor | missingMessage
  | extraContract (p : List Nat)
  deriving DecidableEq

/-- `ensure_storage_quantity` (`crates/analyzer/src/analysis/diagnostics/contract.rs:176-192`)
with `ensure_exactly_one_item`
(`crates/analyzer/src/analysis/diagnostics/common.rs:1149-1164`). -/
def storageQuantity (kind : α → AttrKind) (n : Node α κ) : List QuantityDiag :=
  if (n.entities kind (.arg .storage)).isEmpty then [.missingStorage]
  else (atMostOne (n.entities kind (.arg .storage))).map .extraStorage

/-- `ensure_contains_constructor`,
`crates/analyzer/src/analysis/diagnostics/contract.rs:199-217`. -/
def constructorQuantity (kind : α → AttrKind) (isImpl : κ → Bool) (n : Node α κ) :
    List QuantityDiag :=
  if (n.callables kind isImpl (.arg .constructor)).isEmpty then [.missingConstructor] else []

/-- `ensure_contains_message`,
`crates/analyzer/src/analysis/diagnostics/contract.rs:224-242`. -/
def messageQuantity (kind : α → AttrKind) (isImpl : κ → Bool) (n : Node α κ) :
    List QuantityDiag :=
  if (n.callables kind isImpl (.arg .message)).isEmpty then [.missingMessage] else []

/-- The three checks in the order of
`crates/analyzer/src/analysis/diagnostics/contract.rs:24-60`. -/
def contractQuantity (kind : α → AttrKind) (isImpl : κ → Bool) (n : Node α κ) :
    List QuantityDiag :=
  storageQuantity kind n ++ constructorQuantity kind isImpl n ++ messageQuantity kind isImpl n

/-- `ensure_contract_quantity`, `crates/analyzer/src/analysis/diagnostics/file.rs:64-76`. -/
def fileQuantity (kind : α → AttrKind) (n : Node α κ) : List QuantityDiag :=
  (atMostOne (n.entities kind (.macro .contract))).map .extraContract

/-- The ink! attributes of the node at a path with their paths, in source order
(`attr.siblings()` and the attribute itself, sorted by position,
`crates/analyzer/src/analysis/diagnostics/common.rs:1841-1845` with
`crates/ir/src/attrs.rs:132-139`). -/
def attrsAt (n : Node α κ) (p : List Nat) : List (List Nat × α) :=
  match n.at? p with
  | some c => (Node.inkIdx c.children 0).map fun e => (p ++ e.1, e.2)
  | none => []

/-- `is_primary_attribute`,
`crates/analyzer/src/analysis/diagnostics/common.rs:1841-1852`. Attributes do not share a
range, so comparing ranges is comparing paths. -/
def isPrimary (kind : α → AttrKind) (n : Node α κ) (p : List Nat) : Bool :=
  ((Util.sortBy (fun e => (kind e.2).rank) (attrsAt n p.dropLast)).head?).any fun e => e.1 == p

/-- `ensure_valid_quasi_direct_ink_descendants`,
`crates/analyzer/src/analysis/diagnostics/common.rs:1824-1869`: the attributes reported, with
their paths. -/
def invalidDescendants (kind : α → AttrKind) (valid : AttrKind → Bool) (n : Node α κ) :
    List (List Nat × α) :=
  (Node.closestIdx n).filter fun e =>
    !(kind e.2).isUnknown && (isPrimary kind n e.1 && !valid (kind e.2))

/-- `ensure_no_ink_descendants`,
`crates/analyzer/src/analysis/diagnostics/common.rs:1872-1907`: the attributes reported. -/
def anyDescendants (kind : α → AttrKind) (allowScaleDerive : Bool) (n : Node α κ) : List α :=
  n.inkDescendants.filter fun a =>
    !(kind a).isUnknown && (!allowScaleDerive || kind a != .macro .scaleDerive)

/-- The kinds allowed in a scope,
`crates/analyzer/src/analysis/diagnostics/common.rs:1793-1802`. -/
def allowedKinds (scope : AttrKind) (v : Version) : List AttrKind :=
  (validDescendantMacros scope v).map .macro ++ (validDescendantArgs scope v).map .arg

/-- `is_valid_quasi_direct_descendant`,
`crates/analyzer/src/analysis/diagnostics/common.rs:1811-1819`. -/
def validDescendant (scope : AttrKind) (v : Version) (k : AttrKind) : Bool :=
  (allowedKinds scope v).contains k ||
    (v == .v5 && scope == .macro .chainExtension && k == .arg .extension)

/-- `ensure_valid_quasi_direct_ink_descendants_by_kind`,
`crates/analyzer/src/analysis/diagnostics/common.rs:1782-1822`: the attributes reported. -/
def scopeCheck (kind : α → AttrKind) (scope : AttrKind) (v : Version) (n : Node α κ) : List α :=
  if (allowedKinds scope v).isEmpty ||
      !((allowedKinds scope v).any fun k => k != .macro .scaleDerive) then
    anyDescendants kind (!(allowedKinds scope v).isEmpty) n
  else (invalidDescendants kind (validDescendant scope v) n).map (·.2)

/-- The closure of the file level check,
`crates/analyzer/src/analysis/diagnostics/file.rs:86-97`. -/
def validInFile (v : Version) (k : AttrKind) : Bool :=
  match v, k with
  | .v4, .macro m =>
    [MacroKind.contract, .chainExtension, .storageItem, .traitDefinition, .test, .e2eTest].contains m
  | .v5, .macro _ => true
  | _, .arg _ => false

/-- `ensure_valid_quasi_direct_ink_descendants` of a file,
`crates/analyzer/src/analysis/diagnostics/file.rs:81-98`. -/
def fileScopeCheck (kind : α → AttrKind) (v : Version) (n : Node α κ) : List (List Nat × α) :=
  invalidDescendants kind (validInFile v) n

end Verif.Analyzer
