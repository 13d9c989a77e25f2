import Verif.Analyzer.Tables
import Verif.Ir.Attr
import Verif.Util.Sort

/-!
# The attributes of one item

Models the primary attribute candidate (`crates/analyzer/src/analysis/utils.rs:446-476`),
duplicate detection (`crates/analyzer/src/analysis/diagnostics/common.rs:451-494`) and
`validate_entity_attributes` (`:519-1138`).
-/

namespace Verif.Analyzer

open Verif.Ir

/-- What the checks below read of an ink! attribute (`InkAttribute`,
`crates/ir/src/attrs.rs:16-33`): its kind and the kinds of its arguments in source order. An
attribute of an item is identified by its index among the item's ink! attributes, an
argument by its attribute's index and its own (both in text order). -/
structure AttrV where
  kind : AttrKind
  args : List ArgKind
  deriving DecidableEq, Repr

/-- The view of a modelled attribute (`InkAttribute::kind`, `InkAttribute::args`,
`crates/ir/src/attrs.rs:107-114`). -/
def AttrV.ofInk (a : InkAttr) : AttrV := { kind := a.kind, args := a.args.map (·.kind) }

/-- `primary_ink_attribute_candidate`, `crates/analyzer/src/analysis/utils.rs:451-476`: the
first of the highest ranked known attributes, with its index (the flag returned by the code,
"has the range of the first attribute", is `index = 0`, since the attributes of an item do
not share a range). -/
def primaryCandidate (attrs : List AttrV) : Option (AttrV × Nat) :=
  (Util.sortBy (fun q => q.1.kind.rank)
    (attrs.zipIdx.filter fun q => !q.1.kind.isUnknown)).head?

/-- All arguments of an item with their positions, in text order (the nested iteration of
`crates/analyzer/src/analysis/diagnostics/common.rs:551-555`). -/
def argPositions (attrs : List AttrV) : List ((Nat × Nat) × ArgKind) :=
  attrs.zipIdx.flatMap fun q => q.1.args.zipIdx.map fun r => ((q.2, r.2), r.1)

/-- The `find_arg` closure, `crates/analyzer/src/analysis/diagnostics/common.rs:551-555`. -/
def findArg (attrs : List AttrV) (k : ArgKind) : Option (Nat × Nat) :=
  ((argPositions attrs).find? fun q => q.2 == k).map (·.1)

/-- Text order of two argument positions (`text_range().start()` comparison,
`crates/analyzer/src/analysis/diagnostics/common.rs:570-576`). -/
def posLt (a b : Nat × Nat) : Bool := a.1 < b.1 || (a.1 == b.1 && a.2 < b.2)

/-- The diagnostics of `validate_entity_attributes`, by the message they carry and the
attribute or argument whose range they carry.
As used in `crates/analyzer/src/analysis/diagnostics/common.rs:519-1138`. -/
inductive EntityDiag where
  /-- `anonymous` and `signature_topic`, `common.rs:566-597`. -/
  | anonymousSignature (pos : Nat × Nat)
  /-- Missing `extension`, `common.rs:603-640`. -/
  | missingExtension (attr : Nat)
  /-- Deprecated `extension` on functions, `common.rs:646-669`. -/
  | deprecatedExtension (pos : Nat × Nat)
  /-- Deprecated `additional_contracts`, `common.rs:673-701`. -/
  | deprecatedAdditional (pos : Nat × Nat)
  /-- Deprecated `keep_attr`, `common.rs:705-722`. -/
  | deprecatedKeepAttr (pos : Nat × Nat)
  /-- "should be the first ink! attribute", `common.rs:752-772`. -/
  | notFirst (attr : Nat)
  /-- "should be the first argument", `common.rs:784-853`. -/
  | argNotFirst (attr : Nat)
  /-- "An … attribute should be the first", `common.rs:857-987`. -/
  | needsPrimary (attr : Nat)
  /-- Attribute conflict, `common.rs:1030-1084`. -/
  | conflictAttr (attr : Nat)
  /-- Argument conflict, `common.rs:1087-1134`. -/
  | conflictArg (pos : Nat × Nat)
  deriving DecidableEq, Repr

/-- `anonymous` with `signature_topic`,
`crates/analyzer/src/analysis/diagnostics/common.rs:559-598`. -/
def anonymousSignature (P : AttrV) (attrs : List AttrV) : List EntityDiag :=
  if P.kind ∈ [.macro .event, .arg .event, .arg .anonymous, .arg .signatureTopic] then
    match findArg attrs .anonymous, findArg attrs .signatureTopic with
    | some a, some s => [.anonymousSignature (if posLt a s then s else a)]
    | _, _ => []
  else []

/-- `chain_extension` without `extension`,
`crates/analyzer/src/analysis/diagnostics/common.rs:603-640`. -/
def missingExtension (P : AttrV) (p : Nat) (attrs : List AttrV) : List EntityDiag :=
  if P.kind = .macro .chainExtension ∧ findArg attrs .extension = none then
    [.missingExtension p]
  else []

/-- Deprecated `extension`, `crates/analyzer/src/analysis/diagnostics/common.rs:646-669`. -/
def deprecatedExtension (inChainExt : Bool) (P : AttrV) (attrs : List AttrV) :
    List EntityDiag :=
  if P.kind = .arg .extension ∧ inChainExt = true then
    (findArg attrs .extension).toList.map .deprecatedExtension
  else []

/-- Deprecated `additional_contracts`,
`crates/analyzer/src/analysis/diagnostics/common.rs:673-701`. -/
def deprecatedAdditional (P : AttrV) (attrs : List AttrV) : List EntityDiag :=
  if P.kind ∈ [.macro .e2eTest, .arg .additionalContracts] then
    (findArg attrs .additionalContracts).toList.map .deprecatedAdditional
  else []

/-- Deprecated `keep_attr`, `crates/analyzer/src/analysis/diagnostics/common.rs:705-722`. -/
def deprecatedKeepAttr (P : AttrV) (attrs : List AttrV) : List EntityDiag :=
  if P.kind = .macro .e2eTest then
    (findArg attrs .keepAttr).toList.map .deprecatedKeepAttr
  else []

/-- The ink! 5 checks, `crates/analyzer/src/analysis/diagnostics/common.rs:550-723`, and
whether they bail. `inChainExt` is `has_chain_extension_parent` of the primary attribute. -/
def v5Checks (inChainExt : Bool) (P : AttrV) (p : Nat) (attrs : List AttrV) :
    List EntityDiag × Bool :=
  if deprecatedExtension inChainExt P attrs ≠ [] then
    (anonymousSignature P attrs ++ missingExtension P p attrs ++
      deprecatedExtension inChainExt P attrs, true)
  else if deprecatedAdditional P attrs ≠ [] ∧ P.kind = .arg .additionalContracts then
    (anonymousSignature P attrs ++ missingExtension P p attrs ++
      deprecatedAdditional P attrs, true)
  else
    (anonymousSignature P attrs ++ missingExtension P p attrs ++
      deprecatedAdditional P attrs ++ deprecatedKeepAttr P attrs, false)

/-- The version test around them, `crates/analyzer/src/analysis/diagnostics/common.rs:550`. -/
def preChecks (v : Version) (inChainExt : Bool) (P : AttrV) (p : Nat) (attrs : List AttrV) :
    List EntityDiag × Bool :=
  if v = .v5 then v5Checks inChainExt P p attrs else ([], false)

/-- The order and completeness checks,
`crates/analyzer/src/analysis/diagnostics/common.rs:752-987`. -/
def orderChecks (v : Version) (P : AttrV) (p : Nat) : List EntityDiag :=
  let sugg := primarySuggestions P.kind v
  let isNamespace := P.kind == .arg .namespace
  (if p ≠ 0 ∧ sugg = [] then [.notFirst p] else []) ++
  (if sugg = [] ∨ isNamespace = true then
    match P.kind with
    | .arg k => if P.args.head? = some k then [] else [.argNotFirst p]
    | .macro _ => []
   else []) ++
  (if sugg ≠ [] ∧ isNamespace = false then [.needsPrimary p] else [])

/-- `is_valid_sibling_attr`, `crates/analyzer/src/analysis/diagnostics/common.rs:991-1021`. -/
def isValidSiblingAttr (v : Version) (P : AttrKind) (k : AttrKind) : Bool :=
  match P, v with
  | .macro m, .v5 =>
    decide (m ∈ [.scaleDerive, .storageItem]) &&
      decide (k ∈ [.macro .scaleDerive, .macro .storageItem])
  | .macro _, .v4 => false
  | .arg _, v =>
    match k with
    | .macro _ => decide (k ∈ primarySuggestions P v)
    | .arg a => decide (a ∈ validSiblings P v)

/-- `is_already_reported_as_deprecated`,
`crates/analyzer/src/analysis/diagnostics/common.rs:727-737`. -/
def alreadyDeprecated (v : Version) (P : AttrKind) (a : ArgKind) : Bool :=
  v == .v5 && P == .macro .e2eTest && decide (a ∈ [.additionalContracts, .keepAttr])

/-- The conflicts found in one attribute,
`crates/analyzer/src/analysis/diagnostics/common.rs:989-1136`. -/
def attrConflicts (v : Version) (P : AttrV) (p : Nat) (a : AttrV) (i : Nat) : List EntityDiag :=
  if i = p ∨ (i = 0 ∧ p ≠ 0) ∨ isValidSiblingAttr v P.kind a.kind = true then
    (a.args.zipIdx.filter fun r =>
      a.kind != .arg r.1 && !decide (r.1 ∈ validSiblings P.kind v) &&
        !alreadyDeprecated v P.kind r.1).map fun r => .conflictArg (i, r.2)
  else [.conflictAttr i]

/-- `validate_entity_attributes`,
`crates/analyzer/src/analysis/diagnostics/common.rs:519-1138` (for the quickfixes see `EntityFix.lean`). -/
def validateEntity (v : Version) (inChainExt : Bool) (attrs : List AttrV) : List EntityDiag :=
  match primaryCandidate attrs with
  | none => []
  | some (P, p) =>
    let pre := preChecks v inChainExt P p attrs
    if pre.2 then pre.1
    else pre.1 ++ orderChecks v P p ++
      attrs.zipIdx.flatMap fun q => attrConflicts v P p q.1 q.2

/-- The diagnostics of `ensure_no_duplicate_attributes_and_arguments`.
As used in `crates/analyzer/src/analysis/diagnostics/common.rs:451-494`. -/
inductive DupDiag where
  | macro (attr : Nat)
  | arg (pos : Nat × Nat)
  deriving DecidableEq, Repr

/-- The argument loop of one attribute,
`crates/analyzer/src/analysis/diagnostics/common.rs:470-492`, returning the reports and the
arguments seen so far. -/
def dupArgs (i : Nat) (seen : List ArgKind) : List (ArgKind × Nat) → List DupDiag × List ArgKind
  | [] => ([], seen)
  | (k, j) :: rest =>
    let d := if k ≠ .unknown ∧ k ∈ seen then [.arg (i, j)] else []
    let r := dupArgs i (k :: seen) rest
    (d ++ r.1, r.2)

/-- The macro check of one attribute, and the macros seen so far,
`crates/analyzer/src/analysis/diagnostics/common.rs:459-468`. -/
def dupMacro (seen : List MacroKind) (i : Nat) : AttrKind → List DupDiag × List MacroKind
  | .macro k => (if k ≠ .unknown ∧ k ∈ seen then [.macro i] else [], k :: seen)
  | .arg _ => ([], seen)

/-- The attribute loop, `crates/analyzer/src/analysis/diagnostics/common.rs:458-493`. -/
def dupLoop (seenM : List MacroKind) (seenA : List ArgKind) : List (AttrV × Nat) → List DupDiag
  | [] => []
  | (a, i) :: rest =>
    let m := dupMacro seenM i a.kind
    let r := dupArgs i seenA a.args.zipIdx
    m.1 ++ r.1 ++ dupLoop m.2 r.2 rest

/-- `ensure_no_duplicate_attributes_and_arguments`,
`crates/analyzer/src/analysis/diagnostics/common.rs:451-494`. -/
def duplicates (attrs : List AttrV) : List DupDiag := dupLoop [] [] attrs.zipIdx

end Verif.Analyzer
