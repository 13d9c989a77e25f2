import Verif.Analyzer.Tables
import Verif.Ir.Attr
import Verif.Ir.Tree

/-!
# Inlay hints

Models `crates/analyzer/src/analysis/inlay_hints.rs`. The arguments are the ones built by
`Verif.Ir.Attr`, including the panic of `MetaNameValue::text_range`.
-/

namespace Verif.Analyzer
open Verif.Ir

/-- `InlayHint`, `crates/analyzer/src/analysis/inlay_hints.rs:9-19`. -/
structure Hint where
  label : String
  position : Nat
  range : Nat × Nat
  detail : Option String
  deriving DecidableEq

/-- `InkArg::name`, `crates/ir/src/attrs/args.rs:51-53`: only a valid name. -/
def argName (a : Arg) : Option Placed :=
  match a.item.name with
  | .ok p => some p
  | _ => none

/-- `InkArgValueKind::detail`, `crates/ir/src/attrs/args.rs:539-566`. -/
def valueDetail : ValueKind → String
  | .path .environment => "A `ink::env::Environment` implementation."
  | .path .sandbox => "A `drink::Sandbox` implementation."
  | .string .commaList => "A comma separated list."
  | .string .hex => "A 32 byte hex string."
  | .string .identifier => "A valid Rust identifier."
  | .string .spaceList => "A space separated list."
  | .string .url => "A URL."
  | .arg k true => k.name
  | .choice k₁ k₂ true => k₁.name ++ " | " ++ k₂.name
  | _ => ""

/-- `arg_value_kind`, `crates/analyzer/src/analysis/inlay_hints.rs:29-34`. -/
def hintValueKind (v : Version) (isConstructor : Bool) (k : ArgKind) : ValueKind :=
  if v = .v5 then .ofArgV5 k (some isConstructor) else .ofArg k

/-- `contains_range` in `crates/analyzer/src/analysis/inlay_hints.rs:28`; without a range the
argument's range is not computed. `none` is a panic. -/
def hintInRange (range : Option (Nat × Nat)) (a : Arg) : Option Bool :=
  match range with
  | none => some true
  | some r => a.item.textRange.map fun t => decide (r.1 ≤ t.1 ∧ t.2 ≤ r.2)

/-- Where the hint is placed, `crates/analyzer/src/analysis/inlay_hints.rs:41-48`: the range of the
name, else of the argument. `none` is a panic. -/
def hintAnchor (a : Arg) : Option (Nat × Nat) :=
  match argName a with
  | some p => some (p.start, p.stop)
  | none => a.item.textRange

/-- `process_inlay_hint`, `crates/analyzer/src/analysis/inlay_hints.rs:25-53`. `none` is a
panic. -/
def processHint (v : Version) (range : Option (Nat × Nat)) (isConstructor : Bool) (a : Arg) :
    Option (List Hint) :=
  (hintInRange range a).bind fun inside =>
    let kind := hintValueKind v isConstructor a.kind
    if inside && kind.display != "" then
      (hintAnchor a).map fun r =>
        [{ label := kind.display
           position := r.2
           range := r
           detail := if valueDetail kind != "" then some (valueDetail kind) else none }]
    else some []

/-- The `while let` loop over nested arguments,
`crates/analyzer/src/analysis/inlay_hints.rs:60-65`, started at an argument whose own hint has been
processed. -/
def nestedHints (v : Version) (range : Option (Nat × Nat)) (isConstructor : Bool) :
    Meta → Option (List Hint)
  | .mk _ _ _ none _ _ => some []
  | .mk _ _ _ (some m) _ _ =>
    (processHint v range isConstructor (Arg.ofMeta m)).bind fun hs =>
      (nestedHints v range isConstructor m).map (hs ++ ·)

/-- The body of the loop over the arguments of an attribute,
`crates/analyzer/src/analysis/inlay_hints.rs:58-66`. -/
def argHints (v : Version) (range : Option (Nat × Nat)) (isConstructor : Bool) (a : Arg) :
    Option (List Hint) :=
  (processHint v range isConstructor a).bind fun hs =>
    (nestedHints v range isConstructor a.item).map (hs ++ ·)

/-- A loop that appends to `results`, with panics.
As used in `crates/analyzer/src/analysis/inlay_hints.rs:56-67`. -/
def appendAll (f : α → Option (List β)) : List α → Option (List β)
  | [] => some []
  | x :: xs => (f x).bind fun hs => (appendAll f xs).map (hs ++ ·)

/-- The body of the loop over the attributes,
`crates/analyzer/src/analysis/inlay_hints.rs:56-67`. -/
def attrHints (v : Version) (range : Option (Nat × Nat)) (attr : InkAttr) : Option (List Hint) :=
  appendAll (argHints v range (attr.kind = .arg .constructor)) attr.args

/-- `inlay_hints`, `crates/analyzer/src/analysis/inlay_hints.rs:22-69`. -/
def inlayHints (file : Node InkAttr κ) (range : Option (Nat × Nat)) (v : Version) :
    Option (List Hint) :=
  appendAll (attrHints v range) file.inkInScope

end Verif.Analyzer
