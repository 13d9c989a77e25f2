import Verif.Analyzer.Remove
import Verif.Ir.Attr

/-!
# The namespace of an ink! impl of a trait

Models the rule of `crates/analyzer/src/analysis/diagnostics/contract/ink_impl.rs:165-184`, whose fix
removes an argument (`Verif/Analyzer/Remove.lean`).
-/

namespace Verif.Analyzer.RemoveRead
open Verif.Ir

/-- `ink_arg_by_kind`, `crates/ir/src/tree/utils.rs:116-118`, for the attributes of an item, in order, with
what the removal reads from them. -/
def argByKind (k : ArgKind) (attrs : List (InkAttr × RemAttr)) : Option (Arg × RemAttr) :=
  attrs.findSome? fun a => (a.1.args.find? fun x => x.kind == k).map fun x => (x, a.2)

/-- The rule for namespaces of `ensure_impl_invariants`,
`crates/analyzer/src/analysis/diagnostics/contract/ink_impl.rs:165-184`: the range reported and the range
deleted by the fix. `file` are the tokens of the file, `hasTrait` whether the `impl` block has a trait. The
attribute of the argument is the one in which it was found. The outer `none` is a panic. -/
def implNamespace (file : List Leaf) (hasTrait : Bool) (attrs : List (InkAttr × RemAttr)) :
    Option (Option ((Nat × Nat) × (Nat × Nat))) :=
  if hasTrait then
    match argByKind .namespace attrs with
    | none => some none
    | some (a, at_) => (removalRange file (some at_) a.item).bind fun r =>
      a.item.textRange.map fun own => some (own, r)
  else some none

end Verif.Analyzer.RemoveRead
