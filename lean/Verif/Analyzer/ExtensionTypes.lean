import Verif.Util.Sort

/-!
# Custom types of chain extension functions

Models `ensure_custom_types_impl_scale_codec_traits` and the functions below it,
`crates/analyzer/src/analysis/diagnostics/chain_extension/extension_fn.rs:65-188`.
-/

namespace Verif.Analyzer.ExtensionTypes

/-- A type (`ast::Type`): a path with its text and, if its last segment has generic arguments, those;
a type around another one (array, parentheses, pointer, reference, slice); a tuple; anything else.
Generic arguments that are not types, and missing types or paths, are `other`.
As used in `crates/analyzer/src/analysis/diagnostics/chain_extension/extension_fn.rs:131-188`. -/
inductive Ty where
  | path (text : List Char) (args : Option (List Ty))
  | wrap (t : Ty)
  | tuple (ts : List Ty)
  | other

/-- A path (`ast::Path`): its text and the generic arguments of its last segment.
As used in `crates/analyzer/src/analysis/diagnostics/chain_extension/extension_fn.rs:131-188`. -/
abbrev PathT := List Char × Option (List Ty)

mutual

/-- `extract_custom_types`,
`crates/analyzer/src/analysis/diagnostics/chain_extension/extension_fn.rs:131-155`. -/
def custom : Ty → Option (List PathT)
  | .path text args => some [(text, args)]
  | .wrap t => custom t
  | .tuple ts =>
    let types := customs ts
    if types.isEmpty then none else some types
  | .other => none

/-- `.filter_map(…extract_custom_types…).flatten()` over a list of types,
`crates/analyzer/src/analysis/diagnostics/chain_extension/extension_fn.rs:83-84,148-149,173-179`. -/
def customs : List Ty → List PathT
  | [] => []
  | t :: ts => (custom t).getD [] ++ customs ts

end

mutual

/-- The size of a type, for termination.
Only for the termination of the recursion of `crates/analyzer/src/analysis/diagnostics/chain_extension/extension_fn.rs:131-188`. -/
def Ty.size : Ty → Nat
  | .path _ none => 1
  | .path _ (some args) => 1 + sizes args
  | .wrap t => 1 + t.size
  | .tuple ts => 1 + sizes ts
  | .other => 1

/-- The size of types, for termination.
Only for the termination of the recursion of `crates/analyzer/src/analysis/diagnostics/chain_extension/extension_fn.rs:131-188`. -/
def sizes : List Ty → Nat
  | [] => 0
  | t :: ts => t.size + sizes ts

end

/-- The size of a path, for termination.
Only for the termination of the recursion of `crates/analyzer/src/analysis/diagnostics/chain_extension/extension_fn.rs:131-188`. -/
def pathSize (p : PathT) : Nat := (Ty.path p.1 p.2).size

mutual

theorem pathSize_custom (t : Ty) (p : PathT) (h : p ∈ (custom t).getD []) :
    pathSize p ≤ t.size := by
  cases t with
  | path text args =>
    simp only [custom, Option.getD_some, List.mem_singleton] at h
    subst h
    exact Nat.le_refl _
  | wrap t =>
    simp only [custom] at h
    have := pathSize_custom t p h
    simp only [Ty.size]
    omega
  | tuple ts =>
    have hm : p ∈ customs ts := by
      simp only [custom] at h
      split at h
      · simp at h
      · simpa using h
    have := pathSize_customs ts p hm
    simp only [Ty.size]
    omega
  | other => simp [custom] at h

theorem pathSize_customs (ts : List Ty) (p : PathT) (h : p ∈ customs ts) :
    pathSize p ≤ sizes ts := by
  cases ts with
  | nil => simp [customs] at h
  | cons t ts =>
    simp only [customs, List.mem_append] at h
    simp only [sizes]
    rcases h with h | h
    · have := pathSize_custom t p h
      omega
    · have := pathSize_customs ts p h
      omega

end

/-- `extract_resolvable_custom_types`,
`crates/analyzer/src/analysis/diagnostics/chain_extension/extension_fn.rs:158-188`. `resolve` is
`resolve_item` at the function. -/
def resolvable {A : Type} (resolve : List Char → Option A) (p : PathT) : Option (List A) :=
  match resolve p.1 with
  | some a => some [a]
  | none =>
    match h : p.2 with
    | none => none
    | some args =>
      some ((Util.uniqueBy (fun q : PathT => q.1) (customs args)).attach.flatMap fun q =>
        (resolvable resolve q.1).getD [])
termination_by pathSize p
decreasing_by
  have hq := pathSize_customs args q.1
    ((Util.uniqueByFrom_sublist _ _ _).mem q.2)
  obtain ⟨t, a⟩ := p
  simp only at h
  subst h
  simp only [pathSize, Ty.size] at hq ⊢
  omega

/-- The signature of a function: the types of its parameters, if it has a parameter list, and its
return type, if any.
As used in `crates/analyzer/src/analysis/diagnostics/chain_extension/extension_fn.rs:77-105`. -/
structure Sig where
  params : Option (List Ty)
  ret : Option Ty

/-- All extracted paths,
`crates/analyzer/src/analysis/diagnostics/chain_extension/extension_fn.rs:77-105`. -/
def customTypes (s : Sig) : Option (List PathT) :=
  match s.params.map customs, s.ret.bind custom with
  | some params, some rets => some (params ++ rets)
  | a, b => a.or b

/-- The custom types that are checked,
`crates/analyzer/src/analysis/diagnostics/chain_extension/extension_fn.rs:107-118`. `range` is the
text range of an item. -/
def checked {A : Type} (resolve : List Char → Option A) (range : A → Nat × Nat) (s : Sig) : List A :=
  match customTypes s with
  | none => []
  | some types =>
    Util.uniqueBy range ((Util.uniqueBy (fun q : PathT => q.1) types).flatMap fun q =>
      (resolvable resolve q).getD [])

/-- The types reported, `crates/analyzer/src/analysis/diagnostics/chain_extension/extension_fn.rs:119-126`.
`lacks` says that `ensure_impl_scale_codec_traits` (modelled in `Verif.Analyzer.Scale`) reports the
item. -/
def reported {A : Type} (resolve : List Char → Option A) (range : A → Nat × Nat) (lacks : A → Bool)
    (s : Sig) : List A :=
  (checked resolve range s).filter lacks

end Verif.Analyzer.ExtensionTypes
