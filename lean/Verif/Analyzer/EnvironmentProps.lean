import Verif.Analyzer.Environment
import Verif.Analyzer.ExternalProps

/-!
# C92: environments and error codes are types of the crate with the trait they need

The specification uses the meaning of paths of C75 and that of traits of other crates of C89: a type
implements the trait if some `impl` names the trait and the type.
-/

namespace Verif.Analyzer.Environment

open Verif.Ir.Resolve Verif.Analyzer.External

/-! ## Specification -/

/-- Some `impl` of the file implements the trait for the item. -/
def Implements (f : File) (t : Tr) (x : List Nat × String) : Prop :=
  ∃ i ∈ f.impls, Is f.aliases f.ty t.name t.quals i.mod i.trait_ ∧
    Denotes .rust f.root i.mod i.self_ x

/-- The traits of the `impl` items are recognised rightly (see C89). -/
def Recognised (f : File) (t : Tr) (fuel : Nat) : Prop :=
  ∀ i ∈ f.impls, isTrait f t fuel i.mod i.trait_ = true ↔
    Is f.aliases f.ty t.name t.quals i.mod i.trait_

/-- The list of structs, enums and unions is that of the modules. -/
def Lists (f : File) : Prop := ∀ x, x ∈ f.adts ↔ hasItem f.root x.1 x.2 = true

/-- No two structs, enums or unions have the same name, and each `impl` uses the name of the type it is
for: no import renames it, and no path of another crate ends in it. -/
structure Plain (f : File) : Prop where
  unique : ∀ x ∈ f.adts, ∀ y ∈ f.adts, x.2 = y.2 → x = y
  named : ∀ i ∈ f.impls, ∀ y, Denotes .rust f.root i.mod i.self_ y → i.self_.segs.getLast? = some y.2
  known : ∀ i ∈ f.impls, ∀ x ∈ f.adts, i.self_.segs.getLast? = some x.2 →
    ∃ y ∈ f.adts, Denotes .rust f.root i.mod i.self_ y

/-- Structs, enums and unions stand in the file or in its modules, not in modules inside of these, and
the modules of the file have different names. -/
structure Shallow (f : File) : Prop where
  depth : ∀ x ∈ f.adts, x.1.length ≤ 1
  names : ∀ (i j : Nat) (c d : Mod), f.root.mods[i]? = some c → f.root.mods[j]? = some d → c.name = d.name → i = j

/-- `Environment` of the crate `ink_env`, also found under `ink::env`. -/
def inkEnvironment : Tr := ⟨"Environment", [["ink", "env"], ["ink_env"]]⟩

/-- `FromStatusCode` of the module `chain_extension` of that crate. -/
def inkStatusCode : Tr :=
  ⟨"FromStatusCode", [["ink", "env", "chain_extension"], ["ink_env", "chain_extension"]]⟩

/-! ## Lemmas -/

theorem findByName_some {f : File} {p : Path} {x : List Nat × String}
    (h : findByName f p = some x) : x ∈ f.adts ∧ p.segs.getLast? = some x.2 := by
  unfold findByName at h
  rw [Option.bind_eq_some_iff] at h
  obtain ⟨n, hn, hx⟩ := h
  have h2 := List.find?_some hx
  simp only [beq_iff_eq] at h2
  exact ⟨List.mem_of_find?_eq_some hx, by rw [hn, h2]⟩

theorem findByName_none {f : File} {p : Path} (h : findByName f p = none) :
    ∀ x ∈ f.adts, p.segs.getLast? ≠ some x.2 := by
  intro x hx hl
  unfold findByName at h
  rw [hl, Option.bind_some, List.find?_eq_none] at h
  exact h x hx (by simp)

theorem candidate_some {f : File} {t : Tr} {fuel : Nat} {p : Path} {x : List Nat × String}
    (h : candidate f t fuel (some p) = some x) :
    x ∈ f.adts ∧ (p.segs.getLast? = some x.2 ∨
      (∀ y ∈ f.adts, p.segs.getLast? ≠ some y.2) ∧
      ∃ i ∈ f.impls, isTrait f t fuel i.mod i.trait_ = true ∧ i.self_.segs.getLast? = some x.2) := by
  unfold candidate at h
  rw [Option.bind_some, Option.or_eq_some_iff] at h
  rcases h with h | ⟨h0, h⟩
  · exact ⟨(findByName_some h).1, .inl (findByName_some h).2⟩
  · rw [Option.bind_eq_some_iff] at h
    obtain ⟨i, hi, hx⟩ := h
    have hi' := List.mem_of_mem_head? hi
    unfold traitImpls at hi'
    rw [List.mem_filter] at hi'
    exact ⟨(findByName_some hx).1, .inr ⟨findByName_none h0, i, hi'.1, hi'.2, (findByName_some hx).2⟩⟩

/-- The path of an item of the file or of one of its modules. -/
theorem itemPath_shallow {f : File} (hl : Lists f) (hs : Shallow f) {x : List Nat × String}
    (hx : x ∈ f.adts) :
    (x.1 = [] ∧ itemPath f.root x = ⟨false, ["crate", x.2]⟩) ∨
    ∃ i c, x.1 = [i] ∧ f.root.mods[i]? = some c ∧ itemPath f.root x = ⟨false, ["crate", c.name, x.2]⟩ := by
  have hd := hs.depth x hx
  have hi := (hl x).1 hx
  obtain ⟨m, n⟩ := x
  match m, hd with
  | [], _ => exact .inl ⟨rfl, by simp [itemPath, modNames]⟩
  | [i], _ =>
    rw [hasItem_iff] at hi
    obtain ⟨k, hk, _⟩ := hi
    simp only [Mod.at?, Option.bind_eq_some_iff] at hk
    obtain ⟨c, hc, _⟩ := hk
    refine .inr ⟨i, c, rfl, hc, ?_⟩
    simp [itemPath, modNames, hc]

theorem childNamed_of {f : File} (hs : Shallow f) {i : Nat} {c : Mod} (hc : f.root.mods[i]? = some c) :
    childNamed f.root [] c.name = some [i] := by
  unfold childNamed
  rw [if_pos rfl]
  cases hf : f.root.mods.findIdx? fun d => d.name == c.name with
  | none =>
    rw [List.findIdx?_eq_none_iff] at hf
    have := hf c (List.mem_of_getElem? hc)
    simp at this
  | some j =>
    rw [List.findIdx?_eq_some_iff_getElem] at hf
    obtain ⟨hlt, hn, _⟩ := hf
    rw [hs.names j i _ c (List.getElem?_eq_getElem hlt) hc (by simpa using hn)]
    rfl

theorem itemPath_resolves {f : File} (hl : Lists f) (hs : Shallow f) {x : List Nat × String}
    (hx : x ∈ f.adts) (fuel : Nat) (r : Ref) :
    resolveItem f.root (fuel + 2) (itemPath f.root x) r = some (some x) := by
  have hi := (hl x).1 hx
  rcases itemPath_shallow hl hs hx with ⟨h0, hp⟩ | ⟨i, c, h1, hc, hp⟩
  · rw [hp, resolveItem]
    obtain ⟨m, n⟩ := x
    simp only at h0
    subst h0
    simp [resolveQualifier, firstSegment, walk, hi]
  · rw [hp, resolveItem]
    obtain ⟨m, n⟩ := x
    simp only at h1
    subst h1
    simp [resolveQualifier, firstSegment, walk, nextChild, childNamed_of hs hc, hi]

theorem itemPath_denotes {f : File} (hl : Lists f) (hs : Shallow f) {x : List Nat × String}
    (hx : x ∈ f.adts) (m : List Nat) : Denotes .rust f.root m (itemPath f.root x) x := by
  have hi := (hl x).1 hx
  rw [hasItem_iff] at hi
  obtain ⟨n, hn, hmem⟩ := hi
  rcases itemPath_shallow hl hs hx with ⟨h0, hp⟩ | ⟨i, c, h1, hc, hp⟩
  · rw [hp]
    refine .item m false ["crate"] x.2 x.1 n (.some _ _ (by simp) ?_) hn hmem
    rw [h0]
    exact .crate _ _ _ (.nil _ _)
  · rw [hp]
    refine .item m false ["crate", c.name] x.2 x.1 n (.some _ _ (by simp) ?_) hn hmem
    rw [h1]
    refine .crate _ _ _ (.cons _ _ _ _ [i] _ ?_ (.nil _ _))
    exact .child (R := .rust) _ [] f.root i c trivial rfl hc

theorem traitImplByName_none {f : File} {t : Tr} {fuel : Nat} {name : String} :
    traitImplByName f t fuel name = none ↔
      ∀ i ∈ f.impls, isTrait f t fuel i.mod i.trait_ = true → i.self_.segs.getLast? ≠ some name := by
  unfold traitImplByName traitImpls
  rw [List.find?_eq_none]
  simp [List.mem_filter]

/-- A type is reported if and only if nothing implements the trait for it. -/
theorem missingImpl_iff {f : File} {t : Tr} {fuel : Nat} (hr : Recognised f t fuel)
    (hp : Plain f) {x : List Nat × String} (hx : x ∈ f.adts) :
    missingImpl f t fuel x = [] ↔ Implements f t x := by
  have h0 : missingImpl f t fuel x = [] ↔ traitImplByName f t fuel x.2 ≠ none := by
    unfold missingImpl
    cases traitImplByName f t fuel x.2 <;> simp
  rw [h0, ne_eq, traitImplByName_none]
  constructor
  · intro h
    have : ∃ i ∈ f.impls, isTrait f t fuel i.mod i.trait_ = true ∧ i.self_.segs.getLast? = some x.2 := by
      refine Classical.byContradiction fun hn => h fun i hi ht hl => hn ⟨i, hi, ht, hl⟩
    obtain ⟨i, hi, ht, hn⟩ := this
    obtain ⟨y, hy, hden⟩ := hp.known i hi x hx hn
    have hny := hp.named i hi y hden
    rw [hn] at hny
    have hxy := hp.unique x hx y hy (Option.some.inj hny)
    rw [hxy]
    exact ⟨i, hi, (hr i hi).1 ht, hden⟩
  · rintro ⟨i, hi, ht, hden⟩ h
    exact h i hi ((hr i hi).2 ht) (hp.named i hi x hden)

theorem denotes_adts {f : File} (hl : Lists f) {R : Rules} {m : List Nat} {p : Path}
    {x : List Nat × String} (h : Denotes R f.root m p x) : x ∈ f.adts := by
  induction h with
  | item m l q name m' n hq hn hmem => exact (hl _).2 (hasItem_iff.2 ⟨n, hn, hmem⟩)
  | use m l q name m' n u p x hq hn hu hi hf hd ih => exact ih

/-! ## Theorems -/

theorem fix_aux (f : File) (hl : Lists f) (hs : Shallow f) (fuel : Nat) (p q : Path) (r : Ref)
    (h : environment f fuel p r = some [.unresolved (some q)]) :
    ∃ x ∈ f.adts, (∀ m, Denotes .rust f.root m q x) ∧
      (p.segs.getLast? = some x.2 ∨ (∀ y ∈ f.adts, p.segs.getLast? ≠ some y.2) ∧
        ∃ i ∈ f.impls, isTrait f envTrait fuel i.mod i.trait_ = true ∧
          i.self_.segs.getLast? = some x.2) ∧
      ∀ fuel' ≥ 2, environment f fuel' q r = some [] ∨
        environment f fuel' q r = some [.unimplemented x] := by
  unfold environment at h
  split at h
  · simp at h
  · rename_i hres
    simp only [Option.some.injEq] at h
    split at h
    · simp at h
    · simp only [List.cons.injEq, Report.unresolved.injEq, Option.map_eq_some_iff, and_true] at h
      obtain ⟨x, hx, rfl⟩ := h
      obtain ⟨hmem, hname⟩ := candidate_some hx
      refine ⟨x, hmem, itemPath_denotes hl hs hmem, hname, fun fuel' hf => ?_⟩
      obtain ⟨k, rfl⟩ : ∃ k, fuel' = k + 2 := ⟨fuel' - 2, by omega⟩
      unfold environment
      rw [itemPath_resolves hl hs hmem k r]
      simp only [Option.some.injEq]
      unfold missingImpl
      split <;> simp
  · rename_i x hres
    unfold missingImpl at h
    split at h <;> simp at h

/-- The path that a fix puts in place of an environment that is not found denotes, wherever it stands, a
struct, enum or union of the file, and it is found: the only report left is that the trait is missing.
The item has the name that was given, or if there is none of that name, the name of the type of an
`impl` of the trait. Missing: items in modules inside of modules (`C92_negation_nested`). -/
theorem C92_fix_partial (f : File) (hl : Lists f) (hs : Shallow f) (fuel : Nat) (p q : Path) (r : Ref)
    (h : environment f fuel p r = some [.unresolved (some q)]) :
    ∃ x ∈ f.adts, (∀ m, Denotes .rust f.root m q x) ∧
      (p.segs.getLast? = some x.2 ∨ (∀ y ∈ f.adts, p.segs.getLast? ≠ some y.2) ∧
        ∃ i ∈ f.impls, isTrait f inkEnvironment fuel i.mod i.trait_ = true ∧
          i.self_.segs.getLast? = some x.2) ∧
      ∀ fuel' ≥ 2, environment f fuel' q r = some [] ∨
        environment f fuel' q r = some [.unimplemented x] :=
  fix_aux f hl hs fuel p q r h

theorem code_fix_aux (f : File) (hl : Lists f) (hs : Shallow f) (fuel : Nat) (p q : Path)
    (r : Ref) (paths : List Path) (us : List (Option Path))
    (h : errorCode f fuel p r paths = some ([.unresolved (some q)], us)) :
    ∃ x ∈ f.adts, (∀ m, Denotes .rust f.root m q x) ∧
      (p.segs.getLast? = some x.2 ∨ (∀ y ∈ f.adts, p.segs.getLast? ≠ some y.2) ∧
        ∃ i ∈ f.impls, isTrait f codeTrait fuel i.mod i.trait_ = true ∧
          i.self_.segs.getLast? = some x.2) ∧
      ∀ fuel' ≥ 2, (errorCode f fuel' q r paths).map Prod.fst = some [] ∨
        (errorCode f fuel' q r paths).map Prod.fst = some [.unimplemented x] := by
  unfold errorCode at h
  split at h
  · simp at h
  · rename_i found hres
    simp only [Option.some.injEq, Prod.mk.injEq] at h
    obtain ⟨h, _⟩ := h
    cases found with
    | none =>
      simp only [List.cons.injEq, Report.unresolved.injEq, Option.map_eq_some_iff, and_true] at h
      obtain ⟨x, hx, rfl⟩ := h
      obtain ⟨hmem, hname⟩ := candidate_some hx
      refine ⟨x, hmem, itemPath_denotes hl hs hmem, hname, fun fuel' hf => ?_⟩
      obtain ⟨k, rfl⟩ : ∃ k, fuel' = k + 2 := ⟨fuel' - 2, by omega⟩
      unfold errorCode
      rw [itemPath_resolves hl hs hmem k r]
      simp only [Option.map_some, Option.some.injEq]
      unfold missingImpl
      split <;> simp
    | some x =>
      simp only [] at h
      unfold missingImpl at h
      split at h <;> simp at h

/-- The same for the error code of a chain extension. -/
theorem C92_code_fix_partial (f : File) (hl : Lists f) (hs : Shallow f) (fuel : Nat) (p q : Path)
    (r : Ref) (paths : List Path) (us : List (Option Path))
    (h : errorCode f fuel p r paths = some ([.unresolved (some q)], us)) :
    ∃ x ∈ f.adts, (∀ m, Denotes .rust f.root m q x) ∧
      (p.segs.getLast? = some x.2 ∨ (∀ y ∈ f.adts, p.segs.getLast? ≠ some y.2) ∧
        ∃ i ∈ f.impls, isTrait f inkStatusCode fuel i.mod i.trait_ = true ∧
          i.self_.segs.getLast? = some x.2) ∧
      ∀ fuel' ≥ 2, (errorCode f fuel' q r paths).map Prod.fst = some [] ∨
        (errorCode f fuel' q r paths).map Prod.fst = some [.unimplemented x] :=
  code_fix_aux f hl hs fuel p q r paths us h

/-- An environment that is not found is reported with a fix if a struct, enum or union anywhere in the
file has its name. -/
theorem C92_offered (f : File) (fuel : Nat) (p : Path) (r : Ref) (x : List Nat × String)
    (hx : x ∈ f.adts) (hn : p.segs.getLast? = some x.2) :
    environment f fuel p r ≠ some [.unresolved none] := by
  intro h
  unfold environment at h
  split at h
  · simp at h
  · simp only [Option.some.injEq] at h
    split at h
    · simp at h
    · simp only [List.cons.injEq, Report.unresolved.injEq, Option.map_eq_none_iff, and_true] at h
      unfold candidate at h
      rw [Option.or_eq_none_iff, Option.bind_some] at h
      exact findByName_none h.1 x hx hn
  · unfold missingImpl at h
    split at h <;> simp at h

theorem accepted_aux (f : File) (hl : Lists f) (hU : Unambiguous f.root) (hp : Plain f)
    (fuel : Nat) (hr : Recognised f envTrait fuel) (p : Path) (m : List Nat)
    (hlead : p.leading = false ∨ 2 ≤ p.segs.length)
    (hone : ∀ x y, Denotes .code f.root m p x → Denotes .code f.root m p y → x = y)
    (out : List Report) (h : environment f fuel p ⟨m, none⟩ = some out) :
    out = [] ↔ (∃ x, Denotes .code f.root m p x ∧ Implements f envTrait x) ∨
      ((∀ x, ¬ Denotes .code f.root m p x) ∧
        isTrait f ⟨"DefaultEnvironment", [["ink", "env"], ["ink_env"]]⟩ fuel m p = true) := by
  unfold environment at h
  split at h
  · simp at h
  · rename_i hres
    have hnone : ∀ x, ¬ Denotes .code f.root m p x := fun x hx =>
      C75_complete_partial f.root hU fuel p m x hlead hx hres
    simp only [Option.some.injEq] at h
    rw [← h]
    constructor
    · intro hq
      refine .inr ⟨hnone, ?_⟩
      split at hq
      · assumption
      · simp at hq
    · rintro (⟨x, hx, _⟩ | ⟨_, hd⟩)
      · exact absurd hx (hnone x)
      · split
        · rfl
        · rename_i hc
          exact absurd hd hc
  · rename_i x hres
    have hx := resolveItem_sound f.root fuel p m x hlead hres
    simp only [Option.some.injEq] at h
    rw [← h, missingImpl_iff hr hp (denotes_adts hl hx)]
    constructor
    · exact fun hi => .inl ⟨x, hx, hi⟩
    · rintro (⟨y, hy, hi⟩ | ⟨hno, _⟩)
      · rw [hone x y hx hy]
        exact hi
      · exact absurd hx (hno x)

/-- An environment is accepted if and only if it is a struct, enum or union of the crate that implements
`ink::env::Environment`, or nothing of the crate and recognised as the default environment of ink!. For
references without a use scope of their own, and paths that denote at most one item; what a path denotes
is by the steps that resolution follows. Missing: the rest of the language (see C75); types of the same
name and renamed types (`C92_negation_same_name`, `C92_negation_renamed`). -/
theorem C92_accepted_partial (f : File) (hl : Lists f) (hU : Unambiguous f.root) (hp : Plain f)
    (fuel : Nat) (hr : Recognised f inkEnvironment fuel) (p : Path) (m : List Nat)
    (hlead : p.leading = false ∨ 2 ≤ p.segs.length)
    (hone : ∀ x y, Denotes .code f.root m p x → Denotes .code f.root m p y → x = y)
    (out : List Report) (h : environment f fuel p ⟨m, none⟩ = some out) :
    out = [] ↔ (∃ x, Denotes .code f.root m p x ∧ Implements f inkEnvironment x) ∨
      ((∀ x, ¬ Denotes .code f.root m p x) ∧
        isTrait f ⟨"DefaultEnvironment", [["ink", "env"], ["ink_env"]]⟩ fuel m p = true) :=
  accepted_aux f hl hU hp fuel hr p m hlead hone out h

theorem code_accepted_aux (f : File) (hl : Lists f) (hU : Unambiguous f.root) (hp : Plain f)
    (fuel : Nat) (hr : Recognised f codeTrait fuel) (p : Path) (m : List Nat)
    (hlead : p.leading = false ∨ 2 ≤ p.segs.length)
    (hone : ∀ x y, Denotes .code f.root m p x → Denotes .code f.root m p y → x = y)
    (paths : List Path) (out : List Report × List (Option Path))
    (h : errorCode f fuel p ⟨m, none⟩ paths = some out) :
    out.1 = [] ↔ ∃ x, Denotes .code f.root m p x ∧ Implements f codeTrait x := by
  unfold errorCode at h
  split at h
  · simp at h
  · rename_i found hres
    simp only [Option.some.injEq] at h
    rw [← h]
    cases found with
    | none =>
      simp only [reduceCtorEq, false_iff]
      rintro ⟨x, hx, _⟩
      exact C75_complete_partial f.root hU fuel p m x hlead hx hres
    | some x =>
      have hx := resolveItem_sound f.root fuel p m x hlead hres
      simp only []
      rw [missingImpl_iff hr hp (denotes_adts hl hx)]
      constructor
      · exact fun hi => ⟨x, hx, hi⟩
      · rintro ⟨y, hy, hi⟩
        rw [hone x y hx hy]
        exact hi

/-- The same for the error code of a chain extension: there is no default. -/
theorem C92_code_accepted_partial (f : File) (hl : Lists f) (hU : Unambiguous f.root) (hp : Plain f)
    (fuel : Nat) (hr : Recognised f inkStatusCode fuel) (p : Path) (m : List Nat)
    (hlead : p.leading = false ∨ 2 ≤ p.segs.length)
    (hone : ∀ x y, Denotes .code f.root m p x → Denotes .code f.root m p y → x = y)
    (paths : List Path) (out : List Report × List (Option Path))
    (h : errorCode f fuel p ⟨m, none⟩ paths = some out) :
    out.1 = [] ↔ ∃ x, Denotes .code f.root m p x ∧ Implements f inkStatusCode x :=
  code_accepted_aux f hl hU hp fuel hr p m hlead hone paths out h

theorem added_aux (f : File) (t : Tr) (ht : t = envTrait ∨ t = codeTrait) (fuel : Nat)
    (x : List Nat × String) (l1 l2 : List Imp) :
    missingImpl { f with impls := l1 ++ addedImpl t x :: l2 } t (fuel + 1) x = [] ∧
    (∀ n, f.root.at? x.1 = some n → x.2 ∈ n.items →
      Denotes .rust f.root (addedImpl t x).mod (addedImpl t x).self_ x) ∧
    Is f.aliases f.ty t.name t.quals (addedImpl t x).mod (addedImpl t x).trait_ := by
  obtain ⟨q, hq, hq0, hqe⟩ : ∃ q ∈ t.quals, q ≠ [] ∧ (addedImpl t x).trait_ = ⟨false, q ++ [t.name]⟩ := by
    rcases ht with rfl | rfl
    · exact ⟨["ink", "env"], by decide, by decide, rfl⟩
    · exact ⟨["ink", "env", "chain_extension"], by decide, by decide, rfl⟩
  refine ⟨?_, ?_, ?_⟩
  · unfold missingImpl
    cases hn : traitImplByName { f with impls := l1 ++ addedImpl t x :: l2 } t (fuel + 1) x.2 with
    | some i => simp
    | none =>
      rw [traitImplByName_none] at hn
      refine absurd ?_ (hn (addedImpl t x) (by simp) ?_)
      · rfl
      · unfold isTrait
        rw [hqe, C89_direct _ _ _ _ q hq hq0]
        rfl
  · intro n hn hmem
    exact .item x.1 false [] x.2 x.1 n (.none rfl) hn hmem
  · rw [hqe]
    have hd : isDirect t.name ⟨false, q ++ [t.name]⟩ t.quals = true := by
      unfold isDirect
      simp only [List.getLast?_concat, beq_self_eq_true, Bool.true_and, List.any_eq_true]
      exact ⟨q, hq, hasQualifier_iff.2 ⟨hq0, by simp, by simp⟩⟩
    obtain ⟨q', hq', hrf⟩ := isDirect_refers (root := f.aliases) (m := (addedImpl t x).mod) hd
    exact .imports _ _ q' hq' hrf

/-- Adding the `impl` that the fix writes, wherever it lands among the others, answers the report; it
names the trait by its full path and the type by the name it has in its module. -/
theorem C92_added (f : File) (t : Tr) (ht : t = inkEnvironment ∨ t = inkStatusCode) (fuel : Nat)
    (x : List Nat × String) (l1 l2 : List Imp) :
    missingImpl { f with impls := l1 ++ addedImpl t x :: l2 } t (fuel + 1) x = [] ∧
    (∀ n, f.root.at? x.1 = some n → x.2 ∈ n.items →
      Denotes .rust f.root (addedImpl t x).mod (addedImpl t x).self_ x) ∧
    Is f.aliases f.ty t.name t.quals (addedImpl t x).mod (addedImpl t x).trait_ :=
  added_aux f t ht fuel x l1 l2

/-- Each use of `Self::ErrorCode` is reported, nothing else is, and what replaces it denotes the type of
the error code wherever it stands. Missing: types in modules inside of modules
(`C92_negation_nested`). -/
theorem C92_uses_partial (f : File) (hl : Lists f) (hs : Shallow f) (fuel : Nat) (p : Path) (r : Ref)
    (paths : List Path) (out : List Report × List (Option Path))
    (h : errorCode f fuel p r paths = some out) :
    out.2.length = paths.count ⟨false, ["Self", "ErrorCode"]⟩ ∧
    ∀ q, some q ∈ out.2 → ∃ x, resolveItem f.root fuel p r = some (some x) ∧
      (∀ m, Denotes .rust f.root m q x) ∧
      ∀ r' fuel', 2 ≤ fuel' → resolveItem f.root fuel' q r' = some (some x) := by
  unfold errorCode at h
  split at h
  · simp at h
  · rename_i found hres
    simp only [Option.some.injEq] at h
    rw [← h]
    refine ⟨by simp [List.count_eq_length_filter], fun q hq => ?_⟩
    simp only [List.mem_map] at hq
    obtain ⟨_, _, hq⟩ := hq
    rw [Option.map_eq_some_iff] at hq
    obtain ⟨x, rfl, rfl⟩ := hq
    have hx : x ∈ f.adts := (hl x).2 (C26_found f.root fuel p r x.1 x.2 hres)
    refine ⟨x, hres, itemPath_denotes hl hs hx, fun r' fuel' hf => ?_⟩
    obtain ⟨k, rfl⟩ : ∃ k, fuel' = k + 2 := ⟨fuel' - 2, by omega⟩
    exact itemPath_resolves hl hs hx k r'

/-! ### Negations -/

/-- `mod a { mod b { pub struct E; } }`, with an environment `E` on an item of the file. -/
def nestedFile : File :=
  ⟨.mk "" [] [] [.mk "a" [] [] [.mk "b" ["E"] [] []]], [([0, 0], "E")], [], .mk "" [] [] [],
    fun _ _ => none⟩

/-- The fix for `E` in `mod a { mod b { struct E; } }` writes the modules in the wrong order:
`crate::b::a::E` instead of `crate::a::b::E`; it denotes nothing, and is reported again with the same
fix. -/
theorem C92_negation_nested :
    environment nestedFile 9 ⟨false, ["E"]⟩ ⟨[], none⟩ =
      some [.unresolved (some ⟨false, ["crate", "b", "a", "E"]⟩)] ∧
    environment nestedFile 9 ⟨false, ["crate", "b", "a", "E"]⟩ ⟨[], none⟩ =
      some [.unresolved (some ⟨false, ["crate", "b", "a", "E"]⟩)] ∧
    (∀ m x, ¬ Denotes .rust nestedFile.root m ⟨false, ["crate", "b", "a", "E"]⟩ x) ∧
    ∀ m, Denotes .rust nestedFile.root m ⟨false, ["crate", "a", "b", "E"]⟩ ([0, 0], "E") := by
  refine ⟨by decide, by decide, ?_, fun m => ?_⟩
  · have hq : ∀ m m', ¬ Qualifies .rust nestedFile.root m false ["crate", "b", "a"] m' := by
      intro m m' h
      cases h with
      | some _ _ _ hl =>
        have hw := leads_crate hl
        generalize hss : ["b", "a"] = ss at hw
        generalize (⟨false, "crate" :: ss⟩ : Path) = full at hw
        generalize hm : ([] : List Nat) = m0 at hw
        cases hw with
        | nil => simp at hss
        | cons _ _ s ss m1 _ h1 h2 =>
          simp only [List.cons.injEq] at hss
          obtain ⟨rfl, rfl⟩ := hss
          subst hm
          generalize hb : "b" = b at h1
          cases h1 with
          | child _ _ n i c _ hn hc =>
            simp only [Mod.at?, Option.some.injEq] at hn
            subst hn
            match i with
            | 0 =>
              simp only [nestedFile, Mod.mods, List.getElem?_cons_zero, Option.some.injEq] at hc
              subst hc
              simp [Mod.name] at hb
            | i + 1 => simp [nestedFile, Mod.mods] at hc
          | use _ _ n u _ _ _ hn hu =>
            simp only [Mod.at?, Option.some.injEq] at hn
            subst hn
            simp [nestedFile, Mod.uses] at hu
        | super => simp at hss
    intro m x h
    generalize hp : (⟨false, ["crate", "b", "a", "E"]⟩ : Path) = p at h
    cases h with
    | item _ l q name m' n hqual =>
      simp only [Path.mk.injEq] at hp
      obtain ⟨rfl, hp⟩ := hp
      have := List.append_inj' (s₁ := ["crate", "b", "a"]) (t₁ := ["E"]) hp rfl
      rw [← this.1] at hqual
      exact hq _ _ hqual
    | use _ l q name m' n u p x hqual =>
      simp only [Path.mk.injEq] at hp
      obtain ⟨rfl, hp⟩ := hp
      have := List.append_inj' (s₁ := ["crate", "b", "a"]) (t₁ := ["E"]) hp rfl
      rw [← this.1] at hqual
      exact hq _ _ hqual
  · refine .item m false ["crate", "a", "b"] "E" [0, 0] (.mk "b" ["E"] [] []) ?_ rfl (by decide)
    refine .some _ _ (by decide) (.crate _ _ _ (.cons _ _ _ _ [0] _ ?_ (.cons _ _ _ _ [0, 0] _ ?_
      (.nil _ _))))
    · exact .child (R := .rust) _ [] nestedFile.root 0 (.mk "a" [] [] [.mk "b" ["E"] [] []]) trivial rfl rfl
    · exact .child (R := .rust) _ [0] (.mk "a" [] [] [.mk "b" ["E"] [] []]) 0 (.mk "b" ["E"] [] []) trivial
        rfl rfl

/-- `struct Env; mod other { struct Env; impl ink::env::Environment for Env { .. } }`. -/
def sameNameFile : File :=
  ⟨.mk "" ["Env"] [] [.mk "other" ["Env"] [] []], [([], "Env"), ([0], "Env")],
    [⟨[0], ⟨false, ["ink", "env", "Environment"]⟩, ⟨false, ["Env"]⟩⟩], .mk "" [] [] [],
    fun _ _ => none⟩

/-- An `impl` for another type of the same name hides that the environment does not implement the
trait. -/
theorem C92_negation_same_name :
    environment sameNameFile 9 ⟨false, ["Env"]⟩ ⟨[], none⟩ = some [] ∧
    resolveItem sameNameFile.root 9 ⟨false, ["Env"]⟩ ⟨[], none⟩ = some (some ([], "Env")) ∧
    ¬ Implements sameNameFile envTrait ([], "Env") := by
  refine ⟨by decide, by decide, ?_⟩
  rintro ⟨i, hi, _, hd⟩
  simp only [sameNameFile, List.mem_singleton] at hi
  subst hi
  simp only [] at hd
  generalize hp : (⟨false, ["Env"]⟩ : Path) = p at hd
  generalize hx : (([], "Env") : List Nat × String) = x at hd
  cases hd with
  | item _ l q name m' n hqual =>
    simp only [Path.mk.injEq] at hp
    obtain ⟨rfl, hp⟩ := hp
    have := List.append_inj' (s₁ := []) (t₁ := ["Env"]) hp rfl
    rw [← this.1] at hqual
    cases hqual with
    | none => simp at hx
    | global h => simp at h
    | some _ _ h => exact h rfl
  | use _ l q name m' n u p x hqual hn hu =>
    simp only [Path.mk.injEq] at hp
    obtain ⟨rfl, hp⟩ := hp
    have := List.append_inj' (s₁ := []) (t₁ := ["Env"]) hp rfl
    rw [← this.1] at hqual
    cases hqual with
    | none =>
      simp only [Mod.at?, sameNameFile, Mod.mods, List.getElem?_cons_zero, Option.bind_some,
        Option.some.injEq] at hn
      subst hn
      simp [Mod.uses] at hu
    | global h => simp at h
    | some _ _ h => exact h rfl

/-- `use crate::Env as E; struct Env; impl ink::env::Environment for E { .. }`. -/
def renamedFile : File :=
  ⟨.mk "" ["Env"] [⟨⟨false, ["crate", "Env"]⟩, some "E"⟩] [], [([], "Env")],
    [⟨[], ⟨false, ["ink", "env", "Environment"]⟩, ⟨false, ["E"]⟩⟩], .mk "" [] [] [],
    fun _ _ => none⟩

/-- An environment that implements the trait by an `impl` for another name of the type is reported. -/
theorem C92_negation_renamed :
    environment renamedFile 9 ⟨false, ["Env"]⟩ ⟨[], none⟩ = some [.unimplemented ([], "Env")] ∧
    Implements renamedFile envTrait ([], "Env") := by
  refine ⟨by decide, _, List.mem_singleton.2 rfl, ?_, ?_⟩
  · exact (C92_added renamedFile envTrait (.inl rfl) 0 ([], "Env") [] []).2.2
  · refine .use [] false [] "E" [] renamedFile.root ⟨⟨false, ["crate", "Env"]⟩, some "E"⟩
      ⟨false, ["crate", "Env"]⟩ ([], "Env") (.none rfl) rfl (by decide) (.alias_ rfl) trivial ?_
    exact .item [] false ["crate"] "Env" [] renamedFile.root
      (.some _ _ (by decide) (.crate _ _ _ (.nil _ _))) rfl (by decide)

/-- `struct Env; impl ink::env::Environment for dep::Env0 { .. } impl ink::env::Environment for Env { .. }`. -/
def secondFile : File :=
  ⟨.mk "" ["Env"] [] [], [([], "Env")],
    [⟨[], ⟨false, ["ink", "env", "Environment"]⟩, ⟨false, ["dep", "Env0"]⟩⟩,
      ⟨[], ⟨false, ["ink", "env", "Environment"]⟩, ⟨false, ["Env"]⟩⟩], .mk "" [] [] [],
    fun _ _ => none⟩

/-- Only the first `impl` of the trait is considered for a fix: if it is not for a type of the file, no
fix is offered although the file has an environment. -/
theorem C92_negation_second :
    environment secondFile 9 ⟨false, ["Missing"]⟩ ⟨[], none⟩ = some [.unresolved none] ∧
    Implements secondFile envTrait ([], "Env") := by
  refine ⟨by decide, _, .tail _ (List.mem_singleton.2 rfl), ?_, ?_⟩
  · exact (C92_added secondFile envTrait (.inl rfl) 0 ([], "Env") [] []).2.2
  · exact .item [] false [] "Env" [] secondFile.root (.none rfl) rfl (by decide)

/-! ### Non-vacuity: a contract whose module holds its environment -/

/-- `mod c { struct Env; impl ink::env::Environment for Env { .. } }`. -/
def sampleFile : File :=
  ⟨.mk "" [] [] [.mk "c" ["Env"] [] []], [([0], "Env")],
    [⟨[0], ⟨false, ["ink", "env", "Environment"]⟩, ⟨false, ["Env"]⟩⟩], .mk "" [] [] [],
    fun _ _ => none⟩

theorem sample_at {m : List Nat} {n : Mod} (h : sampleFile.root.at? m = some n) :
    (m = [] ∧ n = sampleFile.root) ∨ (m = [0] ∧ n = .mk "c" ["Env"] [] []) := by
  match m with
  | [] => exact .inl ⟨rfl, (Option.some.inj h).symm⟩
  | [0] => exact .inr ⟨rfl, (Option.some.inj h).symm⟩
  | 0 :: i :: p => simp [sampleFile, Mod.at?, Mod.mods] at h
  | (i + 1) :: p => simp [sampleFile, Mod.at?, Mod.mods] at h

theorem sample_lists : Lists sampleFile := by
  intro x
  rw [hasItem_iff]
  constructor
  · intro h
    simp only [sampleFile, List.mem_singleton] at h
    subst h
    exact ⟨.mk "c" ["Env"] [] [], rfl, by decide⟩
  · rintro ⟨n, hn, hm⟩
    obtain ⟨p, s⟩ := x
    rcases sample_at hn with ⟨rfl, rfl⟩ | ⟨rfl, rfl⟩
    · simp [sampleFile, Mod.items] at hm
    · simp only [Mod.items, List.mem_singleton] at hm
      subst hm
      decide

theorem sample_shallow : Shallow sampleFile := by
  refine ⟨by decide, ?_⟩
  intro i j c d hi hj _
  have h1 := (List.getElem?_eq_some_iff.1 hi).1
  have h2 := (List.getElem?_eq_some_iff.1 hj).1
  simp only [sampleFile, Mod.mods, List.length_singleton] at h1 h2
  omega

theorem sample_uses {m : List Nat} {n : Mod} (h : sampleFile.root.at? m = some n) : n.uses = [] := by
  rcases sample_at h with ⟨rfl, rfl⟩ | ⟨rfl, rfl⟩ <;> rfl

theorem sample_named {full : Path} {m m' : List Nat} {s : String}
    (h : Named .rust sampleFile.root full m s m') : m = [] ∧ m' = [0] := by
  cases h with
  | child _ _ n i c _ hn hc =>
    rcases sample_at hn with ⟨rfl, rfl⟩ | ⟨rfl, rfl⟩
    · have h1 := (List.getElem?_eq_some_iff.1 hc).1
      simp only [sampleFile, Mod.mods, List.length_singleton] at h1
      have : i = 0 := by omega
      subst this
      exact ⟨rfl, rfl⟩
    · simp [Mod.mods] at hc
  | use _ _ n u _ _ _ hn hu =>
    rw [sample_uses hn] at hu
    simp at hu

theorem sample_unambiguous : Unambiguous sampleFile.root := by
  refine ⟨fun full m s m1 m2 h1 h2 => ?_, fun m n hn u1 hu1 => ?_⟩
  · rw [(sample_named h1).2, (sample_named h2).2]
  · rw [sample_uses hn] at hu1
    simp at hu1

theorem sample_denotes : Denotes .rust sampleFile.root [0] ⟨false, ["Env"]⟩ ([0], "Env") :=
  .item [0] false [] "Env" [0] (.mk "c" ["Env"] [] []) (.none rfl) rfl (by decide)

theorem sample_plain : Plain sampleFile := by
  refine ⟨by decide, fun i hi y hy => ?_, fun i hi x hx _ => ?_⟩
  · have := denotes_adts sample_lists hy
    simp only [sampleFile, List.mem_singleton] at this hi
    subst this hi
    rfl
  · simp only [sampleFile, List.mem_singleton] at hi hx
    subst hi hx
    exact ⟨_, List.mem_singleton.2 rfl, sample_denotes⟩

theorem sample_recognised (fuel : Nat) : Recognised sampleFile envTrait (fuel + 1) := by
  intro i hi
  simp only [sampleFile, List.mem_singleton] at hi
  subst hi
  constructor
  · exact fun _ => (C92_added sampleFile envTrait (.inl rfl) 0 ([0], "Env") [] []).2.2
  · intro _
    unfold isTrait
    have := C89_direct sampleFile.aliases sampleFile.ty envTrait.name envTrait.quals ["ink", "env"]
      (by decide) (by decide) false [0] fuel
    exact beq_iff_eq.2 this

/-- The environment in the module of the contract is accepted from there, reported from the file, and the
fix there is accepted. -/
example : environment sampleFile 9 ⟨false, ["Env"]⟩ ⟨[0], none⟩ = some [] ∧
    environment sampleFile 9 ⟨false, ["Env"]⟩ ⟨[], none⟩ =
      some [.unresolved (some ⟨false, ["crate", "c", "Env"]⟩)] ∧
    environment sampleFile 9 ⟨false, ["crate", "c", "Env"]⟩ ⟨[], none⟩ = some [] ∧
    Lists sampleFile ∧ Shallow sampleFile ∧ Unambiguous sampleFile.root ∧ Plain sampleFile ∧
    Recognised sampleFile envTrait 9 :=
  ⟨by decide, by decide, by decide, sample_lists, sample_shallow, sample_unambiguous, sample_plain,
    sample_recognised 8⟩

example : ∀ x y, Denotes .code sampleFile.root [0] ⟨false, ["Env"]⟩ x →
    Denotes .code sampleFile.root [0] ⟨false, ["Env"]⟩ y → x = y := by
  intro x y hx hy
  have h1 := denotes_adts sample_lists hx
  have h2 := denotes_adts sample_lists hy
  simp only [sampleFile, List.mem_singleton] at h1 h2
  rw [h1, h2]

/-- The default environment is accepted, and a chain extension that uses `Self::ErrorCode`. -/
example : environment sampleFile 9 ⟨false, ["ink", "env", "DefaultEnvironment"]⟩ ⟨[0], none⟩ = some [] ∧
    errorCode sampleFile 9 ⟨false, ["Env"]⟩ ⟨[0], none⟩
      [⟨false, ["Self", "ErrorCode"]⟩, ⟨false, ["Self"]⟩] =
      some ([.unimplemented ([0], "Env")], [some ⟨false, ["crate", "c", "Env"]⟩]) ∧
    errorCode sampleFile 9 ⟨false, ["Env"]⟩ ⟨[], none⟩ [] =
      some ([.unresolved (some ⟨false, ["crate", "c", "Env"]⟩)], []) := by
  decide

end Verif.Analyzer.Environment
