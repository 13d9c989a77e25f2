import Verif.Analyzer.Entity

/-!
# Lemmas about the primary attribute and about the entity checks
-/

namespace Verif.Analyzer

open Verif.Ir

theorem zipIdx_filter_pairwise (l : List α) (n : Nat) (f : α × Nat → Bool) :
    ((l.zipIdx n).filter f).Pairwise (fun a b => a.2 < b.2) := by
  apply List.Pairwise.filter
  induction l generalizing n with
  | nil => exact List.Pairwise.nil
  | cons x xs ih =>
    rw [List.zipIdx_cons, List.pairwise_cons]
    refine ⟨?_, ih _⟩
    intro q hq
    have := List.le_snd_of_mem_zipIdx hq
    show n < q.2
    omega

theorem mem_zipIdx (l : List α) (a : α) (i : Nat) :
    (a, i) ∈ l.zipIdx ↔ l[i]? = some a := by
  rw [List.mem_zipIdx_iff_getElem?]

theorem primaryCandidate_some (attrs : List AttrV) (P : AttrV) (p : Nat)
    (h : primaryCandidate attrs = some (P, p)) :
    attrs[p]? = some P ∧ P.kind.isUnknown = false ∧
    (∀ i a, attrs[i]? = some a → a.kind.isUnknown = false → i < p → P.kind.rank < a.kind.rank) ∧
    (∀ i a, attrs[i]? = some a → a.kind.isUnknown = false → p < i →
      P.kind.rank ≤ a.kind.rank) := by
  unfold primaryCandidate at h
  obtain ⟨A, B, hl, hA, hB⟩ := Util.sortBy_head _ _ _ h
  have hpw := zipIdx_filter_pairwise attrs 0 (fun q => !q.1.kind.isUnknown)
  rw [hl, List.pairwise_append, List.pairwise_cons] at hpw
  have hm : ∀ i a, attrs[i]? = some a → a.kind.isUnknown = false →
      (a, i) ∈ A ++ (P, p) :: B := by
    intro i a ha hu
    rw [← hl, List.mem_filter]
    exact ⟨(mem_zipIdx _ _ _).2 ha, by simp [hu]⟩
  have hP : (P, p) ∈ attrs.zipIdx.filter (fun q => !q.1.kind.isUnknown) := by rw [hl]; simp
  rw [List.mem_filter] at hP
  refine ⟨(mem_zipIdx _ _ _).1 hP.1, by simpa using hP.2, ?_, ?_⟩
  · intro i a ha hu hlt
    rcases List.mem_append.1 (hm i a ha hu) with h1 | h1
    · exact hA _ h1
    · rcases List.mem_cons.1 h1 with h1 | h1
      · have := (Prod.ext_iff.1 h1).2
        simp at this
        omega
      · have := hpw.2.1.1 _ h1
        simp at this
        omega
  · intro i a ha hu hlt
    rcases List.mem_append.1 (hm i a ha hu) with h1 | h1
    · have := hA _ h1
      exact Nat.le_of_lt this
    · rcases List.mem_cons.1 h1 with h1 | h1
      · have := (Prod.ext_iff.1 h1).1
        simp at this
        rw [this]
        exact Nat.le_refl _
      · exact hB _ h1

theorem primaryCandidate_none (attrs : List AttrV) (h : primaryCandidate attrs = none) :
    ∀ (i : Nat) (a : AttrV), attrs[i]? = some a → a.kind.isUnknown = true := by
  intro i a ha
  refine Classical.byContradiction fun hu => ?_
  unfold primaryCandidate at h
  rw [List.head?_eq_none_iff] at h
  have hlen := Util.sortBy_length (fun q : AttrV × Nat => q.1.kind.rank)
    (attrs.zipIdx.filter fun q => !q.1.kind.isUnknown)
  rw [h] at hlen
  have : (a, i) ∈ attrs.zipIdx.filter (fun q => !q.1.kind.isUnknown) := by
    rw [List.mem_filter]
    exact ⟨(mem_zipIdx _ _ _).2 ha, by simpa using hu⟩
  rw [List.length_eq_zero_iff.1 hlen.symm] at this
  exact absurd this (by simp)

theorem mem_argPositions (attrs : List AttrV) (i j : Nat) (k : ArgKind) :
    ((i, j), k) ∈ argPositions attrs ↔ ∃ a, attrs[i]? = some a ∧ a.args[j]? = some k := by
  unfold argPositions
  simp only [List.mem_flatMap, List.mem_map, Prod.exists, Prod.mk.injEq, mem_zipIdx]
  constructor
  · rintro ⟨a, i', ha, k', j', hk, ⟨rfl, rfl⟩, rfl⟩
    exact ⟨a, ha, hk⟩
  · rintro ⟨a, ha, hk⟩
    exact ⟨a, i, ha, k, j, hk, ⟨rfl, rfl⟩, rfl⟩

theorem findArg_isSome (attrs : List AttrV) (k : ArgKind) :
    (findArg attrs k).isSome = true ↔
      ∃ (i j : Nat) (a : AttrV), attrs[i]? = some a ∧ a.args[j]? = some k := by
  unfold findArg
  rw [Option.isSome_map, List.find?_isSome]
  constructor
  · rintro ⟨⟨⟨i, j⟩, k'⟩, hm, he⟩
    have he : k' = k := by simpa using he
    subst he
    obtain ⟨a, h⟩ := (mem_argPositions _ _ _ _).1 hm
    exact ⟨i, j, a, h⟩
  · rintro ⟨i, j, a, h⟩
    exact ⟨((i, j), k), (mem_argPositions _ _ _ _).2 ⟨a, h⟩, by simp⟩

/-- The first argument found is one of the kind asked for. -/
theorem findArg_some (attrs : List AttrV) (k : ArgKind) (q : Nat × Nat)
    (h : findArg attrs k = some q) : ∃ a, attrs[q.1]? = some a ∧ a.args[q.2]? = some k := by
  unfold findArg at h
  obtain ⟨r, hr, rfl⟩ := Option.map_eq_some_iff.1 h
  have h1 := List.mem_of_find?_eq_some hr
  have h2 := List.find?_some hr
  have h2 : r.2 = k := by simpa using h2
  subst h2
  exact (mem_argPositions _ _ _ _).1 h1

theorem mem_attrConflicts (v : Version) (P : AttrV) (p : Nat) (a : AttrV) (i : Nat)
    (d : EntityDiag) (h : d ∈ attrConflicts v P p a i) :
    d = .conflictAttr i ∨ ∃ j, d = .conflictArg (i, j) := by
  unfold attrConflicts at h
  split at h
  · rw [List.mem_map] at h
    obtain ⟨r, -, rfl⟩ := h
    exact .inr ⟨_, rfl⟩
  · exact .inl (by simpa using h)

theorem conflictAttr_mem (v : Version) (P : AttrV) (p : Nat) (a : AttrV) (i i' : Nat) :
    EntityDiag.conflictAttr i' ∈ attrConflicts v P p a i ↔
      i' = i ∧ i ≠ p ∧ ¬ (i = 0 ∧ p ≠ 0) ∧ isValidSiblingAttr v P.kind a.kind = false := by
  unfold attrConflicts
  split
  · rename_i h
    simp only [List.mem_map, reduceCtorEq, and_false, exists_false, false_iff]
    rintro ⟨-, h1, h2, h3⟩
    rcases h with h | h | h
    · exact h1 h
    · exact h2 h
    · rw [h3] at h; exact absurd h (by decide)
  · rename_i h
    simp only [List.mem_singleton, EntityDiag.conflictAttr.injEq]
    constructor
    · rintro rfl
      refine ⟨rfl, fun h' => h (.inl h'), fun h' => h (.inr (.inl h')), ?_⟩
      cases hs : isValidSiblingAttr v P.kind a.kind with
      | true => exact absurd (.inr (.inr hs)) h
      | false => rfl
    · exact fun h => h.1

theorem conflictArg_mem (v : Version) (P : AttrV) (p : Nat) (a : AttrV) (i i' j : Nat) :
    EntityDiag.conflictArg (i', j) ∈ attrConflicts v P p a i ↔
      i' = i ∧ (i = p ∨ (i = 0 ∧ p ≠ 0) ∨ isValidSiblingAttr v P.kind a.kind = true) ∧
      ∃ k, a.args[j]? = some k ∧ a.kind ≠ .arg k ∧ k ∉ validSiblings P.kind v ∧
        alreadyDeprecated v P.kind k = false := by
  unfold attrConflicts
  split
  · rename_i h
    simp only [List.mem_map, List.mem_filter, Prod.exists, mem_zipIdx,
      EntityDiag.conflictArg.injEq, Prod.mk.injEq, Bool.and_eq_true, bne_iff_ne,
      Bool.not_eq_true', decide_eq_false_iff_not]
    constructor
    · rintro ⟨k, j', ⟨hk, ⟨h1, h2⟩, h3⟩, rfl, rfl⟩
      exact ⟨rfl, h, k, hk, h1, h2, h3⟩
    · rintro ⟨rfl, -, k, hk, h1, h2, h3⟩
      exact ⟨k, j, ⟨hk, ⟨h1, h2⟩, h3⟩, rfl, rfl⟩
  · rename_i h
    simp only [List.mem_singleton, reduceCtorEq, false_iff]
    rintro ⟨-, h', -⟩
    exact h h'

/-- Not a conflict report. -/
def EntityDiag.isConflict : EntityDiag → Bool
  | .conflictAttr _ => true
  | .conflictArg _ => true
  | _ => false

theorem orderChecks_noConflict (v : Version) (P : AttrV) (p : Nat) :
    ∀ d ∈ orderChecks v P p, d.isConflict = false := by
  intro d hd
  unfold orderChecks at hd
  simp only [List.mem_append] at hd
  rcases hd with (hd | hd) | hd
  · split at hd
    · rw [List.mem_singleton.1 hd]; rfl
    · exact absurd hd (by simp)
  · split at hd
    · split at hd
      · split at hd
        · exact absurd hd (by simp)
        · rw [List.mem_singleton.1 hd]; rfl
      · exact absurd hd (by simp)
    · exact absurd hd (by simp)
  · split at hd
    · rw [List.mem_singleton.1 hd]; rfl
    · exact absurd hd (by simp)

theorem mem_deprecatedExtension (c : Bool) (P : AttrV) (attrs : List AttrV) (d : EntityDiag) :
    d ∈ deprecatedExtension c P attrs ↔ P.kind = .arg .extension ∧ c = true ∧
      ∃ q, findArg attrs .extension = some q ∧ d = .deprecatedExtension q := by
  unfold deprecatedExtension
  split
  · rename_i h
    cases findArg attrs .extension <;> simp [h.1, h.2]
  · rename_i h
    simp only [List.not_mem_nil, false_iff]
    exact fun h' => h ⟨h'.1, h'.2.1⟩

theorem mem_deprecatedAdditional (P : AttrV) (attrs : List AttrV) (d : EntityDiag) :
    d ∈ deprecatedAdditional P attrs ↔
      (P.kind = .macro .e2eTest ∨ P.kind = .arg .additionalContracts) ∧
      ∃ q, findArg attrs .additionalContracts = some q ∧ d = .deprecatedAdditional q := by
  unfold deprecatedAdditional
  simp only [List.mem_cons, List.not_mem_nil, or_false]
  split
  · rename_i h
    cases findArg attrs .additionalContracts <;> simp [h]
  · rename_i h
    simp only [List.not_mem_nil, false_iff]
    exact fun h' => h h'.1

theorem mem_deprecatedKeepAttr (P : AttrV) (attrs : List AttrV) (d : EntityDiag) :
    d ∈ deprecatedKeepAttr P attrs ↔ P.kind = .macro .e2eTest ∧
      ∃ q, findArg attrs .keepAttr = some q ∧ d = .deprecatedKeepAttr q := by
  unfold deprecatedKeepAttr
  split
  · rename_i h
    cases findArg attrs .keepAttr <;> simp [h]
  · rename_i h
    simp only [List.not_mem_nil, false_iff]
    exact fun h' => h h'.1

theorem mem_missingExtension (P : AttrV) (p : Nat) (attrs : List AttrV) (d : EntityDiag) :
    d ∈ missingExtension P p attrs ↔ P.kind = .macro .chainExtension ∧
      findArg attrs .extension = none ∧ d = .missingExtension p := by
  unfold missingExtension
  split
  · rename_i h
    simp [h.1, h.2]
  · rename_i h
    simp only [List.not_mem_nil, false_iff]
    exact fun h' => h ⟨h'.1, h'.2.1⟩

theorem mem_anonymousSignature (P : AttrV) (attrs : List AttrV) (d : EntityDiag) :
    d ∈ anonymousSignature P attrs ↔
      P.kind ∈ [.macro .event, .arg .event, .arg .anonymous, .arg .signatureTopic] ∧
      ∃ a s, findArg attrs .anonymous = some a ∧ findArg attrs .signatureTopic = some s ∧
        d = .anonymousSignature (if posLt a s then s else a) := by
  unfold anonymousSignature
  split
  · rename_i h
    cases findArg attrs .anonymous <;> cases findArg attrs .signatureTopic <;> simp [h]
  · rename_i h
    simp only [List.not_mem_nil, false_iff]
    exact fun h' => h h'.1

theorem v5Checks_noConflict (c : Bool) (P : AttrV) (p : Nat) (attrs : List AttrV) :
    ∀ d ∈ (v5Checks c P p attrs).1, d.isConflict = false := by
  have h : ∀ d, d ∈ anonymousSignature P attrs ∨ d ∈ missingExtension P p attrs ∨
      d ∈ deprecatedExtension c P attrs ∨ d ∈ deprecatedAdditional P attrs ∨
      d ∈ deprecatedKeepAttr P attrs → d.isConflict = false := by
    intro d hd
    rw [mem_anonymousSignature, mem_missingExtension, mem_deprecatedExtension,
      mem_deprecatedAdditional, mem_deprecatedKeepAttr] at hd
    rcases hd with ⟨_, _, _, _, _, rfl⟩ | ⟨_, _, rfl⟩ | ⟨_, _, _, _, rfl⟩ | ⟨_, _, _, rfl⟩ |
      ⟨_, _, _, rfl⟩ <;> rfl
  intro d hd
  apply h
  unfold v5Checks at hd
  split at hd
  · simp only [List.mem_append] at hd
    rcases hd with (hd | hd) | hd <;> simp [hd]
  · split at hd
    · simp only [List.mem_append] at hd
      rcases hd with (hd | hd) | hd <;> simp [hd]
    · simp only [List.mem_append] at hd
      rcases hd with ((hd | hd) | hd) | hd <;> simp [hd]

theorem ne_nil_iff_mem {l : List α} : l ≠ [] ↔ ∃ x, x ∈ l :=
  ⟨List.exists_mem_of_ne_nil l, fun ⟨_, h⟩ => List.ne_nil_of_mem h⟩

theorem v5Checks_bail (c : Bool) (P : AttrV) (p : Nat) (attrs : List AttrV) :
    (v5Checks c P p attrs).2 = true ↔
      (P.kind = .arg .extension ∧ c = true ∧ (findArg attrs .extension).isSome = true) ∨
      (P.kind = .arg .additionalContracts ∧
        (findArg attrs .additionalContracts).isSome = true) := by
  unfold v5Checks
  split
  · rename_i h
    obtain ⟨d, hd⟩ := ne_nil_iff_mem.1 h
    obtain ⟨h1, h2, q, h3, -⟩ := (mem_deprecatedExtension _ _ _ _).1 hd
    simp [h1, h2, h3]
  · rename_i h
    split
    · rename_i h4
      obtain ⟨d, hd⟩ := ne_nil_iff_mem.1 h4.1
      obtain ⟨h1, q, h3, -⟩ := (mem_deprecatedAdditional _ _ _).1 hd
      simp [h4.2, h3]
    · rename_i h4
      simp only [Bool.false_eq_true, false_iff, not_or]
      constructor
      · rintro ⟨h1, h2, h3⟩
        obtain ⟨q, hq⟩ := Option.isSome_iff_exists.1 h3
        exact h (ne_nil_iff_mem.2 ⟨_, (mem_deprecatedExtension _ _ _ _).2 ⟨h1, h2, q, hq, rfl⟩⟩)
      · rintro ⟨h1, h3⟩
        obtain ⟨q, hq⟩ := Option.isSome_iff_exists.1 h3
        exact h4 ⟨ne_nil_iff_mem.2 ⟨_, (mem_deprecatedAdditional _ _ _).2 ⟨.inr h1, q, hq, rfl⟩⟩,
          h1⟩

theorem v5Checks_bail_ne_nil (c : Bool) (P : AttrV) (p : Nat) (attrs : List AttrV)
    (h : (v5Checks c P p attrs).2 = true) : (v5Checks c P p attrs).1 ≠ [] := by
  unfold v5Checks at h ⊢
  split
  · rename_i h3
    intro hh
    exact h3 (List.append_eq_nil_iff.1 hh).2
  · rename_i h3
    rw [if_neg h3] at h
    split
    · rename_i h4
      intro hh
      exact h4.1 (List.append_eq_nil_iff.1 hh).2
    · rename_i h4
      rw [if_neg h4] at h
      exact absurd h Bool.false_ne_true

theorem v5Checks_e2e (c : Bool) (P : AttrV) (p : Nat) (attrs : List AttrV)
    (h : P.kind = .macro .e2eTest)
    (hk : (findArg attrs .additionalContracts).isSome = true ∨
      (findArg attrs .keepAttr).isSome = true) : (v5Checks c P p attrs).1 ≠ [] := by
  unfold v5Checks
  split
  · rename_i h3
    intro hh
    exact h3 (List.append_eq_nil_iff.1 hh).2
  · split
    · rename_i h4
      exact absurd h4.2 (by rw [h]; decide)
    · rcases hk with hk | hk
      · obtain ⟨q, hq⟩ := Option.isSome_iff_exists.1 hk
        exact ne_nil_iff_mem.2 ⟨_, by
          simp only [List.mem_append]
          exact .inl (.inr ((mem_deprecatedAdditional _ _ _).2 ⟨.inl h, q, hq, rfl⟩))⟩
      · obtain ⟨q, hq⟩ := Option.isSome_iff_exists.1 hk
        exact ne_nil_iff_mem.2 ⟨_, by
          simp only [List.mem_append]
          exact .inr ((mem_deprecatedKeepAttr _ _ _).2 ⟨h, q, hq, rfl⟩)⟩

theorem validateEntity_eq (v : Version) (c : Bool) (attrs : List AttrV) (P : AttrV) (p : Nat)
    (h : primaryCandidate attrs = some (P, p)) :
    validateEntity v c attrs =
      if (preChecks v c P p attrs).2 then (preChecks v c P p attrs).1
      else (preChecks v c P p attrs).1 ++ orderChecks v P p ++
        attrs.zipIdx.flatMap fun q => attrConflicts v P p q.1 q.2 := by
  unfold validateEntity
  rw [h]

theorem pre_noConflict (v : Version) (c : Bool) (P : AttrV) (p : Nat) (attrs : List AttrV) :
    ∀ d ∈ (preChecks v c P p attrs).1, d.isConflict = false := by
  intro d hd
  cases v with
  | v4 => exact absurd hd (by simp [preChecks])
  | v5 => exact v5Checks_noConflict c P p attrs d hd

theorem conflict_mem (v : Version) (c : Bool) (attrs : List AttrV) (P : AttrV) (p : Nat)
    (h : primaryCandidate attrs = some (P, p)) (d : EntityDiag) (hd : d.isConflict = true) :
    d ∈ validateEntity v c attrs ↔
      (preChecks v c P p attrs).2 = false ∧
      ∃ i a, attrs[i]? = some a ∧ d ∈ attrConflicts v P p a i := by
  rw [validateEntity_eq v c attrs P p h]
  have hpre := pre_noConflict v c P p attrs
  have hord := orderChecks_noConflict v P p
  cases hb : (preChecks v c P p attrs).2 with
  | true =>
    simp only [if_pos]
    constructor
    · intro hm
      exact absurd (hpre d hm) (by rw [hd]; decide)
    · rintro ⟨hn, -⟩
      exact absurd hn (by decide)
  | false =>
    rw [if_neg (by decide)]
    simp only [List.mem_append, List.mem_flatMap, Prod.exists, mem_zipIdx]
    constructor
    · rintro ((hm | hm) | ⟨a, i, ha, hm⟩)
      · exact absurd (hpre d hm) (by rw [hd]; decide)
      · exact absurd (hord d hm) (by rw [hd]; decide)
      · exact ⟨trivial, i, a, ha, hm⟩
    · rintro ⟨-, i, a, ha, hm⟩
      exact .inr ⟨a, i, ha, hm⟩

end Verif.Analyzer
