import Verif.Analyzer.Text
import Std.Data.String.ToNat

/-!
# C30: suggested ids are unique
# C31: suggested names are unique
-/

namespace Verif.Analyzer

/-! ## C30 -/

theorem suggestFrom_some (max : Nat) (used : List Nat) (p id : Nat)
    (h : suggestFrom max used p = some id) :
    id ∉ used ∧ p ≤ id ∧ (∀ j, p ≤ j → j < id → j ∈ used) ∧ (p ≤ max → id ≤ max) := by
  induction p using suggestFrom.induct max used with
  | case1 x hx hlt ih =>
    rw [suggestFrom, if_pos hx, if_pos hlt] at h
    obtain ⟨h1, h2, h3, h4⟩ := ih h
    refine ⟨h1, by omega, ?_, fun _ => h4 (by omega)⟩
    intro j hj hji
    rcases Nat.eq_or_lt_of_le hj with rfl | hj
    · exact hx
    · exact h3 j (by omega) hji
  | case2 x hx hlt =>
    rw [suggestFrom, if_pos hx, if_neg hlt] at h
    cases h
  | case3 x hx =>
    rw [suggestFrom, if_neg hx] at h
    cases h
    exact ⟨hx, Nat.le_refl _, fun j h1 h2 => absurd h2 (by omega), fun h => h⟩

theorem suggestFrom_none (max : Nat) (used : List Nat) (p : Nat) (hp : p ≤ max) :
    suggestFrom max used p = none ↔ ∀ j, p ≤ j → j ≤ max → j ∈ used := by
  induction p using suggestFrom.induct max used with
  | case1 x hx hlt ih =>
    rw [suggestFrom, if_pos hx, if_pos hlt, ih hlt]
    constructor
    · intro h j hj hm
      rcases Nat.eq_or_lt_of_le hj with rfl | hj
      · exact hx
      · exact h j (by omega) hm
    · exact fun h j hj hm => h j (by omega) hm
  | case2 x hx hlt =>
    rw [suggestFrom, if_pos hx, if_neg hlt]
    refine ⟨fun _ j hj hm => ?_, fun _ => rfl⟩
    have : j = x := by omega
    exact this ▸ hx
  | case3 x hx =>
    rw [suggestFrom, if_neg hx]
    exact ⟨fun h => absurd h (by simp), fun h => absurd (h x (Nat.le_refl _) hp) hx⟩

/-- A suggested id is unused, at most the maximum, not below the preferred one (1 by default),
and no smaller id would do. -/
theorem C30_fresh (max : Nat) (pref : Option Nat) (used : List Nat) (id : Nat)
    (hp : pref.getD 1 ≤ max) (h : suggestId max pref used = some id) :
    id ∉ used ∧ id ≤ max ∧ pref.getD 1 ≤ id ∧ ∀ j, pref.getD 1 ≤ j → j < id → j ∈ used := by
  obtain ⟨h1, h2, h3, h4⟩ := suggestFrom_some max used _ id h
  exact ⟨h1, h4 hp, h2, h3⟩

/-- No id is suggested exactly when every id from the preferred one up to the maximum is
taken. -/
theorem C30_exhausted (max : Nat) (pref : Option Nat) (used : List Nat)
    (hp : pref.getD 1 ≤ max) :
    suggestId max pref used = none ↔ ∀ j, pref.getD 1 ≤ j → j ≤ max → j ∈ used :=
  suggestFrom_none max used _ hp

/-- A preferred id is suggested as it is when it is free. -/
theorem C30_preferred (max p : Nat) (used : List Nat) (h : p ∉ used) :
    suggestId max (some p) used = some p := by
  unfold suggestId
  rw [Option.getD_some, suggestFrom, if_neg h]

/-- Repeated requests for an id, each making the previous ids unavailable (calls of
`suggest_unique_id_mut` in sequence). -/
def suggestSeq (max : Nat) : List (Option Nat) → List Nat → List (Option Nat)
  | [], _ => []
  | p :: ps, used =>
    match suggestIdMut max p used with
    | some (id, used') => some id :: suggestSeq max ps used'
    | none => none :: suggestSeq max ps used

/-- Ids suggested in sequence are distinct from the ids in use and from each other. -/
theorem C30_sequence (max : Nat) (prefs : List (Option Nat)) (used : List Nat) :
    (∀ id, some id ∈ suggestSeq max prefs used → id ∉ used) ∧
    ((suggestSeq max prefs used).filterMap id).Nodup := by
  induction prefs generalizing used with
  | nil => exact ⟨fun _ h => absurd h (by simp [suggestSeq]), by simp [suggestSeq]⟩
  | cons p ps ih =>
    unfold suggestSeq
    cases h : suggestIdMut max p used with
    | none =>
      simp only [List.mem_cons, List.filterMap_cons, id, reduceCtorEq, false_or]
      exact ih used
    | some r =>
      obtain ⟨i, used'⟩ := r
      unfold suggestIdMut at h
      obtain ⟨i', hi, he⟩ := Option.map_eq_some_iff.1 h
      cases he
      have hf := (suggestFrom_some max used _ i hi).1
      obtain ⟨h1, h2⟩ := ih (i :: used)
      simp only [List.mem_cons, List.filterMap_cons, id]
      refine ⟨?_, List.nodup_cons.2 ⟨?_, h2⟩⟩
      · rintro id (hid | hid)
        · cases hid; exact hf
        · exact fun hu => h1 id hid (List.mem_cons_of_mem _ hu)
      · intro hm
        obtain ⟨a, ha, rfl⟩ := List.mem_filterMap.1 hm
        exact h1 i ha List.mem_cons_self

example : suggestId 65535 none [1, 2, 3, 5] = some 4 ∧
    suggestSeq 3 [none, none, none, none] [2] = [some 1, some 3, none, none] ∧
    suggestId 3 (some 2) [2, 3] = none := by
  refine ⟨?_, ?_, ?_⟩ <;> simp [suggestSeq, suggestIdMut, suggestId, suggestFrom]

/-! ## C31 -/

/-- The names that come into question, in order: the preferred name, then the preferred name
with the suffixes 2, 3, …. -/
def nameCandidate (preferred : String) : Nat → String
  | 0 => preferred
  | i + 1 => preferred ++ (i + 2).repr

theorem nameCandidate_inj (p : String) (i j : Nat) (h : nameCandidate p i = nameCandidate p j) :
    i = j := by
  have e : ∀ k : Nat, p ≠ p ++ (k + 2).repr := by
    intro k h
    have := congrArg String.toList h
    rw [String.toList_append] at this
    simp at this
  cases i with
  | zero =>
    cases j with
    | zero => rfl
    | succ j => exact absurd h (e j)
  | succ i =>
    cases j with
    | zero => exact absurd h.symm (e i)
    | succ j =>
      have := congrArg String.toList h
      simp only [nameCandidate, String.toList_append, List.append_cancel_left_eq] at this
      have := Nat.repr_injective (String.ext this)
      omega

theorem suggestNameLoop_spec (p : String) (used : List String) (fuel i : Nat)
    (hi : fuel + i = 253) :
    (∃ j, i ≤ j ∧ j < 254 ∧ nameCandidate p j ∉ used ∧
      (∀ l, i ≤ l → l < j → nameCandidate p l ∈ used) ∧
      suggestNameLoop p used fuel (nameCandidate p i) = nameCandidate p j) ∨
    ((∀ l, i ≤ l → l < 254 → nameCandidate p l ∈ used) ∧
      suggestNameLoop p used fuel (nameCandidate p i) = p) := by
  induction fuel generalizing i with
  | zero =>
    have : i = 253 := by omega
    subst this
    unfold suggestNameLoop
    by_cases h : nameCandidate p 253 ∈ used
    · rw [if_pos h]
      refine .inr ⟨fun l h1 h2 => ?_, rfl⟩
      have : l = 253 := by omega
      exact this ▸ h
    · rw [if_neg h]
      exact .inl ⟨253, by omega, by omega, h, fun l h1 h2 => absurd h2 (by omega), rfl⟩
  | succ fuel ih =>
    unfold suggestNameLoop
    by_cases h : nameCandidate p i ∈ used
    · rw [if_pos h]
      have e : p ++ (255 - (fuel + 1)).repr = nameCandidate p (i + 1) := by
        have : 255 - (fuel + 1) = i + 2 := by omega
        rw [this]
        rfl
      rw [e]
      have hin : ∀ l, i ≤ l → ¬ i + 1 ≤ l → nameCandidate p l ∈ used := by
        intro l h1 h2
        have : l = i := by omega
        exact this ▸ h
      rcases ih (i + 1) (by omega) with ⟨j, h1, h2, h3, h4, h5⟩ | ⟨h1, h2⟩
      · refine .inl ⟨j, by omega, h2, h3, fun l h6 h7 => ?_, h5⟩
        by_cases h8 : i + 1 ≤ l
        · exact h4 l h8 h7
        · exact hin l h6 h8
      · refine .inr ⟨fun l h3 h4 => ?_, h2⟩
        by_cases h8 : i + 1 ≤ l
        · exact h1 l h8 h4
        · exact hin l h3 h8
    · rw [if_neg h]
      exact .inl ⟨i, Nat.le_refl _, by omega, h, fun l h1 h2 => absurd h2 (by omega), rfl⟩

theorem suggestName_spec (p : String) (used : List String) :
    (∃ j, j < 254 ∧ nameCandidate p j ∉ used ∧ (∀ l, l < j → nameCandidate p l ∈ used) ∧
      suggestName p used = nameCandidate p j) ∨
    ((∀ l, l < 254 → nameCandidate p l ∈ used) ∧ suggestName p used = p) := by
  rcases suggestNameLoop_spec p used 253 0 rfl with ⟨j, -, h2, h3, h4, h5⟩ | ⟨h1, h2⟩
  · exact .inl ⟨j, h2, h3, fun l => h4 l (Nat.zero_le _), h5⟩
  · exact .inr ⟨fun l => h1 l (Nat.zero_le _), h2⟩

/-- The preferred name is suggested whenever it is free. -/
theorem C31_preferred (p : String) (used : List String) (h : p ∉ used) :
    suggestName p used = p := by
  rcases suggestName_spec p used with ⟨j, -, -, h4, h5⟩ | ⟨h1, h2⟩
  · cases j with
    | zero => exact h5
    | succ j => exact absurd (h4 0 (by omega)) h
  · exact h2

/-- As long as one of the first 254 candidates is free, the first free one is suggested. -/
theorem C31_first_free (p : String) (used : List String)
    (h : ∃ i < 254, nameCandidate p i ∉ used) :
    suggestName p used ∉ used ∧
    ∃ i < 254, suggestName p used = nameCandidate p i ∧ ∀ l < i, nameCandidate p l ∈ used := by
  rcases suggestName_spec p used with ⟨j, h2, h3, h4, h5⟩ | ⟨h1, h2⟩
  · exact ⟨h5 ▸ h3, j, h2, h5, h4⟩
  · obtain ⟨i, hi, hn⟩ := h
    exact absurd (h1 i hi) hn

theorem nodup_subset_length {α : Type} [DecidableEq α] (l m : List α) (hn : l.Nodup)
    (hs : ∀ x ∈ l, x ∈ m) : l.length ≤ m.length := by
  induction l generalizing m with
  | nil => simp
  | cons a l ih =>
    obtain ⟨ha, hl⟩ := List.nodup_cons.1 hn
    have hm := hs a List.mem_cons_self
    have := ih (m.erase a) hl (fun x hx =>
      (List.mem_erase_of_ne (fun e : x = a => ha (e ▸ hx))).2 (hs x (List.mem_cons_of_mem _ hx)))
    rw [List.length_erase_of_mem hm] at this
    have := List.length_pos_of_mem hm
    simp only [List.length_cons]
    omega

/-- With fewer than 254 names taken, the suggested name is not one of them.

Missing for the full claim: with 254 or more names taken the preferred name may be suggested
although it is taken, see `C31_negation`. -/
theorem C31_fresh_partial (p : String) (used : List String) (h : used.length < 254) :
    suggestName p used ∉ used := by
  rcases suggestName_spec p used with ⟨j, h2, h3, h4, h5⟩ | ⟨h1, -⟩
  · exact h5 ▸ h3
  · exfalso
    have := nodup_subset_length ((List.range 254).map (nameCandidate p)) used (by
      rw [List.nodup_iff_pairwise_ne, List.pairwise_map]
      exact List.nodup_range.imp fun hne he => hne (nameCandidate_inj p _ _ he)) (by
      intro x hx
      obtain ⟨i, hi, rfl⟩ := List.mem_map.1 hx
      exact h1 i (List.mem_range.1 hi))
    rw [List.length_map, List.length_range] at this
    omega

/-- For every preferred name there are 254 taken names for which a taken name is suggested. -/
theorem C31_negation (p : String) :
    ∃ used : List String, used.length = 254 ∧ suggestName p used ∈ used := by
  refine ⟨(List.range 254).map (nameCandidate p), by simp, ?_⟩
  have hm : ∀ l < 254, nameCandidate p l ∈ (List.range 254).map (nameCandidate p) :=
    fun l hl => List.mem_map.2 ⟨l, List.mem_range.2 hl, rfl⟩
  rcases suggestName_spec p ((List.range 254).map (nameCandidate p)) with
    ⟨j, h2, h3, -⟩ | ⟨-, h2⟩
  · exact absurd (hm j h2) h3
  · rw [h2]
    exact hm 0 (by omega)

example : suggestName "my_message" ["my_message", "new", "my_message2"] = "my_message3" := by
  decide

end Verif.Analyzer
