import Verif.Basic

/-!
# Stable sorting and first-occurrence deduplication

`slice::sort` (used by itertools `sorted`/`sorted_by_key`, and by `Vec::sort_by_key`) is a
stable sort; itertools `unique_by` keeps the first element of every key. The two
functions below model them; the lemmas are what "stable sort" means.
-/

namespace Verif.Util

/-- One insertion step: put `x` before the first element whose key is not smaller.
Models one step of the stable sort used at `crates/ir/src/attrs.rs:82` and
`crates/analyzer/src/analysis/actions/item.rs:666-706`. -/
def insertBy (key : α → Nat) (x : α) : List α → List α
  | [] => [x]
  | y :: ys => if key x ≤ key y then x :: y :: ys else y :: insertBy key x ys

/-- Stable sort by key. Models `slice::sort`/`sorted`/`sorted_by_key` as used at
`crates/ir/src/attrs.rs:82`, `crates/ir/src/attrs/meta.rs:225-227` and
`crates/analyzer/src/analysis/actions/item.rs:666-706`. -/
def sortBy (key : α → Nat) : List α → List α
  | [] => []
  | x :: xs => insertBy key x (sortBy key xs)

theorem insertBy_perm (key : α → Nat) (x : α) (l : List α) :
    (insertBy key x l).Perm (x :: l) := by
  induction l with
  | nil => exact List.Perm.refl _
  | cons y ys ih =>
    unfold insertBy
    split
    · exact List.Perm.refl _
    · exact (List.Perm.cons y ih).trans (List.Perm.swap x y ys)

/-- Sorting permutes. -/
theorem sortBy_perm (key : α → Nat) (l : List α) : (sortBy key l).Perm l := by
  induction l with
  | nil => exact List.Perm.refl _
  | cons x xs ih => exact (insertBy_perm key x _).trans (List.Perm.cons x ih)

theorem mem_sortBy {key : α → Nat} {l : List α} {x : α} : x ∈ sortBy key l ↔ x ∈ l :=
  (sortBy_perm key l).mem_iff

theorem insertBy_sorted (key : α → Nat) (x : α) (l : List α)
    (h : l.Pairwise (fun a b => key a ≤ key b)) :
    (insertBy key x l).Pairwise (fun a b => key a ≤ key b) := by
  induction l with
  | nil => simp [insertBy]
  | cons y ys ih =>
    unfold insertBy
    rw [List.pairwise_cons] at h
    split
    · rename_i hle
      rw [List.pairwise_cons, List.pairwise_cons]
      refine ⟨?_, h⟩
      intro b hb
      rcases List.mem_cons.1 hb with rfl | hb
      · exact hle
      · exact Nat.le_trans hle (h.1 b hb)
    · rename_i hle
      rw [List.pairwise_cons]
      refine ⟨?_, ih h.2⟩
      intro b hb
      rcases List.mem_cons.1 ((insertBy_perm key x ys).mem_iff.1 hb) with rfl | hb
      · omega
      · exact h.1 b hb

/-- Sorting sorts. -/
theorem sortBy_sorted (key : α → Nat) (l : List α) :
    (sortBy key l).Pairwise (fun a b => key a ≤ key b) := by
  induction l with
  | nil => exact List.Pairwise.nil
  | cons x xs ih => exact insertBy_sorted key x _ ih

theorem insertBy_filter (key : α → Nat) (x : α) (l : List α) (k : Nat) :
    (insertBy key x l).filter (fun a => key a == k) =
      (x :: l).filter (fun a => key a == k) := by
  induction l with
  | nil => rfl
  | cons y ys ih =>
    unfold insertBy
    split
    · rfl
    · rename_i hle
      rw [List.filter_cons, ih]
      simp only [List.filter_cons]
      by_cases h1 : key y = k <;> by_cases h2 : key x = k <;> simp [h1, h2]
      omega

/-- Sorting is stable: elements of equal key keep their order. -/
theorem sortBy_stable (key : α → Nat) (l : List α) (k : Nat) :
    (sortBy key l).filter (fun a => key a == k) = l.filter (fun a => key a == k) := by
  induction l with
  | nil => rfl
  | cons x xs ih =>
    unfold sortBy
    rw [insertBy_filter, List.filter_cons, ih, List.filter_cons]

theorem sortBy_length (key : α → Nat) (l : List α) : (sortBy key l).length = l.length :=
  (sortBy_perm key l).length_eq

/-- The head of a stable sort is the first element of minimal key. -/
theorem sortBy_head (key : α → Nat) (l : List α) (x : α)
    (h : (sortBy key l).head? = some x) :
    ∃ a b, l = a ++ x :: b ∧ (∀ y ∈ a, key x < key y) ∧ ∀ y ∈ b, key x ≤ key y := by
  induction l generalizing x with
  | nil => simp [sortBy] at h
  | cons z zs ih =>
    unfold sortBy at h
    cases hs : sortBy key zs with
    | nil =>
      have : zs = [] := by
        have := sortBy_length key zs
        rw [hs] at this
        exact List.length_eq_zero_iff.1 this.symm
      rw [hs] at h
      simp [insertBy] at h
      subst h
      exact ⟨[], [], by simp [this], by simp, by simp⟩
    | cons w ws =>
      rw [hs] at h
      obtain ⟨a, b, hzs, ha, hb⟩ := ih w (by rw [hs]; rfl)
      unfold insertBy at h
      split at h
      · rename_i hle
        simp at h
        subst h
        refine ⟨[], zs, rfl, by simp, ?_⟩
        intro y hy
        rw [hzs] at hy
        rcases List.mem_append.1 hy with hy | hy
        · exact Nat.le_trans hle (Nat.le_of_lt (ha y hy))
        · rcases List.mem_cons.1 hy with rfl | hy
          · exact hle
          · exact Nat.le_trans hle (hb y hy)
      · rename_i hle
        simp at h
        subst h
        refine ⟨z :: a, b, by simp [hzs], ?_, hb⟩
        intro y hy
        rcases List.mem_cons.1 hy with rfl | hy
        · omega
        · exact ha y hy

/-- First-occurrence deduplication by key, with the keys already seen. Models itertools
`unique_by` (a `HashSet` of seen keys), used at
`crates/analyzer/src/analysis/diagnostics.rs:93-97` and
`crates/analyzer/src/analysis/actions.rs:97-103`. -/
def uniqueByFrom [DecidableEq κ] (key : α → κ) (seen : List κ) : List α → List α
  | [] => []
  | x :: xs =>
    if key x ∈ seen then uniqueByFrom key seen xs
    else x :: uniqueByFrom key (key x :: seen) xs

/-- `unique_by` starting from no key, `crates/analyzer/src/analysis/diagnostics.rs:93-97`. -/
def uniqueBy [DecidableEq κ] (key : α → κ) (l : List α) : List α := uniqueByFrom key [] l

theorem uniqueByFrom_sublist [DecidableEq κ] (key : α → κ) (seen : List κ) (l : List α) :
    (uniqueByFrom key seen l).Sublist l := by
  induction l generalizing seen with
  | nil => exact List.Sublist.refl _
  | cons x xs ih =>
    unfold uniqueByFrom
    split
    · exact (ih _).cons _
    · exact (ih _).cons_cons _

theorem uniqueByFrom_key [DecidableEq κ] (key : α → κ) (seen : List κ) (l : List α) :
    ∀ x ∈ uniqueByFrom key seen l, key x ∉ seen := by
  induction l generalizing seen with
  | nil => simp [uniqueByFrom]
  | cons y ys ih =>
    unfold uniqueByFrom
    split
    · exact ih _
    · rename_i hns
      intro x hx
      rcases List.mem_cons.1 hx with rfl | hx
      · exact hns
      · intro hmem
        exact ih _ x hx (List.mem_cons_of_mem _ hmem)

theorem uniqueByFrom_pairwise [DecidableEq κ] (key : α → κ) (seen : List κ) (l : List α) :
    (uniqueByFrom key seen l).Pairwise (fun a b => key a ≠ key b) := by
  induction l generalizing seen with
  | nil => exact List.Pairwise.nil
  | cons y ys ih =>
    unfold uniqueByFrom
    split
    · exact ih _
    · rw [List.pairwise_cons]
      refine ⟨?_, ih _⟩
      intro b hb he
      exact uniqueByFrom_key key _ ys b hb (by simp [he])

theorem uniqueByFrom_complete [DecidableEq κ] (key : α → κ) (seen : List κ) (l : List α) :
    ∀ x ∈ l, key x ∉ seen → ∃ y ∈ uniqueByFrom key seen l, key y = key x := by
  induction l generalizing seen with
  | nil => simp
  | cons z zs ih =>
    intro x hx hns
    unfold uniqueByFrom
    split
    · rename_i hz
      rcases List.mem_cons.1 hx with rfl | hx
      · exact absurd hz hns
      · exact ih _ x hx hns
    · by_cases he : key x = key z
      · exact ⟨z, by simp, he.symm⟩
      · rcases List.mem_cons.1 hx with rfl | hx
        · exact absurd rfl he
        · obtain ⟨y, hy, hk⟩ := ih (key z :: seen) x hx (by simp [he, hns])
          exact ⟨y, List.mem_cons_of_mem _ hy, hk⟩

/-- An element is kept exactly when no earlier element (and no seen key) has its key. -/
theorem mem_uniqueByFrom_split [DecidableEq κ] (key : α → κ) (seen : List κ) (a b : List α)
    (x : α) :
    uniqueByFrom key seen (a ++ x :: b) =
      if key x ∈ seen ∨ key x ∈ a.map key then
        uniqueByFrom key seen a ++ uniqueByFrom key (a.map key ++ seen) b
      else
        uniqueByFrom key seen a ++ x :: uniqueByFrom key (key x :: (a.map key ++ seen)) b := by
  have ext : ∀ (l : List α) (s t : List κ), (∀ k, k ∈ s ↔ k ∈ t) →
      uniqueByFrom key s l = uniqueByFrom key t l := by
    intro l
    induction l with
    | nil => intros; rfl
    | cons z zs ih =>
      intro s t h
      unfold uniqueByFrom
      by_cases hz : key z ∈ s
      · rw [if_pos hz, if_pos ((h _).1 hz)]
        exact ih _ _ h
      · rw [if_neg hz, if_neg (fun h' => hz ((h _).2 h'))]
        congr 1
        apply ih
        intro k
        simp [h k]
  induction a generalizing seen with
  | nil =>
    simp only [List.nil_append, List.map_nil, List.not_mem_nil, or_false]
    rw [uniqueByFrom]
    rfl
  | cons z zs ih =>
    rw [List.cons_append, uniqueByFrom]
    conv => rhs; rw [uniqueByFrom]
    by_cases hz : key z ∈ seen
    · simp only [if_pos hz]
      rw [ih]
      have : (key x ∈ seen ∨ key x ∈ zs.map key) ↔ (key x ∈ seen ∨ key x ∈ (z :: zs).map key) := by
        simp only [List.map_cons, List.mem_cons]
        constructor
        · rintro (h | h)
          · exact .inl h
          · exact .inr (.inr h)
        · rintro (h | h | h)
          · exact .inl h
          · exact .inl (h ▸ hz)
          · exact .inr h
      by_cases hc : key x ∈ seen ∨ key x ∈ zs.map key
      · rw [if_pos hc, if_pos (this.1 hc)]
        congr 1
        apply ext
        intro k
        simp only [List.map_cons, List.mem_append, List.mem_cons]
        constructor
        · rintro (h | h)
          · exact .inl (.inr h)
          · exact .inr h
        · rintro ((h | h) | h)
          · exact .inr (h ▸ hz)
          · exact .inl h
          · exact .inr h
      · rw [if_neg hc, if_neg (fun h => hc (this.2 h))]
        congr 2
        apply ext
        intro k
        simp only [List.map_cons, List.mem_append, List.mem_cons]
        constructor
        · rintro (h | h | h)
          · exact .inl h
          · exact .inr (.inl (.inr h))
          · exact .inr (.inr h)
        · rintro (h | (h | h) | h)
          · exact .inl h
          · exact .inr (.inr (h ▸ hz))
          · exact .inr (.inl h)
          · exact .inr (.inr h)
    · simp only [if_neg hz]
      rw [ih]
      have : (key x ∈ key z :: seen ∨ key x ∈ zs.map key) ↔
          (key x ∈ seen ∨ key x ∈ (z :: zs).map key) := by
        simp only [List.map_cons, List.mem_cons]
        constructor
        · rintro ((h | h) | h)
          · exact .inr (.inl h)
          · exact .inl h
          · exact .inr (.inr h)
        · rintro (h | h | h)
          · exact .inl (.inr h)
          · exact .inl (.inl h)
          · exact .inr h
      by_cases hc : key x ∈ key z :: seen ∨ key x ∈ zs.map key
      · rw [if_pos hc, if_pos (this.1 hc)]
        rw [List.cons_append]
        congr 2
        apply ext
        intro k
        simp [or_left_comm]
      · rw [if_neg hc, if_neg (fun h => hc (this.2 h))]
        rw [List.cons_append]
        congr 3
        apply ext
        intro k
        simp [or_left_comm]

end Verif.Util
