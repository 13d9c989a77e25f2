import Verif.Ir.Tree

/-!
# C23, C24: closest ink! descendants and ancestors
-/

namespace Verif.Ir.Node

variable {α κ : Type}

/-! ## Specification -/

/-- The node at the path carries an ink! attribute. -/
def Annotated (n : Node α κ) (p : List Nat) : Prop :=
  ∃ k a cs, n.at? (p ++ [k]) = some (.attr (some a) cs)

/-- `p` is the path of an ink! attribute `a`. -/
def InkAt (n : Node α κ) (p : List Nat) (a : α) : Prop := ∃ cs, n.at? p = some (.attr (some a) cs)

/-- `owner ++ [k]` is an ink! attribute of a descendant `owner` of the root that has no
annotated node strictly between it and the root. -/
def IsClosest (n : Node α κ) (p : List Nat) (a : α) : Prop :=
  InkAt n p a ∧ ∃ owner k, p = owner ++ [k] ∧ owner ≠ [] ∧
    ∀ q, q ≠ [] → q <+: owner → q ≠ owner → ¬ Annotated n q

/-! ## Lemmas -/

theorem at?_cons (n : Node α κ) (i : Nat) (p : List Nat) :
    n.at? (i :: p) = (n.children[i]?).bind fun c => c.at? p := by
  cases n <;> rfl

theorem annotated_nil_iff (n : Node α κ) : n.Annotated [] ↔ n.inkAttrs ≠ [] := by
  unfold Annotated inkAttrs
  rw [ne_eq, List.filterMap_eq_nil_iff]
  constructor
  · rintro ⟨k, a, cs, h⟩ hall
    rw [List.nil_append, at?_cons] at h
    rw [Option.bind_eq_some_iff] at h
    obtain ⟨c, hc, hc'⟩ := h
    have hc' : c = .attr (some a) cs := by simpa [at?] using hc'
    have := hall c (List.mem_of_getElem? hc)
    rw [hc'] at this
    simp [ink?] at this
  · intro h
    have h : ∃ c ∈ n.children, c.ink? ≠ none := by
      false_or_by_contra
      rename_i hh
      exact h fun c hc => Classical.byContradiction fun hne => hh ⟨c, hc, hne⟩
    obtain ⟨c, hc, h⟩ := h
    obtain ⟨k, hk⟩ := List.getElem?_of_mem hc
    cases c with
    | tok l => simp [ink?] at h
    | node _ _ => simp [ink?] at h
    | attr a cs =>
      cases a with
      | none => simp [ink?] at h
      | some a =>
        refine ⟨k, a, cs, ?_⟩
        rw [List.nil_append, at?_cons, hk]
        rfl

theorem annotated_cons (n : Node α κ) (i : Nat) (p : List Nat) :
    n.Annotated (i :: p) ↔ ∃ c, n.children[i]? = some c ∧ c.Annotated p := by
  unfold Annotated
  constructor
  · rintro ⟨k, a, cs, h⟩
    rw [List.cons_append, at?_cons, Option.bind_eq_some_iff] at h
    obtain ⟨c, hc, h⟩ := h
    exact ⟨c, hc, k, a, cs, h⟩
  · rintro ⟨c, hc, k, a, cs, h⟩
    refine ⟨k, a, cs, ?_⟩
    rw [List.cons_append, at?_cons, hc]
    exact h

theorem inkAt_cons (n : Node α κ) (i : Nat) (p : List Nat) (a : α) :
    n.InkAt (i :: p) a ↔ ∃ c, n.children[i]? = some c ∧ c.InkAt p a := by
  unfold InkAt
  constructor
  · rintro ⟨cs, h⟩
    rw [at?_cons, Option.bind_eq_some_iff] at h
    obtain ⟨c, hc, h⟩ := h
    exact ⟨c, hc, cs, h⟩
  · rintro ⟨c, hc, cs, h⟩
    refine ⟨cs, ?_⟩
    rw [at?_cons, hc]
    exact h

theorem isClosest_cons (n : Node α κ) (i : Nat) (p : List Nat) (a : α) :
    n.IsClosest (i :: p) a ↔ ∃ c, n.children[i]? = some c ∧
      ((c.inkAttrs ≠ [] ∧ (∃ k, p = [k]) ∧ c.InkAt p a) ∨ (c.inkAttrs = [] ∧ c.IsClosest p a)) := by
  constructor
  · rintro ⟨hink, owner, k, hp, hne, hb⟩
    obtain ⟨c, hc, hca⟩ := (inkAt_cons n i p a).1 hink
    refine ⟨c, hc, ?_⟩
    cases owner with
    | nil => exact absurd rfl hne
    | cons j o =>
      simp only [List.cons_append, List.cons.injEq] at hp
      obtain ⟨rfl, rfl⟩ := hp
      cases o with
      | nil =>
        left
        refine ⟨?_, ⟨k, rfl⟩, hca⟩
        rw [← annotated_nil_iff]
        obtain ⟨cs, h⟩ := hca
        exact ⟨k, a, cs, h⟩
      | cons j o =>
        have h1 : c.inkAttrs = [] := by
          have := hb [i] (by simp) ⟨j :: o, rfl⟩ (by simp)
          rw [annotated_cons] at this
          false_or_by_contra
          rename_i hh
          exact this ⟨c, hc, (annotated_nil_iff c).2 hh⟩
        right
        refine ⟨h1, hca, j :: o, k, rfl, by simp, ?_⟩
        intro q hq hpre hqo hann
        refine hb (i :: q) (by simp) ?_ (by simp; exact hqo) ((annotated_cons n i q).2 ⟨c, hc, hann⟩)
        exact (List.cons_prefix_cons).2 ⟨rfl, hpre⟩
  · rintro ⟨c, hc, ⟨h1, ⟨k, rfl⟩, hca⟩ | ⟨h1, hca, owner, k, rfl, hne, hb⟩⟩
    · refine ⟨(inkAt_cons n i _ a).2 ⟨c, hc, hca⟩, [i], k, rfl, by simp, ?_⟩
      intro q hq hpre hqo
      exfalso
      cases q with
      | nil => exact hq rfl
      | cons x q =>
        rw [List.cons_prefix_cons] at hpre
        obtain ⟨rfl, hpre⟩ := hpre
        exact hqo (by rw [List.prefix_nil.1 hpre])
    · refine ⟨(inkAt_cons n i _ a).2 ⟨c, hc, hca⟩, i :: owner, k, rfl, by simp, ?_⟩
      intro q hq hpre hqo hann
      cases q with
      | nil => exact hq rfl
      | cons x q =>
        rw [List.cons_prefix_cons] at hpre
        obtain ⟨rfl, hpre⟩ := hpre
        obtain ⟨c', hc', hann⟩ := (annotated_cons n x q).1 hann
        rw [hc] at hc'
        have := Option.some.inj hc'
        subst this
        by_cases hq0 : q = []
        · subst hq0
          exact (annotated_nil_iff c).1 hann h1
        · exact hb q hq0 hpre (fun h => hqo (by rw [h])) hann

theorem isClosest_nil (n : Node α κ) (a : α) : ¬ n.IsClosest [] a := by
  rintro ⟨_, owner, k, h, _⟩
  simp at h

/-- ink! attributes among a list of children, with their indices. -/
def inkIdx : List (Node α κ) → Nat → List (List Nat × α)
  | [], _ => []
  | c :: cs, i => (match c.ink? with
    | some a => [([i], a)]
    | none => []) ++ inkIdx cs (i + 1)

theorem inkIdx_map (cs : List (Node α κ)) (i : Nat) :
    (inkIdx cs i).map (·.2) = cs.filterMap ink? := by
  induction cs generalizing i with
  | nil => rfl
  | cons c cs ih =>
    rw [inkIdx, List.map_append, ih]
    cases h : c.ink? with
    | none => rw [List.filterMap_cons_none h]; rfl
    | some a => rw [List.filterMap_cons_some h]; rfl

theorem mem_inkIdx (cs : List (Node α κ)) (i : Nat) (p : List Nat) (a : α) :
    (p, a) ∈ inkIdx cs i ↔ ∃ j sub, p = [i + j] ∧ cs[j]? = some (.attr (some a) sub) := by
  induction cs generalizing i with
  | nil => simp [inkIdx]
  | cons c cs ih =>
    rw [inkIdx, List.mem_append, ih]
    constructor
    · rintro (h | ⟨j, sub, rfl, h⟩)
      · cases c with
        | tok l => simp [ink?] at h
        | node _ _ => simp [ink?] at h
        | attr b sub =>
          cases b with
          | none => simp [ink?] at h
          | some b =>
            simp [ink?] at h
            obtain ⟨rfl, rfl⟩ := h
            exact ⟨0, sub, rfl, rfl⟩
      · exact ⟨j + 1, sub, by rw [show i + (j + 1) = i + 1 + j by omega], h⟩
    · rintro ⟨j, sub, rfl, h⟩
      cases j with
      | zero =>
        left
        simp at h
        subst h
        simp [ink?]
      | succ j =>
        right
        exact ⟨j, sub, by rw [show i + (j + 1) = i + 1 + j by omega], by simpa using h⟩

mutual

/-- The closest descendants with their paths, following the traversal. -/
def closestIdx : Node α κ → List (List Nat × α)
  | tok _ => []
  | attr _ cs => closestIdxList cs 0
  | node _ cs => closestIdxList cs 0

/-- The same for the children from index `i`. -/
def closestIdxList : List (Node α κ) → Nat → List (List Nat × α)
  | [], _ => []
  | c :: cs, i =>
    ((if !c.inkAttrs.isEmpty then inkIdx c.children 0 else closestIdx c).map
      fun e => (i :: e.1, e.2)) ++ closestIdxList cs (i + 1)

end

mutual

theorem closestIdx_map : (n : Node α κ) → (closestIdx n).map (·.2) = n.inkClosest
  | tok _ => rfl
  | attr _ cs => by rw [closestIdx, inkClosest]; exact closestIdxList_map cs 0
  | node _ cs => by rw [closestIdx, inkClosest]; exact closestIdxList_map cs 0

theorem closestIdxList_map : (cs : List (Node α κ)) → (i : Nat) →
    (closestIdxList cs i).map (·.2) = inkClosestList cs
  | [], _ => rfl
  | c :: cs, i => by
    rw [closestIdxList, inkClosestList, List.map_append, closestIdxList_map cs (i + 1)]
    congr 1
    rw [List.map_map]
    have hcomp : ((fun x : List Nat × α => x.2) ∘ fun e : List Nat × α => (i :: e.1, e.2)) =
        fun x => x.2 := rfl
    rw [hcomp]
    split
    · exact inkIdx_map c.children 0
    · exact closestIdx_map c

end

mutual

theorem mem_closestIdx : (n : Node α κ) → (p : List Nat) → (a : α) →
    ((p, a) ∈ closestIdx n ↔ n.IsClosest p a)
  | tok l, p, a => by
    rw [closestIdx]
    constructor
    · intro h; simp at h
    · intro h
      cases p with
      | nil => exact absurd h (isClosest_nil _ _)
      | cons i p =>
        obtain ⟨c, hc, _⟩ := (isClosest_cons _ i p a).1 h
        simp [children] at hc
  | attr x cs, p, a => by
    rw [closestIdx, mem_closestIdxList cs 0 p a]
    constructor
    · rintro ⟨j, p', c, rfl, hc, h⟩
      rw [Nat.zero_add]
      exact (isClosest_cons _ j p' a).2 ⟨c, hc, h⟩
    · intro h
      cases p with
      | nil => exact absurd h (isClosest_nil _ _)
      | cons i p =>
        obtain ⟨c, hc, h⟩ := (isClosest_cons _ i p a).1 h
        exact ⟨i, p, c, by rw [Nat.zero_add], hc, h⟩
  | node x cs, p, a => by
    rw [closestIdx, mem_closestIdxList cs 0 p a]
    constructor
    · rintro ⟨j, p', c, rfl, hc, h⟩
      rw [Nat.zero_add]
      exact (isClosest_cons _ j p' a).2 ⟨c, hc, h⟩
    · intro h
      cases p with
      | nil => exact absurd h (isClosest_nil _ _)
      | cons i p =>
        obtain ⟨c, hc, h⟩ := (isClosest_cons _ i p a).1 h
        exact ⟨i, p, c, by rw [Nat.zero_add], hc, h⟩

theorem mem_closestIdxList : (cs : List (Node α κ)) → (i : Nat) → (p : List Nat) → (a : α) →
    ((p, a) ∈ closestIdxList cs i ↔ ∃ j p' c, p = (i + j) :: p' ∧ cs[j]? = some c ∧
      ((c.inkAttrs ≠ [] ∧ (∃ k, p' = [k]) ∧ c.InkAt p' a) ∨
        (c.inkAttrs = [] ∧ c.IsClosest p' a)))
  | [], i, p, a => by simp [closestIdxList]
  | c :: cs, i, p, a => by
    rw [closestIdxList, List.mem_append, mem_closestIdxList cs (i + 1) p a]
    have hhead : (p, a) ∈ ((if !c.inkAttrs.isEmpty then inkIdx c.children 0 else closestIdx c).map
        fun e => (i :: e.1, e.2)) ↔ ∃ p', p = i :: p' ∧
        ((c.inkAttrs ≠ [] ∧ (∃ k, p' = [k]) ∧ c.InkAt p' a) ∨
        (c.inkAttrs = [] ∧ c.IsClosest p' a)) := by
      rw [List.mem_map]
      constructor
      · rintro ⟨⟨p', b⟩, h, he⟩
        simp only [Prod.mk.injEq] at he
        obtain ⟨rfl, rfl⟩ := he
        refine ⟨p', rfl, ?_⟩
        split at h
        · rename_i hne
          left
          obtain ⟨j, sub, rfl, hj⟩ := (mem_inkIdx _ _ _ _).1 h
          refine ⟨by simpa using hne, ⟨_, rfl⟩, sub, ?_⟩
          rw [at?_cons, Nat.zero_add, hj]
          rfl
        · rename_i hne
          right
          exact ⟨by simpa using hne, (mem_closestIdx c p' b).1 h⟩
      · rintro ⟨p', rfl, h⟩
        refine ⟨(p', a), ?_, rfl⟩
        rcases h with ⟨hne, ⟨k, rfl⟩, sub, hs⟩ | ⟨he, h⟩
        · rw [if_pos (by simpa using hne)]
          rw [mem_inkIdx]
          rw [at?_cons, Option.bind_eq_some_iff] at hs
          obtain ⟨d, hd, hs⟩ := hs
          have : d = .attr (some a) sub := by simpa [at?] using hs
          subst this
          exact ⟨k, sub, by rw [Nat.zero_add], hd⟩
        · rw [if_neg (by simp [he])]
          exact (mem_closestIdx c p' a).2 h
    rw [hhead]
    constructor
    · rintro (⟨p', rfl, h⟩ | ⟨j, p', d, rfl, hd, h⟩)
      · exact ⟨0, p', c, rfl, rfl, h⟩
      · exact ⟨j + 1, p', d, by rw [show i + (j + 1) = i + 1 + j by omega], hd, h⟩
    · rintro ⟨j, p', d, rfl, hd, h⟩
      cases j with
      | zero =>
        left
        simp at hd
        subst hd
        exact ⟨p', rfl, h⟩
      | succ j =>
        right
        exact ⟨j, p', d, by rw [show i + (j + 1) = i + 1 + j by omega], by simpa using hd, h⟩

end

theorem inkIdx_sorted (cs : List (Node α κ)) (i : Nat) :
    ((inkIdx cs i).map (·.1)).Pairwise (· < ·) := by
  induction cs generalizing i with
  | nil => exact List.Pairwise.nil
  | cons c cs ih =>
    rw [inkIdx, List.map_append, List.pairwise_append]
    refine ⟨?_, ih _, ?_⟩
    · cases c.ink? <;> simp
    · intro x hx y hy
      rw [List.mem_map] at hy
      obtain ⟨⟨p, a⟩, hy, rfl⟩ := hy
      obtain ⟨j, sub, rfl, _⟩ := (mem_inkIdx _ _ _ _).1 hy
      have : x = [i] := by
        cases h : c.ink? <;> simp [h] at hx
        exact hx
      subst this
      exact List.Lex.rel (by omega)

mutual

theorem closestIdx_sorted : (n : Node α κ) → ((closestIdx n).map (·.1)).Pairwise (· < ·)
  | tok _ => List.Pairwise.nil
  | attr _ cs => by rw [closestIdx]; exact closestIdxList_sorted cs 0
  | node _ cs => by rw [closestIdx]; exact closestIdxList_sorted cs 0

theorem closestIdxList_sorted : (cs : List (Node α κ)) → (i : Nat) →
    ((closestIdxList cs i).map (·.1)).Pairwise (· < ·)
  | [], _ => List.Pairwise.nil
  | c :: cs, i => by
    rw [closestIdxList, List.map_append, List.pairwise_append]
    refine ⟨?_, closestIdxList_sorted cs (i + 1), ?_⟩
    · rw [List.map_map]
      have h : ((if !c.inkAttrs.isEmpty then inkIdx c.children 0 else closestIdx c).map
          (·.1)).Pairwise (· < ·) := by
        split
        · exact inkIdx_sorted _ _
        · exact closestIdx_sorted c
      rw [List.pairwise_map] at h ⊢
      exact h.imp fun hlt => List.Lex.cons hlt
    · intro x hx y hy
      rw [List.map_map, List.mem_map] at hx
      obtain ⟨e, _, rfl⟩ := hx
      rw [List.mem_map] at hy
      obtain ⟨⟨p, a⟩, hy, rfl⟩ := hy
      obtain ⟨j, p', d, rfl, _⟩ := (mem_closestIdxList _ _ _ _).1 hy
      exact List.Lex.rel (by omega)

end

/-! ## C23 -/

/-- The closest ink! descendants are exactly the ink! attributes of descendants with no
annotated node in between, each once, in source order. -/
theorem C23_closest (n : Node α κ) : ∃ found : List (List Nat × α),
    n.inkClosest = found.map (·.2) ∧
    (∀ p a, (p, a) ∈ found ↔ n.IsClosest p a) ∧
    (found.map (·.1)).Pairwise (· < ·) :=
  ⟨closestIdx n, (closestIdx_map n).symm, mem_closestIdx n, closestIdx_sorted n⟩

/-- Every ink! attribute of a descendant lies under (or belongs to) an item reported by the
traversal. -/
theorem C23_cover (n : Node α κ) (owner : List Nat) (k : Nat) (a : α) (ho : owner ≠ [])
    (h : n.InkAt (owner ++ [k]) a) :
    ∃ owner' k' a', n.IsClosest (owner' ++ [k']) a' ∧ owner' <+: owner := by
  induction owner generalizing n with
  | nil => exact absurd rfl ho
  | cons i o ih =>
    rw [List.cons_append] at h
    obtain ⟨c, hc, h⟩ := (inkAt_cons n i _ a).1 h
    by_cases hann : c.inkAttrs = []
    · have hne : o ≠ [] := by
        rintro rfl
        obtain ⟨cs, h⟩ := h
        exact (annotated_nil_iff c).1 ⟨k, a, cs, h⟩ hann
      obtain ⟨o', k', a', h1, h2⟩ := ih c hne h
      refine ⟨i :: o', k', a', ?_, List.cons_prefix_cons.2 ⟨rfl, h2⟩⟩
      rw [List.cons_append]
      exact (isClosest_cons n i _ a').2 ⟨c, hc, Or.inr ⟨hann, h1⟩⟩
    · obtain ⟨k', a', cs, h'⟩ := (annotated_nil_iff c).2 hann
      refine ⟨[i], k', a', ?_, List.cons_prefix_cons.2 ⟨rfl, List.nil_prefix⟩⟩
      exact (isClosest_cons n i _ a').2 ⟨c, hc, Or.inl ⟨hann, ⟨k', rfl⟩, cs, h'⟩⟩

/-- All descendants: exactly the ink! attributes strictly below the item that are not below
one of its own attributes. -/
theorem mem_inkAll_aux : (n : Node α κ) → (a : α) → (a ∈ n.inkAll ↔ ∃ p, n.InkAt p a) := by
  intro n
  refine Node.rec (motive_1 := fun n => ∀ a, a ∈ n.inkAll ↔ ∃ p, n.InkAt p a)
    (motive_2 := fun cs => ∀ a, a ∈ inkAllList cs ↔
      ∃ (i : Nat) (c : Node α κ) (p : List Nat), cs[i]? = some c ∧ c.InkAt p a)
    ?_ ?_ ?_ ?_ ?_ n
  · intro l a
    rw [inkAll]
    constructor
    · intro h; simp at h
    · rintro ⟨p, cs, h⟩
      cases p with
      | nil => simp [at?] at h
      | cons i p => simp [at?_cons, children] at h
  · intro x cs ih a
    rw [inkAll, List.mem_append, ih a]
    constructor
    · rintro (h | ⟨i, c, p, hc, h⟩)
      · cases x with
        | none => simp at h
        | some x =>
          simp at h
          subst h
          exact ⟨[], cs, rfl⟩
      · exact ⟨i :: p, (inkAt_cons _ i p a).2 ⟨c, hc, h⟩⟩
    · rintro ⟨p, h⟩
      cases p with
      | nil =>
        obtain ⟨cs', h⟩ := h
        simp [at?] at h
        left
        simp [h.1]
      | cons i p =>
        obtain ⟨c, hc, h⟩ := (inkAt_cons _ i p a).1 h
        exact Or.inr ⟨i, c, p, hc, h⟩
  · intro x cs ih a
    rw [inkAll, ih a]
    constructor
    · rintro ⟨i, c, p, hc, h⟩
      exact ⟨i :: p, (inkAt_cons _ i p a).2 ⟨c, hc, h⟩⟩
    · rintro ⟨p, h⟩
      cases p with
      | nil =>
        obtain ⟨cs', h⟩ := h
        simp [at?] at h
      | cons i p =>
        obtain ⟨c, hc, h⟩ := (inkAt_cons _ i p a).1 h
        exact ⟨i, c, p, hc, h⟩
  · intro a
    simp [inkAllList]
  · intro c cs ih1 ih2 a
    rw [inkAllList, List.mem_append, ih1 a, ih2 a]
    constructor
    · rintro (⟨p, h⟩ | ⟨i, d, p, hd, h⟩)
      · exact ⟨0, c, p, rfl, h⟩
      · exact ⟨i + 1, d, p, hd, h⟩
    · rintro ⟨i, d, p, hd, h⟩
      cases i with
      | zero =>
        simp at hd
        subst hd
        exact Or.inl ⟨p, h⟩
      | succ i => exact Or.inr ⟨i, d, p, by simpa using hd, h⟩

theorem mem_inkAllList (cs : List (Node α κ)) (a : α) :
    a ∈ inkAllList cs ↔ ∃ c ∈ cs, ∃ p, c.InkAt p a := by
  induction cs with
  | nil => simp [inkAllList]
  | cons c cs ih =>
    rw [inkAllList, List.mem_append, ih, mem_inkAll_aux]
    simp

theorem isAttr_false (c : Node α κ) : c.isAttr = false ↔ ∀ x cs, c ≠ .attr x cs := by
  cases c <;> simp [isAttr]

/-- `ink_attrs_descendants` lists exactly the ink! attributes strictly below the item,
outside its own attributes. -/
theorem C23_descendants (n : Node α κ) (a : α) :
    a ∈ n.inkDescendants ↔ ∃ i c p, n.children[i]? = some c ∧ (∀ x cs, c ≠ .attr x cs) ∧
      n.InkAt (i :: p) a := by
  simp only [← isAttr_false]
  unfold inkDescendants
  rw [mem_inkAllList]
  constructor
  · rintro ⟨c, hc, p, h⟩
    rw [List.mem_filter] at hc
    obtain ⟨i, hi⟩ := List.getElem?_of_mem hc.1
    exact ⟨i, c, p, hi, by simpa using hc.2, (inkAt_cons n i p a).2 ⟨c, hi, h⟩⟩
  · rintro ⟨i, c, p, hc, hattr, h⟩
    obtain ⟨c', hc', h⟩ := (inkAt_cons n i p a).1 h
    rw [hc] at hc'
    have := Option.some.inj hc'
    subst this
    exact ⟨c, List.mem_filter.2 ⟨List.mem_of_getElem? hc, by simp [hattr]⟩, p, h⟩

/-- Closest descendants outside the item's own attributes are descendants. -/
theorem C23_closest_descendant (n : Node α κ) (i : Nat) (p : List Nat) (a : α) (c : Node α κ)
    (hc : n.children[i]? = some c) (hattr : ∀ x cs, c ≠ .attr x cs) (h : n.IsClosest (i :: p) a) :
    a ∈ n.inkDescendants ∧ a ∈ n.inkClosest := by
  refine ⟨(C23_descendants n a).2 ⟨i, c, p, hc, hattr, h.1⟩, ?_⟩
  obtain ⟨found, h1, h2, _⟩ := C23_closest n
  rw [h1]
  exact List.mem_map.2 ⟨(i :: p, a), (h2 _ _).2 h, rfl⟩

/-! ## C24 -/

/-- Nearest annotated proper ancestor of a position: `q` is a proper prefix of `p`,
annotated, and no longer proper prefix is. -/
def Nearest (n : Node α κ) (p q : List Nat) : Prop :=
  q <+: p ∧ q ≠ p ∧ n.Annotated q ∧
    ∀ r, r <+: p → r ≠ p → q <+: r → r ≠ q → ¬ n.Annotated r

/-- The item an attribute or a node belongs to: the node itself, or the attribute's parent. -/
def subject (n : Node α κ) (p : List Nat) : List Nat := if n.isAttrAt p then p.dropLast else p

theorem at?_append (n : Node α κ) (p q : List Nat) :
    n.at? (p ++ q) = (n.at? p).bind fun c => c.at? q := by
  induction p generalizing n with
  | nil => simp [at?]
  | cons i p ih =>
    rw [List.cons_append, at?_cons, at?_cons]
    cases n.children[i]? with
    | none => rfl
    | some c => exact ih c

theorem annotated_iff (n : Node α κ) (p : List Nat) :
    n.Annotated p ↔ n.inkAttrsAt p ≠ [] := by
  unfold inkAttrsAt
  cases h : n.at? p with
  | none =>
    simp only [ne_eq, not_true, iff_false]
    rintro ⟨k, a, cs, hk⟩
    rw [at?_append, h] at hk
    simp at hk
  | some m =>
    simp only []
    rw [← annotated_nil_iff]
    unfold Annotated
    simp only [at?_append, h, Option.bind_some, List.nil_append]

theorem climb_spec (n : Node α κ) (rp : List Nat) :
    (∃ q, q <+: rp.reverse ∧ n.Annotated q ∧
      (∀ r, r <+: rp.reverse → q <+: r → r ≠ q → ¬ n.Annotated r) ∧
      n.climb rp = n.inkAttrsAt q) ∨
    ((∀ q, q <+: rp.reverse → ¬ n.Annotated q) ∧ n.climb rp = []) := by
  induction rp with
  | nil =>
    rw [climb]
    by_cases h : n.Annotated []
    · left
      refine ⟨[], List.prefix_rfl, h, ?_, rfl⟩
      intro r hr _ hne
      exact absurd (List.prefix_nil.1 hr) hne
    · right
      refine ⟨?_, ?_⟩
      · intro q hq
        rw [List.reverse_nil, List.prefix_nil] at hq
        subst hq
        exact h
      · rw [annotated_iff] at h
        simpa using h
  | cons i rp ih =>
    rw [climb]
    by_cases h : n.Annotated (i :: rp).reverse
    · left
      refine ⟨(i :: rp).reverse, List.prefix_rfl, h, ?_, ?_⟩
      · intro r h1 h2 h3
        exact absurd (List.IsPrefix.eq_of_length h1 (Nat.le_antisymm h1.length_le h2.length_le)) h3
      · rw [annotated_iff] at h
        rw [if_pos (by simpa using h)]
    · have hempty : n.inkAttrsAt (i :: rp).reverse = [] := by
        rw [annotated_iff] at h
        simpa using h
      rw [if_neg (by rw [hempty]; simp)]
      have hpre : ∀ r, r <+: (i :: rp).reverse → r = (i :: rp).reverse ∨ r <+: rp.reverse := by
        intro r hr
        rw [List.reverse_cons] at hr ⊢
        exact (List.prefix_concat_iff).1 hr
      rcases ih with ⟨q, h1, h2, h3, h4⟩ | ⟨h1, h2⟩
      · left
        refine ⟨q, ?_, h2, ?_, h4⟩
        · rw [List.reverse_cons]; exact h1.trans (List.prefix_append _ _)
        · intro r hr hqr hne
          rcases hpre r hr with rfl | hr
          · exact h
          · exact h3 r hr hqr hne
      · right
        refine ⟨?_, h2⟩
        intro q hq
        rcases hpre q hq with rfl | hq
        · exact h
        · exact h1 q hq

theorem proper_prefix_iff (p q : List Nat) :
    (q <+: p ∧ q ≠ p) ↔ p ≠ [] ∧ q <+: p.dropLast := by
  constructor
  · rintro ⟨h1, h2⟩
    have hp : p ≠ [] := by
      rintro rfl
      exact h2 (List.prefix_nil.1 h1)
    refine ⟨hp, ?_⟩
    rw [← List.dropLast_concat_getLast hp] at h1 h2
    rcases List.prefix_concat_iff.1 h1 with h | h
    · exact absurd h h2
    · exact h
  · rintro ⟨hp, h⟩
    refine ⟨h.trans (List.dropLast_prefix p), ?_⟩
    rintro rfl
    have := h.length_le
    rw [List.length_dropLast] at this
    have := List.length_pos_iff.2 hp
    omega

theorem inkClosestAncestors_eq (n : Node α κ) (p : List Nat) :
    n.inkClosestAncestors p =
      if n.subject p = [] then [] else n.climb (n.subject p).dropLast.reverse := by
  unfold inkClosestAncestors subject
  rcases List.eq_nil_or_concat p with rfl | ⟨o, i, rfl⟩
  · cases n.isAttrAt [] <;> rfl
  · simp only [List.concat_eq_append, List.reverse_append, List.reverse_cons, List.reverse_nil,
      List.nil_append, List.cons_append]
    by_cases hA : n.isAttrAt (o ++ [i]) = true
    · rw [if_pos hA, if_pos hA]
      simp only [List.dropLast_concat]
      rcases List.eq_nil_or_concat o with rfl | ⟨o', j, rfl⟩
      · rfl
      · simp
    · rw [if_neg hA, if_neg hA]
      simp

/-- The closest ink! ancestor attributes are those of the nearest enclosing annotated node
(for an attribute: enclosing the item it belongs to); none exactly when nothing enclosing is
annotated. -/
theorem C24_nearest (n : Node α κ) (p : List Nat) :
    (∃ q, n.Nearest (n.subject p) q ∧ n.inkClosestAncestors p = n.inkAttrsAt q) ∨
    ((∀ q, q <+: n.subject p → q ≠ n.subject p → ¬ n.Annotated q) ∧
      n.inkClosestAncestors p = []) := by
  rw [inkClosestAncestors_eq]
  generalize n.subject p = s
  by_cases hs : s = []
  · right
    rw [if_pos hs]
    subst hs
    refine ⟨?_, rfl⟩
    intro q h1 h2
    exact absurd (List.prefix_nil.1 h1) h2
  · rw [if_neg hs]
    rcases climb_spec n s.dropLast.reverse with ⟨q, h1, h2, h3, h4⟩ | ⟨h1, h2⟩
    · left
      rw [List.reverse_reverse] at h1 h3
      obtain ⟨h5, h6⟩ := (proper_prefix_iff s q).2 ⟨hs, h1⟩
      refine ⟨q, ⟨h5, h6, h2, ?_⟩, h4⟩
      intro r hr hne hqr hrq
      exact h3 r ((proper_prefix_iff s r).1 ⟨hr, hne⟩).2 hqr hrq
    · right
      refine ⟨?_, h2⟩
      intro q hq hne
      rw [List.reverse_reverse] at h1
      exact h1 q ((proper_prefix_iff s q).1 ⟨hq, hne⟩).2

/-- Empty exactly when no enclosing item is annotated. -/
theorem C24_none (n : Node α κ) (p : List Nat) :
    n.inkClosestAncestors p = [] ↔
      ∀ q, q <+: n.subject p → q ≠ n.subject p → ¬ n.Annotated q := by
  constructor
  · intro h
    rcases C24_nearest n p with ⟨q, ⟨_, _, hann, _⟩, heq⟩ | ⟨h1, _⟩
    · rw [annotated_iff] at hann
      rw [heq] at h
      exact absurd h hann
    · exact h1
  · intro h
    rcases C24_nearest n p with ⟨q, ⟨h1, h2, hann, _⟩, heq⟩ | ⟨_, h2⟩
    · exact absurd hann (h q h1 h2)
    · exact h2

/-! ### The closest ancestors are among all ancestors -/

/-- Every attribute contains a token of its own (its `#`), and attributes are not direct
children of attributes. -/
def AttrWf (n : Node α κ) : Prop :=
  ∀ p a cs, n.at? p = some (.attr a cs) →
    (∃ l, 0 < l ∧ Node.tok l ∈ cs) ∧ ∀ c ∈ cs, c.isAttr = false

theorem len_le_lenList (cs : List (Node α κ)) (c : Node α κ) (h : c ∈ cs) : c.len ≤ lenList cs := by
  induction cs with
  | nil => simp at h
  | cons d cs ih =>
    rw [lenList]
    rcases List.mem_cons.1 h with rfl | h
    · omega
    · have := ih h; omega

theorem len_children (n : Node α κ) (c : Node α κ) (h : c ∈ n.children) : c.len ≤ n.len := by
  cases n with
  | tok l => simp [children] at h
  | attr a cs => rw [len]; exact len_le_lenList cs c h
  | node k cs => rw [len]; exact len_le_lenList cs c h

theorem two_le_lenList (cs : List (Node α κ)) (i j : Nat) (c d : Node α κ) (hij : i ≠ j)
    (hi : cs[i]? = some c) (hj : cs[j]? = some d) : c.len + d.len ≤ lenList cs := by
  induction cs generalizing i j with
  | nil => simp at hi
  | cons e cs ih =>
    rw [lenList]
    cases i with
    | zero =>
      simp at hi
      subst hi
      cases j with
      | zero => exact absurd rfl hij
      | succ j =>
        have := len_le_lenList cs d (List.mem_of_getElem? (by simpa using hj))
        omega
    | succ i =>
      cases j with
      | zero =>
        simp at hj
        subst hj
        have := len_le_lenList cs c (List.mem_of_getElem? (by simpa using hi))
        omega
      | succ j =>
        have := ih i j (by omega) (by simpa using hi) (by simpa using hj)
        omega

theorem len_at (n m : Node α κ) (p : List Nat) (h : n.at? p = some m) : m.len ≤ n.len := by
  induction p generalizing n with
  | nil => simp [at?] at h; subst h; exact Nat.le_refl _
  | cons i p ih =>
    rw [at?_cons, Option.bind_eq_some_iff] at h
    obtain ⟨c, hc, h⟩ := h
    have h1 := ih c h
    have h2 := len_children n c (List.mem_of_getElem? hc)
    omega

theorem rangeAt_some (n : Node α κ) (p : List Nat) (off : Nat) (r : Nat × Nat)
    (h : n.rangeAt p off = some r) : ∃ m, n.at? p = some m ∧ m.len = r.2 := by
  induction p generalizing n off with
  | nil =>
    have : n.rangeAt [] off = some (off, n.len) := by cases n <;> rfl
    rw [this] at h
    have := Option.some.inj h
    exact ⟨n, rfl, by rw [← this]⟩
  | cons i p ih =>
    have hr : n.rangeAt (i :: p) off = (n.children[i]?).bind fun c =>
      c.rangeAt p (off + lenList (n.children.take i)) := by cases n <;> rfl
    rw [hr, Option.bind_eq_some_iff] at h
    obtain ⟨c, hc, h⟩ := h
    obtain ⟨m, h1, h2⟩ := ih c _ h
    refine ⟨m, ?_, h2⟩
    rw [at?_cons, hc]
    exact h1

theorem rangeAt_of_at (n m : Node α κ) (p : List Nat) (off : Nat) (h : n.at? p = some m) :
    ∃ s, n.rangeAt p off = some (s, m.len) := by
  induction p generalizing n off with
  | nil =>
    have hr : n.rangeAt [] off = some (off, n.len) := by cases n <;> rfl
    simp [at?] at h
    subst h
    exact ⟨off, hr⟩
  | cons i p ih =>
    have hr : n.rangeAt (i :: p) off = (n.children[i]?).bind fun c =>
      c.rangeAt p (off + lenList (n.children.take i)) := by cases n <;> rfl
    rw [at?_cons, Option.bind_eq_some_iff] at h
    obtain ⟨c, hc, h⟩ := h
    rw [hr, hc]
    exact ih c _ h

/-- An annotated node is longer than any of its proper descendants that has an attribute. -/
theorem longer (n m : Node α κ) (p : List Nat) (hwf : n.AttrWf) (hp : p ≠ [])
    (hm : n.at? p = some m) (hmattr : ∃ c ∈ m.children, c.isAttr = true)
    (hann : n.inkAttrs ≠ []) : m.len < n.len := by
  obtain ⟨k, a, cs, hk⟩ := (annotated_nil_iff n).2 hann
  rw [List.nil_append] at hk
  have hkc : n.children[k]? = some (.attr (some a) cs) := by
    rw [at?_cons, Option.bind_eq_some_iff] at hk
    obtain ⟨c, hc, h⟩ := hk
    rw [hc]
    simpa [at?] using h
  have hlen : n.len = lenList n.children := by
    cases n with
    | tok l => simp [children] at hkc
    | attr _ _ => rw [len]; rfl
    | node _ _ => rw [len]; rfl
  obtain ⟨⟨l, hl, hmem⟩, hnoattr⟩ := hwf [k] (some a) cs hk
  have hpos : 0 < (Node.attr (some a) cs : Node α κ).len := by
    have := len_le_lenList cs _ hmem
    have htl : (Node.tok l : Node α κ).len = l := by rw [len]
    rw [len]
    omega
  cases p with
  | nil => exact absurd rfl hp
  | cons i p =>
    rw [at?_cons, Option.bind_eq_some_iff] at hm
    obtain ⟨c, hc, hm⟩ := hm
    have hmc := len_at c m p hm
    by_cases hik : i = k
    · subst hik
      rw [hkc] at hc
      have := Option.some.inj hc
      subst this
      have hcn : (Node.attr (some a) cs : Node α κ).len ≤ n.len :=
        len_children n _ (List.mem_of_getElem? hkc)
      cases p with
      | nil =>
        exfalso
        simp [at?] at hm
        subst hm
        obtain ⟨d, hd, hda⟩ := hmattr
        rw [hnoattr d hd] at hda
        simp at hda
      | cons j p =>
        rw [at?_cons, Option.bind_eq_some_iff] at hm
        obtain ⟨d, hd, hm⟩ := hm
        have hd' : cs[j]? = some d := hd
        have hmd := len_at d m p hm
        obtain ⟨x, hx⟩ := List.getElem?_of_mem hmem
        have hjx : j ≠ x := by
          rintro rfl
          rw [hx] at hd'
          have := Option.some.inj hd'
          subst this
          cases p with
          | nil =>
            simp [at?] at hm
            subst hm
            obtain ⟨_, hc, _⟩ := hmattr
            simp [children] at hc
          | cons y p => simp [at?_cons, children] at hm
        have h2 := two_le_lenList cs j x d (.tok l) hjx hd' hx
        have hcl : (Node.attr (some a) cs : Node α κ).len = lenList cs := by rw [len]
        have htl : (Node.tok l : Node α κ).len = l := by rw [len]
        omega
    · have h2 := two_le_lenList n.children i k c _ hik hc hkc
      omega

theorem mem_ancestorPaths (rp q : List Nat) : q ∈ ancestorPaths rp ↔ q <+: rp.reverse := by
  induction rp with
  | nil => simp [ancestorPaths]
  | cons i rp ih =>
    rw [ancestorPaths, List.mem_cons, ih, List.reverse_cons, List.prefix_concat_iff]

/-- The closest ink! ancestor attributes are among all ink! ancestor attributes. -/
theorem C24_subset (n : Node α κ) (hwf : n.AttrWf) (p : List Nat) (m : Node α κ)
    (hm : n.at? p = some m) (a : α) (h : a ∈ n.inkClosestAncestors p) :
    a ∈ n.inkAncestors p := by
  rcases C24_nearest n p with ⟨q, ⟨h1, h2, hann, _⟩, heq⟩ | ⟨_, h2⟩
  · rw [heq] at h
    unfold inkAncestors
    rw [List.mem_flatMap]
    refine ⟨q, ?_, h⟩
    rw [List.mem_filter, mem_ancestorPaths, List.reverse_reverse]
    by_cases hA : n.isAttrAt p = true
    · rw [subject, if_pos hA] at h1 h2
      have hpne : p ≠ [] := by
        rintro rfl
        exact h2 (List.prefix_nil.1 h1)
      refine ⟨h1.trans (List.dropLast_prefix p), ?_⟩
      have hqp : q ≠ p := by
        rintro rfl
        have := h1.length_le
        rw [List.length_dropLast] at this
        have := List.length_pos_iff.2 hpne
        omega
      simp only [Bool.and_eq_true, bne_iff_ne, Bool.or_eq_true, ne_eq]
      refine ⟨hqp, Or.inr ?_⟩
      rw [if_neg hpne]
      intro hr
      -- the parent of the attribute and `q` would have the same length
      obtain ⟨s, hs⟩ := h1
      have hsne : s ≠ [] := by
        rintro rfl
        exact h2 (by simpa using hs)
      have hpar : ∃ P, n.at? p.dropLast = some P ∧ ∃ c ∈ P.children, c.isAttr = true := by
        rw [← List.dropLast_concat_getLast hpne, at?_append, Option.bind_eq_some_iff] at hm
        obtain ⟨P, hP, hmP⟩ := hm
        refine ⟨P, hP, m, ?_, ?_⟩
        · rw [at?_cons, Option.bind_eq_some_iff] at hmP
          obtain ⟨c, hc, h⟩ := hmP
          simp [at?] at h
          subst h
          exact List.mem_of_getElem? hc
        · unfold isAttrAt at hA
          rw [← List.dropLast_concat_getLast hpne, at?_append, hP, Option.bind_some, hmP] at hA
          exact hA
      obtain ⟨P, hP, hPattr⟩ := hpar
      obtain ⟨s1, hs1⟩ := rangeAt_of_at n P p.dropLast 0 hP
      rw [hs1] at hr
      obtain ⟨Q, hQ, hQl⟩ := rangeAt_some n q 0 _ hr.symm
      have hat : Q.at? s = some P := by
        rw [← hs, at?_append, hQ] at hP
        exact hP
      have hQwf : Q.AttrWf := by
        intro p' a' cs' h'
        apply hwf (q ++ p') a' cs'
        rw [at?_append, hQ]
        exact h'
      have hQann : Q.inkAttrs ≠ [] := by
        rw [annotated_iff] at hann
        unfold inkAttrsAt at hann
        rw [hQ] at hann
        exact hann
      have := longer Q P s hQwf hsne hat hPattr hQann
      simp only [] at hQl
      omega
    · rw [subject, if_neg hA] at h1 h2
      refine ⟨h1, ?_⟩
      simp only [Bool.and_eq_true, bne_iff_ne, Bool.or_eq_true, ne_eq]
      exact ⟨h2, Or.inl (by simpa using hA)⟩
  · rw [h2] at h
    simp at h

/-! ## Non-vacuity -/

/-- `mod m` (contract) with a plain `mod` holding an annotated item with an annotated child,
and an annotated sibling. -/
def sampleTree : Node String Unit :=
  .node () [
    .attr (some "contract") [.tok 3],
    .node () [.node () [.attr (some "storage") [.tok 3],
      .node () [.attr (some "topic") [.tok 3], .tok 2]]],
    .node () [.attr (some "message") [.tok 2], .attr none [.tok 4]]]

example : sampleTree.inkClosest = ["storage", "message"] ∧
    sampleTree.inkDescendants = ["storage", "topic", "message"] ∧
    sampleTree.inkClosestAncestors [1, 0, 1] = ["storage"] ∧
    sampleTree.inkClosestAncestors [1, 0, 0] = ["contract"] ∧
    sampleTree.inkAncestors [1, 0, 1] = ["storage", "contract"] := by
  refine ⟨?_, ?_, ?_, ?_, ?_⟩ <;> decide

example : sampleTree.InkAt ([1, 0, 1] ++ [0]) "topic" ∧
    sampleTree.IsClosest ([1, 0] ++ [0]) "storage" := by
  refine ⟨⟨_, rfl⟩, ?_⟩
  rw [← mem_closestIdx]
  decide

mutual

/-- Checker for `AttrWf`. -/
def attrOk : Node α κ → Bool
  | tok _ => true
  | attr _ cs => (cs.any fun c => match c with
      | tok l => decide (0 < l)
      | _ => false) && (cs.all fun c => !c.isAttr) && attrOkList cs
  | node _ cs => attrOkList cs

/-- Checker for `AttrWf` on children. -/
def attrOkList : List (Node α κ) → Bool
  | [] => true
  | c :: cs => attrOk c && attrOkList cs

end

theorem attrOkList_mem (cs : List (Node α κ)) (h : attrOkList cs = true) (c : Node α κ)
    (hc : c ∈ cs) : attrOk c = true := by
  induction cs with
  | nil => simp at hc
  | cons d cs ih =>
    rw [attrOkList, Bool.and_eq_true] at h
    rcases List.mem_cons.1 hc with rfl | hc
    · exact h.1
    · exact ih h.2 hc

theorem attrOk_wf (n : Node α κ) (h : attrOk n = true) : n.AttrWf := by
  intro p
  induction p generalizing n with
  | nil =>
    intro a cs hn
    simp [at?] at hn
    subst hn
    rw [attrOk, Bool.and_eq_true, Bool.and_eq_true, List.any_eq_true, List.all_eq_true] at h
    obtain ⟨⟨⟨c, hc, h1⟩, h2⟩, _⟩ := h
    refine ⟨?_, fun c hc => by simpa using h2 c hc⟩
    cases c with
    | tok l => exact ⟨l, by simpa using h1, hc⟩
    | attr _ _ => simp at h1
    | node _ _ => simp at h1
  | cons i p ih =>
    intro a cs hn
    rw [at?_cons, Option.bind_eq_some_iff] at hn
    obtain ⟨c, hc, hn⟩ := hn
    refine ih c ?_ a cs hn
    have hmem := List.mem_of_getElem? hc
    cases n with
    | tok l => simp [children] at hmem
    | attr _ ds =>
      rw [attrOk, Bool.and_eq_true] at h
      exact attrOkList_mem ds h.2 c hmem
    | node _ ds =>
      rw [attrOk] at h
      exact attrOkList_mem ds h c hmem

example : sampleTree.AttrWf := attrOk_wf _ (by decide)

end Verif.Ir.Node
