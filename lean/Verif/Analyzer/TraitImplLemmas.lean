import Verif.Analyzer.TraitImpl

/-!
# Lemmas about implementations of ink! trait definitions
-/

namespace Verif.Analyzer

open Verif.Ir

theorem mem_messageIndex_sub {ms : List TraitMsg} {m : TraitMsg} (h : m ∈ messageIndex ms) :
    m ∈ ms ∧ m.named = true := by
  induction ms with
  | nil => simp [messageIndex] at h
  | cons x xs ih =>
    unfold messageIndex at h
    split at h
    · rename_i hx
      rw [Bool.and_eq_true] at hx
      rcases List.mem_cons.1 h with rfl | h
      · exact ⟨List.mem_cons_self, hx.1⟩
      · exact ⟨List.mem_cons_of_mem _ (ih h).1, (ih h).2⟩
    · exact ⟨List.mem_cons_of_mem _ (ih h).1, (ih h).2⟩

theorem exists_messageIndex {ms : List TraitMsg} {n : String} (hn : n ≠ "")
    (h : ∃ m ∈ ms, m.name = some n) : ∃ m ∈ messageIndex ms, m.name = some n := by
  induction ms with
  | nil => obtain ⟨m, hm, _⟩ := h; cases hm
  | cons x xs ih =>
    unfold messageIndex
    by_cases hxs : ∃ m ∈ xs, m.name = some n
    · obtain ⟨m, hm, hmn⟩ := ih hxs
      refine ⟨m, ?_, hmn⟩
      split
      · exact List.mem_cons_of_mem _ hm
      · exact hm
    · obtain ⟨m, hm, hmn⟩ := h
      rcases List.mem_cons.1 hm with rfl | hm
      · have hnamed : m.named = true := by
          simp [TraitMsg.named, hmn, hn]
        have hany : (xs.any fun m' => m'.name == m.name) = false := by
          rw [List.any_eq_false]
          intro y hy he
          exact hxs ⟨y, hy, by rw [beq_iff_eq] at he; rw [he, hmn]⟩
        rw [if_pos (by rw [hnamed, hany]; rfl)]
        exact ⟨m, List.mem_cons_self, hmn⟩
      · exact absurd ⟨m, hm, hmn⟩ hxs

/-- The names in the index are distinct. -/
theorem messageIndex_distinct (ms : List TraitMsg) :
    (messageIndex ms).Pairwise fun a b => a.name ≠ b.name := by
  induction ms with
  | nil => exact List.Pairwise.nil
  | cons x xs ih =>
    unfold messageIndex
    split
    · rename_i hx
      refine List.pairwise_cons.2 ⟨?_, ih⟩
      intro b hb he
      rw [Bool.and_eq_true, Bool.not_eq_true'] at hx
      have := hx.2
      rw [List.any_eq_false] at this
      exact this b (mem_messageIndex_sub hb).1 (by rw [he]; exact beq_self_eq_true _)
    · exact ih

theorem findMessage_isSome {ms : List TraitMsg} {n : String} (hn : n ≠ "") :
    (findMessage ms n).isSome = true ↔ ∃ m ∈ ms, m.name = some n := by
  unfold findMessage
  rw [List.find?_isSome]
  constructor
  · rintro ⟨m, hm, he⟩
    exact ⟨m, (mem_messageIndex_sub hm).1, by simpa using he⟩
  · intro h
    obtain ⟨m, hm, he⟩ := exists_messageIndex hn h
    exact ⟨m, hm, by simpa using he⟩

theorem findMessage_none {ms : List TraitMsg} {n : String} (hn : n ≠ "") :
    findMessage ms n = none ↔ ¬ ∃ m ∈ ms, m.name = some n := by
  rw [← findMessage_isSome hn]
  cases findMessage ms n <;> simp

theorem mem_seenMessages {ms : List TraitMsg} {items : List AssocItem} {n : String} (hn : n ≠ "")
    (hd : ∃ m ∈ ms, m.name = some n) :
    n ∈ seenMessages ms items ↔ ∃ f r, AssocItem.fn f ∈ items ∧ f.name = some (n, r) := by
  unfold seenMessages
  rw [List.mem_filterMap]
  constructor
  · rintro ⟨i, hi, he⟩
    cases i with
    | other r => cases he
    | fn f =>
      cases hf : f.name with
      | none => simp [hf] at he
      | some p =>
        simp only [hf, Option.bind_some, Option.map_eq_some_iff] at he
        obtain ⟨_, _, hp⟩ := he
        exact ⟨f, p.2, hi, by rw [hf, ← hp]⟩
  · rintro ⟨f, r, hi, hf⟩
    refine ⟨.fn f, hi, ?_⟩
    obtain ⟨m, hm⟩ := Option.isSome_iff_exists.1 ((findMessage_isSome hn).2 hd)
    simp [hf, hm]

/-- The messages of the index without a function of that name. -/
theorem mem_missingMessages {order : List TraitMsg → List TraitMsg}
    (ho : ∀ l, (order l).Perm l) {ms : List TraitMsg} {items : List AssocItem} {m : TraitMsg} :
    m ∈ missingMessages order ms items ↔
      m ∈ messageIndex ms ∧
        ∀ n, m.name = some n → ¬ ∃ f r, AssocItem.fn f ∈ items ∧ f.name = some (n, r) := by
  unfold missingMessages
  rw [List.mem_filter, (ho _).mem_iff]
  refine and_congr_right fun hm => ?_
  obtain ⟨hms, hnamed⟩ := mem_messageIndex_sub hm
  cases hn : m.name with
  | none => simp [TraitMsg.named, hn] at hnamed
  | some n =>
    have hne : n ≠ "" := by
      intro h
      simp [TraitMsg.named, hn, h] at hnamed
    have hs := mem_seenMessages (items := items) hne ⟨m, hms, hn⟩
    simp only [Bool.and_eq_true, bne_iff_ne, ne_eq, hne, not_false_eq_true, true_and,
      Bool.not_eq_true', Option.some.injEq, forall_eq']
    rw [← hs]
    simp

theorem missingMessages_distinct {order : List TraitMsg → List TraitMsg}
    (ho : ∀ l, (order l).Perm l) (ms : List TraitMsg) (items : List AssocItem) :
    (missingMessages order ms items).Pairwise fun a b => a.name ≠ b.name := by
  unfold missingMessages
  apply List.Pairwise.filter
  exact (messageIndex_distinct ms).perm (ho _).symm fun h => h.symm

theorem mem_argIndex_sub {as : List TArg} {a : TArg} (h : a ∈ argIndex as) :
    a ∈ as ∧ a.kind ≠ .unknown := by
  induction as with
  | nil => simp [argIndex] at h
  | cons x xs ih =>
    unfold argIndex at h
    split at h
    · rename_i hx
      rw [Bool.and_eq_true, bne_iff_ne] at hx
      rcases List.mem_cons.1 h with rfl | h
      · exact ⟨List.mem_cons_self, hx.1⟩
      · exact ⟨List.mem_cons_of_mem _ (ih h).1, (ih h).2⟩
    · exact ⟨List.mem_cons_of_mem _ (ih h).1, (ih h).2⟩

theorem exists_argIndex {as : List TArg} {k : ArgKind} (hk : k ≠ .unknown)
    (h : ∃ a ∈ as, a.kind = k) : ∃ a ∈ argIndex as, a.kind = k := by
  induction as with
  | nil => obtain ⟨m, hm, _⟩ := h; cases hm
  | cons x xs ih =>
    unfold argIndex
    by_cases hxs : ∃ a ∈ xs, a.kind = k
    · obtain ⟨m, hm, hmn⟩ := ih hxs
      refine ⟨m, ?_, hmn⟩
      split
      · exact List.mem_cons_of_mem _ hm
      · exact hm
    · obtain ⟨m, hm, hmn⟩ := h
      rcases List.mem_cons.1 hm with rfl | hm
      · have hany : (xs.any fun m' => m'.kind == m.kind) = false := by
          rw [List.any_eq_false]
          intro y hy he
          exact hxs ⟨y, hy, by rw [beq_iff_eq] at he; rw [he, hmn]⟩
        rw [if_pos (by rw [hany]; simp [hmn, hk])]
        exact ⟨m, List.mem_cons_self, hmn⟩
      · exact absurd ⟨m, hm, hmn⟩ hxs

theorem argIndex_distinct (as : List TArg) :
    (argIndex as).Pairwise fun a b => a.kind ≠ b.kind := by
  induction as with
  | nil => exact List.Pairwise.nil
  | cons x xs ih =>
    unfold argIndex
    split
    · rename_i hx
      refine List.pairwise_cons.2 ⟨?_, ih⟩
      intro b hb he
      rw [Bool.and_eq_true, Bool.not_eq_true'] at hx
      have := hx.2
      rw [List.any_eq_false] at this
      exact this b (mem_argIndex_sub hb).1 (by rw [he]; exact beq_self_eq_true _)
    · exact ih

theorem declaredArg_some {as : List TArg} {k : ArgKind} {d : TArg} (h : declaredArg as k = some d) :
    d ∈ as ∧ d.kind = k ∧ k ≠ .unknown := by
  unfold declaredArg at h
  have h1 := mem_argIndex_sub (List.mem_of_find?_eq_some h)
  have h2 : d.kind = k := by simpa using List.find?_some h
  exact ⟨h1.1, h2, h2 ▸ h1.2⟩

theorem declaredArg_none {as : List TArg} {k : ArgKind} :
    declaredArg as k = none ↔ k = .unknown ∨ ¬ ∃ a ∈ as, a.kind = k := by
  unfold declaredArg
  rw [List.find?_eq_none]
  constructor
  · intro h
    by_cases hk : k = .unknown
    · exact .inl hk
    · right
      intro he
      obtain ⟨a, ha, hak⟩ := exists_argIndex hk he
      exact h a ha (by simpa using hak)
  · rintro (rfl | h) a ha he
    · exact (mem_argIndex_sub ha).2 (by simpa using he)
    · exact h ⟨a, (mem_argIndex_sub ha).1, by simpa using he⟩

theorem eq_of_distinct_kind {l : List TArg} (h : l.Pairwise fun a b => a.kind ≠ b.kind)
    {a b : TArg} (ha : a ∈ l) (hb : b ∈ l) (he : a.kind = b.kind) : a = b := by
  induction h with
  | nil => cases ha
  | cons hx _ ih =>
    rcases List.mem_cons.1 ha with rfl | ha'
    · rcases List.mem_cons.1 hb with rfl | hb'
      · rfl
      · exact absurd he (hx _ hb')
    · rcases List.mem_cons.1 hb with rfl | hb'
      · exact absurd he.symm (hx _ ha')
      · exact ih ha' hb'

end Verif.Analyzer
