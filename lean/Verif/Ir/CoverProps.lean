import Verif.Ir.Cover
import Verif.Ir.TreeProps

/-!
# Covering attributes: lemmas
-/

namespace Verif.Ir.Node

variable {α κ : Type}

/-- The text range of the node at a path contains the range. -/
def ContainsAt (root : Node α κ) (p : List Nat) (s e : Nat) : Prop :=
  ∃ st l, root.rangeAt p 0 = some (st, l) ∧ st ≤ s ∧ e ≤ st + l

theorem rangeAt_nil (n : Node α κ) (off : Nat) : n.rangeAt [] off = some (off, n.len) := by
  cases n <;> rfl

theorem rangeAt_cons (n : Node α κ) (i : Nat) (p : List Nat) (off : Nat) :
    n.rangeAt (i :: p) off = (n.children[i]?).bind fun c =>
      c.rangeAt p (off + lenList (n.children.take i)) := by
  cases n <;> rfl

theorem lenList_append (a b : List (Node α κ)) : lenList (a ++ b) = lenList a + lenList b := by
  induction a with
  | nil => simp [lenList]
  | cons c a ih => rw [List.cons_append, lenList, lenList, ih]; omega

theorem lenList_take_succ (cs : List (Node α κ)) (i : Nat) (c : Node α κ)
    (h : cs[i]? = some c) : lenList (cs.take (i + 1)) = lenList (cs.take i) + c.len := by
  rw [List.take_add_one, h, lenList_append]
  simp [lenList]

theorem lenList_take_le (cs : List (Node α κ)) (i j : Nat) (h : i ≤ j) :
    lenList (cs.take i) ≤ lenList (cs.take j) := by
  have : cs.take j = cs.take i ++ (cs.take j).drop i := by
    have := List.take_append_drop i (cs.take j)
    rw [List.take_take, Nat.min_eq_left h] at this
    exact this.symm
  rw [this, lenList_append]
  omega

theorem lenList_take_len (cs : List (Node α κ)) (i : Nat) : lenList (cs.take i) ≤ lenList cs := by
  have := List.take_append_drop i cs
  rw [← this, lenList_append, this]
  omega

theorem len_eq (n : Node α κ) (h : ∀ l, n ≠ tok l) : n.len = lenList n.children := by
  cases n with
  | tok l => exact absurd rfl (h l)
  | attr a cs => rfl
  | node k cs => rfl

theorem len_of_child (n : Node α κ) (i : Nat) (c : Node α κ) (h : n.children[i]? = some c) :
    n.len = lenList n.children := by
  cases n with
  | tok l => simp [children] at h
  | attr a cs => rfl
  | node k cs => rfl

/-- A descendant lies inside its ancestor. -/
theorem rangeAt_inside (n : Node α κ) (p : List Nat) (off s l : Nat)
    (h : n.rangeAt p off = some (s, l)) : off ≤ s ∧ s + l ≤ off + n.len := by
  induction p generalizing n off with
  | nil =>
    rw [rangeAt_nil] at h
    obtain ⟨rfl, rfl⟩ := Prod.mk.inj (Option.some.inj h)
    omega
  | cons i p ih =>
    rw [rangeAt_cons, Option.bind_eq_some_iff] at h
    obtain ⟨c, hc, h⟩ := h
    have := ih c _ h
    have h1 := len_of_child n i c hc
    have h2 := lenList_take_succ n.children i c hc
    have h3 := lenList_take_len n.children (i + 1)
    omega

/-- Elements that do not contain one another have disjoint ranges. -/
theorem rangeAt_disjoint (n : Node α κ) (p q : List Nat) (off s l t m : Nat)
    (hp : n.rangeAt p off = some (s, l)) (hq : n.rangeAt q off = some (t, m)) :
    p <+: q ∨ q <+: p ∨ s + l ≤ t ∨ t + m ≤ s := by
  induction p generalizing n off q with
  | nil => exact .inl List.nil_prefix
  | cons i p ih =>
    cases q with
    | nil => exact .inr (.inl List.nil_prefix)
    | cons j q =>
      rw [rangeAt_cons, Option.bind_eq_some_iff] at hp hq
      obtain ⟨c, hc, hp⟩ := hp
      obtain ⟨d, hd, hq⟩ := hq
      have b1 := rangeAt_inside c p _ _ _ hp
      have b2 := rangeAt_inside d q _ _ _ hq
      have e1 := lenList_take_succ n.children i c hc
      have e2 := lenList_take_succ n.children j d hd
      rcases Nat.lt_trichotomy i j with hij | rfl | hij
      · have := lenList_take_le n.children (i + 1) j hij
        exact .inr (.inr (.inl (by omega)))
      · rw [hc] at hd
        obtain rfl := Option.some.inj hd
        rcases ih c q _ hp hq with h | h | h | h
        · exact .inl (List.cons_prefix_cons.2 ⟨rfl, h⟩)
        · exact .inr (.inl (List.cons_prefix_cons.2 ⟨rfl, h⟩))
        · exact .inr (.inr (.inl h))
        · exact .inr (.inr (.inr h))
      · have := lenList_take_le n.children (j + 1) i hij
        exact .inr (.inr (.inr (by omega)))

theorem rangeAt_append (n : Node α κ) (p q : List Nat) (off s l : Nat)
    (h : n.rangeAt (p ++ q) off = some (s, l)) :
    ∃ t m, n.rangeAt p off = some (t, m) ∧ t ≤ s ∧ s + l ≤ t + m := by
  induction p generalizing n off with
  | nil =>
    have := rangeAt_inside n q off s l h
    exact ⟨off, n.len, rangeAt_nil n off, this.1, this.2⟩
  | cons i p ih =>
    rw [List.cons_append, rangeAt_cons, Option.bind_eq_some_iff] at h
    obtain ⟨c, hc, h⟩ := h
    obtain ⟨t, m, h1, h2⟩ := ih c _ h
    refine ⟨t, m, ?_, h2⟩
    rw [rangeAt_cons, hc]
    exact h1

theorem coverList_cases (s e : Nat) (cs : List (Node α κ)) (i off : Nat) :
    (coverList s e cs i off = [] ∧ ∀ (k : Nat) (c : Node α κ), cs[k]? = some c →
      ¬ (off + lenList (cs.take k) ≤ s ∧ e ≤ off + lenList (cs.take k) + c.len)) ∨
    ∃ k c, cs[k]? = some c ∧
      (off + lenList (cs.take k) ≤ s ∧ e ≤ off + lenList (cs.take k) + c.len) ∧
      coverList s e cs i off = (i + k) :: coverPath s e c (off + lenList (cs.take k)) := by
  induction cs generalizing i off with
  | nil => exact .inl ⟨by simp [coverList], by simp⟩
  | cons c cs ih =>
    rw [coverList]
    by_cases h : off ≤ s ∧ e ≤ off + c.len
    · rw [if_pos h]
      exact .inr ⟨0, c, rfl, by simpa [lenList] using h, by simp [lenList]⟩
    · rw [if_neg h]
      rcases ih (i + 1) (off + c.len) with ⟨h1, h2⟩ | ⟨k, d, hk, h1, h2⟩
      · refine .inl ⟨h1, fun k d hk => ?_⟩
        cases k with
        | zero =>
          obtain rfl : c = d := by simpa using hk
          simpa [lenList] using h
        | succ k =>
          have := h2 k d (by simpa using hk)
          simpa [lenList, Nat.add_assoc] using this
      · refine .inr ⟨k + 1, d, by simpa using hk, ?_, ?_⟩
        · simpa [lenList, Nat.add_assoc] using h1
        · rw [h2]
          simp [lenList, Nat.add_assoc, Nat.add_comm 1 k]

theorem coverPath_eq (s e : Nat) (n : Node α κ) (off : Nat) :
    coverPath s e n off = coverList s e n.children 0 off := by
  cases n <;> simp [coverPath, children, coverList]

/-- The covering element contains the range. -/
theorem cover_contains (s e : Nat) (n : Node α κ) (off : Nat) (h1 : off ≤ s)
    (h2 : e ≤ off + n.len) :
    ∃ st l, n.rangeAt (coverPath s e n off) off = some (st, l) ∧ st ≤ s ∧ e ≤ st + l := by
  rw [coverPath_eq]
  rcases coverList_cases s e n.children 0 off with ⟨h, _⟩ | ⟨k, c, hk, hc, h⟩
  · rw [h]
    exact ⟨off, n.len, rangeAt_nil n off, h1, h2⟩
  · rw [h, Nat.zero_add, rangeAt_cons, hk]
    exact cover_contains s e c _ hc.1 hc.2
termination_by sizeOf n
decreasing_by
  have := List.mem_of_getElem? hk
  have h3 := List.sizeOf_lt_of_mem this
  cases n <;> simp [children] at * <;> omega

/-- Every element that contains the (non-empty) range is around the covering element. -/
theorem cover_prefix (s e : Nat) (hse : s < e) (n : Node α κ) (off : Nat) (q : List Nat)
    (st l : Nat) (hq : n.rangeAt q off = some (st, l)) (h1 : st ≤ s) (h2 : e ≤ st + l) :
    q <+: coverPath s e n off := by
  cases q with
  | nil => exact List.nil_prefix
  | cons j q =>
    rw [rangeAt_cons, Option.bind_eq_some_iff] at hq
    obtain ⟨d, hd, hq⟩ := hq
    have b := rangeAt_inside d q _ _ _ hq
    rw [coverPath_eq]
    rcases coverList_cases s e n.children 0 off with ⟨_, hno⟩ | ⟨k, c, hk, hc, h⟩
    · exact absurd ⟨by omega, by omega⟩ (hno j d hd)
    · have e1 := lenList_take_succ n.children j d hd
      have e2 := lenList_take_succ n.children k c hk
      have hjk : j = k := by
        rcases Nat.lt_trichotomy j k with hij | h | hij
        · have := lenList_take_le n.children (j + 1) k hij
          omega
        · exact h
        · have := lenList_take_le n.children (k + 1) j hij
          omega
      subst hjk
      rw [hd] at hk
      obtain rfl := Option.some.inj hk
      rw [h, Nat.zero_add]
      exact List.cons_prefix_cons.2 ⟨rfl, cover_prefix s e hse d _ q st l hq h1 h2⟩
termination_by sizeOf n
decreasing_by
  have := List.mem_of_getElem? hd
  have h3 := List.sizeOf_lt_of_mem this
  cases n <;> simp [children] at * <;> omega

theorem tokens_eq (n : Node α κ) (path : List Nat) (off : Nat) (h : ∀ l, n ≠ tok l) :
    tokens n path off = tokensList n.children path 0 off := by
  cases n with
  | tok l => exact absurd rfl (h l)
  | attr a cs => simp [tokens, children]
  | node k cs => simp [tokens, children]

theorem mem_tokensList (cs : List (Node α κ)) (path : List Nat) (i off : Nat)
    (t : List Nat × Nat × Nat) :
    t ∈ tokensList cs path i off ↔ ∃ k c, cs[k]? = some c ∧
      t ∈ tokens c (path ++ [i + k]) (off + lenList (cs.take k)) := by
  induction cs generalizing i off with
  | nil => simp [tokensList]
  | cons c cs ih =>
    rw [tokensList, List.mem_append, ih]
    constructor
    · rintro (h | ⟨k, d, hk, h⟩)
      · exact ⟨0, c, rfl, by simpa [lenList] using h⟩
      · refine ⟨k + 1, d, by simpa using hk, ?_⟩
        rw [show i + (k + 1) = i + 1 + k by omega]
        simpa [lenList, Nat.add_assoc] using h
    · rintro ⟨k, d, hk, h⟩
      cases k with
      | zero =>
        obtain rfl : c = d := by simpa using hk
        exact .inl (by simpa [lenList] using h)
      | succ k =>
        refine .inr ⟨k, d, by simpa using hk, ?_⟩
        rw [show i + 1 + k = i + (k + 1) by omega]
        simpa [lenList, Nat.add_assoc] using h

/-- The tokens are the token nodes with their text ranges. -/
theorem mem_tokens (n : Node α κ) (path : List Nat) (off : Nat) (t : List Nat × Nat × Nat) :
    t ∈ tokens n path off ↔ ∃ p, t.1 = path ++ p ∧ n.at? p = some (tok t.2.2) ∧
      n.rangeAt p off = some t.2 := by
  match n with
  | tok l =>
    rw [tokens, List.mem_singleton]
    constructor
    · rintro rfl
      exact ⟨[], by simp, rfl, rfl⟩
    · rintro ⟨p, h1, h2, h3⟩
      cases p with
      | nil =>
        have h3 := Option.some.inj h3
        obtain ⟨a, b, c⟩ := t
        simp only [List.append_nil] at h1
        subst h1
        obtain ⟨rfl, rfl⟩ := Prod.mk.inj h3
        rfl
      | cons i p => simp [at?, children] at h2
  | attr a cs =>
    rw [tokens_eq _ _ _ (by simp), mem_tokensList]
    exact tokens_children (attr a cs) path off t fun c hc p o => mem_tokens c p o t
  | node k cs =>
    rw [tokens_eq _ _ _ (by simp), mem_tokensList]
    exact tokens_children (node k cs) path off t fun c hc p o => mem_tokens c p o t
termination_by sizeOf n
decreasing_by
  all_goals
    simp only [children] at hc
    have := List.sizeOf_lt_of_mem hc
    simp
    omega
where
  tokens_children (n : Node α κ) (path : List Nat) (off : Nat) (t : List Nat × Nat × Nat)
      (ih : ∀ c ∈ n.children, ∀ path off, t ∈ tokens c path off ↔
        ∃ p, t.1 = path ++ p ∧ c.at? p = some (tok t.2.2) ∧ c.rangeAt p off = some t.2)
      (hn : ∀ l, n ≠ tok l := by simp) :
      (∃ k c, n.children[k]? = some c ∧
        t ∈ tokens c (path ++ [0 + k]) (off + lenList (n.children.take k))) ↔
      ∃ p, t.1 = path ++ p ∧ n.at? p = some (tok t.2.2) ∧ n.rangeAt p off = some t.2 := by
    constructor
    · rintro ⟨k, c, hk, h⟩
      obtain ⟨p, h1, h2, h3⟩ := (ih c (List.mem_of_getElem? hk) _ _).1 h
      refine ⟨k :: p, by simpa using h1, ?_, ?_⟩
      · rw [at?_cons, hk]; exact h2
      · rw [rangeAt_cons, hk]; exact h3
    · rintro ⟨p, h1, h2, h3⟩
      cases p with
      | nil =>
        simp only [at?, Option.some.injEq] at h2
        exact absurd h2 (hn _)
      | cons k p =>
        rw [at?_cons, Option.bind_eq_some_iff] at h2
        obtain ⟨c, hk, h2⟩ := h2
        rw [rangeAt_cons, hk] at h3
        exact ⟨k, c, hk, (ih c (List.mem_of_getElem? hk) _ _).2 ⟨p, by simpa using h1, h2, h3⟩⟩

/-- An offset in a non-empty tree touches a token. -/
theorem exists_token (n : Node α κ) (off o : Nat) (h0 : 0 < n.len) (h1 : off ≤ o)
    (h2 : o ≤ off + n.len) :
    ∃ p st l, n.at? p = some (tok l) ∧ n.rangeAt p off = some (st, l) ∧ 0 < l ∧ st ≤ o ∧
      o ≤ st + l := by
  by_cases hn : ∃ l, n = tok l
  · obtain ⟨l, rfl⟩ := hn
    exact ⟨[], off, l, rfl, rangeAt_nil _ _, h0, h1, h2⟩
  · have hlen := len_eq n fun l hl => hn ⟨l, hl⟩
    have key : ∀ (cs : List (Node α κ)) (off : Nat), 0 < lenList cs → off ≤ o →
        o ≤ off + lenList cs → ∃ k c, cs[k]? = some c ∧ 0 < c.len ∧
          off + lenList (cs.take k) ≤ o ∧ o ≤ off + lenList (cs.take k) + c.len := by
      intro cs
      induction cs with
      | nil => intro off h; simp [lenList] at h
      | cons c cs ih =>
        intro off h0 h1 h2
        rw [lenList] at h0 h2
        by_cases hc : 0 < c.len ∧ o ≤ off + c.len
        · exact ⟨0, c, rfl, hc.1, by simpa [lenList] using h1, by simpa [lenList] using hc.2⟩
        · obtain ⟨k, d, hk, h3, h4, h5⟩ := ih (off + c.len) (by omega) (by omega) (by omega)
          refine ⟨k + 1, d, by simpa using hk, h3, ?_, ?_⟩
          · simpa [lenList, Nat.add_assoc] using h4
          · simpa [lenList, Nat.add_assoc] using h5
    obtain ⟨k, c, hk, h3, h4, h5⟩ := key n.children off (by omega) h1 (by omega)
    obtain ⟨p, st, l, i1, i2, i3⟩ := exists_token c (off + lenList (n.children.take k)) o h3 h4 h5
    refine ⟨k :: p, st, l, ?_, ?_, i3⟩
    · rw [at?_cons, hk]; exact i1
    · rw [rangeAt_cons, hk]; exact i2
termination_by sizeOf n
decreasing_by
  have := List.mem_of_getElem? hk
  have h3 := List.sizeOf_lt_of_mem this
  cases n <;> simp [children] at * <;> omega

/-- The focused token touches the offset. -/
theorem focused_touches (trivia : List Nat → Bool) (root : Node α κ) (o : Nat) (p : List Nat)
    (h : focusedToken trivia root o = some p) :
    ∃ st l, root.at? p = some (tok l) ∧ root.rangeAt p 0 = some (st, l) ∧ 0 < l ∧ st ≤ o ∧
      o ≤ st + l := by
  have key : ∃ t ∈ root.touching o, t.1 = p := by
    unfold focusedToken at h
    cases ht : root.touching o with
    | nil => rw [ht] at h; cases h
    | cons a l =>
      rw [ht] at h
      cases l with
      | nil => exact ⟨a, by simp, Option.some.inj h⟩
      | cons b l =>
        simp only at h
        split at h
        · exact ⟨b, by simp, Option.some.inj h⟩
        · exact ⟨a, by simp, Option.some.inj h⟩
  obtain ⟨t, ht, rfl⟩ := key
  unfold touching at ht
  rw [List.mem_filter, mem_tokens, decide_eq_true_eq] at ht
  obtain ⟨⟨p, h1, h2, h3⟩, h4⟩ := ht
  rw [List.nil_append] at h1
  rw [h1]
  exact ⟨t.2.1, t.2.2, h2, h3, h4⟩

theorem focused_exists (trivia : List Nat → Bool) (root : Node α κ) (o : Nat)
    (h0 : 0 < root.len) (h : o ≤ root.len) : ∃ p, focusedToken trivia root o = some p := by
  obtain ⟨p, st, l, h1, h2, h3, h4, h5⟩ := exists_token root 0 o h0 (Nat.zero_le _) (by omega)
  have hm : (p, st, l) ∈ root.touching o := by
    unfold touching
    rw [List.mem_filter, mem_tokens, decide_eq_true_eq]
    exact ⟨⟨p, rfl, h1, h2⟩, h3, h4, h5⟩
  unfold focusedToken
  cases ht : root.touching o with
  | nil => rw [ht] at hm; cases hm
  | cons a l =>
    cases l with
    | nil => exact ⟨_, rfl⟩
    | cons b l =>
      simp only
      split
      · exact ⟨_, rfl⟩
      · exact ⟨_, rfl⟩

/-- The closest attribute is an attribute around the element, and inside every other one. -/
theorem closestAttr_spec (root : Node α κ) (p q : List Nat) (h : root.closestAttr p = some q) :
    root.isAttrAt q = true ∧ q <+: p ∧ ∀ r, r <+: p → root.isAttrAt r = true → r <+: q := by
  unfold closestAttr at h
  have hq := List.find?_some h
  have hm := List.mem_of_find?_eq_some h
  rw [mem_ancestorPaths, List.reverse_reverse] at hm
  refine ⟨hq, hm, fun r hr ha => ?_⟩
  rcases List.prefix_or_prefix_of_prefix hr hm with h1 | h1
  · exact h1
  · -- `q` is longer than every attribute found later
    have key : ∀ (rp : List Nat), (ancestorPaths rp).find? root.isAttrAt = some q →
        ∀ r, r <+: rp.reverse → root.isAttrAt r = true → r.length ≤ q.length := by
      intro rp
      induction rp with
      | nil =>
        intro h r hr _
        simp at hr
        simp [hr]
      | cons i rp ih =>
        intro h r hr ha
        rw [ancestorPaths, List.find?_cons] at h
        split at h
        · obtain rfl := Option.some.inj h
          exact hr.length_le
        · rename_i hf
          refine ih h r ?_ ha
          rw [List.reverse_cons] at hr
          rcases List.prefix_concat_iff.1 (by simpa [List.concat_eq_append] using hr) with h' | h'
          · exfalso
            rw [h'] at ha
            simp only [List.reverse_cons] at hf
            rw [ha] at hf
            cases hf
          · exact h'
    have hl := key p.reverse h r (by simpa using hr) ha
    rw [h1.eq_of_length_le hl]
    exact List.prefix_rfl

theorem closestAttr_exists (root : Node α κ) (p r : List Nat) (h : r <+: p)
    (ha : root.isAttrAt r = true) : ∃ q, root.closestAttr p = some q := by
  unfold closestAttr
  cases hf : (ancestorPaths p.reverse).find? root.isAttrAt with
  | some q => exact ⟨q, rfl⟩
  | none =>
    rw [List.find?_eq_none] at hf
    exact absurd ha (hf r ((mem_ancestorPaths _ _).2 (by simpa using h)))

theorem contains_of_prefix (root : Node α κ) (p q : List Nat) (st l : Nat)
    (h : root.rangeAt p 0 = some (st, l)) (hq : q <+: p) (s e : Nat) (h1 : st ≤ s)
    (h2 : e ≤ st + l) : root.ContainsAt q s e := by
  obtain ⟨r, rfl⟩ := hq
  obtain ⟨t, m, i1, i2, i3⟩ := rangeAt_append root q r 0 st l h
  exact ⟨t, m, i1, by omega, by omega⟩

mutual

theorem tokens_bounds : ∀ (n : Node α κ) (path : List Nat) (off : Nat),
    (∀ t ∈ tokens n path off, off ≤ t.2.1 ∧ t.2.1 + t.2.2 ≤ off + n.len) ∧
      (tokens n path off).Pairwise fun a b => a.2.1 + a.2.2 ≤ b.2.1
  | tok l, path, off => by
    refine ⟨?_, by simp [tokens]⟩
    intro t ht
    rw [tokens, List.mem_singleton] at ht
    subst ht
    simp [len]
  | attr _ cs, path, off => by
    rw [tokens, len]
    exact tokensList_bounds cs path 0 off
  | node _ cs, path, off => by
    rw [tokens, len]
    exact tokensList_bounds cs path 0 off

theorem tokensList_bounds : ∀ (cs : List (Node α κ)) (path : List Nat) (i off : Nat),
    (∀ t ∈ tokensList cs path i off, off ≤ t.2.1 ∧ t.2.1 + t.2.2 ≤ off + lenList cs) ∧
      (tokensList cs path i off).Pairwise fun a b => a.2.1 + a.2.2 ≤ b.2.1
  | [], _, _, _ => by simp [tokensList]
  | c :: cs, path, i, off => by
    obtain ⟨h1, h2⟩ := tokens_bounds c (path ++ [i]) off
    obtain ⟨h3, h4⟩ := tokensList_bounds cs path (i + 1) (off + c.len)
    rw [tokensList, lenList]
    refine ⟨?_, List.pairwise_append.2 ⟨h2, h4, ?_⟩⟩
    · intro t ht
      rcases List.mem_append.1 ht with ht | ht
      · have := h1 t ht
        omega
      · have := h3 t ht
        omega
    · intro a ha b hb
      have := h1 a ha
      have := h3 b hb
      omega

end

/-- The token at the path `p` occupies `[st, st + l)`. -/
def TokenAt (root : Node α κ) (p : List Nat) (st l : Nat) : Prop :=
  root.at? p = some (tok l) ∧ root.rangeAt p 0 = some (st, l) ∧ 0 < l

theorem touching_facts (root : Node α κ) (o : Nat) :
    (root.touching o).Pairwise (fun a b => a.2.1 + a.2.2 ≤ b.2.1) ∧
    (∀ t ∈ root.touching o, 0 < t.2.2 ∧ t.2.1 ≤ o ∧ o ≤ t.2.1 + t.2.2) ∧
    ∀ p st l, root.TokenAt p st l → st ≤ o → o ≤ st + l → (p, st, l) ∈ root.touching o := by
  unfold touching
  refine ⟨(tokens_bounds root [] 0).2.filter _, ?_, ?_⟩
  · intro t ht
    simpa using (List.mem_filter.1 ht).2
  · intro p st l ⟨h1, h2, h3⟩ h4 h5
    rw [List.mem_filter, mem_tokens, decide_eq_true_eq]
    exact ⟨⟨p, rfl, h1, h2⟩, h3, h4, h5⟩

/-- At an offset inside a token, that token is focused. -/
theorem focus_inside (trivia : List Nat → Bool) (root : Node α κ) (o : Nat) (p : List Nat)
    (st l : Nat) (h : root.TokenAt p st l) (h1 : st < o) (h2 : o < st + l) :
    focusedToken trivia root o = some p := by
  obtain ⟨hs, ht, hm⟩ := touching_facts root o
  have hx := hm p st l h (by omega) (by omega)
  obtain ⟨A, B, he⟩ := List.append_of_mem hx
  rw [he] at hs ht
  have hA : A = [] := by
    cases A with
    | nil => rfl
    | cons a A =>
      have e1 := (List.pairwise_append.1 hs).2.2 a (by simp) _ (List.mem_cons_self ..)
      have e2 := ht a (by simp)
      simp only at e1
      omega
  have hB : B = [] := by
    cases B with
    | nil => rfl
    | cons b B =>
      have e1 := (List.pairwise_cons.1 (List.pairwise_append.1 hs).2.1).1 b (by simp)
      have e2 := ht b (by simp)
      simp only at e1
      omega
  subst hA hB
  unfold focusedToken
  rw [he]
  rfl

/-- At an offset between two tokens, the left one is focused unless it is white space or a comment
and the right one is not. -/
theorem focus_between (trivia : List Nat → Bool) (root : Node α κ) (o : Nat) (p q : List Nat)
    (st l l' : Nat) (h : root.TokenAt p st l) (h' : root.TokenAt q o l') (h1 : st + l = o) :
    (trivia p = true ∧ trivia q = false → focusedToken trivia root o = some q) ∧
    (¬ (trivia p = true ∧ trivia q = false) → focusedToken trivia root o = some p) := by
  obtain ⟨hs, ht, hm⟩ := touching_facts root o
  have hx := hm p st l h (by omega) (by omega)
  have hy := hm q o l' h' (by omega) (by omega)
  have hl := h.2.2
  obtain ⟨A, B, he⟩ := List.append_of_mem hx
  rw [he] at hs ht hy
  have hA : A = [] := by
    cases A with
    | nil => rfl
    | cons a A =>
      have e1 := (List.pairwise_append.1 hs).2.2 a (by simp) _ (List.mem_cons_self ..)
      have e2 := ht a (by simp)
      simp only at e1
      omega
  subst hA
  rw [List.nil_append] at hs ht hy he
  rcases List.mem_cons.1 hy with hy | hy
  · simp only [Prod.mk.injEq] at hy
    omega
  · obtain ⟨C, D, hD⟩ := List.append_of_mem hy
    subst hD
    have hC : C = [] := by
      cases C with
      | nil => rfl
      | cons c C =>
        have e0 := (List.pairwise_cons.1 hs).1 c (by simp)
        have e1 := (List.pairwise_append.1 (List.pairwise_cons.1 hs).2).2.2 c (by simp) _
          (List.mem_cons_self ..)
        have e2 := ht c (by simp)
        simp only at e0 e1
        omega
    subst hC
    rw [List.nil_append] at he
    unfold focusedToken
    rw [he]
    simp only
    cases trivia p <;> cases trivia q <;> simp

/-- The token which an offset is at: the one around it, or of the two tokens which meet there the
left one, unless that is white space or a comment and the right one is not. -/
inductive Focus (trivia : List Nat → Bool) (root : Node α κ) (o : Nat) : List Nat → Prop
  | inside (p st l) : root.TokenAt p st l → st < o → o < st + l → Focus trivia root o p
  | left (p q st l l') : root.TokenAt p st l → root.TokenAt q o l' → st + l = o →
      ¬ (trivia p = true ∧ trivia q = false) → Focus trivia root o p
  | right (p q st l l') : root.TokenAt p st l → root.TokenAt q o l' → st + l = o →
      trivia p = true → trivia q = false → Focus trivia root o q
  | first (p l) : root.TokenAt p 0 l → o = 0 → Focus trivia root o p
  | last (p st l) : root.TokenAt p st l → st + l = o → root.len = o → Focus trivia root o p

theorem focus_first (trivia : List Nat → Bool) (root : Node α κ) (p : List Nat) (l : Nat)
    (h : root.TokenAt p 0 l) : focusedToken trivia root 0 = some p := by
  obtain ⟨hs, ht, hm⟩ := touching_facts root 0
  have hx := hm p 0 l h (by omega) (by omega)
  obtain ⟨A, B, he⟩ := List.append_of_mem hx
  rw [he] at hs ht
  have hl := h.2.2
  have hA : A = [] := by
    cases A with
    | nil => rfl
    | cons a A =>
      have e1 := (List.pairwise_append.1 hs).2.2 a (by simp) _ (List.mem_cons_self ..)
      have e2 := ht a (by simp)
      simp only at e1
      omega
  have hB : B = [] := by
    cases B with
    | nil => rfl
    | cons b B =>
      have e1 := (List.pairwise_cons.1 (List.pairwise_append.1 hs).2.1).1 b (by simp)
      have e2 := ht b (by simp)
      simp only at e1
      omega
  subst hA hB
  unfold focusedToken
  rw [he]
  rfl

theorem focus_last (trivia : List Nat → Bool) (root : Node α κ) (p : List Nat) (st l : Nat)
    (h : root.TokenAt p st l) (he : st + l = root.len) :
    focusedToken trivia root root.len = some p := by
  obtain ⟨hs, ht, hm⟩ := touching_facts root root.len
  have hx := hm p st l h (by omega) (by omega)
  have hall : ∀ t ∈ root.touching root.len, t.2.1 + t.2.2 ≤ root.len := by
    intro t ht
    have := (tokens_bounds root [] 0).1 t (List.mem_filter.1 ht).1
    omega
  obtain ⟨A, B, he⟩ := List.append_of_mem hx
  rw [he] at hs ht hall
  have hl := h.2.2
  have hA : A = [] := by
    cases A with
    | nil => rfl
    | cons a A =>
      have e1 := (List.pairwise_append.1 hs).2.2 a (by simp) _ (List.mem_cons_self ..)
      have e2 := ht a (by simp)
      simp only at e1
      omega
  have hB : B = [] := by
    cases B with
    | nil => rfl
    | cons b B =>
      have e1 := (List.pairwise_cons.1 (List.pairwise_append.1 hs).2.1).1 b (by simp)
      have e2 := ht b (by simp)
      have e3 := hall b (by simp)
      simp only at e1
      omega
  subst hA hB
  unfold focusedToken
  rw [he]
  rfl

/-- The focused token is the token which the offset is at. -/
theorem focused_of_focus (trivia : List Nat → Bool) (root : Node α κ) (o : Nat) (p : List Nat)
    (h : Focus trivia root o p) : focusedToken trivia root o = some p := by
  cases h with
  | inside p st l h h1 h2 => exact focus_inside trivia root o _ st l h h1 h2
  | left p q st l l' h h' h1 h2 => exact (focus_between trivia root o _ q st l l' h h' h1).2 h2
  | right p q st l l' h h' h1 h2 h3 =>
    exact (focus_between trivia root o p _ st l l' h h' h1).1 ⟨h2, h3⟩
  | first p l h h1 =>
    subst h1
    exact focus_first trivia root _ l h
  | last p st l h h1 h2 =>
    subst h2
    exact focus_last trivia root _ st l h h1

/-- Whatever attribute is found contains the range. -/
theorem covering_contains (trivia : List Nat → Bool) (root : Node α κ) (s e : Nat) (hse : s ≤ e)
    (q : List Nat) (h : coveringAttr trivia root s e = some (some q)) :
    root.isAttrAt q = true ∧ root.ContainsAt q s e := by
  unfold coveringAttr at h
  split at h
  · rename_i heq
    subst heq
    split at h
    · cases h
    · have h := Option.some.inj h
      rw [Option.bind_eq_some_iff] at h
      obtain ⟨p, hp, h⟩ := h
      obtain ⟨st, l, _, h2, _, h4, h5⟩ := focused_touches trivia root s p hp
      obtain ⟨i1, i2, _⟩ := closestAttr_spec root p q h
      exact ⟨i1, contains_of_prefix root p q st l h2 i2 s s h4 h5⟩
  · split at h
    · rename_i hle
      have h := Option.some.inj h
      obtain ⟨st, l, h2, h3, h4⟩ := cover_contains s e root 0 (Nat.zero_le _) (by omega)
      obtain ⟨i1, i2, _⟩ := closestAttr_spec root _ q h
      exact ⟨i1, contains_of_prefix root _ q st l h2 i2 s e h3 h4⟩
    · cases h

/-- For a non-empty range, the attribute found is the innermost one that contains the range. -/
theorem covering_range (trivia : List Nat → Bool) (root : Node α κ) (s e : Nat) (hse : s < e)
    (q : List Nat) (hq : root.isAttrAt q = true) (hc : root.ContainsAt q s e)
    (hin : ∀ r, root.isAttrAt r = true → root.ContainsAt r s e → r <+: q) :
    coveringAttr trivia root s e = some (some q) := by
  obtain ⟨st, l, h1, h2, h3⟩ := hc
  have hb := rangeAt_inside root q 0 st l h1
  unfold coveringAttr
  rw [if_neg (by omega), if_pos (by omega)]
  have hp := cover_prefix s e hse root 0 q st l h1 h2 h3
  obtain ⟨q', hq'⟩ := closestAttr_exists root _ q hp hq
  obtain ⟨i1, i2, i3⟩ := closestAttr_spec root _ q' hq'
  obtain ⟨t, m, j1, j2, j3⟩ := cover_contains s e root 0 (Nat.zero_le _) (by omega)
  have hq2 := hin q' i1 (contains_of_prefix root _ q' t m j1 i2 s e j2 j3)
  have := (i3 q hp hq).eq_of_length_le hq2.length_le
  rw [hq', this]

/-- For an offset strictly inside an attribute, it is that attribute (unless another attribute
inside it touches the offset). -/
theorem covering_offset (trivia : List Nat → Bool) (root : Node α κ) (o : Nat)
    (q : List Nat) (hq : root.isAttrAt q = true) (st l : Nat)
    (hr : root.rangeAt q 0 = some (st, l)) (h1 : st < o) (h2 : o < st + l)
    (hin : ∀ r, root.isAttrAt r = true → root.ContainsAt r o o → r <+: q) :
    coveringAttr trivia root o o = some (some q) := by
  have hb := rangeAt_inside root q 0 st l hr
  unfold coveringAttr
  rw [if_pos rfl, if_neg (by omega)]
  obtain ⟨p, hp⟩ := focused_exists trivia root o (by omega) (by omega)
  obtain ⟨t, m, j0, j1, j2, j3, j4⟩ := focused_touches trivia root o p hp
  have hqp : q <+: p := by
    rcases rangeAt_disjoint root q p 0 st l t m hr j1 with h | h | h | h
    · exact h
    · -- a token has nothing below it
      obtain ⟨r, rfl⟩ := h
      cases r with
      | nil => simp
      | cons i r =>
        exfalso
        unfold isAttrAt at hq
        rw [at?_append, j0] at hq
        simp [at?, children] at hq
    · omega
    · omega
  obtain ⟨q', hq'⟩ := closestAttr_exists root p q hqp hq
  obtain ⟨i1, i2, i3⟩ := closestAttr_spec root p q' hq'
  have hq2 := hin q' i1 (contains_of_prefix root p q' t m j1 i2 o o j3 j4)
  have := (i3 q hqp hq).eq_of_length_le hq2.length_le
  rw [hp, Option.bind_some, hq', this]

/-- For an offset it is the innermost attribute around the token which the offset is at. -/
theorem covering_focus (trivia : List Nat → Bool) (root : Node α κ) (o : Nat) (f q : List Nat)
    (hf : Focus trivia root o f) (hq : root.isAttrAt q = true) (hqf : q <+: f)
    (hin : ∀ r, root.isAttrAt r = true → r <+: f → r <+: q) :
    coveringAttr trivia root o o = some (some q) := by
  have hp := focused_of_focus trivia root o f hf
  obtain ⟨t, m, j0, j1, j2, j3, j4⟩ := focused_touches trivia root o f hp
  have hb := rangeAt_inside root f 0 t m j1
  unfold coveringAttr
  rw [if_pos rfl, if_neg (by omega)]
  obtain ⟨q', hq'⟩ := closestAttr_exists root f q hqf hq
  obtain ⟨i1, i2, i3⟩ := closestAttr_spec root f q' hq'
  have := (i3 q hqf hq).eq_of_length_le (hin q' i1 i2).length_le
  rw [hp, Option.bind_some, hq', this]

end Verif.Ir.Node
