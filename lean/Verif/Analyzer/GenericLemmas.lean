import Verif.Analyzer.Generic
import Verif.Analyzer.MissingLemmas
import Verif.Analyzer.HeaderFixProps

/-!
# Lemmas on the ink! attributes of a file and the nodes that they annotate

The specification of C101 is at the start: `InkAttr`, `Right` and, for what is visited, `Walk.Placed`
of C84.
-/

namespace Verif.Analyzer.Generic

open Verif.Ir Verif.Ir.Token Verif.Analyzer.Move Verif.Analyzer.Missing

variable {R : Type}

/-! ## Specification -/

/-- The node at `q` is an ink! attribute of kind `k`. -/
def InkAttr (root : Src) (q : List Nat) (k : AttrKind) : Prop :=
  kindAt root q = some (.attr (some k))

/-- Attributes have text and contain no other attributes. -/
def PlainAttrs (root : Src) : Prop :=
  ∀ q a cs, root.at? q = some (.node (.attr a) cs) → texts cs ≠ [] ∧
    ∀ r b, r ≠ [] → kindAt root (q ++ r) ≠ some (.attr b)

/-- The items that the ink! documentation has for an attribute. -/
def rightItems : List (AttrKind × List IKind) :=
  [(.macro .contract, [.module]),
   (.macro .traitDefinition, [.trait]), (.macro .chainExtension, [.trait]),
   (.macro .storageItem, [.struct, .enum, .union]), (.macro .event, [.struct]),
   (.macro .test, [.fn]), (.macro .e2eTest, [.fn]),
   (.arg .storage, [.struct]), (.arg .event, [.struct]),
   (.arg .constructor, [.fn]), (.arg .message, [.fn]),
   (.arg .extension, [.fn]), (.arg .function, [.fn]),
   (.arg .impl, [.impl false, .impl true])]

/-- The node is an item that the attribute is for. -/
def Right (root : Src) (k : AttrKind) (p : List Nat) : Prop :=
  ∃ is i, (k, is) ∈ rightItems ∧ i ∈ is ∧ kindAt root p = some (.item i)

/-! ## Attributes in scope -/

theorem isInk_iff (root : Src) (q : List Nat) : isInk (kindAt root q) = true ↔ ∃ k, InkAttr root q k := by
  unfold InkAttr
  cases kindAt root q with
  | none => simp [isInk]
  | some k =>
    cases k with
    | attr a => cases a <;> simp [isInk]
    | _ => simp [isInk]

theorem kindAt_child (n : Src) (i : Nat) (r : List Nat) :
    kindAt n (i :: r) = (n.children[i]?).bind fun c => kindAt c r := by
  unfold kindAt
  rw [Src.at?, Option.bind_assoc]

theorem mem_ownAttrs (root : Src) (p q : List Nat) :
    q ∈ ownAttrs root p ↔ ∃ i k, q = p ++ [i] ∧ InkAttr root q k := by
  unfold ownAttrs
  cases h : root.at? p with
  | none =>
    simp only [List.not_mem_nil, false_iff]
    rintro ⟨i, k, rfl, hk⟩
    unfold InkAttr kindAt at hk
    rw [at_append, h] at hk
    cases hk
  | some n =>
    simp only [List.mem_filter, List.mem_map, List.mem_range, isInk_iff]
    constructor
    · rintro ⟨⟨i, -, rfl⟩, k, hk⟩
      exact ⟨i, k, rfl, hk⟩
    · rintro ⟨i, k, rfl, hk⟩
      refine ⟨⟨i, ?_, rfl⟩, k, hk⟩
      have hk' := hk
      unfold InkAttr at hk'
      rw [kindAt_append root n p [i] h, kindAt_child] at hk'
      cases hc : n.children[i]? with
      | none => rw [hc] at hk'; cases hk'
      | some c => exact (List.getElem?_eq_some_iff.1 hc).1

theorem ownAttrs_nodup (root : Src) (p : List Nat) : (ownAttrs root p).Nodup := by
  unfold ownAttrs
  cases root.at? p with
  | none => exact List.nodup_nil
  | some n =>
    refine List.Pairwise.sublist (List.filter_sublist) ?_
    rw [List.pairwise_map]
    refine List.Pairwise.imp ?_ List.nodup_range
    intro a b h h'
    simp at h'
    exact h h'

mutual

theorem mem_attrsFrom (p : List Nat) (n : Src) (q : List Nat) :
    q ∈ attrsFrom p n ↔ ∃ r k, q = p ++ r ∧ InkAttr n r k := by
  cases n with
  | tok w t =>
    simp only [attrsFrom, List.not_mem_nil, false_iff]
    rintro ⟨r, k, -, hk⟩
    unfold InkAttr kindAt at hk
    cases r with
    | nil => simp [Src.at?, Src.kind?] at hk
    | cons i r => simp [Src.at?, Src.children] at hk
  | node kd cs =>
    rw [attrsFrom, List.mem_append, mem_attrsFromAll p 0 cs q]
    have h0 : q ∈ (if isInk (some kd) then [p] else []) ↔ q = p ∧ ∃ k, kd = .attr (some k) := by
      cases kd with
      | attr a => cases a <;> simp [isInk]
      | _ => simp [isInk]
    rw [h0]
    constructor
    · rintro (⟨rfl, k, rfl⟩ | ⟨i, c, r, k, hc, rfl, hk⟩)
      · exact ⟨[], k, by simp, rfl⟩
      · refine ⟨i :: r, k, by simp, ?_⟩
        unfold InkAttr
        rw [kindAt_child]
        change (cs[i]?).bind _ = _
        rw [hc]
        exact hk
    · rintro ⟨r, k, rfl, hk⟩
      cases r with
      | nil =>
        left
        refine ⟨by simp, k, ?_⟩
        unfold InkAttr kindAt at hk
        simpa [Src.at?, Src.kind?] using hk
      | cons i r =>
        right
        unfold InkAttr at hk
        rw [kindAt_child] at hk
        change (cs[i]?).bind _ = _ at hk
        obtain ⟨c, hc, hk⟩ := Option.bind_eq_some_iff.1 hk
        exact ⟨i, c, r, k, hc, by simp, hk⟩

theorem mem_attrsFromAll (p : List Nat) (j : Nat) (cs : List Src) (q : List Nat) :
    q ∈ attrsFromAll p j cs ↔ ∃ i c r k, cs[i]? = some c ∧ q = p ++ (j + i) :: r ∧ InkAttr c r k := by
  cases cs with
  | nil => simp [attrsFromAll]
  | cons c cs =>
    rw [attrsFromAll, List.mem_append, mem_attrsFrom (p ++ [j]) c q, mem_attrsFromAll p (j + 1) cs q]
    constructor
    · rintro (⟨r, k, rfl, hk⟩ | ⟨i, d, r, k, hd, rfl, hk⟩)
      · exact ⟨0, c, r, k, rfl, by simp, hk⟩
      · exact ⟨i + 1, d, r, k, by simpa using hd, by simp; omega, hk⟩
    · rintro ⟨i, d, r, k, hd, rfl, hk⟩
      cases i with
      | zero =>
        left
        cases hd
        exact ⟨r, k, by simp, hk⟩
      | succ i =>
        right
        exact ⟨i, d, r, k, by simpa using hd, by simp; omega, hk⟩

end

mutual

theorem attrsFrom_nodup (p : List Nat) (n : Src) : (attrsFrom p n).Nodup := by
  cases n with
  | tok w t => exact List.nodup_nil
  | node kd cs =>
    rw [attrsFrom]
    refine List.nodup_append.2 ⟨?_, attrsFromAll_nodup p 0 cs, ?_⟩
    · split <;> simp
    · intro a ha b hb hab
      subst hab
      obtain ⟨i, c, r, k, -, h, -⟩ := (mem_attrsFromAll p 0 cs a).1 hb
      split at ha
      · rw [List.mem_singleton] at ha
        rw [ha] at h
        have := congrArg List.length h
        simp at this
      · cases ha

theorem attrsFromAll_nodup (p : List Nat) (j : Nat) (cs : List Src) : (attrsFromAll p j cs).Nodup := by
  cases cs with
  | nil => exact List.nodup_nil
  | cons c cs =>
    rw [attrsFromAll]
    refine List.nodup_append.2 ⟨attrsFrom_nodup _ c, attrsFromAll_nodup p (j + 1) cs, ?_⟩
    intro a ha b hb hab
    subst hab
    obtain ⟨r, k, h, -⟩ := (mem_attrsFrom _ c a).1 ha
    obtain ⟨i, d, r', k', -, h', -⟩ := (mem_attrsFromAll p (j + 1) cs a).1 hb
    rw [h, List.append_assoc] at h'
    have := List.append_cancel_left h'
    simp only [List.singleton_append, List.cons.injEq] at this
    omega

end

theorem mem_attrsBelow (p : List Nat) (j : Nat) (cs : List Src) (q : List Nat) :
    q ∈ attrsBelow p j cs ↔
      ∃ i c r k, cs[i]? = some c ∧ isAttr c.kind? = false ∧ q = p ++ (j + i) :: r ∧ InkAttr c r k := by
  induction cs generalizing j with
  | nil => simp [attrsBelow]
  | cons c cs ih =>
    rw [attrsBelow, List.mem_append, ih]
    constructor
    · rintro (h | ⟨i, d, r, k, hd, ha, rfl, hk⟩)
      · split at h
        · cases h
        · rename_i ha
          obtain ⟨r, k, rfl, hk⟩ := (mem_attrsFrom _ c q).1 h
          exact ⟨0, c, r, k, rfl, by simpa using ha, by simp, hk⟩
      · exact ⟨i + 1, d, r, k, by simpa using hd, ha, by simp; omega, hk⟩
    · rintro ⟨i, d, r, k, hd, ha, rfl, hk⟩
      cases i with
      | zero =>
        left
        cases hd
        rw [if_neg (by simp [ha])]
        exact (mem_attrsFrom _ c _).2 ⟨r, k, by simp, hk⟩
      | succ i =>
        right
        exact ⟨i, d, r, k, by simpa using hd, ha, by simp; omega, hk⟩

theorem attrsBelow_nodup (p : List Nat) (j : Nat) (cs : List Src) : (attrsBelow p j cs).Nodup := by
  induction cs generalizing j with
  | nil => exact List.nodup_nil
  | cons c cs ih =>
    rw [attrsBelow]
    refine List.nodup_append.2 ⟨?_, ih (j + 1), ?_⟩
    · split
      · exact List.nodup_nil
      · exact attrsFrom_nodup _ c
    · intro a ha b hb hab
      subst hab
      split at ha
      · cases ha
      · obtain ⟨r, k, h, -⟩ := (mem_attrsFrom _ c a).1 ha
        obtain ⟨i, d, r', k', -, -, h', -⟩ := (mem_attrsBelow p (j + 1) cs a).1 hb
        rw [h, List.append_assoc] at h'
        have := List.append_cancel_left h'
        simp only [List.singleton_append, List.cons.injEq] at this
        omega

theorem isAttr_iff (k : Option NKind) : isAttr k = true ↔ ∃ a, k = some (.attr a) := by
  cases k with
  | none => simp [isAttr]
  | some k => cases k <;> simp [isAttr]

theorem mem_inScope (root : Src) (p q : List Nat) (hpl : PlainAttrs root) :
    q ∈ inScope root p ↔ (∃ k, InkAttr root q k) ∧ p <+: q ∧ q ≠ p := by
  unfold inScope
  rw [List.mem_append, mem_ownAttrs]
  constructor
  · rintro (⟨i, k, rfl, hk⟩ | h)
    · exact ⟨⟨k, hk⟩, List.prefix_append _ _, by simp⟩
    · cases hn : root.at? p with
      | none => rw [hn] at h; cases h
      | some n =>
        rw [hn] at h
        obtain ⟨i, c, r, k, hc, -, rfl, hk⟩ := (mem_attrsBelow p 0 _ q).1 h
        refine ⟨⟨k, ?_⟩, List.prefix_append _ _, by simp⟩
        unfold InkAttr
        rw [kindAt_append root n p _ hn, kindAt_child, Nat.zero_add, hc]
        exact hk
  · rintro ⟨⟨k, hk⟩, ⟨s, rfl⟩, hne⟩
    cases s with
    | nil => simp at hne
    | cons i r =>
      cases hn : root.at? p with
      | none =>
        unfold InkAttr kindAt at hk
        rw [at_append, hn] at hk
        cases hk
      | some n =>
        have hk' := hk
        unfold InkAttr at hk'
        rw [kindAt_append root n p _ hn, kindAt_child] at hk'
        obtain ⟨c, hc, hk'⟩ := Option.bind_eq_some_iff.1 hk'
        cases r with
        | nil => exact .inl ⟨i, k, rfl, hk⟩
        | cons i' r =>
          right
          refine (mem_attrsBelow p 0 _ _).2 ⟨i, c, i' :: r, k, hc, ?_, by simp, hk'⟩
          cases ha : isAttr c.kind? with
          | false => rfl
          | true =>
            exfalso
            obtain ⟨a, ha⟩ := (isAttr_iff _).1 ha
            cases c with
            | tok w t => cases ha
            | node kd ds =>
              cases ha
              have hat : root.at? (p ++ [i]) = some (.node (.attr a) ds) := by
                rw [at_append, hn]
                simp [Src.at?, hc]
              refine (hpl (p ++ [i]) a ds hat).2 (i' :: r) (some k) (by simp) ?_
              rw [List.append_assoc]
              exact hk

theorem inScope_nodup (root : Src) (p : List Nat) : (inScope root p).Nodup := by
  unfold inScope
  refine List.nodup_append.2 ⟨ownAttrs_nodup root p, ?_, ?_⟩
  · cases root.at? p with
    | none => exact List.nodup_nil
    | some n => exact attrsBelow_nodup p 0 _
  · intro a ha b hb hab
    subst hab
    obtain ⟨i, k, rfl, hk⟩ := (mem_ownAttrs root p a).1 ha
    cases hn : root.at? p with
    | none => rw [hn] at hb; cases hb
    | some n =>
      rw [hn] at hb
      obtain ⟨i', c, r, k', hc, hna, h, -⟩ := (mem_attrsBelow p 0 _ _).1 hb
      have := List.append_cancel_left h
      simp only [Nat.zero_add, List.cons.injEq] at this
      obtain ⟨rfl, rfl⟩ := this
      unfold InkAttr at hk
      rw [kindAt_append root n p _ hn, kindAt_child, hc] at hk
      change kindAt c [] = _ at hk
      rw [kindAt_nil] at hk
      rw [hk] at hna
      cases hna

/-! ## Ranges -/

theorem startAt_bounds (root : Src) (p : List Nat) (x : Src) (h : root.at? p = some x) (o : Nat) :
    o ≤ startAt o root p ∧ startAt o root p + bytes x.text ≤ o + bytes root.text := by
  obtain ⟨A, B, h1, h2, -⟩ := at_split root p x h
  rw [h2 o, h1, bytes_append, bytes_append]
  omega

theorem texts_take_le (cs : List Src) (i j : Nat) (h : i ≤ j) :
    bytes (texts (cs.take i)) ≤ bytes (texts (cs.take j)) := by
  have : cs.take j = cs.take i ++ (cs.take j).drop i := by
    conv => lhs; rw [← List.take_append_drop i (cs.take j), List.take_take, Nat.min_eq_left h]
  rw [this, texts_append, bytes_append]
  omega

theorem disjoint_ranges (root : Src) (c s t : List Nat) (i j : Nat) (x y : Src) (h : i < j)
    (hx : root.at? (c ++ i :: s) = some x) (hy : root.at? (c ++ j :: t) = some y) (o : Nat) :
    startAt o root (c ++ i :: s) + bytes x.text ≤ startAt o root (c ++ j :: t) := by
  induction c generalizing root o with
  | nil =>
    simp only [List.nil_append, Src.at?] at hx hy
    obtain ⟨a, ha, hx⟩ := Option.bind_eq_some_iff.1 hx
    obtain ⟨b, hb, hy⟩ := Option.bind_eq_some_iff.1 hy
    simp only [List.nil_append, startAt, ha, hb]
    have h1 := (startAt_bounds a s x hx (o + bytes (texts (root.children.take i)))).2
    have h2 := (startAt_bounds b t y hy (o + bytes (texts (root.children.take j)))).1
    have h3 := texts_take_le root.children (i + 1) j h
    have h4 : texts (root.children.take (i + 1)) = texts (root.children.take i) ++ a.text := by
      rw [List.take_add_one, ha, texts_append]
      simp [texts]
    rw [h4, bytes_append] at h3
    omega
  | cons m c ih =>
    simp only [List.cons_append, Src.at?] at hx hy
    obtain ⟨a, ha, hx⟩ := Option.bind_eq_some_iff.1 hx
    obtain ⟨b, hb, hy⟩ := Option.bind_eq_some_iff.1 hy
    rw [ha] at hb
    cases hb
    simp only [List.cons_append, startAt, ha]
    exact ih a hx hy _

/-- Two paths are equal, one is above the other, or they part somewhere. -/
theorem paths_part (p q : List Nat) : p <+: q ∨ q <+: p ∨
    ∃ c i j s t, i ≠ j ∧ p = c ++ i :: s ∧ q = c ++ j :: t := by
  induction p generalizing q with
  | nil => exact .inl List.nil_prefix
  | cons i p ih =>
    cases q with
    | nil => exact .inr (.inl List.nil_prefix)
    | cons j q =>
      by_cases h : i = j
      · subst h
        rcases ih q with h | h | ⟨c, a, b, s, t, hab, rfl, rfl⟩
        · exact .inl (List.cons_prefix_cons.2 ⟨rfl, h⟩)
        · exact .inr (.inl (List.cons_prefix_cons.2 ⟨rfl, h⟩))
        · exact .inr (.inr ⟨i :: c, a, b, s, t, hab, rfl, rfl⟩)
      · exact .inr (.inr ⟨[], i, j, p, q, h, rfl, rfl⟩)

theorem attr_text (root : Src) (hpl : PlainAttrs root) (p : List Nat) (i : Nat) (k : AttrKind)
    (h : InkAttr root (p ++ [i]) k) :
    ∃ n c, root.at? p = some n ∧ n.children[i]? = some c ∧ 0 < bytes c.text := by
  unfold InkAttr kindAt at h
  rw [at_append] at h
  cases hn : root.at? p with
  | none => rw [hn] at h; cases h
  | some n =>
    rw [hn, Option.bind_some, Src.at?] at h
    cases hc : n.children[i]? with
    | none => rw [hc] at h; cases h
    | some c =>
      refine ⟨n, c, rfl, hc, ?_⟩
      rw [hc] at h
      cases c with
      | tok w t => cases h
      | node kd cs =>
        cases h
        have hat : root.at? (p ++ [i]) = some (.node (.attr (some k)) cs) := by
          rw [at_append, hn]
          simp [Src.at?, hc]
        have := (hpl _ _ _ hat).1
        rw [Src.text]
        cases ht : texts cs with
        | nil => exact absurd ht this
        | cons a l =>
          rw [show bytes (a :: l) = a.utf8Size + bytes l from rfl]
          have := Char.utf8Size_pos a
          omega

theorem sub_text (n : Src) (j : Nat) (t : List Nat) (y : Src) (i : Nat) (c : Src)
    (hc : n.children[i]? = some c) (hij : i ≠ j) (hy : n.at? (j :: t) = some y) :
    bytes c.text + bytes y.text ≤ bytes n.text := by
  have hx : n.at? [i] = some c := by simp [Src.at?, hc]
  have b1 := startAt_bounds n _ _ hx 0
  have b2 := startAt_bounds n _ _ hy 0
  rcases Nat.lt_or_gt_of_ne hij with h | h
  · have := disjoint_ranges n [] [] t i j c y h hx hy 0
    simp only [List.nil_append] at this
    omega
  · have := disjoint_ranges n [] t [] j i y c h hy hx 0
    simp only [List.nil_append] at this
    omega

theorem above_longer (root : Src) (hpl : PlainAttrs root) (p s : List Nat) (hs : s ≠ []) (i i' : Nat)
    (k k' : AttrKind) (h : InkAttr root (p ++ [i]) k) (h' : InkAttr root (p ++ s ++ [i']) k') :
    ∃ x y, root.at? p = some x ∧ root.at? (p ++ s) = some y ∧ bytes y.text < bytes x.text := by
  obtain ⟨n, c, hn, hc, hpos⟩ := attr_text root hpl p i k h
  obtain ⟨m, d, hm, -, -⟩ := attr_text root hpl (p ++ s) i' k' h'
  refine ⟨n, m, hn, hm, ?_⟩
  cases s with
  | nil => exact absurd rfl hs
  | cons j t =>
    have hne : i ≠ j := by
      rintro rfl
      unfold InkAttr kindAt at h
      rw [at_append, hn, Option.bind_some, Src.at?, hc, Option.bind_some] at h
      cases c with
      | tok w x => cases h
      | node kd cs =>
        cases h
        have hat : root.at? (p ++ [i]) = some (.node (.attr (some k)) cs) := by
          rw [at_append, hn]
          simp [Src.at?, hc]
        refine (hpl _ _ _ hat).2 (t ++ [i']) (some k') (by simp) ?_
        unfold InkAttr at h'
        simpa using h'
    have hy : n.at? (j :: t) = some m := by
      rw [at_append, hn] at hm
      exact hm
    have := sub_text n j t m i c hc hne hy
    omega

theorem range_inj (root : Src) (hpl : PlainAttrs root) (p q : List Nat) (i j : Nat) (k k' : AttrKind)
    (hp : InkAttr root (p ++ [i]) k) (hq : InkAttr root (q ++ [j]) k')
    (h : rangeOf root p = rangeOf root q) : p = q := by
  obtain ⟨n, c, hn, hc, hpos⟩ := attr_text root hpl p i k hp
  obtain ⟨m, d, hm, hd, hpos'⟩ := attr_text root hpl q j k' hq
  unfold rangeOf at h
  rw [hn, hm] at h
  simp only [Option.map_some, Option.getD_some, Prod.mk.injEq] at h
  have hlen : bytes n.text = bytes m.text := by omega
  have hn0 : 0 < bytes n.text := by
    have := startAt_bounds n [i] c (by simp [Src.at?, hc]) 0
    omega
  rcases paths_part p q with ⟨s, rfl⟩ | ⟨s, rfl⟩ | ⟨a, i', j', s, t, hne, rfl, rfl⟩
  · by_cases hs : s = []
    · simp [hs]
    · obtain ⟨x, y, hx, hy, hlt⟩ := above_longer root hpl p s hs i j k k' hp hq
      rw [hn] at hx
      rw [hm] at hy
      cases hx
      cases hy
      omega
  · by_cases hs : s = []
    · simp [hs]
    · obtain ⟨x, y, hx, hy, hlt⟩ := above_longer root hpl q s hs j i k' k hq hp
      rw [hm] at hx
      rw [hn] at hy
      cases hx
      cases hy
      omega
  · exfalso
    rcases Nat.lt_or_gt_of_ne hne with hlt | hlt
    · have := disjoint_ranges root a s t i' j' n m hlt hn hm 0
      omega
    · have := disjoint_ranges root a t s j' i' m n hlt hm hn 0
      omega

theorem mem_parents (root : Src) (p q : List Nat) (hpl : PlainAttrs root) :
    q ∈ parents root p ↔ ¬ Bare root q ∧ p <+: q := by
  have hb : ∀ q, ¬ Bare root q ↔ ∃ i k, InkAttr root (q ++ [i]) k := by
    intro q
    unfold Bare Marked InkAttr
    simp only [Classical.not_forall, Classical.not_not]
    exact ⟨fun ⟨k, i, h⟩ => ⟨i, k, h⟩, fun ⟨i, k, h⟩ => ⟨k, i, h⟩⟩
  have hmem : ∀ q, q ∈ (inScope root p).map List.dropLast ↔ ¬ Bare root q ∧ p <+: q := by
    intro q
    rw [hb, List.mem_map]
    constructor
    · rintro ⟨a, ha, rfl⟩
      obtain ⟨⟨k, hk⟩, ⟨s, rfl⟩, hne⟩ := (mem_inScope root p a hpl).1 ha
      rcases List.eq_nil_or_concat s with rfl | ⟨s', i, rfl⟩
      · simp at hne
      · rw [List.concat_eq_append, ← List.append_assoc] at hk ⊢
        rw [List.dropLast_concat]
        exact ⟨⟨i, k, hk⟩, List.prefix_append _ _⟩
    · rintro ⟨⟨i, k, hk⟩, hpq⟩
      refine ⟨q ++ [i], (mem_inScope root p _ hpl).2 ⟨⟨k, hk⟩, hpq.trans (List.prefix_append _ _), ?_⟩,
        List.dropLast_concat⟩
      intro h
      have := hpq.length_le
      rw [← h] at this
      simp at this
      omega
  unfold parents Util.uniqueBy
  constructor
  · intro h
    exact (hmem q).1 ((Util.uniqueByFrom_sublist _ _ _).subset h)
  · intro h
    obtain ⟨y, hy, hk⟩ := Util.uniqueByFrom_complete (rangeOf root) [] _ q ((hmem q).2 h) (by simp)
    obtain ⟨i, k, h1⟩ := (hb q).1 h.1
    obtain ⟨j, k', h2⟩ := (hb y).1 ((hmem y).1 ((Util.uniqueByFrom_sublist _ _ _).subset hy)).1
    rw [range_inj root hpl y q j i k' k h2 h1 hk] at hy
    exact hy

theorem parents_nodup (root : Src) (p : List Nat) : (parents root p).Nodup := by
  unfold parents Util.uniqueBy
  exact (Util.uniqueByFrom_pairwise (rangeOf root) [] _).imp fun h h' => h (by rw [h'])

end Verif.Analyzer.Generic
