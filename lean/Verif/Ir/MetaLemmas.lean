import Verif.Ir.Meta

/-!
# Lemmas about argument parsing
-/

namespace Verif.Ir

/-- Placed elements in source order inside `[lo, hi]`. -/
def InB (lo hi : Nat) (l : List Placed) : Prop :=
  (l.Pairwise fun a b => a.stop ≤ b.start) ∧ ∀ p ∈ l, lo ≤ p.start ∧ p.stop ≤ hi

theorem Placed.start_le_stop (p : Placed) : p.start ≤ p.stop := Nat.le_add_right _ _

theorem InB.sublist {lo hi : Nat} {l l' : List Placed} (h : InB lo hi l)
    (hs : l'.Sublist l) : InB lo hi l' :=
  ⟨h.1.sublist hs, fun p hp => h.2 p (hs.subset hp)⟩

theorem InB.weaken {lo hi lo' hi' : Nat} {l : List Placed} (h : InB lo hi l)
    (h1 : lo' ≤ lo) (h2 : hi ≤ hi') : InB lo' hi' l :=
  ⟨h.1, fun p hp => ⟨Nat.le_trans h1 (h.2 p hp).1, Nat.le_trans (h.2 p hp).2 h2⟩⟩

theorem InB.ends {lo hi : Nat} {l : List Placed} (h : InB lo hi l) {a b : Placed}
    (ha : l.head? = some a) (hb : l.getLast? = some b) : a.start ≤ b.start := by
  cases l with
  | nil => simp at ha
  | cons x xs =>
    simp at ha
    subst ha
    rw [List.getLast?_cons] at hb
    cases hx : xs.getLast? with
    | none => rw [hx] at hb; simp at hb; subst hb; exact Nat.le_refl _
    | some y =>
      rw [hx] at hb
      simp at hb
      subst hb
      have := (List.pairwise_cons.1 h.1).1 y (List.mem_of_getLast? hx)
      exact Nat.le_trans x.start_le_stop this

theorem itemsRange_ok {lo hi : Nat} {l : List Placed} (h : InB lo hi l) :
    ∃ r, itemsRange l = some r ∧ ∀ x, r = some x → lo ≤ x.1 ∧ x.2 ≤ hi := by
  unfold itemsRange
  cases ha : l.head? with
  | none => exact ⟨none, rfl, by simp⟩
  | some a =>
    cases hb : l.getLast? with
    | none => exact ⟨none, rfl, by simp⟩
    | some b =>
      have hle : a.start ≤ b.stop := Nat.le_trans (h.ends ha hb) b.start_le_stop
      refine ⟨some (a.start, b.stop), by simp [rangeNew, hle], ?_⟩
      intro x hx
      simp at hx
      subst hx
      exact ⟨(h.2 a (List.mem_of_head? ha)).1, (h.2 b (List.mem_of_getLast? hb)).2⟩

theorem MetaValue.textRange_ok {lo hi : Nat} {v : MetaValue} (h : InB lo hi v.elements)
    (hne : v.elements ≠ []) :
    ∃ r, v.textRange = some r ∧ lo ≤ r.1 ∧ r.2 ≤ hi := by
  unfold MetaValue.textRange
  cases ha : v.elements.head? with
  | none => exact absurd (List.head?_eq_none_iff.1 ha) hne
  | some a =>
    cases hb : v.elements.getLast? with
    | none => exact absurd (List.getLast?_eq_none_iff.1 hb) hne
    | some b =>
      have hs := h.sublist (List.filter_sublist (l := v.elements) (p := fun p => !p.elem.isTrivia))
      simp only []
      cases hc : (v.elements.filter fun p => !p.elem.isTrivia).head? with
      | none =>
        have : (v.elements.filter fun p => !p.elem.isTrivia) = [] := List.head?_eq_none_iff.1 hc
        rw [this]
        have h1 := h.ends ha hb
        refine ⟨(a.start, b.start), by simp [rangeNew, h1], (h.2 a (List.mem_of_head? ha)).1, ?_⟩
        exact Nat.le_trans b.start_le_stop (h.2 b (List.mem_of_getLast? hb)).2
      | some c =>
        cases hd : (v.elements.filter fun p => !p.elem.isTrivia).getLast? with
        | none =>
          rw [List.getLast?_eq_none_iff] at hd
          rw [hd] at hc
          simp at hc
        | some d =>
          have h1 := Nat.le_trans (hs.ends hc hd) d.start_le_stop
          refine ⟨(c.start, d.stop), by simp [rangeNew, h1], (hs.2 c (List.mem_of_head? hc)).1, ?_⟩
          exact (hs.2 d (List.mem_of_getLast? hd)).2

/-- A meta item whose range, when it can be computed, lies in `[lo, hi]`. -/
def Meta.Within (lo hi : Nat) (m : Meta) : Prop :=
  ∀ r, m.textRange = some r → lo ≤ r.1 ∧ r.2 ≤ hi

/-- The running range lies in `[lo, hi]`. -/
def AccIn (lo hi : Nat) (acc : Option (Nat × Nat)) : Prop :=
  ∀ r, acc = some r → lo ≤ r.1 ∧ r.2 ≤ hi

theorem accIn_update {lo hi : Nat} {acc : Option (Nat × Nat)} {r : Nat × Nat}
    (h : AccIn lo hi acc) (hr : lo ≤ r.1 ∧ r.2 ≤ hi) : AccIn lo hi (updateRange acc r) := by
  unfold updateRange
  cases acc with
  | none => intro x hx; simp at hx; subst hx; exact hr
  | some a =>
    intro x hx
    simp at hx
    subst hx
    exact ⟨(h a rfl).1, hr.2⟩

/-- What the name or value part must satisfy for its range to exist inside `[lo, hi]`. -/
def OptIn (f : α → Option (Nat × Nat)) (lo hi : Nat) : MetaOpt α → Prop
  | .ok a => ∃ r, f a = some r ∧ lo ≤ r.1 ∧ r.2 ≤ hi
  | .err items => InB lo hi items
  | .none => True

theorem optRange_ok {f : α → Option (Nat × Nat)} {lo hi : Nat} {acc : Option (Nat × Nat)}
    {o : MetaOpt α} (h : AccIn lo hi acc) (ho : OptIn f lo hi o) :
    ∃ acc', optRange f acc o = some acc' ∧ AccIn lo hi acc' := by
  cases o with
  | ok a =>
    obtain ⟨r, hr, hb⟩ := ho
    exact ⟨updateRange acc r, by simp [optRange, hr], accIn_update h hb⟩
  | err items =>
    obtain ⟨r, hr, hb⟩ := itemsRange_ok (show InB lo hi items from ho)
    cases r with
    | none => exact ⟨acc, by simp [optRange, hr], h⟩
    | some x => exact ⟨updateRange acc x, by simp [optRange, hr], accIn_update h (hb x rfl)⟩
  | none => exact ⟨acc, rfl, h⟩

/-- Range of the name part, as used in `Meta.textRange`. -/
abbrev nameRange : Placed → Option (Nat × Nat) := fun p => some (p.start, p.stop)

theorem rangeNew_eq {s e : Nat} {r : Nat × Nat} (h : rangeNew s e = some r) :
    r = (s, e) ∧ s ≤ e := by
  unfold rangeNew at h
  split at h
  · simp at h; exact ⟨h.symm, by assumption⟩
  · simp at h

theorem within_mk {lo hi : Nat} {name : MetaOpt Placed} {eq : Option Placed}
    {value : MetaOpt MetaValue} {nested : Option Meta} {start : Nat} {stop : Option Nat}
    (hn : OptIn nameRange lo hi name)
    (he : ∀ p, eq = some p → lo ≤ p.start ∧ p.stop ≤ hi)
    (hv : OptIn MetaValue.textRange lo hi value)
    (hm : ∀ m, nested = some m → m.Within lo hi)
    (hs : lo ≤ start ∧ start ≤ hi)
    (ht : ∀ e, stop = some e → e ≤ hi) :
    (Meta.mk name eq value nested start stop).Within lo hi := by
  intro r hr
  unfold Meta.textRange at hr
  obtain ⟨a1, h1, i1⟩ := optRange_ok (acc := none) (by intro r h; simp at h) hn
  rw [h1] at hr
  simp only [Option.bind_some] at hr
  have i2 : AccIn lo hi (eqRange a1 eq) := by
    cases eq with
    | none => exact i1
    | some p => exact accIn_update i1 (he p rfl)
  generalize eqRange a1 eq = a2 at hr i2
  have key : ∃ a3, AccIn lo hi a3 ∧ ((optRange MetaValue.textRange a3 value).bind fun r₄ =>
      rangeNew ((r₄.map Prod.fst).getD start) (((r₄.map Prod.snd).or stop).getD start)) =
        some r := by
    cases nested with
    | none => exact ⟨a2, i2, hr⟩
    | some m =>
      cases hx : m.textRange with
      | none => simp [hx] at hr
      | some x =>
        simp only [hx, Option.map_some, Option.bind_some] at hr
        exact ⟨_, accIn_update i2 (hm m rfl x hx), hr⟩
  obtain ⟨a3, i3, hr⟩ := key
  obtain ⟨a4, h4, i4⟩ := optRange_ok i3 hv
  rw [h4] at hr
  simp only [Option.bind_some] at hr
  obtain ⟨rfl, hle⟩ := rangeNew_eq hr
  cases a4 with
  | none =>
    simp only [Option.map_none, Option.getD_none, Option.none_or]
    refine ⟨hs.1, ?_⟩
    cases stop with
    | none => exact hs.2
    | some e => exact ht e rfl
  | some x =>
    have := i4 x rfl
    simpa using this

/-! ### Building one item -/

/-- Annotated children whose nested trees are parsed, with items inside the tree. -/
def TreesOk (l : List Annot) : Prop :=
  ∀ a ∈ l, ∃ items, a.parsed = some items ∧
    ∀ m ∈ items, m.Within a.placed.start a.placed.stop

theorem parseName_in {lo hi : Nat} {l : List Placed} (h : InB lo hi l) :
    OptIn nameRange lo hi (parseName l) := by
  unfold parseName
  split
  · trivial
  · rename_i p hp
    have hmem : p ∈ l := by
      have : p ∈ l.filter fun p => !p.elem.isTrivia := by rw [hp]; simp
      exact (List.mem_filter.1 this).1
    split
    · exact ⟨_, rfl, h.2 p hmem⟩
    · exact ⟨_, rfl, h.2 p hmem⟩
    · exact h
  · exact h

theorem parseValue_elements {pe : ExprParser} {l : List Placed} {v : MetaValue}
    (h : parseValue pe l = some v) : v.elements = l ∧ l ≠ [] := by
  unfold parseValue at h
  split at h
  · simp at h
  · rename_i hne
    have hne' : l ≠ [] := by simpa using hne
    refine ⟨?_, hne'⟩
    simp only [] at h
    split at h
    · split at h
      · simp at h; rw [← h]
      · simp at h; rw [← h]
      · simp only [Option.map_eq_some_iff] at h
        obtain ⟨x, _, rfl⟩ := h
        rfl
    · simp only [Option.map_eq_some_iff] at h
      obtain ⟨x, _, rfl⟩ := h
      rfl

theorem parseMetaValue_in {pe : ExprParser} {lo hi : Nat} {l : List Placed}
    (h : InB lo hi l) : OptIn MetaValue.textRange lo hi (parseMetaValue pe l) := by
  unfold parseMetaValue
  split
  · trivial
  · split
    · rename_i v hv
      obtain ⟨h1, h2⟩ := parseValue_elements hv
      obtain ⟨r, hr⟩ := MetaValue.textRange_ok (v := v) (by rw [h1]; exact h) (by rw [h1]; exact h2)
      exact ⟨r, hr⟩
    · exact h

theorem nestedOf_ok {lo hi ttStart ttStop : Nat} {name : List Annot}
    (hb : InB lo hi (name.map Annot.placed)) (ht : TreesOk name)
    (h1 : ttStart ≤ lo) (h2 : hi ≤ ttStop) :
    ∃ n, nestedOf name ttStart ttStop = some n ∧ ∀ m, n = some m → m.Within lo hi := by
  unfold nestedOf
  split
  · rename_i t htt
    have hmem : t ∈ name := by
      have : t ∈ name.filter fun a => a.elem.isTree := by rw [htt]; simp
      exact (List.mem_filter.1 this).1
    obtain ⟨items, hitems, hw⟩ := ht t hmem
    have hbt := hb.2 t.placed (List.mem_map_of_mem hmem)
    have hss := t.placed.start_le_stop
    rw [hitems]
    cases items with
    | nil =>
      simp only []
      split
      · have hc : ttStart ≤ t.placed.start ∧ t.placed.start ≤ ttStop ∧
            ((some t.placed.stop).all fun e => ttStart ≤ e && e ≤ ttStop) = true := by
          simp only [Option.all_some, Bool.and_eq_true, decide_eq_true_eq]
          omega
        refine ⟨some _, by unfold Meta.empty?; rw [if_pos hc]; rfl, ?_⟩
        intro m hm
        simp at hm
        subst hm
        exact within_mk trivial (by simp) trivial (by simp) ⟨hbt.1, by omega⟩
          (by intro e he; simp at he; omega)
      · exact ⟨none, rfl, by simp⟩
    | cons m ms =>
      cases ms with
      | nil =>
        refine ⟨some m, rfl, ?_⟩
        intro m' hm'
        simp at hm'
        subst hm'
        intro r hr
        have := hw m (by simp) r hr
        omega
      | cons m' ms =>
        simp only []
        split
        · have hc : ttStart ≤ t.placed.start ∧ t.placed.start ≤ ttStop ∧
              ((some t.placed.stop).all fun e => ttStart ≤ e && e ≤ ttStop) = true := by
            simp only [Option.all_some, Bool.and_eq_true, decide_eq_true_eq]
            omega
          refine ⟨some _, by unfold Meta.empty?; rw [if_pos hc]; rfl, ?_⟩
          intro m hm
          simp at hm
          subst hm
          exact within_mk trivial (by simp) trivial (by simp) ⟨hbt.1, by omega⟩
            (by intro e he; simp at he; omega)
        · exact ⟨none, rfl, by simp⟩
  · exact ⟨none, rfl, by simp⟩

theorem InB.map_sublist {lo hi : Nat} {l l' : List Annot}
    (h : InB lo hi (l.map Annot.placed)) (hs : l'.Sublist l) :
    InB lo hi (l'.map Annot.placed) := h.sublist (hs.map _)

theorem buildItem_ok {pe : ExprParser} {ttStart ttStop sep lo hi : Nat}
    {group : List Annot} (hb : InB lo hi (group.map Annot.placed)) (ht : TreesOk group)
    (hlo : sep ≤ lo) (hle : lo ≤ hi) (h1 : ttStart ≤ sep) (h2 : hi ≤ ttStop) :
    ∃ m, buildItem pe ttStart ttStop sep group = some m ∧ m.Within sep hi := by
  unfold buildItem
  simp only []
  have hbn := hb.map_sublist (List.takeWhile_sublist (l := group) (fun a => !a.elem.isEq))
  have hbr := hb.map_sublist (List.dropWhile_sublist (l := group) (fun a => !a.elem.isEq))
  have htn : TreesOk (group.takeWhile fun a => !a.elem.isEq) := fun a ha =>
    ht a ((List.takeWhile_sublist _).subset ha)
  obtain ⟨n, hn, hw⟩ := nestedOf_ok hbn htn (ttStart := ttStart) (ttStop := ttStop)
    (by omega) (by omega)
  rw [hn]
  simp only [Option.bind_some]
  have hname : InB sep hi (((if n.isSome then
      (group.takeWhile fun a => !a.elem.isEq).filter fun a => !a.elem.isTree
      else group.takeWhile fun a => !a.elem.isEq).map Annot.placed)) := by
    apply InB.weaken _ hlo (Nat.le_refl _)
    split
    · exact hbn.map_sublist List.filter_sublist
    · exact hbn
  have heq : ∀ p, (group.dropWhile fun a => !a.elem.isEq).head?.map Annot.placed = some p →
      sep ≤ p.start ∧ p.stop ≤ hi := by
    intro p hp
    simp only [Option.map_eq_some_iff] at hp
    obtain ⟨a, ha, rfl⟩ := hp
    have := hbr.2 a.placed (List.mem_map_of_mem (List.mem_of_head? ha))
    omega
  have hval : InB sep hi ((group.dropWhile fun a => !a.elem.isEq).tail.map Annot.placed) :=
    (hbr.map_sublist (List.tail_sublist _)).weaken hlo (Nat.le_refl _)
  have hnest : ∀ m, n = some m → m.Within sep hi := by
    intro m hm r hr
    have := hw m hm r hr
    omega
  generalize ((if n.isSome then
      (group.takeWhile fun a => !a.elem.isEq).filter fun a => !a.elem.isTree
      else group.takeWhile fun a => !a.elem.isEq).map Annot.placed) = nm at hname ⊢
  split
  · rename_i hsome
    refine ⟨_, by unfold Meta.new?; rw [if_pos hsome], ?_⟩
    exact within_mk (parseName_in hname) heq (parseMetaValue_in hval) hnest
      ⟨Nat.le_refl _, by omega⟩ (by simp)
  · refine ⟨_, by
      unfold Meta.empty?
      rw [if_pos ⟨h1, by omega, rfl⟩], ?_⟩
    exact within_mk trivial (by simp) trivial (by simp) ⟨Nat.le_refl _, by omega⟩ (by simp)

/-! ### Runs -/

theorem groupRuns_flatten (key : α → Bool) (l : List α) :
    ((groupRuns key l).map Prod.snd).flatten = l := by
  induction l with
  | nil => rfl
  | cons x xs ih =>
    unfold groupRuns
    split
    · rename_i h
      rw [h] at ih
      simp at ih
      subst ih
      rfl
    · rename_i k g rest h
      rw [h] at ih
      split
      · simp at ih ⊢; exact ih
      · simp at ih ⊢; exact ih

theorem groupRuns_key (key : α → Bool) (l : List α) :
    ∀ kg ∈ groupRuns key l, kg.2 ≠ [] ∧ ∀ x ∈ kg.2, key x = kg.1 := by
  induction l with
  | nil => simp [groupRuns]
  | cons x xs ih =>
    unfold groupRuns
    split
    · intro kg hkg
      simp at hkg
      subst hkg
      simp
    · rename_i k g rest h
      rw [h] at ih
      split
      · rename_i hk
        intro kg hkg
        rcases List.mem_cons.1 hkg with rfl | hkg
        · refine ⟨by simp, ?_⟩
          intro y hy
          rcases List.mem_cons.1 hy with rfl | hy
          · exact hk
          · exact (ih (k, g) (by simp)).2 y hy
        · exact ih kg (List.mem_cons_of_mem _ hkg)
      · intro kg hkg
        rcases List.mem_cons.1 hkg with rfl | hkg
        · simp
        · exact ih kg hkg

/-- Neighbouring groups have different keys. -/
def Alternating : List (Bool × List α) → Prop
  | [] => True
  | [_] => True
  | a :: b :: rest => a.1 ≠ b.1 ∧ Alternating (b :: rest)

theorem groupRuns_alternating (key : α → Bool) (l : List α) :
    Alternating (groupRuns key l) := by
  induction l with
  | nil => trivial
  | cons x xs ih =>
    unfold groupRuns
    split
    · trivial
    · rename_i k g rest h
      rw [h] at ih
      split
      · cases rest with
        | nil => trivial
        | cons b r => exact ⟨ih.1, ih.2⟩
      · rename_i hk
        exact ⟨hk, ih⟩

/-! ### All items -/

/-- Items in source order without overlap (for those whose range can be computed). -/
def MetasOrdered (ms : List Meta) : Prop :=
  ms.Pairwise fun a b => ∀ ra rb, a.textRange = some ra → b.textRange = some rb → ra.2 ≤ rb.1

theorem InB.append {lo hi : Nat} {a b : List Placed} (h : InB lo hi (a ++ b)) (hlh : lo ≤ hi) :
    ∃ mid, lo ≤ mid ∧ mid ≤ hi ∧ InB lo mid a ∧ InB mid hi b ∧
      (a.getLast?.map Placed.stop).getD lo = mid := by
  have ha := h.sublist (List.sublist_append_left a b)
  have hb := h.sublist (List.sublist_append_right a b)
  cases hl : a.getLast? with
  | none =>
    have : a = [] := List.getLast?_eq_none_iff.1 hl
    subst this
    exact ⟨lo, Nat.le_refl _, hlh, ⟨List.Pairwise.nil, by simp⟩, hb, rfl⟩
  | some p =>
    have hp := List.mem_of_getLast? hl
    have h1 := ha.2 p hp
    refine ⟨p.stop, Nat.le_trans h1.1 p.start_le_stop, h1.2, ⟨ha.1, ?_⟩, ⟨hb.1, ?_⟩, rfl⟩
    · intro q hq
      refine ⟨(ha.2 q hq).1, ?_⟩
      obtain ⟨ys, hys⟩ := List.getLast?_eq_some_iff.1 hl
      rw [hys] at hq
      rcases List.mem_append.1 hq with hq | hq
      · have := ha.1
        rw [hys] at this
        have := (List.pairwise_append.1 this).2.2 q hq p (by simp)
        exact Nat.le_trans this p.start_le_stop
      · simp at hq; subst hq; exact Nat.le_refl _
    · intro q hq
      refine ⟨?_, (hb.2 q hq).2⟩
      exact (List.pairwise_append.1 h.1).2.2 p hp q hq

theorem itemsOf_ok {pe : ExprParser} {ttStart ttStop : Nat} (gs : List (Bool × List Annot))
    (sep lo hi : Nat)
    (hb : InB lo hi ((gs.map Prod.snd).flatten.map Annot.placed))
    (ht : TreesOk (gs.map Prod.snd).flatten)
    (hne : ∀ kg ∈ gs, kg.2 ≠ []) (halt : Alternating gs)
    (hsep : ∀ g rest, gs = (false, g) :: rest → sep ≤ lo ∧ ttStart ≤ sep)
    (hle : lo ≤ hi) (htt : ttStart ≤ lo) (h2 : hi ≤ ttStop) :
    ∃ ms, itemsOf pe ttStart ttStop sep gs = some ms ∧ MetasOrdered ms ∧
      (∀ m ∈ ms, m.Within (min sep lo) hi) ∧
      (∀ g rest, gs = (true, g) :: rest → ∀ m ∈ ms, m.Within lo hi) := by
  induction gs generalizing sep lo with
  | nil => exact ⟨[], rfl, List.Pairwise.nil, by simp, by simp⟩
  | cons kg rest ih =>
    obtain ⟨k, g⟩ := kg
    simp only [List.map_cons, List.flatten_cons, List.map_append] at hb
    obtain ⟨mid, hm1, hm2, hga, hgb, hmid⟩ := hb.append hle
    have htg : TreesOk g := fun a ha => ht a (by simp [ha])
    have htr : TreesOk (rest.map Prod.snd).flatten := fun a ha => ht a (by
      simp only [List.map_cons, List.flatten_cons, List.mem_append]; exact .inr ha)
    have hner : ∀ kg ∈ rest, kg.2 ≠ [] := fun kg h => hne kg (List.mem_cons_of_mem _ h)
    have haltr : Alternating rest := by
      cases rest with
      | nil => trivial
      | cons b r => exact halt.2
    have hnext : ∀ b r, rest = b :: r → b.1 = !k := by
      intro b r hr
      subst hr
      have := halt.1
      cases k <;> cases hb1 : b.1 <;> simp_all
    have hgne : g ≠ [] := hne (k, g) (by simp)
    cases k with
    | true =>
      unfold itemsOf
      simp only []
      cases hh : g.head? with
      | none => exact absurd (List.head?_eq_none_iff.1 hh) hgne
      | some c =>
        have hc := hga.2 c.placed (List.mem_map_of_mem (List.mem_of_head? hh))
        have hcs := c.placed.start_le_stop
        simp only []
        obtain ⟨ms, hms, ho, hw, _⟩ := ih c.placed.stop mid hgb htr hner haltr
          (by intro _ _ _; omega) hm2 (by omega)
        refine ⟨ms, hms, ho, ?_, ?_⟩
        · intro m hm r hr
          have := hw m hm r hr
          omega
        · intro _ _ _ m hm r hr
          have := hw m hm r hr
          omega
    | false =>
      unfold itemsOf
      obtain ⟨hs1, hs2⟩ := hsep g rest rfl
      obtain ⟨m, hm, hmw⟩ := buildItem_ok (pe := pe) (ttStart := ttStart) (ttStop := ttStop)
        hga htg hs1 hm1 hs2 (by omega)
      obtain ⟨ms, hms, ho, hw, hw'⟩ := ih sep mid hgb htr hner haltr
        (by
          intro g' r' hr
          have := hnext _ _ hr
          simp at this)
        hm2 (by omega)
      have hall : ∀ m ∈ ms, m.Within mid hi := by
        cases rest with
        | nil => simp [itemsOf] at hms; subst hms; simp
        | cons b r =>
          obtain ⟨kb, gb⟩ := b
          have := hnext _ _ rfl
          simp at this
          subst this
          exact hw' gb r rfl
      refine ⟨m :: ms, by rw [hm, hms]; rfl, ?_, ?_, by simp⟩
      · refine List.pairwise_cons.2 ⟨?_, ho⟩
        intro b hb' ra rb hra hrb
        exact Nat.le_trans (hmw ra hra).2 (hall b hb' rb hrb).1
      · intro x hx r hr
        rcases List.mem_cons.1 hx with rfl | hx
        · have := hmw r hr; omega
        · have := hall x hx r hr; omega

/-! ### Layout of children -/

theorem annotate_elems (pe : ExprParser) (o : Nat) (cs : List Elem) :
    (annotate pe o cs).map Annot.elem = cs := by
  induction cs generalizing o with
  | nil => simp [annotate]
  | cons c cs ih => rw [annotate, List.map_cons, ih]; rfl

theorem annotate_inB (pe : ExprParser) (o : Nat) (cs : List Elem) :
    InB o (o + Elem.lenList cs) ((annotate pe o cs).map Annot.placed) := by
  induction cs generalizing o with
  | nil => simp [annotate, InB]
  | cons c cs ih =>
    have h := ih (o + c.len)
    simp only [annotate, List.map_cons, Elem.lenList]
    refine ⟨List.pairwise_cons.2 ⟨fun b hb => (h.2 b hb).1, h.1⟩, ?_⟩
    intro p hp
    rcases List.mem_cons.1 hp with rfl | hp
    · exact ⟨Nat.le_refl _, by show o + c.len ≤ _; omega⟩
    · have := h.2 p hp
      omega

theorem annotate_append (pe : ExprParser) (o : Nat) (as bs : List Elem) :
    annotate pe o (as ++ bs) = annotate pe o as ++ annotate pe (o + Elem.lenList as) bs := by
  induction as generalizing o with
  | nil => simp [annotate, Elem.lenList]
  | cons a as ih =>
    simp only [List.cons_append, annotate, Elem.lenList, ih, Nat.add_assoc]

theorem firstSep_le {lo : Nat} {l : List Annot} {hi : Nat}
    (h : InB lo hi (l.map Annot.placed)) (hlh : lo ≤ hi) :
    lo ≤ firstSep lo l ∧ firstSep lo l ≤ hi := by
  unfold firstSep
  split
  · rename_i p hp
    have := h.2 p.placed (List.mem_map_of_mem (List.mem_of_find?_eq_some hp))
    have := p.placed.start_le_stop
    omega
  · omega

theorem content_sublist (l : List Annot) : (content l).Sublist l :=
  (List.takeWhile_sublist _).trans (List.drop_sublist _ _)

mutual

/-- Token trees as the parser builds them: an opening parenthesis is only ever the first
child of its token tree. -/
def Elem.wf : Elem → Bool
  | .tok _ _ => true
  | .tree cs => (cs.tail.all fun c => !c.isLParen) && Elem.wfList cs
  | .error cs => Elem.wfList cs

/-- See `Elem.wf`. -/
def Elem.wfList : List Elem → Bool
  | [] => true
  | c :: cs => c.wf && Elem.wfList cs

end

/-- The children of a well-formed token tree: the content lies after the first separator. -/
theorem content_inB (pe : ExprParser) (o : Nat) (cs : List Elem)
    (hwf : (cs.tail.all fun c => !c.isLParen) = true) :
    InB (firstSep o (annotate pe o cs)) (o + Elem.lenList cs)
      ((content (annotate pe o cs)).map Annot.placed) := by
  have hb := annotate_inB pe o cs
  cases cs with
  | nil => simp [annotate, content, InB]
  | cons c cs =>
    have hnone : (annotate pe (o + c.len) cs).find? (fun a => a.elem.isLParen) = none := by
      rw [List.find?_eq_none]
      intro a ha
      have : a.elem ∈ cs := by
        rw [← annotate_elems pe (o + c.len) cs]; exact List.mem_map_of_mem ha
      simp only [List.tail_cons, List.all_eq_true] at hwf
      simpa using hwf _ this
    have hany : (annotate pe (o + c.len) cs).any (fun a => a.elem.isLParen) = false := by
      rw [List.any_eq_false]
      exact List.find?_eq_none.1 hnone
    simp only [annotate, content, firstSep, List.find?_cons, List.any_cons, hany, hnone,
      Bool.or_false]
    cases hc : (Annot.elem ⟨⟨c, o⟩, c.parse pe o⟩).isLParen with
    | false =>
      simp only [Bool.false_eq_true, if_false, List.drop_zero]
      exact hb.map_sublist (List.takeWhile_sublist _)
    | true =>
      simp only [if_true, List.drop_one, List.tail_cons]
      have := annotate_inB pe (o + c.len) cs
      refine InB.weaken (this.map_sublist (List.takeWhile_sublist _)) ?_ ?_
      · exact Nat.le_refl _
      · simp only [Elem.lenList]; omega

mutual

/-- Parsing a token tree never panics; its items are in source order inside the tree. -/
theorem Elem.parse_ok (pe : ExprParser) : ∀ (e : Elem) (o : Nat), e.wf = true →
    ∃ items, e.parse pe o = some items ∧ MetasOrdered items ∧
      ∀ m ∈ items, m.Within o (o + e.len)
  | .tok _ _, _, _ => ⟨[], rfl, List.Pairwise.nil, by simp⟩
  | .error _, _, _ => ⟨[], rfl, List.Pairwise.nil, by simp⟩
  | .tree cs, o, h => by
    simp only [Elem.wf, Bool.and_eq_true] at h
    have ht := annotate_ok pe cs o h.2
    have hb := content_inB pe o cs h.1
    have hs := firstSep_le (annotate_inB pe o cs) (Nat.le_add_right _ _)
    have hfl := groupRuns_flatten (fun a : Annot => a.elem.isComma) (content (annotate pe o cs))
    obtain ⟨ms, hms, ho, hw, _⟩ := itemsOf_ok (pe := pe) (ttStart := o)
      (ttStop := o + Elem.lenList cs)
      (groupRuns (fun a => a.elem.isComma) (content (annotate pe o cs)))
      (firstSep o (annotate pe o cs)) (firstSep o (annotate pe o cs)) (o + Elem.lenList cs)
      (by rw [hfl]; exact hb)
      (by rw [hfl]; exact fun a ha => ht a ((content_sublist _).subset ha))
      (fun kg hkg => (groupRuns_key _ _ kg hkg).1)
      (groupRuns_alternating _ _)
      (by intro _ _ _; omega) hs.2 hs.1 (Nat.le_refl _)
    refine ⟨ms, by simp only [Elem.parse]; exact hms, ho, ?_⟩
    intro m hm r hr
    have := hw m hm r hr
    simp only [Elem.len]
    omega

/-- The nested trees among the children of a token tree are parsed without panic. -/
theorem annotate_ok (pe : ExprParser) : ∀ (cs : List Elem) (o : Nat),
    Elem.wfList cs = true → TreesOk (annotate pe o cs)
  | [], _, _ => by simp [annotate, TreesOk]
  | c :: cs, o, h => by
    simp only [Elem.wfList, Bool.and_eq_true] at h
    intro a ha
    simp only [annotate] at ha
    rcases List.mem_cons.1 ha with rfl | ha
    · obtain ⟨items, hi, _, hw⟩ := Elem.parse_ok pe c o h.1
      exact ⟨items, hi, hw⟩
    · exact annotate_ok pe cs _ h.2 a ha

end

/-! ### Number of items -/

theorem itemsOf_length {pe : ExprParser} {a b : Nat} (gs : List (Bool × List Annot))
    (sep : Nat) (ms : List Meta) (h : itemsOf pe a b sep gs = some ms) :
    ms.length = (gs.filter fun kg => !kg.1).length := by
  induction gs generalizing sep ms with
  | nil => simp [itemsOf] at h; subst h; rfl
  | cons kg rest ih =>
    obtain ⟨k, g⟩ := kg
    cases k with
    | true => unfold itemsOf at h; simpa using ih _ _ h
    | false =>
      unfold itemsOf at h
      simp only [Option.bind_eq_some_iff, Option.map_eq_some_iff] at h
      obtain ⟨m, _, ms', h', rfl⟩ := h
      simpa using ih _ _ h'

/-- Number of maximal runs of elements without the key: an element without it starts a run
when the element before it has it (`prev`). -/
def runStarts (key : α → Bool) : Bool → List α → Nat
  | _, [] => 0
  | prev, x :: xs => (if prev && !key x then 1 else 0) + runStarts key (key x) xs

theorem groupRuns_count (key : α → Bool) (l : List α) :
    ((groupRuns key l).filter fun kg => !kg.1).length = runStarts key true l := by
  have hd : ∀ l : List α, (groupRuns key l).head?.map Prod.fst = l.head?.map key := by
    intro l
    cases l with
    | nil => rfl
    | cons x xs =>
      unfold groupRuns
      split
      · rfl
      · split
        · rename_i h; simp [h]
        · rfl
  induction l with
  | nil => rfl
  | cons x xs ih =>
    have hx := hd xs
    unfold runStarts groupRuns
    cases xs with
    | nil => simp [groupRuns, runStarts]; cases key x <;> simp
    | cons y ys =>
      have hy : ∃ g rest, groupRuns key (y :: ys) = (key y, g) :: rest := by
        cases hg : groupRuns key (y :: ys) with
        | nil => rw [hg] at hx; simp at hx
        | cons kg rest =>
          rw [hg] at hx
          simp at hx
          exact ⟨kg.2, rest, by rw [← hx]⟩
      obtain ⟨g, rest, hg⟩ := hy
      rw [hg] at ih ⊢
      simp only [runStarts] at ih ⊢
      rcases Bool.eq_false_or_eq_true (key x) with hx' | hx' <;>
        rcases Bool.eq_false_or_eq_true (key y) with hy' | hy' <;>
        simp [hx', hy'] at ih ⊢ <;> omega

/-! ### Computing ranges -/

/-- The running range has start `s` and is not inverted. -/
def AccFrom (s : Nat) (acc : Option (Nat × Nat)) : Prop :=
  ∃ e, acc = some (s, e) ∧ s ≤ e

theorem accFrom_update {s : Nat} {acc : Option (Nat × Nat)} {r : Nat × Nat}
    (h : AccFrom s acc) (hr : s ≤ r.2) : AccFrom s (updateRange acc r) := by
  obtain ⟨e, rfl, _⟩ := h
  exact ⟨r.2, rfl, hr⟩

theorem itemsRange_le {l : List Placed} {r : Nat × Nat}
    (h : itemsRange l = some (some r)) : r.1 ≤ r.2 := by
  unfold itemsRange at h
  split at h
  · simp only [Option.map_eq_some_iff] at h
    obtain ⟨x, hx, hxr⟩ := h
    simp at hxr
    subst hxr
    obtain ⟨rfl, hle⟩ := rangeNew_eq hx
    exact hle
  · simp at h

theorem MetaValue.textRange_le {v : MetaValue} {r : Nat × Nat}
    (h : v.textRange = some r) : r.1 ≤ r.2 := by
  unfold MetaValue.textRange at h
  simp only [] at h
  split at h
  · obtain ⟨rfl, hle⟩ := rangeNew_eq h; exact hle
  · simp at h

theorem Meta.textRange_le {m : Meta} {r : Nat × Nat}
    (h : m.textRange = some r) : r.1 ≤ r.2 := by
  cases m
  unfold Meta.textRange at h
  simp only [Option.bind_eq_some_iff] at h
  obtain ⟨_, _, _, _, _, _, h⟩ := h
  obtain ⟨rfl, hle⟩ := rangeNew_eq h
  exact hle

theorem optRange_value_from {lo hi s : Nat} {acc : Option (Nat × Nat)}
    {v : MetaOpt MetaValue} (h : AccFrom s acc) (hv : OptIn MetaValue.textRange lo hi v)
    (hs : s ≤ lo) : ∃ acc', optRange MetaValue.textRange acc v = some acc' ∧
      AccFrom s acc' := by
  cases v with
  | ok a =>
    obtain ⟨r, hr, hb⟩ := hv
    refine ⟨updateRange acc r, by simp [optRange, hr], accFrom_update h ?_⟩
    have := MetaValue.textRange_le hr
    omega
  | err items =>
    obtain ⟨r, hr, hb⟩ := itemsRange_ok (show InB lo hi items from hv)
    cases r with
    | none => exact ⟨acc, by simp [optRange, hr], h⟩
    | some x =>
      refine ⟨updateRange acc x, by simp [optRange, hr], accFrom_update h ?_⟩
      have := itemsRange_le hr
      have := hb x rfl
      omega
  | none => exact ⟨acc, rfl, h⟩

/-- The range of an item exists when the running range after the `=` starts at `s`, and the
nested item and the value end at `s` or later. -/
theorem textRange_of_acc {name : MetaOpt Placed} {eq : Option Placed}
    {value : MetaOpt MetaValue} {nested : Option Meta} {start : Nat} {stop : Option Nat}
    {a1 : Option (Nat × Nat)} {s lo hi : Nat}
    (h1 : optRange nameRange none name = some a1)
    (h2 : AccFrom s (eqRange a1 eq))
    (hn : ∀ m, nested = some m → ∃ r, m.textRange = some r ∧ s ≤ r.2)
    (hv : OptIn MetaValue.textRange lo hi value) (hs : s ≤ lo) :
    (Meta.mk name eq value nested start stop).textRange.isSome := by
  unfold Meta.textRange
  rw [h1]
  simp only [Option.bind_some]
  have key : ∃ a3, (match nested with
      | some m => (m.textRange).map (updateRange (eqRange a1 eq))
      | none => some (eqRange a1 eq)) = some a3 ∧ AccFrom s a3 := by
    cases nested with
    | none => exact ⟨_, rfl, h2⟩
    | some m =>
      obtain ⟨r, hr, hle⟩ := hn m rfl
      exact ⟨_, by simp only [hr, Option.map_some], accFrom_update h2 hle⟩
  obtain ⟨a3, h3, i3⟩ := key
  obtain ⟨a4, h4, e, rfl, hle⟩ := optRange_value_from i3 hv hs
  have : ∀ x : Option (Option (Nat × Nat)), x = some a3 →
      (x.bind fun r₃ => (optRange MetaValue.textRange r₃ value).bind fun r₄ =>
        rangeNew ((r₄.map Prod.fst).getD start)
          (((r₄.map Prod.snd).or stop).getD start)).isSome := by
    rintro x rfl
    simp [h4, rangeNew, hle]
  exact this _ h3

/-- First non-trivia element of an argument is not a nested token tree. -/
def HeadNamed (group : List Annot) : Prop :=
  ∀ a, (group.find? fun a => !a.elem.isTrivia) = some a → a.elem.isTree = false

/-- Nested trees whose items all have a range. -/
def RangesOk (l : List Annot) : Prop :=
  ∀ a ∈ l, ∀ items, a.parsed = some items → ∀ m ∈ items, m.textRange.isSome

theorem nestedOf_some {ttStart ttStop : Nat} {name : List Annot} {m : Meta}
    (h : nestedOf name ttStart ttStop = some (some m)) (hr : RangesOk name)
    (ht : TreesOk name) :
    ∃ t ∈ name, t.elem.isTree = true ∧ ∃ r, m.textRange = some r ∧
      t.placed.start ≤ r.1 ∧ r.2 ≤ t.placed.stop := by
  unfold nestedOf at h
  split at h
  · rename_i t htt
    have hmem : t ∈ name.filter fun a => a.elem.isTree := by rw [htt]; simp
    obtain ⟨hmem, htree⟩ := List.mem_filter.1 hmem
    refine ⟨t, hmem, htree, ?_⟩
    have hempty : (Meta.empty? t.placed.start (some t.placed.stop) ttStart ttStop).map some =
        some (some m) → ∃ r, m.textRange = some r ∧ t.placed.start ≤ r.1 ∧
          r.2 ≤ t.placed.stop := by
      intro h
      unfold Meta.empty? at h
      split at h
      · simp at h
        subst h
        refine ⟨(t.placed.start, t.placed.stop), ?_, Nat.le_refl _, Nat.le_refl _⟩
        simp [Meta.textRange, optRange, eqRange, rangeNew, t.placed.start_le_stop]
      · simp at h
    split at h
    · simp at h
    · rename_i m' hp
      simp at h
      subst h
      obtain ⟨items, hi, hw⟩ := ht t hmem
      have hsome := hr t hmem _ hp m' (by simp)
      obtain ⟨r, hr'⟩ := Option.isSome_iff_exists.1 hsome
      rw [hp] at hi
      simp at hi
      subst hi
      exact ⟨r, hr', hw m' (by simp) r hr'⟩
    · split at h
      · exact hempty h
      · simp at h
  · simp at h

theorem InB.before {lo hi : Nat} {l : List Annot} (h : InB lo hi (l.map Annot.placed))
    {a b : Annot} {l1 l2 : List Annot} (hl : l = l1 ++ a :: l2) (hb : b ∈ l2) :
    a.placed.stop ≤ b.placed.start := by
  subst hl
  have := h.1
  rw [List.map_append, List.map_cons] at this
  have := (List.pairwise_cons.1 (List.pairwise_append.1 this).2.1).1
  exact this _ (List.mem_map_of_mem hb)

theorem buildItem_range {pe : ExprParser} {ttStart ttStop sep lo hi : Nat}
    {group : List Annot} {m : Meta} (hb : InB lo hi (group.map Annot.placed))
    (ht : TreesOk group) (hr : RangesOk group) (hh : HeadNamed group)
    (h : buildItem pe ttStart ttStop sep group = some m) : m.textRange.isSome := by
  unfold buildItem at h
  simp only [] at h
  have hbn := hb.map_sublist (List.takeWhile_sublist (l := group) (fun a => !a.elem.isEq))
  have hbr := hb.map_sublist (List.dropWhile_sublist (l := group) (fun a => !a.elem.isEq))
  have hsplit := List.takeWhile_append_dropWhile (l := group) (p := fun a : Annot => !a.elem.isEq)
  generalize hname : group.takeWhile (fun a => !a.elem.isEq) = name at *
  generalize hrest : group.dropWhile (fun a => !a.elem.isEq) = rest at *
  have htn : TreesOk name := fun a ha => ht a (by rw [← hsplit]; simp [ha])
  have hrn : RangesOk name := fun a ha => hr a (by rw [← hsplit]; simp [ha])
  have hsep : ∀ a ∈ name, ∀ b ∈ rest, a.placed.stop ≤ b.placed.start := by
    intro a ha b hb'
    have := hb.1
    rw [← hsplit, List.map_append] at this
    exact (List.pairwise_append.1 this).2.2 _ (List.mem_map_of_mem ha) _ (List.mem_map_of_mem hb')
  cases hnest : nestedOf name ttStart ttStop with
  | none => rw [hnest] at h; simp at h
  | some n =>
    rw [hnest] at h
    simp only [Option.bind_some] at h
    -- the elements the name is parsed from
    generalize hnm : (if n.isSome then name.filter fun a => !a.elem.isTree else name) = nm at h
    have hnmsub : nm.Sublist name := by
      rw [← hnm]; split
      · exact List.filter_sublist
      · exact List.Sublist.refl _
    have hbnm := hbn.map_sublist hnmsub
    split at h
    · rename_i hsome
      unfold Meta.new? at h
      rw [if_pos hsome] at h
      · have h := Option.some.inj h
        subst h
        -- where the name part starts
        cases hpn : parseName (nm.map Annot.placed) with
        | none =>
          -- no name: everything before the `=` is trivia, hence no nested tree
          have hall : ∀ a ∈ nm, a.elem.isTrivia = true := by
            intro a ha
            by_cases htr : a.elem.isTrivia = true
            · exact htr
            · exfalso
              have hmem : a.placed ∈ (nm.map Annot.placed).filter fun p => !p.elem.isTrivia := by
                rw [List.mem_filter]
                exact ⟨List.mem_map_of_mem ha, by
                  rw [show a.placed.elem = a.elem from rfl]; simp [htr]⟩
              unfold parseName at hpn
              split at hpn
              · rename_i he; rw [he] at hmem; simp at hmem
              · split at hpn <;> simp at hpn
              · simp at hpn
          have hnone : n = none := by
            cases n with
            | none => rfl
            | some m' =>
              exfalso
              obtain ⟨t, htm, htree, _⟩ := nestedOf_some hnest hrn htn
              -- the tree is the first non-trivia element of the group
              have hall' : ∀ a ∈ name, a.elem.isTrivia = true ∨ a.elem.isTree = true := by
                intro a ha
                by_cases htr : a.elem.isTree = true
                · exact .inr htr
                · refine .inl (hall a ?_)
                  rw [← hnm]
                  simp only [Option.isSome_some, if_true, List.mem_filter]
                  exact ⟨ha, by simp [htr]⟩
              have hex : ∃ a, (name.find? fun a => !a.elem.isTrivia) = some a := by
                rw [← Option.isSome_iff_exists, List.find?_isSome]
                refine ⟨t, htm, ?_⟩
                cases he : t.elem <;> rw [he] at htree <;> simp [Elem.isTree, Elem.isTrivia] at *
              obtain ⟨a, ha⟩ := hex
              have h1 := hh a (by rw [← hsplit, List.find?_append, ha]; rfl)
              rcases hall' a (List.mem_of_find?_eq_some ha) with h2 | h2
              · have := List.find?_some ha; simp [h2] at this
              · rw [h1] at h2; simp at h2
          subst hnone
          cases hrh : rest with
          | nil =>
            simp [parseMetaValue, Meta.textRange, optRange, eqRange, rangeNew]
          | cons q qs =>
            refine textRange_of_acc (a1 := none) (s := q.placed.start) (lo := q.placed.start)
              (hi := hi) rfl ⟨q.placed.stop, rfl, q.placed.start_le_stop⟩ (by simp) ?_
              (Nat.le_refl _)
            apply parseMetaValue_in
            rw [hrh] at hbr
            refine ⟨(hbr.map_sublist (List.sublist_cons_self q qs)).1, ?_⟩
            intro p hp
            have h1 := (List.pairwise_cons.1 hbr.1).1 p hp
            have h2 := hbr.2 p (by simp only [List.map_cons]; exact List.mem_cons_of_mem _ hp)
            exact ⟨Nat.le_trans q.placed.start_le_stop h1, h2.2⟩
        | ok p =>
          obtain ⟨hpm, hsol⟩ : p ∈ nm.map Annot.placed ∧
              (nm.map Annot.placed).filter (fun p => !p.elem.isTrivia) = [p] := by
            unfold parseName at hpn
            split at hpn
            · simp at hpn
            · rename_i q hq
              have hqm : q ∈ nm.map Annot.placed := by
                have : q ∈ (nm.map Annot.placed).filter fun p => !p.elem.isTrivia := by
                  rw [hq]; simp
                exact (List.mem_filter.1 this).1
              split at hpn
              · simp at hpn; subst hpn; exact ⟨hqm, hq⟩
              · simp at hpn; subst hpn; exact ⟨hqm, hq⟩
              · simp at hpn
            · simp at hpn
          obtain ⟨a, ham, rfl⟩ := List.mem_map.1 hpm
          have hasolid : a.elem.isTrivia = false := by
            have : a.placed ∈ (nm.map Annot.placed).filter fun p => !p.elem.isTrivia := by
              rw [hsol]; simp
            have := (List.mem_filter.1 this).2
            simpa [Annot.elem] using this
          have hatree : n.isSome = true → a.elem.isTree = false := by
            intro hs
            rw [← hnm, if_pos hs] at ham
            simpa using (List.mem_filter.1 ham).2
          have hrestge : ∀ b ∈ rest, a.placed.start ≤ b.placed.start := fun b hb' =>
            Nat.le_trans a.placed.start_le_stop (hsep a (hnmsub.subset ham) b hb')
          refine textRange_of_acc (a1 := some (a.placed.start, a.placed.stop))
            (s := a.placed.start) (lo := a.placed.start) (hi := hi) rfl ?_ ?_ ?_ (Nat.le_refl _)
          · cases hrh : rest with
            | nil => exact ⟨_, rfl, a.placed.start_le_stop⟩
            | cons q qs =>
              refine accFrom_update ⟨_, rfl, a.placed.start_le_stop⟩ ?_
              have := hrestge q (by rw [hrh]; simp)
              exact Nat.le_trans this q.placed.start_le_stop
          · intro m' hm'
            subst hm'
            obtain ⟨t, htm, htree, r, hr1, hr2, hr3⟩ := nestedOf_some hnest hrn htn
            refine ⟨r, hr1, ?_⟩
            have hle := Meta.textRange_le hr1
            have hat := hatree rfl
            -- `a` is the first solid element of the group, so it precedes the tree
            have htsolid : t.elem.isTrivia = false := by
              cases he : t.elem <;> rw [he] at htree <;> simp [Elem.isTree, Elem.isTrivia] at *
            have hex : ∃ b, (name.find? fun a => !a.elem.isTrivia) = some b := by
              rw [← Option.isSome_iff_exists, List.find?_isSome]
              exact ⟨t, htm, by simp [htsolid]⟩
            obtain ⟨b, hbf⟩ := hex
            have hb1 := hh b (by rw [← hsplit, List.find?_append, hbf]; rfl)
            have hbs : b.elem.isTrivia = false := by
              have := List.find?_some hbf; simpa using this
            have hbnmem : b.placed ∈ (nm.map Annot.placed).filter fun p => !p.elem.isTrivia := by
              rw [List.mem_filter]
              refine ⟨List.mem_map_of_mem ?_, by
                rw [show b.placed.elem = b.elem from rfl, hbs]; rfl⟩
              rw [← hnm]
              simp only [Option.isSome_some, if_true, List.mem_filter]
              exact ⟨List.mem_of_find?_eq_some hbf, by simp [hb1]⟩
            rw [hsol] at hbnmem
            have hba : b.placed = a.placed := by simpa using hbnmem
            obtain ⟨_, l1, l2, hl, hpre⟩ := List.find?_eq_some_iff_append.1 hbf
            have htl2 : t ∈ l2 := by
              rw [hl] at htm
              rcases List.mem_append.1 htm with h' | h'
              · have := hpre t h'; simp [htsolid] at this
              · rcases List.mem_cons.1 h' with h' | h'
                · subst h'; rw [hb1] at htree; simp at htree
                · exact h'
            have := hbn.before hl htl2
            rw [hba] at this
            have := a.placed.start_le_stop
            omega
          · apply parseMetaValue_in
            have hbt := hbr.map_sublist (List.tail_sublist rest)
            refine ⟨hbt.1, ?_⟩
            intro p hp
            obtain ⟨b, hbm, rfl⟩ := List.mem_map.1 hp
            exact ⟨hrestge b ((List.tail_sublist rest).subset hbm), (hbt.2 _ hp).2⟩
        | err items =>
          have hitems : items = nm.map Annot.placed ∧ items ≠ [] := by
            unfold parseName at hpn
            split at hpn
            · simp at hpn
            · rename_i q hq
              split at hpn
              · simp at hpn
              · simp at hpn
              · simp at hpn
                refine ⟨hpn.symm, ?_⟩
                intro he
                rw [← hpn] at he
                rw [he] at hq
                simp at hq
            · rename_i hq1 hq2
              simp at hpn
              refine ⟨hpn.symm, ?_⟩
              intro he
              rw [← hpn] at he
              exact hq1 (by rw [he]; rfl)
          obtain ⟨rfl, hne⟩ := hitems
          cases hnmc : nm with
          | nil => rw [hnmc] at hne; simp at hne
          | cons f fs =>
            obtain ⟨lst, hlst⟩ : ∃ x, ((f :: fs).map Annot.placed).getLast? = some x := by
              rw [← Option.isSome_iff_exists]; simp
            rw [hnmc] at hbnm hnmsub
            have hfe := hbnm.ends (a := f.placed) (by simp) hlst
            have hfl : f.placed.start ≤ lst.stop := Nat.le_trans hfe lst.start_le_stop
            have hrestge : ∀ b ∈ rest, f.placed.start ≤ b.placed.start := fun b hb' =>
              Nat.le_trans f.placed.start_le_stop
                (hsep f (hnmsub.subset (by simp)) b hb')
            refine textRange_of_acc (a1 := some (f.placed.start, lst.stop))
              (s := f.placed.start) (lo := f.placed.start) (hi := hi) ?_ ?_ ?_ ?_ (Nat.le_refl _)
            · simp only [optRange, itemsRange, hlst]
              simp [rangeNew, hfl, updateRange]
            · cases hrh : rest with
              | nil => exact ⟨_, rfl, hfl⟩
              | cons q qs =>
                refine accFrom_update ⟨_, rfl, hfl⟩ ?_
                have := hrestge q (by rw [hrh]; simp)
                exact Nat.le_trans this q.placed.start_le_stop
            · intro m' hm'
              subst hm'
              obtain ⟨t, htm, htree, r, hr1, hr2, hr3⟩ := nestedOf_some hnest hrn htn
              refine ⟨r, hr1, ?_⟩
              have hle := Meta.textRange_le hr1
              have htsolid : t.elem.isTrivia = false := by
                cases he : t.elem <;> rw [he] at htree <;> simp [Elem.isTree, Elem.isTrivia] at *
              have hex : ∃ b, (name.find? fun a => !a.elem.isTrivia) = some b := by
                rw [← Option.isSome_iff_exists, List.find?_isSome]
                exact ⟨t, htm, by simp [htsolid]⟩
              obtain ⟨b, hbf⟩ := hex
              have hb1 := hh b (by rw [← hsplit, List.find?_append, hbf]; rfl)
              obtain ⟨_, l1, l2, hl, hpre⟩ := List.find?_eq_some_iff_append.1 hbf
              have htl2 : t ∈ l2 := by
                rw [hl] at htm
                rcases List.mem_append.1 htm with h' | h'
                · have := hpre t h'; simp [htsolid] at this
                · rcases List.mem_cons.1 h' with h' | h'
                  · subst h'; rw [hb1] at htree; simp at htree
                  · exact h'
              have hbt := hbn.before hl htl2
              -- the first kept element is at or before `b`
              have hbnm' : b ∈ f :: fs := by
                rw [← hnmc, ← hnm]
                simp only [Option.isSome_some, if_true, List.mem_filter]
                exact ⟨List.mem_of_find?_eq_some hbf, by simp [hb1]⟩
              have hfb : f.placed.start ≤ b.placed.start := by
                rcases List.mem_cons.1 hbnm' with rfl | h'
                · exact Nat.le_refl _
                · exact Nat.le_trans f.placed.start_le_stop
                    ((List.pairwise_cons.1 hbnm.1).1 _ (List.mem_map_of_mem h'))
              have := b.placed.start_le_stop
              omega
            · apply parseMetaValue_in
              have hbt := hbr.map_sublist (List.tail_sublist rest)
              refine ⟨hbt.1, ?_⟩
              intro p hp
              obtain ⟨b, hbm, rfl⟩ := List.mem_map.1 hp
              exact ⟨hrestge b ((List.tail_sublist rest).subset hbm), (hbt.2 _ hp).2⟩
    · unfold Meta.empty? at h
      split at h
      · simp at h
        subst h
        simp [Meta.textRange, optRange, eqRange, rangeNew]
      · simp at h

/-! ### Token trees in which every argument starts with a name -/

/-- No argument of a comma separated list starts with a nested token tree (`atStart`: only
trivia since the last comma). -/
def scanHeads : Bool → List Elem → Bool
  | _, [] => true
  | atStart, c :: cs =>
    if c.isComma then scanHeads true cs
    else if c.isTrivia then scanHeads atStart cs
    else if atStart && c.isTree then false
    else scanHeads false cs

/-- The elements after the opening parenthesis. -/
def afterLParen : List Elem → List Elem
  | [] => []
  | c :: cs => if c.isLParen then cs else c :: cs

mutual

/-- At every nesting depth, no argument starts with a nested token tree. -/
def Elem.named : Elem → Bool
  | .tok _ _ => true
  | .tree cs => scanHeads true (afterLParen cs) && Elem.namedList cs
  | .error _ => true

/-- See `Elem.named`. -/
def Elem.namedList : List Elem → Bool
  | [] => true
  | c :: cs => c.named && Elem.namedList cs

end

theorem headNamed_cons_trivia {x : Annot} {g : List Annot} (hx : x.elem.isTrivia = true)
    (h : HeadNamed g) : HeadNamed (x :: g) := by
  intro a ha
  rw [List.find?_cons] at ha
  simp [hx] at ha
  exact h a (by simpa using ha)

theorem headNamed_cons_solid {x : Annot} {g : List Annot} (hx : x.elem.isTrivia = false)
    (h : x.elem.isTree = false) : HeadNamed (x :: g) := by
  intro a ha
  rw [List.find?_cons] at ha
  simp [hx] at ha
  subst ha
  exact h

theorem groupRuns_named (l : List Annot) (b : Bool)
    (h : scanHeads b (l.map Annot.elem) = true) :
    (∀ kg ∈ (groupRuns (fun a : Annot => a.elem.isComma) l).tail, kg.1 = false →
      HeadNamed kg.2) ∧
    (∀ kg, (groupRuns (fun a : Annot => a.elem.isComma) l).head? = some kg → kg.1 = false →
      b = true → HeadNamed kg.2) := by
  induction l generalizing b with
  | nil => simp [groupRuns]
  | cons x xs ih =>
    simp only [List.map_cons, scanHeads] at h
    by_cases hc : x.elem.isComma = true
    · rw [if_pos hc] at h
      obtain ⟨h1, h2⟩ := ih true h
      unfold groupRuns
      split
      · simp [hc]
      · rename_i k g rest hg
        rw [hg] at h1 h2
        split
        · rename_i hk
          refine ⟨h1, ?_⟩
          intro kg hkg hf
          simp at hkg
          subst hkg
          simp [hc] at hk
          simp [hk] at hf
        · refine ⟨?_, ?_⟩
          · intro kg hkg hf
            rcases List.mem_cons.1 hkg with rfl | hkg
            · exact h2 _ rfl hf rfl
            · exact h1 kg hkg hf
          · intro kg hkg hf
            simp at hkg
            subst hkg
            simp [hc] at hf
    · rw [if_neg hc] at h
      have hcf : x.elem.isComma = false := by simpa using hc
      by_cases ht : x.elem.isTrivia = true
      · rw [if_pos ht] at h
        obtain ⟨h1, h2⟩ := ih b h
        unfold groupRuns
        split
        · refine ⟨by simp, ?_⟩
          intro kg hkg _ _
          simp at hkg
          subst hkg
          exact headNamed_cons_trivia ht (by intro a ha; simp at ha)
        · rename_i k g rest hg
          rw [hg] at h1 h2
          split
          · rename_i hk
            refine ⟨h1, ?_⟩
            intro kg hkg hf hb
            simp at hkg
            subst hkg
            exact headNamed_cons_trivia ht (h2 _ rfl hf hb)
          · rename_i hk
            refine ⟨?_, ?_⟩
            · intro kg hkg hf
              rcases List.mem_cons.1 hkg with rfl | hkg
              · simp at hf; subst hf; simp [hcf] at hk
              · exact h1 kg hkg hf
            · intro kg hkg _ _
              simp at hkg
              subst hkg
              exact headNamed_cons_trivia ht (by intro a ha; simp at ha)
      · rw [if_neg ht] at h
        have htf : x.elem.isTrivia = false := by simpa using ht
        by_cases hbt : (b && x.elem.isTree) = true
        · rw [if_pos hbt] at h; simp at h
        · rw [if_neg hbt] at h
          obtain ⟨h1, h2⟩ := ih false h
          have hnt : b = true → x.elem.isTree = false := by
            intro hb; subst hb; simpa using hbt
          unfold groupRuns
          split
          · refine ⟨by simp, ?_⟩
            intro kg hkg _ hb
            simp at hkg
            subst hkg
            exact headNamed_cons_solid htf (hnt hb)
          · rename_i k g rest hg
            rw [hg] at h1
            split
            · refine ⟨h1, ?_⟩
              intro kg hkg _ hb
              simp at hkg
              subst hkg
              exact headNamed_cons_solid htf (hnt hb)
            · rename_i hk
              refine ⟨?_, ?_⟩
              · intro kg hkg hf
                rcases List.mem_cons.1 hkg with rfl | hkg
                · simp at hf; subst hf; simp [hcf] at hk
                · exact h1 kg hkg hf
              · intro kg hkg _ hb
                simp at hkg
                subst hkg
                exact headNamed_cons_solid htf (hnt hb)

theorem scanHeads_prefix (b : Bool) (l1 l2 : List Elem) (h : scanHeads b (l1 ++ l2) = true) :
    scanHeads b l1 = true := by
  induction l1 generalizing b with
  | nil => rfl
  | cons c cs ih =>
    simp only [List.cons_append, scanHeads] at h ⊢
    split at h
    · rename_i hc; rw [if_pos hc]; exact ih _ h
    · rename_i hc
      rw [if_neg hc]
      split at h
      · rename_i ht; rw [if_pos ht]; exact ih _ h
      · rename_i ht
        rw [if_neg ht]
        split at h
        · simp at h
        · rename_i hb; rw [if_neg hb]; exact ih _ h

theorem content_scan (pe : ExprParser) (o : Nat) (cs : List Elem)
    (hwf : (cs.tail.all fun c => !c.isLParen) = true)
    (h : scanHeads true (afterLParen cs) = true) :
    scanHeads true ((content (annotate pe o cs)).map Annot.elem) = true := by
  have htake : ∀ (p : Annot → Bool) (l : List Annot),
      scanHeads true (l.map Annot.elem) = true →
      scanHeads true ((l.takeWhile p).map Annot.elem) = true := by
    intro p l hl
    rw [← List.takeWhile_append_dropWhile (l := l) (p := p), List.map_append] at hl
    exact scanHeads_prefix _ _ _ hl
  cases cs with
  | nil => simp [annotate, content, scanHeads]
  | cons c cs =>
    have hany : (annotate pe (o + c.len) cs).any (fun a => a.elem.isLParen) = false := by
      rw [List.any_eq_false]
      intro a ha
      have : a.elem ∈ cs := by
        rw [← annotate_elems pe (o + c.len) cs]; exact List.mem_map_of_mem ha
      simp only [List.tail_cons, List.all_eq_true] at hwf
      simpa using hwf _ this
    unfold content
    apply htake
    simp only [annotate, List.any_cons, hany, Bool.or_false]
    simp only [afterLParen] at h
    by_cases hc : c.isLParen = true
    · rw [if_pos hc] at h
      have : (Annot.elem ⟨⟨c, o⟩, c.parse pe o⟩).isLParen = true := hc
      rw [if_pos this]
      simp only [List.drop_one, List.tail_cons, annotate_elems]
      exact h
    · rw [if_neg hc] at h
      have : ¬ (Annot.elem ⟨⟨c, o⟩, c.parse pe o⟩).isLParen = true := hc
      rw [if_neg this]
      simp only [List.drop_zero, List.map_cons, annotate_elems]
      exact h

theorem itemsOf_mem {pe : ExprParser} {ttStart ttStop : Nat} (gs : List (Bool × List Annot))
    (sep : Nat) (ms : List Meta) (h : itemsOf pe ttStart ttStop sep gs = some ms) :
    ∀ m ∈ ms, ∃ g sep', (false, g) ∈ gs ∧ buildItem pe ttStart ttStop sep' g = some m := by
  induction gs generalizing sep ms with
  | nil => simp [itemsOf] at h; subst h; simp
  | cons kg rest ih =>
    obtain ⟨k, g⟩ := kg
    cases k with
    | true =>
      unfold itemsOf at h
      intro m hm
      obtain ⟨g', s, h1, h2⟩ := ih _ _ h m hm
      exact ⟨g', s, List.mem_cons_of_mem _ h1, h2⟩
    | false =>
      unfold itemsOf at h
      simp only [Option.bind_eq_some_iff, Option.map_eq_some_iff] at h
      obtain ⟨m0, hm0, ms', h', rfl⟩ := h
      intro m hm
      rcases List.mem_cons.1 hm with rfl | hm
      · exact ⟨g, sep, by simp, hm0⟩
      · obtain ⟨g', s, h1, h2⟩ := ih _ _ h' m hm
        exact ⟨g', s, List.mem_cons_of_mem _ h1, h2⟩

mutual

/-- When every argument starts with a name, every item has a text range. -/
theorem Elem.parse_ranges (pe : ExprParser) : ∀ (e : Elem) (o : Nat) (items : List Meta),
    e.wf = true → e.named = true → e.parse pe o = some items →
    ∀ m ∈ items, m.textRange.isSome
  | .tok _ _, _, items, _, _, h => by simp [Elem.parse] at h; subst h; simp
  | .error _, _, items, _, _, h => by simp [Elem.parse] at h; subst h; simp
  | .tree cs, o, items, hwf, hn, h => by
    simp only [Elem.wf, Bool.and_eq_true] at hwf
    simp only [Elem.named, Bool.and_eq_true] at hn
    have ht := annotate_ok pe cs o hwf.2
    have hr := annotate_ranges pe cs o hwf.2 hn.2
    have hb := (annotate_inB pe o cs).map_sublist (content_sublist (annotate pe o cs))
    have hsc := content_scan pe o cs hwf.1 hn.1
    simp only [Elem.parse] at h
    intro m hm
    obtain ⟨g, s, hg, hbi⟩ := itemsOf_mem _ _ _ h m hm
    have hfl := groupRuns_flatten (fun a : Annot => a.elem.isComma) (content (annotate pe o cs))
    have hsub : g.Sublist (content (annotate pe o cs)) := by
      have h1 : g ∈ (groupRuns (fun a : Annot => a.elem.isComma)
          (content (annotate pe o cs))).map Prod.snd := List.mem_map_of_mem hg
      have h2 := List.sublist_flatten_of_mem h1
      rw [hfl] at h2
      exact h2
    have hnamed : HeadNamed g := by
      obtain ⟨h1, h2⟩ := groupRuns_named _ true hsc
      cases hgr : groupRuns (fun a : Annot => a.elem.isComma) (content (annotate pe o cs)) with
      | nil => rw [hgr] at hg; simp at hg
      | cons kg rest =>
        rw [hgr] at hg h1 h2
        rcases List.mem_cons.1 hg with rfl | hg
        · exact h2 _ rfl rfl rfl
        · exact h1 _ hg rfl
    exact buildItem_range (hb.map_sublist hsub)
      (fun a ha => ht a ((content_sublist _).subset (hsub.subset ha)))
      (fun a ha => hr a ((content_sublist _).subset (hsub.subset ha))) hnamed hbi

/-- See `Elem.parse_ranges`. -/
theorem annotate_ranges (pe : ExprParser) : ∀ (cs : List Elem) (o : Nat),
    Elem.wfList cs = true → Elem.namedList cs = true → RangesOk (annotate pe o cs)
  | [], _, _, _ => by simp [annotate, RangesOk]
  | c :: cs, o, h, hn => by
    simp only [Elem.wfList, Bool.and_eq_true] at h
    simp only [Elem.namedList, Bool.and_eq_true] at hn
    intro a ha items hi
    simp only [annotate] at ha
    rcases List.mem_cons.1 ha with rfl | ha
    · exact Elem.parse_ranges pe c o items h.1 hn.1 hi
    · exact annotate_ranges pe cs _ h.2 hn.2 a ha items hi

end

end Verif.Ir
