import Verif.Analyzer.OverlapProps

/-!
# C109: applying the quickfixes for overlapping ids and selectors ends the overlaps

Builds on the rules of C38 and C39 (`Verif.Analyzer.Overlap`). The items of a list are given by their
index.
-/

namespace Verif.Analyzer.RepeatFix

open Verif.Ir

/-! ## Specification -/

/-- The item at `n` has a number that also an earlier item has. -/
def RepeatAt {α : Type} (key : α → Option Nat) (l : List α) (n : Nat) : Prop :=
  ∃ j k, j < n ∧ (l[n]?).bind key = some k ∧ (l[j]?).bind key = some k

/-- Which report is that of the item at `n`: as many are before it as there are repeated items before
that item. -/
noncomputable def reportOf {α : Type} (key : α → Option Nat) (l : List α) (n : Nat) : Nat :=
  open Classical in ((List.range n).filter fun m => decide (RepeatAt key l m)).length

/-- The quickfix of a report writes the number `i`. -/
def Writes (ds : List Diag) (m i : Nat) : Prop :=
  ∃ d q, ds[m]? = some d ∧ d.quickfixes = some [q] ∧ q.edits.map (·.text) = [i.repr.toList]

/-- The function with the number written as the value of the argument that carries the id. -/
def IdIs (v : Version) (f : ExtFn) (i : Nat) : Prop :=
  ∃ a els, idArg v f = some a ∧ a.value = some ⟨els, .intNumber, i.repr⟩

/-- The callable with the number written as the value of its selector argument. -/
def SelectorIs (c : CallItem) (i : Nat) : Prop :=
  ∃ k els, c.call.selectorArg = some ⟨k, some ⟨els, .intNumber, i.repr⟩⟩

/-- `new` is `old` after the quickfixes of the reports of the `chosen` items: a chosen item has
the number that the quickfix of its report writes, the others are as they were. -/
def Applied {α : Type} (key : α → Option Nat) (is : α → Nat → Prop) (ds : List Diag)
    (chosen : Nat → Prop) (old new : List α) : Prop :=
  new.length = old.length ∧
    (∀ n, chosen n → ∀ x, new[n]? = some x →
      ∃ i, Writes ds (reportOf key old n) i ∧ is x i) ∧
    ∀ n, ¬ chosen n → new[n]? = old[n]?

/-! ## Lemmas -/

theorem repeatAt_iff {α : Type} (key : α → Option Nat) (l : List α) (n : Nat) (x : α)
    (hx : l[n]? = some x) :
    RepeatAt key l n ↔ ((key x).isSome ∧ ∃ j, j < n ∧ (l[j]?.bind key) = key x) := by
  unfold RepeatAt
  rw [hx]
  constructor
  · rintro ⟨j, k, hj, h1, h2⟩
    simp only [Option.bind_some] at h1
    exact ⟨by simp [h1], j, hj, by rw [h2, h1]⟩
  · rintro ⟨hs, j, hj, h⟩
    obtain ⟨k, hk⟩ := Option.isSome_iff_exists.1 hs
    exact ⟨j, k, hj, by simpa using hk, by rw [h, hk]⟩

theorem repeatAt_lt {α : Type} (key : α → Option Nat) (l : List α) (n : Nat)
    (h : RepeatAt key l n) : n < l.length := by
  obtain ⟨j, k, _, h1, _⟩ := h
  cases hn : l[n]? with
  | none => rw [hn] at h1; simp at h1
  | some x => exact (List.getElem?_eq_some_iff.1 hn).1

open Classical in
/-- The repeated items are at the repeated positions, in order. -/
theorem repeats_positions {α : Type} (key : α → Option Nat) (l : List α) :
    repeats key l = ((List.range l.length).filter fun n => decide (RepeatAt key l n)).filterMap
      fun n => l[n]? := by
  have hz : l.zipIdx = (List.range l.length).filterMap fun n => (l[n]?).map fun x => (x, n) := by
    apply List.ext_getElem?
    intro i
    have hl : (List.range l.length).filterMap (fun n => (l[n]?).map fun x => (x, n)) =
        (List.range l.length).attach.map fun n => (l[n.1]'(List.mem_range.1 n.2), n.1) := by
      rw [← List.filterMap_eq_map]
      conv => lhs; rw [← List.attach_map_subtype_val (List.range l.length), List.filterMap_map]
      congr 1
      funext ⟨n, hn⟩
      simp [List.getElem?_eq_getElem (List.mem_range.1 hn)]
    rw [hl]
    by_cases hi : i < l.length
    · simp [List.getElem?_zipIdx, hi]
    · simp [List.getElem?_zipIdx, hi]
  unfold repeats
  rw [hz, List.filter_filterMap, List.map_filterMap]
  have hr : ∀ (l' : List Nat), (∀ n ∈ l', n < l.length) →
      l'.filterMap (fun n => ((l[n]?.map fun x => (x, n)).filter fun p =>
        decide ((key p.1).isSome ∧ ∃ j, j < p.2 ∧ (l[j]?.bind key) = key p.1)).map Prod.fst) =
      (l'.filter fun n => decide (RepeatAt key l n)).filterMap fun n => l[n]? := by
    intro l' hl'
    induction l' with
    | nil => rfl
    | cons n l' ih =>
      have hn := hl' n (by simp)
      have hx : l[n]? = some l[n] := List.getElem?_eq_getElem hn
      rw [List.filterMap_cons, List.filter_cons]
      have ih' := ih fun m hm => hl' m (by simp [hm])
      by_cases hrep : RepeatAt key l n
      · have h' := (repeatAt_iff key l n _ hx).1 hrep
        simp only [hrep, decide_true, if_true, List.filterMap_cons, hx, Option.map_some,
          Option.filter_some, h', and_self, ih']
      · have h' := fun h => hrep ((repeatAt_iff key l n _ hx).2 h)
        rw [if_neg (by simpa using hrep), ← ih']
        simp only [hx, Option.map_some, Option.filter_some]
        rw [if_neg (by simpa using h')]
        rfl
  exact hr _ fun n hn => List.mem_range.1 hn

open Classical in
theorem reportOf_get {α : Type} (key : α → Option Nat) (l : List α) (n : Nat)
    (h : RepeatAt key l n) : (repeats key l)[reportOf key l n]? = l[n]? := by
  have hlt := repeatAt_lt key l n h
  rw [repeats_positions]
  have hsplit : List.range l.length = List.range n ++ n :: (List.range' (n + 1) (l.length - n - 1)) := by
    apply List.ext_getElem
    · simp; omega
    · intro i h1 h2
      simp only [List.getElem_range]
      by_cases hi : i < n
      · rw [List.getElem_append_left (by simpa using hi)]; simp
      · rw [List.getElem_append_right (by simpa using hi)]
        simp only [List.length_range]
        rw [List.getElem_cons]
        split
        · omega
        · simp; omega
  have hall : ∀ m ∈ (List.range n).filter fun m => decide (RepeatAt key l m), (l[m]?).isSome := by
    intro m hm
    have := repeatAt_lt key l m (by simpa using (List.mem_filter.1 hm).2)
    simp [this]
  have hlen : (((List.range n).filter fun m => decide (RepeatAt key l m)).filterMap
      fun m => l[m]?).length = reportOf key l n := by
    unfold reportOf
    generalize (List.range n).filter (fun m => decide (RepeatAt key l m)) = ms at hall
    induction ms with
    | nil => rfl
    | cons m ms ih =>
      obtain ⟨x, hx⟩ := Option.isSome_iff_exists.1 (hall m (by simp))
      simp [hx, ih fun m hm => hall m (by simp [hm])]
  rw [hsplit, List.filter_append, List.filterMap_append, List.getElem?_append_right (by omega), hlen,
    Nat.sub_self, List.filter_cons, if_pos (by simpa using h)]
  simp [List.getElem?_eq_getElem hlt]

open Classical in
theorem reportOf_lt {α : Type} (key : α → Option Nat) (l : List α) (n m : Nat) (hnm : n < m)
    (h : RepeatAt key l n) : reportOf key l n < reportOf key l m := by
  unfold reportOf
  have : List.range m = List.range n ++ n :: (List.range' (n + 1) (m - n - 1)) := by
    apply List.ext_getElem
    · simp; omega
    · intro i h1 h2
      simp only [List.getElem_range]
      by_cases hi : i < n
      · rw [List.getElem_append_left (by simpa using hi)]; simp
      · rw [List.getElem_append_right (by simpa using hi)]
        simp only [List.length_range]
        rw [List.getElem_cons]
        split
        · omega
        · simp; omega
  rw [this, List.filter_append, List.filter_cons, if_pos (by simpa using h)]
  simp

theorem getElem_of_nodup (ids : List (Option Nat)) (h : (ids.filterMap id).Nodup) (a b i : Nat)
    (ha : ids[a]? = some (some i)) (hb : ids[b]? = some (some i)) : a = b := by
  induction ids generalizing a b with
  | nil => simp at ha
  | cons x xs ih =>
    have hmem (c : Nat) (hc : xs[c]? = some (some i)) : i ∈ xs.filterMap id :=
      List.mem_filterMap.2 ⟨some i, List.mem_of_getElem? hc, rfl⟩
    cases a with
    | zero =>
      cases b with
      | zero => rfl
      | succ b =>
        simp only [List.getElem?_cons_zero, Option.some.injEq] at ha
        subst ha
        simp only [List.filterMap_cons, id, List.nodup_cons] at h
        exact absurd (hmem b (by simpa using hb)) h.1
    | succ a =>
      have hx : (xs.filterMap id).Nodup := by
        cases x with
        | none => simpa using h
        | some y => simp only [List.filterMap_cons, id, List.nodup_cons] at h; exact h.2
      cases b with
      | zero =>
        simp only [List.getElem?_cons_zero, Option.some.injEq] at hb
        subst hb
        simp only [List.filterMap_cons, id, List.nodup_cons] at h
        exact absurd (hmem a (by simpa using ha)) h.1
      | succ b => rw [ih hx a b (by simpa using ha) (by simpa using hb)]

/-- The heart of the matter: new numbers that are not in use and pairwise distinct. -/
theorem applied_repeats {α : Type} (key : α → Option Nat) (is : α → Nat → Prop) (ds : List Diag)
    (chosen : Nat → Prop) (old new : List α) (ids : List (Option Nat))
    (hnd : (ids.filterMap id).Nodup)
    (hfresh : ∀ i, some i ∈ ids → ∀ x ∈ old, key x ≠ some i)
    (hw : ∀ n, chosen n → ∀ i, Writes ds (reportOf key old n) i →
      ids[reportOf key old n]? = some (some i))
    (his : ∀ x i, some i ∈ ids → is x i → key x = some i)
    (hc : ∀ n, chosen n → RepeatAt key old n)
    (h : Applied key is ds chosen old new) (n : Nat) :
    RepeatAt key new n ↔ RepeatAt key old n ∧ ¬ chosen n := by
  obtain ⟨hlen, h1, h2⟩ := h
  have hnew (n k : Nat) (hn : chosen n) (hk : (new[n]?).bind key = some k) :
      ids[reportOf key old n]? = some (some k) := by
    cases hx : new[n]? with
    | none => rw [hx] at hk; simp at hk
    | some x =>
      rw [hx] at hk
      obtain ⟨i, hi, hxi⟩ := h1 n hn x hx
      have := hw n hn _ hi
      have hki := his x i (List.mem_of_getElem? this) hxi
      simp only [Option.bind_some] at hk
      rw [hki] at hk
      cases hk
      exact this
  have hold (k : Nat) (m : Nat) (hk : (old[m]?).bind key = some k) : some k ∉ ids := by
    intro hmem
    cases hx : old[m]? with
    | none => rw [hx] at hk; simp at hk
    | some x =>
      rw [hx] at hk
      exact hfresh k hmem x (List.mem_of_getElem? hx) (by simpa using hk)
  constructor
  · rintro ⟨j, k, hj, hkn, hkj⟩
    by_cases hcn : chosen n
    · have hidn := hnew n k hcn hkn
      by_cases hcj : chosen j
      · have hidj := hnew j k hcj hkj
        have := getElem_of_nodup ids hnd _ _ _ hidn hidj
        have hlt := reportOf_lt key old j n hj (hc j hcj)
        omega
      · rw [h2 j hcj] at hkj
        exact absurd (List.mem_of_getElem? hidn) (hold k j hkj)
    · rw [h2 n hcn] at hkn
      by_cases hcj : chosen j
      · have hidj := hnew j k hcj hkj
        exact absurd (List.mem_of_getElem? hidj) (hold k n hkn)
      · rw [h2 j hcj] at hkj
        exact ⟨⟨j, k, hj, hkn, hkj⟩, hcn⟩
  · rintro ⟨⟨j, k, hj, hkn, hkj⟩, hcn⟩
    -- the first item with the number is not repeated, so it is as it was
    have hfirst : ∃ j', j' ≤ j ∧ (old[j']?).bind key = some k ∧ ¬ RepeatAt key old j' := by
      induction j using Nat.strongRecOn with
      | _ j ih =>
        by_cases hr : RepeatAt key old j
        · obtain ⟨j2, k2, hj2, ha, hb⟩ := hr
          rw [hkj] at ha
          cases ha
          obtain ⟨j', h1', h2', h3'⟩ := ih j2 hj2 (by omega) hb
          exact ⟨j', by omega, h2', h3'⟩
        · exact ⟨j, Nat.le_refl j, hkj, hr⟩
    obtain ⟨j', hj', hk', hr'⟩ := hfirst
    refine ⟨j', k, by omega, by rw [h2 n hcn]; exact hkn, ?_⟩
    rw [h2 j' fun hch => hr' (hc j' hch)]
    exact hk'

theorem reports_repeats {α : Type} (key : α → Option Nat) (l : List α)
    (h : ∀ n, ¬ RepeatAt key l n) : repeats key l = [] := by
  rw [repeats_positions]
  rw [List.filter_eq_nil_iff.2]
  · rfl
  · intro n _
    simpa using h n

theorem repr_inj (i j : Nat) (h : i.repr.toList = j.repr.toList) : i = j := by
  have h := String.toList_inj.1 h
  have h1 := asInt_repr (max i j) i (Nat.le_max_left _ _)
  have h2 := asInt_repr (max i j) j (Nat.le_max_right _ _)
  rw [h, h2] at h1
  exact (Option.some.inj h1).symm

theorem filterMap_lt (ids : List (Option Nat)) (h : none ∈ ids) :
    (ids.filterMap id).length < ids.length := by
  induction ids with
  | nil => simp at h
  | cons a t ih =>
    cases a with
    | none =>
      have := List.length_filterMap_le id t
      simp only [List.filterMap_cons, id, List.length_cons]
      omega
    | some a =>
      have := ih (by simpa using h)
      simpa using this

/-- There is a number for each report as long as the items take up no more than half of them. -/
theorem none_notMem {α : Type} (key : α → Option Nat) (max : Nat) (l : List α)
    (ids : List (Option Nat))
    (h3 : none ∈ ids → ∀ j, 1 ≤ j → j ≤ max → (∃ x ∈ l, key x = some j) ∨ some j ∈ ids)
    (h4 : ids.length = (repeats key l).length) (hfree : 2 * l.length ≤ max) : none ∉ ids := by
  intro hn
  have hcov : ∀ j ∈ List.range' 1 max, j ∈ l.filterMap key ++ ids.filterMap id := by
    intro j hj
    rw [List.mem_range'_1] at hj
    rcases h3 hn j hj.1 (by omega) with ⟨x, hx, hk⟩ | h
    · exact List.mem_append_left _ (List.mem_filterMap.2 ⟨x, hx, hk⟩)
    · exact List.mem_append_right _ (List.mem_filterMap.2 ⟨some j, h, rfl⟩)
  have h1 := nodup_subset_length _ _ (List.nodup_range' (s := 1) (n := max)) hcov
  rw [List.length_range', List.length_append] at h1
  have h2 := List.length_filterMap_le key l
  have h5 := filterMap_lt ids hn
  have h6 : (repeats key l).length ≤ l.length := by
    unfold repeats
    rw [List.length_map]
    refine Nat.le_trans (List.length_filter_le _ _) ?_
    simp
  omega

/-! ## C109 -/

/-- Chain extensions: applying the quickfixes of any of the reports of overlapping ids, all at once,
ends exactly these reports and causes no others. -/
theorem C109_ids (v : Version) (r : Ranges) (old new : List ExtFn) (chosen : Nat → Prop)
    (hc : ∀ n, chosen n → RepeatAt (idNumber v) old n)
    (h : Applied (idNumber v) (IdIs v) (noOverlappingIds v r old) chosen old new) (n : Nat) :
    RepeatAt (idNumber v) new n ↔ RepeatAt (idNumber v) old n ∧ ¬ chosen n := by
  obtain ⟨ids, h1, h2, h3, h4, h5⟩ := C39_replacements v r old
  refine applied_repeats (idNumber v) (IdIs v) _ chosen old new ids h1 (fun i hi => (h2 i hi).2) ?_ ?_
    hc h n
  · rintro m _ i ⟨d, q, hd, hq, ht⟩
    obtain ⟨f, o, a, x, hf, ho, ha, hx, hs, hn⟩ := h5 _ d hd
    cases o with
    | none => rw [hn rfl] at hq; cases hq
    | some j =>
      rw [hs j rfl] at hq
      simp only [Option.some.injEq, List.cons.injEq, and_true] at hq
      subst hq
      simp only [List.map_cons, List.map_nil, List.cons.injEq, and_true] at ht
      rw [ho, repr_inj j i ht]
  · rintro x i hi ⟨a, els, ha, hv⟩
    exact C39_applied v x i (h2 i hi).1 a els ha hv

/-- When the quickfixes of all reports are applied, none is left, and no other rule is needed: the
rule reports nothing. -/
theorem C109_ids_end (v : Version) (r r' : Ranges) (old new : List ExtFn)
    (h : Applied (idNumber v) (IdIs v) (noOverlappingIds v r old) (RepeatAt (idNumber v) old) old
      new) : noOverlappingIds v r' new = [] := by
  have := C39_reports v r' new
  rw [reports_repeats (idNumber v) new fun n hn =>
    ((C109_ids v r old new _ (fun _ h => h) h n).1 hn).2
      ((C109_ids v r old new _ (fun _ h => h) h n).1 hn).1] at this
  simpa using this

/-- Constructors (messages) with overlapping selectors that are given explicitly: the same.

Missing for the full claim: callables without an explicit selector, for which it is false
(`C109_negation_renamed`, `C109_negation_taken`). -/
theorem C109_selectors_partial (hash : String → Vector UInt8 32) (r : Ranges) (what : String)
    (old new : List CallItem) (chosen : Nat → Prop)
    (hfree : 2 * old.length ≤ 4294967295) (hc : ∀ n, chosen n → RepeatAt (sel hash) old n)
    (hx : ∀ n, chosen n → ∃ c v, old[n]? = some c ∧
      c.call.selectorArg.bind SelectorArg.value = some v)
    (h : Applied (sel hash) SelectorIs (overlappingSelectors hash r what old) chosen old new)
    (n : Nat) :
    RepeatAt (sel hash) new n ↔ RepeatAt (sel hash) old n ∧ ¬ chosen n := by
  obtain ⟨ids, h1, h2, h3, h4, h5⟩ := C38_replacements hash r what old
  refine applied_repeats (sel hash) SelectorIs _ chosen old new ids h1 (fun i hi => (h2 i hi).2) ?_ ?_
    hc h n
  · rintro m hm i ⟨d, q, hd, hq, ht⟩
    obtain ⟨x, o, hx', ho, hs, hn⟩ := h5 _ d hd
    obtain ⟨c, v, hcm, hv⟩ := hx m hm
    rw [reportOf_get _ _ _ (hc m hm), hcm] at hx'
    cases hx'
    cases o with
    | none =>
      exact absurd (List.mem_of_getElem? ho)
        (none_notMem (sel hash) 4294967295 old ids h3 h4 hfree)
    | some j =>
      rw [hs v j hv rfl] at hq
      simp only [Option.some.injEq, List.cons.injEq, and_true] at hq
      subst hq
      simp only [List.map_cons, List.map_nil, List.cons.injEq, and_true] at ht
      rw [ho, repr_inj j i ht]
  · rintro x i hi ⟨k, els, hs⟩
    exact C38_applied hash x i (h2 i hi).1 k els hs

/-- The rule reports no overlapping selectors of this kind of callable once the quickfixes of all
reports are applied, if all the overlapping selectors were given explicitly. -/
theorem C109_selectors_end_partial (hash : String → Vector UInt8 32) (r r' : Ranges) (what : String)
    (old new : List CallItem) (hfree : 2 * old.length ≤ 4294967295)
    (hx : ∀ n, RepeatAt (sel hash) old n → ∃ c v, old[n]? = some c ∧
      c.call.selectorArg.bind SelectorArg.value = some v)
    (h : Applied (sel hash) SelectorIs (overlappingSelectors hash r what old)
      (RepeatAt (sel hash) old) old new) :
    overlappingSelectors hash r' what new = [] := by
  have hno (n : Nat) : ¬ RepeatAt (sel hash) new n := fun hn =>
    ((C109_selectors_partial hash r what old new _ hfree (fun _ h => h) hx h n).1 hn).2
      ((C109_selectors_partial hash r what old new _ hfree (fun _ h => h) hx h n).1 hn).1
  obtain ⟨ids, _, _, _, _, h5⟩ := C38_replacements hash r' what new
  rw [reports_repeats (sel hash) new hno] at h5
  cases hl : overlappingSelectors hash r' what new with
  | nil => rfl
  | cons d ds =>
    obtain ⟨x, i, hx, _⟩ := h5 0 d (by rw [hl]; rfl)
    simp at hx

/-- The report of a repeated item is about that item, and it has a quickfix that writes a number, as
long as there are twice as many numbers as items: for ids. -/
theorem C109_ids_offered (v : Version) (r : Ranges) (fns : List ExtFn)
    (hfree : 2 * fns.length ≤ largestId v) (n : Nat) (f : ExtFn) (hf : fns[n]? = some f)
    (hn : RepeatAt (idNumber v) fns n) :
    ∃ d a x i, (noOverlappingIds v r fns)[reportOf (idNumber v) fns n]? = some d ∧
      idArg v f = some a ∧ a.value = some x ∧ d.range = r.value x ∧ i ≤ largestId v ∧
      (∃ q, d.quickfixes = some [q] ∧ q.edits.map (fun e => (e.text, e.start, e.stop)) =
        [(i.repr.toList, (r.value x).1, (r.value x).2)]) ∧
      Writes (noOverlappingIds v r fns) (reportOf (idNumber v) fns n) i := by
  obtain ⟨ids, h1, h2, h3, h4, h5⟩ := C39_replacements v r fns
  have hget := reportOf_get (idNumber v) fns n hn
  have hrep := C39_reports v r fns
  have hlen := congrArg List.length hrep
  rw [List.length_map, List.length_map] at hlen
  have hlt : reportOf (idNumber v) fns n < (noOverlappingIds v r fns).length := by
    rw [hlen]
    rw [hf] at hget
    exact (List.getElem?_eq_some_iff.1 hget).1
  obtain ⟨f', o, a, x, hf', ho, ha, hx, hs, _⟩ := h5 _ _ (List.getElem?_eq_getElem hlt)
  rw [hget, hf] at hf'
  cases hf'
  cases o with
  | none =>
    exact absurd (List.mem_of_getElem? ho) (none_notMem (idNumber v) _ fns ids h3 h4 hfree)
  | some i =>
    have hq := hs i rfl
    refine ⟨_, a, x, i, List.getElem?_eq_getElem hlt, ha, hx, ?_, (h2 i (List.mem_of_getElem? ho)).1,
      ⟨_, hq, rfl⟩, ⟨_, _, List.getElem?_eq_getElem hlt, hq, rfl⟩⟩
    have := congrArg (·[reportOf (idNumber v) fns n]?) hrep
    simp only [List.getElem?_map, List.getElem?_eq_getElem hlt, hget, hf, Option.map_some, ha, hx,
      Option.bind_some, Option.getD_some, Option.some.injEq, Prod.mk.injEq] at this
    exact this.2.1

/-- The same for selectors that are given explicitly. -/
theorem C109_selectors_offered_partial (hash : String → Vector UInt8 32) (r : Ranges) (what : String)
    (items : List CallItem) (hfree : 2 * items.length ≤ 4294967295) (n : Nat) (c : CallItem)
    (hc : items[n]? = some c) (hn : RepeatAt (sel hash) items n) (x : MetaValue)
    (hx : c.call.selectorArg.bind SelectorArg.value = some x) :
    ∃ d i, (overlappingSelectors hash r what items)[reportOf (sel hash) items n]? = some d ∧
      i ≤ 4294967295 ∧
      (∃ q, d.quickfixes = some [q] ∧ q.edits.map (fun e => (e.text, e.start, e.stop)) =
        [(i.repr.toList, (r.value x).1, (r.value x).2)]) ∧
      Writes (overlappingSelectors hash r what items) (reportOf (sel hash) items n) i := by
  obtain ⟨ids, h1, h2, h3, h4, h5⟩ := C38_replacements hash r what items
  have hget := reportOf_get (sel hash) items n hn
  have hlen : (overlappingSelectors hash r what items).length =
      (repeats (sel hash) items).length := by
    unfold overlappingSelectors
    rw [reportRepeats_eq, repsFrom_spec, List.length_zipWith, suggestSeq_length,
      List.length_replicate, Nat.min_self]
    rfl
  have hlt : reportOf (sel hash) items n < (overlappingSelectors hash r what items).length := by
    rw [hlen]
    rw [hc] at hget
    exact (List.getElem?_eq_some_iff.1 hget).1
  obtain ⟨c', o, hc', ho, hs, _⟩ := h5 _ _ (List.getElem?_eq_getElem hlt)
  rw [hget, hc] at hc'
  cases hc'
  cases o with
  | none =>
    exact absurd (List.mem_of_getElem? ho) (none_notMem (sel hash) _ items ids h3 h4 hfree)
  | some i =>
    have hq := hs x i hx rfl
    exact ⟨_, i, List.getElem?_eq_getElem hlt, (h2 i (List.mem_of_getElem? ho)).1, ⟨_, hq, rfl⟩,
      ⟨_, _, List.getElem?_eq_getElem hlt, hq, rfl⟩⟩

/-! ## Examples and findings -/

/-- Two functions with the id 1 and what the quickfix makes of them. -/
example : RepeatAt (idNumber .v4) [exFn "1", exFn "2", exFn "1"] 2 ∧
    ¬ RepeatAt (idNumber .v4) [exFn "1", exFn "2", exFn "1"] 1 ∧ IdIs .v4 (exFn (3).repr) 3 ∧
    2 * [exFn "1", exFn "2", exFn "1"].length ≤ largestId .v4 := by
  refine ⟨⟨0, 1, by decide, by decide, by decide⟩, ?_, ⟨_, [], rfl, rfl⟩, by decide⟩
  rintro ⟨j, k, hj, h1, h2⟩
  obtain rfl : j = 0 := by omega
  have e1 : ([exFn "1", exFn "2", exFn "1"][1]?).bind (idNumber .v4) = some 2 := by decide
  have e0 : ([exFn "1", exFn "2", exFn "1"][0]?).bind (idNumber .v4) = some 1 := by decide
  rw [e1] at h1
  rw [e0] at h2
  cases h1
  cases h2

/-- The hypotheses of the theorems are met: the functions of the example after the quickfix. -/
example : ∃ new, Applied (idNumber .v4) (IdIs .v4)
    (noOverlappingIds .v4 exRanges [exFn "1", exFn "2", exFn "1"])
    (RepeatAt (idNumber .v4) [exFn "1", exFn "2", exFn "1"]) [exFn "1", exFn "2", exFn "1"] new := by
  have h2 : RepeatAt (idNumber .v4) [exFn "1", exFn "2", exFn "1"] 2 :=
    ⟨0, 1, by decide, by decide, by decide⟩
  obtain ⟨_, _, _, i, _, _, _, _, _, _, hw⟩ :=
    C109_ids_offered .v4 exRanges [exFn "1", exFn "2", exFn "1"] (by decide) 2 (exFn "1") rfl h2
  refine ⟨[exFn "1", exFn "2", exFn i.repr], rfl, ?_, ?_⟩
  · rintro n ⟨j, k, hj, h1, h0⟩ x hx
    match n, hj with
    | 1, hj =>
      obtain rfl : j = 0 := by omega
      have e1 : ([exFn "1", exFn "2", exFn "1"][1]?).bind (idNumber .v4) = some 2 := by decide
      have e0 : ([exFn "1", exFn "2", exFn "1"][0]?).bind (idNumber .v4) = some 1 := by decide
      rw [e1] at h1
      rw [e0] at h0
      cases h1
      cases h0
    | 2, _ =>
      refine ⟨i, hw, ?_⟩
      cases hx
      exact ⟨_, [], rfl, rfl⟩
    | n + 3, _ => simp at hx
  · intro n hn
    match n with
    | 0 => rfl
    | 1 => rfl
    | 2 => exact absurd h2 hn
    | n + 3 => rfl

/-- A callable after the quickfix that gives it another name. -/
def renamed (c : CallItem) : CallItem :=
  { c with call := { c.call with fnName := c.call.fnName.map (· ++ "2") } }

/-- Finding: the quickfixes for functions without an explicit selector append a `2` to the name. Of
three functions with the same name, the second and the third get the same new name, and overlap again
when both quickfixes are applied; whatever the hash function. -/
theorem C109_negation_renamed (hash : String → Vector UInt8 32) (r : Ranges) (what : String) :
    ∃ c : CallItem, ((overlappingSelectors hash r what [c, c, c]).map fun d =>
        d.quickfixes.map fun qs => qs.map fun q => q.edits.map (·.text)) =
          List.replicate 2 (some [["flip2".toList]]) ∧
      c.call.fnName = some "flip" ∧
      RepeatAt (sel hash) [c, c, c] 2 ∧ RepeatAt (sel hash) [c, renamed c, renamed c] 2 := by
  refine ⟨exCall "flip" [], ?_, rfl, ?_, ?_⟩
  · obtain ⟨k, hk⟩ : ∃ k, selectorKey hash (exCall "flip" []) = some k := ⟨_, rfl⟩
    unfold overlappingSelectors
    simp only [reportRepeats, hk, List.filterMap_cons, List.not_mem_nil, if_false, List.mem_cons,
      true_or, if_true]
    simp only [List.map_cons, List.map_nil, selectorDiag]
    rfl
  · exact ⟨0, _, by decide, rfl, rfl⟩
  · exact ⟨1, _, by decide, rfl, rfl⟩

/-- Finding: the new name is not compared with the names in use. Renaming one of two functions `flip`
in a contract that has a `flip2` makes the `flip2` overlap, which was not reported before. -/
theorem C109_negation_taken : ∃ (hash : String → Vector UInt8 32) (a b : CallItem),
    a.call.fnName = some "flip" ∧ b.call.fnName = some "flip2" ∧
      ¬ RepeatAt (sel hash) [a, a, b] 2 ∧ RepeatAt (sel hash) [a, renamed a, b] 2 := by
  let hash : String → Vector UInt8 32 := fun s =>
    Vector.replicate 32 (if s = "flip" then 1 else 2)
  refine ⟨hash, exCall "flip" [], exCall "flip2" [], rfl, rfl, ?_, ?_⟩
  · rintro ⟨j, k, hj, h1, h2⟩
    have e2 : ([exCall "flip" [], exCall "flip" [], exCall "flip2" []][2]?).bind (sel hash) =
      some 33686018 := by decide
    have e01 : ∀ j < 2, ([exCall "flip" [], exCall "flip" [], exCall "flip2" []][j]?).bind
      (sel hash) = some 16843009 := by decide
    rw [e2] at h1
    rw [e01 j hj] at h2
    cases h1
    cases h2
  · exact ⟨1, 33686018, by decide, by decide, by decide⟩

end Verif.Analyzer.RepeatFix
