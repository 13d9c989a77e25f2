import Verif.Analyzer.MoveLemmas

/-!
# Misplaced items are reported, and moving them puts them right (C87)

Specification: `moved` (in `Verif.Analyzer.MoveLemmas`) is the tree with a node taken out and one added
to a list; `Slot` says at which place of the list. An item is *directly in* the closest item around it.

The theorems about the moves are partial: they compare the text up to white space, and white space is
changed inside of string literals too (`C87_negation_string`); and that the new text is parsed to the
tree `moved` is not part of the model.
-/

namespace Verif.Analyzer.Move

open Verif.Ir Verif.Ir.Token

/-! ## Specification -/

/-- `q` is the closest node around the one at `p` with a property. -/
structure Closest (P : List Nat → Prop) (p q : List Nat) : Prop where
  around : q <+: p ∧ q ≠ p
  holds : P q
  first : ∀ r, r <+: p → r ≠ p → q.length < r.length → ¬ P r

/-- The node at `q` is an item. -/
def IsItem (root : Src) (q : List Nat) : Prop := ∃ k, kindAt root q = some (.item k)

/-- The node at `q` is an `impl` block. -/
def IsImpl (root : Src) (q : List Nat) : Prop := ∃ t, kindAt root q = some (.item (.impl t))

/-- The node at `q` carries the ink! contract attribute. -/
def HasContract (root : Src) (q : List Nat) : Prop :=
  ∃ i, kindAt root (q ++ [i]) = some (.attr (some (.macro .contract)))

/-- The item at `p` is directly in the item at `q`. -/
def DirectlyIn (root : Src) (p q : List Nat) : Prop := Closest (IsItem root) p q

/-- Child `j` of the node at `q` is its list of items. -/
structure ItsList (root : Src) (q : List Nat) (j : Nat) : Prop where
  list : kindAt root (q ++ [j]) = some .list
  first : ∀ i < j, kindAt root (q ++ [i]) ≠ some .list

/-- Behind the last `use`, or else behind the bracket. -/
def StartSlot (cs : List Src) (k : Nat) : Prop :=
  (∃ i, LastOf (· == .use) cs i ∧ k = i + 1) ∨ (NoneOf (· == .use) cs ∧ k = 1)

/-- Behind the last item, or else behind the bracket. -/
def EndSlot (cs : List Src) (k : Nat) : Prop :=
  (∃ i, LastOf (fun _ => true) cs i ∧ k = i + 1) ∨ (NoneOf (fun _ => true) cs ∧ k = 1)

/-- An `impl` block, of a trait or not. -/
def anImpl (k : IKind) : Bool := k == .impl true || k == .impl false

/-- Where an item goes in the list of a contract: storage to the start, events behind the last
`struct` or else to the start, `impl` blocks behind the last `impl` block, or else behind the last
`struct`, or else before the first `mod`, or else to the end. -/
def Slot : Scope → List Src → Nat → Prop
  | .storage, cs, k => StartSlot cs k
  | .event, cs, k =>
    (∃ i, LastOf (· == .struct) cs i ∧ k = i + 1) ∨ (NoneOf (· == .struct) cs ∧ StartSlot cs k)
  | .impl, cs, k =>
    (∃ i, LastOf anImpl cs i ∧ k = i + 1) ∨
      (NoneOf anImpl cs ∧ ((∃ i, LastOf (· == .struct) cs i ∧ k = i + 1) ∨
        (NoneOf (· == .struct) cs ∧ (FirstOf (· == .module) cs k ∨
          (NoneOf (· == .module) cs ∧ EndSlot cs k)))))

/-- Lists of items begin with a bracket. -/
def Bracketed (root : Src) : Prop :=
  ∀ l cs, root.at? l = some (.node .list cs) → ∃ ds, cs = .tok false ['{'] :: ds

/-- Applies an insertion and a deletion, both given for the same text. -/
def applyMove (doc : List Char) (e : Edit × Edit) : Option (List Char) :=
  if e.1.start ≤ e.2.start then Members.applyAll doc [e.1, e.2] else Members.applyAll doc [e.2, e.1]

/-- Applying the edits gives, up to white space, the text of the tree with the node at `p` taken out
and `y` put into the list at `l`, as child `k`. -/
def Moves (root : Src) (e : Edit × Edit) (p l : List Nat) (k : Nat) (y : Src) : Prop :=
  ∃ out, applyMove root.text e = some out ∧ codeOf out = codeOf (moved root p l k y).text

/-! ## Ancestors -/

/-- The closest path upward with a property; `closest` and `ancestorContract` are this. -/
def firstUp (P : List Nat → Bool) : List Nat → Option (List Nat)
  | [] => none
  | _ :: rp => if P rp.reverse then some rp.reverse else firstUp P rp

theorem closest_firstUp (test : Option NKind → Bool) (root : Src) (rp : List Nat) :
    closest test root rp = firstUp (fun q => test (kindAt root q)) rp := by
  induction rp with
  | nil => rfl
  | cons i rp ih => simp only [closest, firstUp, ih]

theorem ancestor_firstUp (root : Src) (rp : List Nat) :
    ancestorContract root rp = firstUp (contractAt root) rp := by
  induction rp with
  | nil => rfl
  | cons i rp ih => simp only [ancestorContract, firstUp, ih]

theorem firstUp_iff (P : List Nat → Bool) (p q : List Nat) :
    firstUp P p.reverse = some q ↔ Closest (fun r => P r = true) p q := by
  generalize hrp : p.reverse = rp
  have hp : p = rp.reverse := by rw [← hrp, List.reverse_reverse]
  subst hp
  clear hrp
  induction rp with
  | nil =>
    simp only [firstUp, List.reverse_nil]
    constructor
    · intro h
      cases h
    · intro h
      have := h.around
      simp at this
  | cons i rp ih =>
    simp only [firstUp, List.reverse_cons]
    by_cases ht : P rp.reverse = true
    · rw [if_pos ht]
      constructor
      · intro h
        have := (Option.some.inj h)
        subst this
        refine ⟨⟨List.prefix_append _ _, by simp⟩, ht, ?_⟩
        intro r hr hne hl
        have := (prefix_concat hr hne).length_le
        omega
      · intro h
        have h1 := prefix_concat h.around.1 h.around.2
        by_cases he : q = rp.reverse
        · rw [he]
        · exfalso
          have hlt : q.length < rp.reverse.length := by
            rcases Nat.lt_or_ge q.length rp.reverse.length with hl | hl
            · exact hl
            · exact absurd (h1.eq_of_length (Nat.le_antisymm h1.length_le hl)) he
          exact h.first _ (List.prefix_append _ _) (by simp) hlt ht
    · rw [if_neg ht]
      refine ih.trans ?_
      constructor
      · intro h
        refine ⟨⟨h.around.1.trans (List.prefix_append _ _), ?_⟩, h.holds, ?_⟩
        · intro he
          have := h.around.1.length_le
          rw [he] at this
          simp at this
          omega
        · intro r hr hne hl
          have hr' := prefix_concat hr hne
          by_cases he : r = rp.reverse
          · rw [he]
            exact ht
          · exact h.first r hr' he hl
      · intro h
        have h1 := prefix_concat h.around.1 h.around.2
        refine ⟨⟨h1, ?_⟩, h.holds, ?_⟩
        · intro he
          have := h.holds
          rw [he] at this
          exact ht this
        · intro r hr hne hl
          refine h.first r (hr.trans (List.prefix_append _ _)) ?_ hl
          intro he
          have := hr.length_le
          rw [he] at this
          simp at this
          omega

theorem isItem_iff (k : Option NKind) : isItem k = true ↔ ∃ i, k = some (.item i) := by
  cases k with
  | none => simp [isItem]
  | some k => cases k <;> simp [isItem]

theorem isImpl_iff (k : Option NKind) : isImpl k = true ↔ ∃ t, k = some (.item (.impl t)) := by
  cases k with
  | none => simp [isImpl]
  | some k =>
    cases k with
    | item i => cases i <;> simp [isImpl]
    | list => simp [isImpl]
    | attr a => simp [isImpl]
    | other => simp [isImpl]

theorem closest_congr {P Q : List Nat → Prop} (h : ∀ r, P r ↔ Q r) (p q : List Nat) :
    Closest P p q ↔ Closest Q p q := by
  constructor
  · intro c
    exact ⟨c.around, (h q).1 c.holds, fun r h1 h2 h3 hq => c.first r h1 h2 h3 ((h r).2 hq)⟩
  · intro c
    exact ⟨c.around, (h q).2 c.holds, fun r h1 h2 h3 hq => c.first r h1 h2 h3 ((h r).1 hq)⟩

theorem closestItem_iff (root : Src) (p q : List Nat) :
    closest isItem root p.reverse = some q ↔ DirectlyIn root p q := by
  rw [closest_firstUp, firstUp_iff]
  exact closest_congr (fun r => isItem_iff _) p q

theorem kindAt_child (root n : Src) (p : List Nat) (i : Nat) (h : root.at? p = some n) :
    kindAt root (p ++ [i]) = (n.children[i]?).bind Src.kind? := by
  rw [kindAt_append root n p [i] h]
  cases n with
  | tok w t => simp [kindAt_tok, Src.children]
  | node k cs =>
    rw [kindAt_cons]
    rfl

theorem kindAt_child_none (root : Src) (p : List Nat) (i : Nat) (h : root.at? p = none) :
    kindAt root (p ++ [i]) = none := by
  simp [kindAt, at_append, h]

theorem contractAt_iff (root : Src) (p : List Nat) : contractAt root p = true ↔ HasContract root p := by
  unfold contractAt HasContract
  cases h : root.at? p with
  | none => simp [kindAt_child_none root p _ h]
  | some n =>
    simp only [kindAt_child root n p _ h, Src.isContract, List.any_eq_true, beq_iff_eq]
    constructor
    · rintro ⟨c, hc, hk⟩
      obtain ⟨i, hi⟩ := List.mem_iff_getElem?.1 hc
      exact ⟨i, by rw [hi, Option.bind_some, hk]⟩
    · rintro ⟨i, hi⟩
      cases hc : n.children[i]? with
      | none => simp [hc] at hi
      | some c =>
        rw [hc, Option.bind_some] at hi
        exact ⟨c, List.mem_of_getElem? hc, hi⟩

theorem ancestor_iff (root : Src) (p q : List Nat) :
    ancestorContract root p.reverse = some q ↔ Closest (HasContract root) p q := by
  rw [ancestor_firstUp, firstUp_iff]
  exact closest_congr (fun r => contractAt_iff root r) p q

theorem inkParent_iff (root : Src) (p q : List Nat) :
    inkParentContract root p = some q ↔ DirectlyIn root p q ∧ HasContract root q := by
  unfold inkParentContract
  rw [Option.filter_eq_some_iff, closestItem_iff, contractAt_iff]

theorem parentImplItem_iff (root : Src) (p q : List Nat) (hf : kindAt root p = some (.item .fn)) :
    parentImplItem root p = some q ↔ DirectlyIn root p q ∧ IsImpl root q := by
  unfold parentImplItem
  rw [hf]
  simp only [beq_self_eq_true, if_true]
  rw [Option.filter_eq_some_iff, closestItem_iff, isImpl_iff]
  rfl

theorem listOf_iff (root : Src) (p l : List Nat) :
    listOf root p = some l ↔ ∃ j, l = p ++ [j] ∧ ItsList root p j := by
  unfold listOf
  cases h : root.at? p with
  | none =>
    simp only [reduceCtorEq, false_iff]
    rintro ⟨j, -, hj⟩
    have := hj.list
    rw [kindAt_child_none root p j h] at this
    cases this
  | some n =>
    simp only [Option.map_eq_some_iff, List.findIdx?_eq_some_iff_getElem]
    constructor
    · rintro ⟨j, ⟨hj, h1, h2⟩, rfl⟩
      refine ⟨j, rfl, ?_, ?_⟩
      · rw [kindAt_child root n p j h, List.getElem?_eq_getElem hj]
        simpa using h1
      · intro i hi
        rw [kindAt_child root n p i h, List.getElem?_eq_getElem (by omega)]
        simpa using h2 i hi
    · rintro ⟨j, rfl, h1, h2⟩
      rw [kindAt_child root n p j h] at h1
      have hj : j < n.children.length := by
        rcases Nat.lt_or_ge j n.children.length with hl | hl
        · exact hl
        · rw [List.getElem?_eq_none hl] at h1
          cases h1
      refine ⟨j, ⟨hj, ?_, ?_⟩, rfl⟩
      · rw [List.getElem?_eq_getElem hj] at h1
        simpa using h1
      · intro i hi
        have := h2 i hi
        rw [kindAt_child root n p i h, List.getElem?_eq_getElem (by omega)] at this
        simpa using this

/-! ## Places -/

theorem curly (o : Nat) (ds : List Src) :
    lCurly o (.tok false ['{'] :: ds) =
      some (o + bytes (texts ((.tok false ['{'] :: ds : List Src).take 1))) := by
  simp [lCurly, texts, Src.text]

theorem start_slot (o : Nat) (cs ds : List Src) (hb : cs = .tok false ['{'] :: ds) :
    ∃ k, StartSlot cs k ∧ k ≤ cs.length ∧ insertStart o cs = o + bytes (texts (cs.take k)) := by
  unfold insertStart
  rcases lastStop_spec (· == .use) o cs with ⟨h, hn⟩ | ⟨i, h1, h2, h⟩
  · refine ⟨1, .inr ⟨hn, rfl⟩, by simp [hb], ?_⟩
    rw [h]
    subst hb
    rw [curly]
    rfl
  · exact ⟨i + 1, .inl ⟨i, h1, rfl⟩, h2, by rw [h]; rfl⟩

theorem end_slot (o : Nat) (cs ds : List Src) (hb : cs = .tok false ['{'] :: ds) :
    ∃ k, EndSlot cs k ∧ k ≤ cs.length ∧ insertEnd o cs = o + bytes (texts (cs.take k)) := by
  unfold insertEnd
  rw [lastStop_all]
  rcases lastStop_spec (fun _ => true) o cs with ⟨h, hn⟩ | ⟨i, h1, h2, h⟩
  · refine ⟨1, .inr ⟨hn, rfl⟩, by simp [hb], ?_⟩
    have hu : lastStop (· == .use) o cs = none := by
      rcases lastStop_spec (· == .use) o cs with ⟨h', _⟩ | ⟨i, hi, _, _⟩
      · exact h'
      · obtain ⟨c, k, hc, hk, _⟩ := hi.1
        have := hn c (List.mem_of_getElem? hc) k hk
        cases this
    rw [h]
    unfold insertStart
    rw [hu]
    subst hb
    rw [curly]
    rfl
  · exact ⟨i + 1, .inl ⟨i, h1, rfl⟩, h2, by rw [h]; rfl⟩

theorem assoc_slot (o : Nat) (cs ds : List Src) (hb : cs = .tok false ['{'] :: ds) :
    ∃ k, EndSlot cs k ∧ k ≤ cs.length ∧ insertAssocEnd o cs = o + bytes (texts (cs.take k)) := by
  unfold insertAssocEnd
  rw [lastStop_all]
  rcases lastStop_spec (fun _ => true) o cs with ⟨h, hn⟩ | ⟨i, h1, h2, h⟩
  · refine ⟨1, .inr ⟨hn, rfl⟩, by simp [hb], ?_⟩
    rw [h]
    subst hb
    rw [curly]
    rfl
  · exact ⟨i + 1, .inl ⟨i, h1, rfl⟩, h2, by rw [h]; rfl⟩

theorem isImpl_anImpl : IKind.isImpl = anImpl := by
  funext k
  cases k with
  | impl b => cases b <;> rfl
  | _ => rfl

theorem scope_slot (s : Scope) (o : Nat) (cs ds : List Src) (hb : cs = .tok false ['{'] :: ds) :
    ∃ k, Slot s cs k ∧ k ≤ cs.length ∧ insertByScope s o cs = o + bytes (texts (cs.take k)) := by
  cases s with
  | storage => exact start_slot o cs ds hb
  | event =>
    simp only [insertByScope, insertAfterStruct]
    rcases lastStop_spec (· == .struct) o cs with ⟨h, hn⟩ | ⟨i, h1, h2, h⟩
    · obtain ⟨k, h1, h2, h3⟩ := start_slot o cs ds hb
      exact ⟨k, .inr ⟨hn, h1⟩, h2, by rw [h]; exact h3⟩
    · exact ⟨i + 1, .inl ⟨i, h1, rfl⟩, h2, by rw [h]; rfl⟩
  | impl =>
    simp only [insertByScope, insertImpl, isImpl_anImpl]
    rcases lastStop_spec anImpl o cs with ⟨h, hn⟩ | ⟨i, h1, h2, h⟩
    · rcases lastStop_spec (· == .struct) o cs with ⟨g, gn⟩ | ⟨i, h1, h2, g⟩
      · rcases find_spec (· == .module) o cs with ⟨f, fn⟩ | ⟨i, h1, h2, f⟩
        · obtain ⟨k, h1, h2, h3⟩ := end_slot o cs ds hb
          exact ⟨k, .inr ⟨hn, .inr ⟨gn, .inr ⟨fn, h1⟩⟩⟩, h2, by rw [h, g, f]; exact h3⟩
        · exact ⟨i, .inr ⟨hn, .inr ⟨gn, .inl h1⟩⟩, by omega, by rw [h, g, f]; rfl⟩
      · exact ⟨i + 1, .inr ⟨hn, .inl ⟨i, h1, rfl⟩⟩, h2, by rw [h, g]; rfl⟩
    · exact ⟨i + 1, .inl ⟨i, h1, rfl⟩, h2, by rw [h]; rfl⟩

/-! ## The edits -/

theorem ws_endIndenting (ws : List Char) : ∀ c ∈ endIndenting ws, isWs c = true := by
  intro c hc
  have := takeWhile_all' _ _ c hc
  simp only [Bool.and_eq_true] at this
  exact this.2

theorem ws_children (prevWs : Option (List Char)) :
    ∀ c ∈ itemChildrenIndenting prevWs, isWs c = true := by
  intro c hc
  unfold itemChildrenIndenting at hc
  have h4 : c ∈ [' ', ' ', ' ', ' '] → isWs c = true := by
    intro h
    simp only [List.mem_cons, List.not_mem_nil, or_false, or_self] at h
    subst h
    decide
  cases prevWs with
  | none => exact h4 hc
  | some w =>
    simp only [itemIndenting, Option.map_some] at hc
    split at hc
    · exact h4 hc
    · rcases List.mem_append.1 hc with h | h <;> exact ws_endIndenting w c h

theorem moveItem_code (text : List Char) (start : Nat) (prevWs : Option (List Char)) (offset : Nat)
    (indent : List Char) (hi : ∀ c ∈ indent, isWs c = true) (pre post : Option (List Char)) :
    ∃ ins, moveItem text start prevWs offset (some indent) pre post =
      (⟨ins, offset, offset, none⟩, ⟨[], start, start + bytes text, none⟩) ∧
      codeOf ins = codeOf (pre.getD []) ++ codeOf text ++ codeOf (post.getD []) := by
  refine ⟨_, rfl, ?_⟩
  simp only [codeOf_append, (C32_code _ indent hi).1]
  congr 2
  cases prevWs with
  | none => rfl
  | some w => exact (C32_code _ _ (ws_endIndenting w)).2

theorem shift_apply (root x y : Src) (start offset : Nat → Nat) (out : Src → Src)
    (h : Shift root x start offset out) (ins : List Char) (hins : codeOf ins = codeOf y.text) :
    ∃ res, applyMove root.text (⟨ins, offset 0, offset 0, none⟩,
        ⟨[], start 0, start 0 + bytes x.text, none⟩) = some res ∧
      codeOf res = codeOf (out y).text := by
  rcases h.shift with ⟨A, M, B, h1, h2, h3, h4⟩ | ⟨A, M, B, h1, h2, h3, h4⟩
  · refine ⟨A ++ ins ++ M ++ [] ++ B, ?_, by simp [h4, codeOf_append, hins]⟩
    have e2 := h2 0
    have e3 := h3 0
    simp only [Nat.zero_add, bytes_append] at e2 e3
    have := two_edits A [] M x.text ins [] (offset 0) (start 0) (offset 0) (start 0 + bytes x.text)
      e2 (by simp [e2, bytes]) (by simp [e3, bytes]) (by simp [e3, bytes]) B
    unfold applyMove
    simp only
    rw [if_pos (by omega), h1]
    simpa using this
  · refine ⟨A ++ [] ++ M ++ ins ++ B, ?_, by simp [h4, codeOf_append, hins]⟩
    have e2 := h2 0
    have e3 := h3 0
    simp only [Nat.zero_add, bytes_append] at e2 e3
    unfold applyMove
    simp only
    by_cases hle : offset 0 ≤ start 0
    · rw [if_pos hle]
      have hx : x.text = [] := by
        cases hx : x.text with
        | nil => rfl
        | cons c cs =>
          have := bytes_pos x.text (by simp [hx])
          omega
      have hm : M = [] := by
        cases hm : M with
        | nil => rfl
        | cons c cs =>
          have := bytes_pos M (by simp [hm])
          omega
      rw [hx, hm] at e3
      have := two_edits A [] [] [] ins [] (offset 0) (start 0) (offset 0) (start 0 + bytes x.text)
        (by simpa [bytes] using e3) (by simpa [bytes] using e3) (by simp [e2, bytes])
        (by simp [e2, hx, bytes]) B
      rw [h1, hx, hm]
      simpa [hx] using this
    · rw [if_neg hle]
      have := two_edits A x.text M [] [] ins (start 0) (offset 0) (start 0 + bytes x.text) (offset 0)
        e2 (by rw [e2]) (by omega) (by simp [bytes]; omega) B
      rw [h1]
      simpa using this
where
  two_edits (a b c d x y : List Char) (s1 s2 t1 t2 : Nat) (h1 : s1 = bytes a)
      (h2 : t1 = bytes a + bytes b) (h3 : s2 = bytes a + bytes b + bytes c)
      (h4 : t2 = bytes a + bytes b + bytes c + bytes d) (z : List Char) :
      Members.applyAll (a ++ b ++ c ++ d ++ z) [⟨x, s1, t1, none⟩, ⟨y, s2, t2, none⟩] =
        some (a ++ x ++ c ++ y ++ z) := by
    rw [Members.applyAll_cons, Members.applyAll_one]
    have e1 := Header.apply_cut (a ++ b ++ c) d z ⟨y, s2, t2, none⟩
      (by simp only [bytes_append, h3]) (by simp only [bytes_append, h4])
    rw [show a ++ b ++ c ++ d ++ z = a ++ b ++ c ++ (d ++ z) by simp, e1, Option.bind_some]
    have e2 := Header.apply_cut a b (c ++ y ++ z) ⟨x, s1, t1, none⟩ h1 h2
    rw [show a ++ b ++ c ++ y ++ z = a ++ (b ++ (c ++ y ++ z)) by simp, e2]
    simp

theorem moveInto_moves (root : Src) (p q l : List Nat) (offset : Nat → List Src → Nat) (x y : Src)
    (kd : NKind) (cs : List Src) (k : Nat) (e : Edit × Edit)
    (aff : Option (List Char × List Char × List Char))
    (hx : root.at? p = some x) (hl : root.at? l = some (.node kd cs)) (hp : ¬ p <+: l)
    (hk : k ≤ cs.length)
    (ho : offset (startAt 0 root l) cs = startAt 0 root l + bytes (texts (cs.take k)))
    (hy : match aff with
      | none => y = x
      | some (i, a, b) => (∀ c ∈ i, isWs c = true) ∧
          codeOf y.text = codeOf a ++ codeOf x.text ++ codeOf b)
    (he : moveInto root p q l offset aff = some e) : Moves root e p l k y := by
  unfold moveInto at he
  simp only [hx, hl, Src.children] at he
  have hs := moved_text root p x l kd cs k hx hl hk hp
  cases aff with
  | none =>
    simp only at hy he
    subst hy
    obtain ⟨ins, h1, h2⟩ := moveItem_code y.text (startAt 0 root p) (wsBefore root p)
      (offset (startAt 0 root l) cs) _ (ws_children (wsBefore root q)) none none
    rw [h1, ho, Option.some.injEq] at he
    subst he
    exact shift_apply root y y _ _ _ hs ins (by simpa [codeOf] using h2)
  | some a =>
    obtain ⟨i, a, b⟩ := a
    simp only at hy he
    obtain ⟨ins, h1, h2⟩ := moveItem_code x.text (startAt 0 root p) (wsBefore root p)
      (offset (startAt 0 root l) cs) i hy.1 (some a) (some b)
    rw [h1, ho, Option.some.injEq] at he
    subst he
    exact shift_apply root x y _ _ _ hs ins (by rw [hy.2]; simpa using h2)

/-! ## The tree afterwards -/

theorem list_node (root : Src) (l : List Nat) (h : kindAt root l = some .list) :
    ∃ cs, root.at? l = some (.node .list cs) := by
  unfold kindAt at h
  cases hn : root.at? l with
  | none => simp [hn] at h
  | some n =>
    rw [hn, Option.bind_some] at h
    cases n with
    | tok w t => cases h
    | node k cs =>
      simp only [Src.kind?, Option.some.injEq] at h
      subst h
      exact ⟨cs, rfl⟩

theorem moveInto_some (root : Src) (p q l : List Nat) (offset : Nat → List Src → Nat)
    (aff : Option (List Char × List Char × List Char)) (x : Src) (hx : root.at? p = some x)
    (hl : kindAt root l = some .list) : ∃ e, moveInto root p q l offset aff = some e := by
  obtain ⟨cs, hl⟩ := list_node root l hl
  unfold moveInto
  simp only [hx, hl]
  exact ⟨_, rfl⟩

theorem kind_moved (root : Src) (p l q : List Nat) (k : Nat) (y : Src) (h1 : ¬ p <+: q)
    (h2 : l <+: q → q = l) : kindAt (moved root p l k y) q = kindAt root q := by
  rw [moved, kindAt_putIn _ _ _ _ _ h2, kindAt_setAt _ _ _ _ h1]

theorem kind_moved_list (root : Src) (p q : List Nat) (j k : Nat) (y : Src)
    (hp : ¬ p <+: q ++ [j]) :
    kindAt (moved root p (q ++ [j]) k y) (q ++ [j]) = kindAt root (q ++ [j]) ∧
      kindAt (moved root p (q ++ [j]) k y) q = kindAt root q := by
  constructor
  · exact kind_moved _ _ _ _ _ _ hp (fun _ => rfl)
  · refine kind_moved _ _ _ _ _ _ (fun h => hp (h.trans (List.prefix_append _ _))) ?_
    intro h
    have := h.length_le
    simp at this
    omega

theorem directly_moved (root : Src) (p q : List Nat) (j k : Nat) (y : Src)
    (hp : ¬ p <+: q ++ [j]) (hl : kindAt root (q ++ [j]) = some .list) (hq : IsItem root q) :
    DirectlyIn (moved root p (q ++ [j]) k y) (q ++ [j] ++ [k]) q := by
  obtain ⟨h1, h2⟩ := kind_moved_list root p q j k y hp
  rw [← closestItem_iff]
  simp only [List.reverse_append, List.reverse_cons, List.reverse_nil, List.nil_append,
    List.cons_append, closest, List.reverse_reverse]
  rw [h1, hl, h2]
  obtain ⟨kd, hk⟩ := hq
  simp [isItem, hk]

theorem at_moved (root : Src) (p l : List Nat) (k : Nat) (y : Src) (kd : NKind) (cs : List Src)
    (hl : root.at? l = some (.node kd cs)) (hp : ¬ p <+: l) (hk : k ≤ cs.length) :
    (moved root p l k y).at? (l ++ [k]) = some y := by
  obtain ⟨ms, h1, h2⟩ := at_setAt_kind root p l (.tok true []) kd cs hp hl
  exact at_putIn _ l k y kd ms h1 (by omega)

theorem contract_moved (root : Src) (p q : List Nat) (j k : Nat) (y : Src) (hi : IsItem root p)
    (hp : ¬ p <+: q ++ [j]) (hc : HasContract root q) :
    HasContract (moved root p (q ++ [j]) k y) q := by
  obtain ⟨i, hk⟩ := hc
  refine ⟨i, ?_⟩
  rw [kind_moved, hk]
  · intro h
    rcases List.prefix_concat_iff.1 h with h | h
    · obtain ⟨kd, hi⟩ := hi
      rw [h, hk] at hi
      cases hi
    · exact hp (h.trans (List.prefix_append _ _))
  · intro h
    exact (h.eq_of_length (by simp)).symm

theorem not_prefix_of_closest (root : Src) (p q : List Nat) (j : Nat)
    (h : q <+: p ∧ q ≠ p) (hi : IsItem root p) (hl : kindAt root (q ++ [j]) = some .list) :
    ¬ p <+: q ++ [j] := by
  intro hp
  rcases List.prefix_concat_iff.1 hp with hp | hp
  · obtain ⟨k, hi⟩ := hi
    rw [hp, hl] at hi
    cases hi
  · exact h.2 (h.1.eq_of_length (Nat.le_antisymm h.1.length_le hp.length_le))

/-! ## C87 -/

/-- An item for the root of a contract (storage, event, `impl`) is reported exactly if the item it is
directly in is not a contract. -/
theorem C87_contract_reported (root : Src) (s : Scope) (p : List Nat) :
    (contractParent root s p).isSome = true ↔
      ¬ ∃ q, DirectlyIn root p q ∧ HasContract root q := by
  unfold contractParent
  simp only [← inkParent_iff, ← Option.isSome_iff_exists]
  split <;> simp_all

/-- For a given contract, exactly the items that are not directly in that contract. -/
theorem C87_root_reported (root : Src) (s : Scope) (c p : List Nat) :
    (parentContract root s c p).isSome = true ↔ ¬ (DirectlyIn root p c ∧ HasContract root c) := by
  unfold parentContract
  rw [← inkParent_iff]
  split <;> simp_all

/-- A constructor or message is reported exactly if the item it is directly in is no `impl` block. -/
theorem C87_impl_reported (known : List Nat → Known) (root : Src) (p : List Nat)
    (hf : kindAt root p = some (.item .fn)) :
    (implParent known root p).isSome = true ↔ ¬ ∃ q, DirectlyIn root p q ∧ IsImpl root q := by
  unfold implParent
  simp only [← parentImplItem_iff root p _ hf, ← Option.isSome_iff_exists]
  split <;> simp_all

/-- For a given `impl` block, exactly the constructors and messages that are not directly in it. -/
theorem C87_own_impl_reported (root : Src) (i p : List Nat) (hf : kindAt root p = some (.item .fn)) :
    (parentImpl root i p).isSome = true ↔ ¬ (DirectlyIn root p i ∧ IsImpl root i) := by
  unfold parentImpl
  rw [← parentImplItem_iff root p _ hf]
  split <;> simp_all

/-- The node at `c` is a module, and child `j` is its list. -/
def ModuleList (root : Src) (c : List Nat) (j : Nat) : Prop :=
  kindAt root c = some (.item .module) ∧ ItsList root c j

/-- An `impl` block near the item: the closest one around it, or else the closest one before it in the
same list, or else the closest one after it. -/
def Near (root : Src) (p i : List Nat) : Prop :=
  Closest (IsImpl root) p i ∨
    ((¬ ∃ q, Closest (IsImpl root) p q) ∧ ∃ n m, p = p.dropLast ++ [n] ∧ i = p.dropLast ++ [m] ∧
      IsImpl root i ∧
      ((m < n ∧ ∀ m', m < m' → m' < n → ¬ IsImpl root (p.dropLast ++ [m'])) ∨
        (n < m ∧ ∀ m' < m, ¬ IsImpl root (p.dropLast ++ [m']))))

/-- The first `impl` block of no trait in the root of the contract at `c`. -/
def FirstInherent (root : Src) (c i : List Nat) : Prop :=
  ∃ j m, ModuleList root c j ∧ i = c ++ [j] ++ [m] ∧
    kindAt root i = some (.item (.impl false)) ∧
    ∀ m' < m, kindAt root (c ++ [j] ++ [m']) ≠ some (.item (.impl false))

/-- An `impl` block of the closest contract around the item. -/
def OfContract (known : List Nat → Known) (root : Src) (p i : List Nat) : Prop :=
  ∃ c, Closest (HasContract root) p c ∧ (FirstInherent root c i ∨
    ((¬ ∃ i', FirstInherent root c i') ∧ (known c).inkImpl = some i))

/-- The `impl` block a misplaced constructor or message goes to. -/
def Target (known : List Nat → Known) (root : Src) (p i : List Nat) : Prop :=
  (Near root p i ∧ ∃ j, ItsList root i j) ∨
    ((¬ ∃ i', Near root p i' ∧ ∃ j, ItsList root i' j) ∧ OfContract known root p i ∧
      ∃ j, ItsList root i j)

theorem moduleList_iff (root : Src) (c l : List Nat) :
    moduleList root c = some l ↔ ∃ j, l = c ++ [j] ∧ ModuleList root c j := by
  unfold moduleList ModuleList
  by_cases h : kindAt root c = some (.item .module)
  · simp only [h, beq_self_eq_true, if_true, true_and]
    exact listOf_iff root c l
  · simp [h]

/-- The move of a reported item: it exists if the closest contract around the item is a module with a
list. The item ends up unchanged (but for white space) in that list, at the place for its kind,
nothing else changes, and it is no longer reported. -/
theorem C87_contract_fix_partial (root : Src) (s : Scope) (p : List Nat) (x : Src) (r : Report)
    (hb : Bracketed root) (hx : root.at? p = some x) (hi : IsItem root p)
    (hr : contractParent root s p = some r) :
    (r.fix.isSome = true ↔ ∃ c j, Closest (HasContract root) p c ∧ ModuleList root c j) ∧
    ∀ e, r.fix = some e → ∃ c j cs k, Closest (HasContract root) p c ∧ ModuleList root c j ∧
      root.at? (c ++ [j]) = some (.node .list cs) ∧ Slot s cs k ∧ Moves root e p (c ++ [j]) k x ∧
      (moved root p (c ++ [j]) k x).at? (c ++ [j] ++ [k]) = some x ∧
      contractParent (moved root p (c ++ [j]) k x) s (c ++ [j] ++ [k]) = none := by
  unfold contractParent at hr
  split at hr
  · cases hr
  rename_i hno
  cases hr
  constructor
  · simp only [Option.isSome_iff_exists, Option.bind_eq_some_iff, ancestor_iff, moduleList_iff]
    constructor
    · rintro ⟨e, c, hc, l, ⟨j, rfl, hm⟩, he⟩
      exact ⟨c, j, hc, hm⟩
    · rintro ⟨c, j, hc, hm⟩
      obtain ⟨e, he⟩ := moveInto_some root p c (c ++ [j]) (insertByScope s) none x hx hm.2.list
      exact ⟨e, c, hc, _, ⟨j, rfl, hm⟩, he⟩
  · intro e he
    simp only [Option.bind_eq_some_iff, ancestor_iff, moduleList_iff] at he
    obtain ⟨c, hc, l, ⟨j, rfl, hm⟩, he⟩ := he
    obtain ⟨cs, hl⟩ := list_node root (c ++ [j]) hm.2.list
    obtain ⟨ds, hds⟩ := hb _ cs hl
    obtain ⟨k, h1, h2, h3⟩ := scope_slot s (startAt 0 root (c ++ [j])) cs ds hds
    have hp : ¬ p <+: c ++ [j] :=
      not_prefix_of_closest root p c j hc.around hi hm.2.list
    refine ⟨c, j, cs, k, hc, hm, hl, h1,
      moveInto_moves root p c (c ++ [j]) _ x x .list cs k e none hx hl hp h2 h3 rfl he,
      at_moved root p _ k x .list cs hl hp h2, ?_⟩
    have hd := directly_moved root p c j k x hp hm.2.list ⟨_, hm.1⟩
    have hh := contract_moved root p c j k x hi hp hc.holds
    have := (inkParent_iff _ _ _).2 ⟨hd, hh⟩
    unfold contractParent
    rw [this]
    rfl

/-- The same for an item somewhere in a given contract. -/
theorem C87_root_fix_partial (root : Src) (s : Scope) (c p : List Nat) (x : Src) (r : Report)
    (hb : Bracketed root) (hx : root.at? p = some x) (hi : IsItem root p)
    (hin : c <+: p ∧ c ≠ p) (hc : HasContract root c)
    (hr : parentContract root s c p = some r) :
    (r.fix.isSome = true ↔ ∃ j, ModuleList root c j) ∧
    ∀ e, r.fix = some e → ∃ j cs k, ModuleList root c j ∧
      root.at? (c ++ [j]) = some (.node .list cs) ∧ Slot s cs k ∧ Moves root e p (c ++ [j]) k x ∧
      (moved root p (c ++ [j]) k x).at? (c ++ [j] ++ [k]) = some x ∧
      parentContract (moved root p (c ++ [j]) k x) s c (c ++ [j] ++ [k]) = none := by
  unfold parentContract at hr
  split at hr
  · cases hr
  rename_i hno
  cases hr
  constructor
  · simp only [Option.isSome_iff_exists, Option.bind_eq_some_iff, moduleList_iff]
    constructor
    · rintro ⟨e, l, ⟨j, rfl, hm⟩, he⟩
      exact ⟨j, hm⟩
    · rintro ⟨j, hm⟩
      obtain ⟨e, he⟩ := moveInto_some root p c (c ++ [j]) (insertByScope s) none x hx hm.2.list
      exact ⟨e, _, ⟨j, rfl, hm⟩, he⟩
  · intro e he
    simp only [Option.bind_eq_some_iff, moduleList_iff] at he
    obtain ⟨l, ⟨j, rfl, hm⟩, he⟩ := he
    obtain ⟨cs, hl⟩ := list_node root (c ++ [j]) hm.2.list
    obtain ⟨ds, hds⟩ := hb _ cs hl
    obtain ⟨k, h1, h2, h3⟩ := scope_slot s (startAt 0 root (c ++ [j])) cs ds hds
    have hp : ¬ p <+: c ++ [j] :=
      not_prefix_of_closest root p c j hin hi hm.2.list
    refine ⟨j, cs, k, hm, hl, h1,
      moveInto_moves root p c (c ++ [j]) _ x x .list cs k e none hx hl hp h2 h3 rfl he,
      at_moved root p _ k x .list cs hl hp h2, ?_⟩
    have hd := directly_moved root p c j k x hp hm.2.list ⟨_, hm.1⟩
    have hh := contract_moved root p c j k x hi hp hc
    have := (inkParent_iff _ _ _).2 ⟨hd, hh⟩
    unfold parentContract
    rw [this]
    simp

theorem into_impl (root : Src) (i p : List Nat) (j : Nat) (x : Src) (e : Edit × Edit)
    (hb : Bracketed root) (hx : root.at? p = some x) (hf : kindAt root p = some (.item .fn))
    (hi : IsImpl root i) (hin : ¬ p <+: i) (hj : ItsList root i j)
    (he : moveInto root p i (i ++ [j]) insertAssocEnd none = some e) :
    ∃ cs k, root.at? (i ++ [j]) = some (.node .list cs) ∧ EndSlot cs k ∧
      Moves root e p (i ++ [j]) k x ∧
      (moved root p (i ++ [j]) k x).at? (i ++ [j] ++ [k]) = some x ∧
      parentImplItem (moved root p (i ++ [j]) k x) (i ++ [j] ++ [k]) = some i := by
  obtain ⟨cs, hl⟩ := list_node root (i ++ [j]) hj.list
  obtain ⟨ds, hds⟩ := hb _ cs hl
  obtain ⟨k, h1, h2, h3⟩ := assoc_slot (startAt 0 root (i ++ [j])) cs ds hds
  have hp : ¬ p <+: i ++ [j] := by
    intro h
    rcases List.prefix_concat_iff.1 h with h | h
    · rw [h, hj.list] at hf
      cases hf
    · exact hin h
  have hat := at_moved root p _ k x .list cs hl hp h2
  obtain ⟨t, ht⟩ := hi
  have hd := directly_moved root p i j k x hp hj.list ⟨_, ht⟩
  refine ⟨cs, k, hl, h1,
    moveInto_moves root p i (i ++ [j]) _ x x .list cs k e none hx hl hp h2 h3 rfl he, hat, ?_⟩
  refine (parentImplItem_iff _ _ _ ?_).2 ⟨hd, t, ?_⟩
  · unfold kindAt
    rw [hat]
    unfold kindAt at hf
    rw [hx] at hf
    exact hf
  · rw [(kind_moved_list root p i j k x hp).2, ht]

theorem closestImpl_spec (root : Src) (p i : List Nat) (hf : kindAt root p = some (.item .fn))
    (h : closestImpl root p = some i) : IsImpl root i ∧ ¬ p <+: i := by
  unfold closestImpl at h
  cases hc : closest isImpl root p.reverse with
  | some q =>
    rw [hc, Option.some_or, Option.some.injEq] at h
    subst h
    rw [closest_firstUp, firstUp_iff] at hc
    refine ⟨(isImpl_iff _).1 hc.holds, ?_⟩
    intro hp
    exact hc.around.2 (hc.around.1.eq_of_length
      (Nat.le_antisymm hc.around.1.length_le hp.length_le))
  | none =>
    rw [hc, Option.none_or] at h
    unfold siblingImpl at h
    split at h
    · rename_i n par hn hpar
      simp only [Option.map_eq_some_iff] at h
      obtain ⟨m, hm, rfl⟩ := h
      have ht : isImpl ((par.children[m]?).bind Src.kind?) = true := by
        rcases Option.or_eq_some_iff.1 hm with h | ⟨-, h⟩
        · have h' := List.find?_some h
          exact h'
        · have h' := List.find?_some h
          exact h'
      rw [← kindAt_child root par _ m hpar] at ht
      have hi := (isImpl_iff _).1 ht
      refine ⟨hi, ?_⟩
      intro hp
      have hlen : p.length = (p.dropLast ++ [m]).length := by
        have : p ≠ [] := by
          intro h0
          simp [h0] at hn
        have := List.length_pos_iff.2 this
        simp
        omega
      have := hp.eq_of_length hlen
      rw [← this, hf] at hi
      obtain ⟨t, hi⟩ := hi
      cases hi
    · cases h

theorem rootImpl_spec (root : Src) (p c i : List Nat) (hf : kindAt root p = some (.item .fn))
    (hc : Closest (HasContract root) p c) (h : rootImpl root c = some i) :
    IsImpl root i ∧ ¬ p <+: i := by
  unfold rootImpl at h
  simp only [Option.bind_eq_some_iff, moduleList_iff, Option.map_eq_some_iff,
    List.findIdx?_eq_some_iff_getElem] at h
  obtain ⟨l, ⟨j, rfl, hm⟩, n, hn, m, ⟨hlt, h1, -⟩, rfl⟩ := h
  have hk : kindAt root (c ++ [j] ++ [m]) = some (.item (.impl false)) := by
    rw [kindAt_child root n _ m hn, List.getElem?_eq_getElem hlt]
    simpa using h1
  refine ⟨⟨_, hk⟩, ?_⟩
  intro hp
  rcases List.prefix_concat_iff.1 hp with hp | hp
  · rw [hp, hk] at hf
    cases hf
  · exact not_prefix_of_closest root p c j hc.around ⟨_, hf⟩ hm.2.list hp

theorem findLast_iff (t : Nat → Bool) (n m : Nat) : (List.range n).reverse.find? t = some m ↔
    m < n ∧ t m = true ∧ ∀ m', m < m' → m' < n → t m' = false := by
  induction n with
  | zero => simp
  | succ n ih =>
    rw [List.range_succ, List.reverse_append]
    simp only [List.reverse_cons, List.reverse_nil, List.nil_append, List.cons_append,
      List.find?_cons]
    cases ht : t n with
    | true =>
      simp only [Option.some.injEq]
      constructor
      · rintro rfl
        exact ⟨by omega, ht, fun m' h1 h2 => by omega⟩
      · rintro ⟨h1, h2, h3⟩
        rcases Nat.lt_or_ge m n with h | h
        · have := h3 n h (by omega)
          rw [ht] at this
          cases this
        · omega
    | false =>
      refine ih.trans ?_
      constructor
      · rintro ⟨h1, h2, h3⟩
        refine ⟨by omega, h2, fun m' h4 h5 => ?_⟩
        rcases Nat.lt_or_ge m' n with h | h
        · exact h3 m' h4 h
        · have : m' = n := by omega
          rw [this, ht]
      · rintro ⟨h1, h2, h3⟩
        have : m ≠ n := by
          rintro rfl
          rw [ht] at h2
          cases h2
        exact ⟨by omega, h2, fun m' h4 h5 => h3 m' h4 (by omega)⟩

theorem findFrom_iff (t : Nat → Bool) (n k m : Nat) : (List.range' n k).find? t = some m ↔
    n ≤ m ∧ m < n + k ∧ t m = true ∧ ∀ m', n ≤ m' → m' < m → t m' = false := by
  induction k generalizing n with
  | zero =>
    simp
    omega
  | succ k ih =>
    rw [List.range'_succ, List.find?_cons]
    cases ht : t n with
    | true =>
      simp only [Option.some.injEq]
      constructor
      · rintro rfl
        exact ⟨by omega, by omega, ht, fun m' h1 h2 => by omega⟩
      · rintro ⟨h1, h2, h3, h4⟩
        rcases Nat.lt_or_ge n m with h | h
        · have := h4 n (by omega) h
          rw [ht] at this
          cases this
        · omega
    | false =>
      refine (ih (n + 1)).trans ?_
      constructor
      · rintro ⟨h1, h2, h3, h4⟩
        refine ⟨by omega, by omega, h3, fun m' h5 h6 => ?_⟩
        rcases Nat.lt_or_ge n m' with h | h
        · exact h4 m' h h6
        · have : m' = n := by omega
          rw [this, ht]
      · rintro ⟨h1, h2, h3, h4⟩
        have : m ≠ n := by
          rintro rfl
          rw [ht] at h3
          cases h3
        exact ⟨by omega, by omega, h3, fun m' h5 h6 => h4 m' (by omega) h6⟩

theorem closestIsImpl_iff (root : Src) (p i : List Nat) :
    closest isImpl root p.reverse = some i ↔ Closest (IsImpl root) p i := by
  rw [closest_firstUp, firstUp_iff]
  have : (fun r => isImpl (kindAt root r) = true) = IsImpl root := by
    funext r
    exact propext (isImpl_iff _)
  rw [this]

theorem near_iff (root : Src) (p i : List Nat) (hf : kindAt root p = some (.item .fn)) :
    closestImpl root p = some i ↔ Near root p i := by
  unfold closestImpl Near
  cases hc : closest isImpl root p.reverse with
  | some q =>
    have hq := (closestIsImpl_iff root p q).1 hc
    rw [Option.some_or, ← hc, closestIsImpl_iff]
    constructor
    · exact .inl
    · rintro (h | ⟨h, -⟩)
      · exact h
      · exact absurd ⟨q, hq⟩ h
  | none =>
    have hno : ¬ ∃ q, Closest (IsImpl root) p q := by
      rintro ⟨q, hq⟩
      rw [← closestIsImpl_iff, hc] at hq
      cases hq
    rw [Option.none_or]
    have h1 : ¬ Closest (IsImpl root) p i := fun h => hno ⟨i, h⟩
    simp only [h1, false_or, hno, not_false_iff, true_and]
    unfold siblingImpl
    cases hp : p.getLast? with
    | none =>
      have : p = [] := List.getLast?_eq_none_iff.1 hp
      subst this
      simp
    | some n =>
      have hpn : p = p.dropLast ++ [n] := by
        obtain ⟨ds, rfl⟩ := List.getLast?_eq_some_iff.1 hp
        simp
      cases hpar : root.at? p.dropLast with
      | none =>
        have : kindAt root p = none := by
          rw [hpn]
          unfold kindAt
          rw [at_append, hpar]
          rfl
        rw [this] at hf
        cases hf
      | some par =>
        have hch : ∀ m, isImpl ((par.children[m]?).bind Src.kind?) = true ↔
            IsImpl root (p.dropLast ++ [m]) := by
          intro m
          rw [← kindAt_child root par _ m hpar]
          exact isImpl_iff _
        have hch' : ∀ m, isImpl ((par.children[m]?).bind Src.kind?) = false ↔
            ¬ IsImpl root (p.dropLast ++ [m]) := by
          intro m
          rw [← hch m]
          simp
        have hlen : ∀ m, IsImpl root (p.dropLast ++ [m]) → m < par.children.length := by
          intro m h
          rw [← hch m] at h
          rcases Nat.lt_or_ge m par.children.length with hl | hl
          · exact hl
          · rw [List.getElem?_eq_none hl] at h
            cases h
        have hself : ¬ IsImpl root (p.dropLast ++ [n]) := by
          rw [← hpn]
          rintro ⟨t, h⟩
          rw [h] at hf
          cases hf
        simp only [Option.map_eq_some_iff, Option.or_eq_some_iff, findLast_iff, findFrom_iff, hch,
          hch', Option.eq_none_iff_forall_ne_some]
        constructor
        · rintro ⟨m, h, rfl⟩
          refine ⟨n, m, hpn, rfl, ?_⟩
          rcases h with ⟨h1, h2, h3⟩ | ⟨h0, h1, h2, h3, h4⟩
          · refine ⟨h2, .inl ⟨?_, fun m' h4 h5 => h3 m' h4 (by omega)⟩⟩
            have : m ≠ n := by
              rintro rfl
              exact hself h2
            omega
          · have hmn : m ≠ n := by
              rintro rfl
              exact hself h3
            refine ⟨h3, .inr ⟨by omega, fun m' h5 h6 => ?_⟩⟩
            rcases Nat.lt_or_ge m' n with h | h
            · -- the closest one before would have been found
              cases hfd : (List.range (n + 1)).reverse.find?
                  fun i => isImpl ((par.children[i]?).bind Src.kind?) with
              | some a => exact h0 a ((by simpa only [findLast_iff, hch, hch'] using hfd))
              | none =>
                have := List.find?_eq_none.1 hfd m' (by simp; omega)
                exact this ((hch m').2 h6)
            · exact h4 m' h h5 h6
        · rintro ⟨n', m, hn', rfl, h2, h⟩
          have : n' = n := by
            rw [hpn] at hn'
            simpa using hn'.symm
          subst this
          refine ⟨m, ?_, rfl⟩
          rcases h with ⟨h3, h4⟩ | ⟨h3, h4⟩
          · refine .inl ⟨by omega, h2, fun m' h5 h6 => ?_⟩
            rcases Nat.lt_or_ge m' n' with h | h
            · exact h4 m' h5 h
            · have : m' = n' := by omega
              subst this
              exact hself
          · refine .inr ⟨?_, by omega, ?_, h2, fun m' h5 h6 => h4 m' h6⟩
            · intro a ha
              simp only [findLast_iff, hch] at ha
              exact h4 a (by omega) ha.2.1
            · have := hlen m h2
              omega

theorem firstInherent_iff (root : Src) (c i : List Nat) :
    rootImpl root c = some i ↔ FirstInherent root c i := by
  unfold rootImpl FirstInherent
  simp only [Option.bind_eq_some_iff, moduleList_iff, Option.map_eq_some_iff,
    List.findIdx?_eq_some_iff_getElem]
  constructor
  · rintro ⟨l, ⟨j, rfl, hm⟩, n, hn, m, ⟨hlt, h1, h2⟩, rfl⟩
    refine ⟨j, m, hm, rfl, ?_, ?_⟩
    · rw [kindAt_child root n _ m hn, List.getElem?_eq_getElem hlt]
      simpa using h1
    · intro m' hm'
      rw [kindAt_child root n _ m' hn, List.getElem?_eq_getElem (by omega)]
      have := h2 m' hm'
      simpa using this
  · rintro ⟨j, m, hm, rfl, h1, h2⟩
    obtain ⟨cs, hl⟩ := list_node root (c ++ [j]) hm.2.list
    have hlt : m < cs.length := by
      rcases Nat.lt_or_ge m cs.length with hlt | hlt
      · exact hlt
      · rw [kindAt_child root _ _ m hl] at h1
        simp only [Src.children] at h1
        rw [List.getElem?_eq_none hlt] at h1
        cases h1
    refine ⟨_, ⟨j, rfl, hm⟩, _, hl, m, ⟨hlt, ?_, ?_⟩, rfl⟩
    · rw [kindAt_child root _ _ m hl] at h1
      simp only [Src.children] at h1 ⊢
      rw [List.getElem?_eq_getElem hlt] at h1
      simpa using h1
    · intro m' hm'
      have h3 := h2 m' hm'
      rw [kindAt_child root _ _ m' hl] at h3
      simp only [Src.children] at h3 ⊢
      rw [List.getElem?_eq_getElem (by omega)] at h3
      simpa using h3

theorem nearList_iff (root : Src) (p : List Nat) (hf : kindAt root p = some (.item .fn)) :
    ((closestImpl root p).bind fun i => (listOf root i).map fun l => (i, l)) = none ↔
      ¬ ∃ i', Near root p i' ∧ ∃ j, ItsList root i' j := by
  rw [Option.eq_none_iff_forall_ne_some]
  constructor
  · rintro h ⟨i, hi, j, hj⟩
    refine h (i, i ++ [j]) ?_
    rw [(near_iff root p i hf).2 hi]
    simp only [Option.bind_some, Option.map_eq_some_iff, Prod.mk.injEq, true_and, exists_eq_right]
    exact (listOf_iff _ _ _).2 ⟨j, rfl, hj⟩
  · intro h a ha
    simp only [Option.bind_eq_some_iff, Option.map_eq_some_iff] at ha
    obtain ⟨i, hi, l, hl, -⟩ := ha
    obtain ⟨j, -, hj⟩ := (listOf_iff _ _ _).1 hl
    exact h ⟨i, (near_iff root p i hf).1 hi, j, hj⟩

theorem closest_unique (P : List Nat → Prop) (p q r : List Nat) (h : Closest P p q)
    (h' : Closest P p r) : q = r := by
  have key : ∀ a b, Closest P p a → Closest P p b → b.length ≤ a.length := by
    intro a b ha hb
    rcases Nat.lt_or_ge a.length b.length with hl | hl
    · exact absurd hb.holds (ha.first b hb.around.1 hb.around.2 hl)
    · exact hl
  have hl := Nat.le_antisymm (key _ _ h' h) (key _ _ h h')
  exact (List.prefix_of_prefix_length_le h.around.1 h'.around.1 (by omega)).eq_of_length hl

theorem ofContract_iff (known : List Nat → Known) (root : Src) (p c i : List Nat)
    (hc : Closest (HasContract root) p c) :
    ((rootImpl root c).or (known c).inkImpl) = some i ↔ OfContract known root p i := by
  rw [Option.or_eq_some_iff, Option.eq_none_iff_forall_ne_some]
  simp only [ne_eq, firstInherent_iff]
  unfold OfContract
  constructor
  · rintro (h | ⟨h, h'⟩)
    · exact ⟨c, hc, .inl h⟩
    · exact ⟨c, hc, .inr ⟨fun ⟨i', hi'⟩ => h i' hi', h'⟩⟩
  · rintro ⟨c', hc', h⟩
    have := closest_unique _ _ _ _ hc' hc
    subst this
    rcases h with h | ⟨h, h'⟩
    · exact .inl h
    · exact .inr ⟨fun i' hi' => h ⟨i', hi'⟩, h'⟩

/-- The move of a constructor or message that is not in the given `impl` block: to its end. The block
is not inside of the function. -/
theorem C87_own_impl_fix_partial (root : Src) (i p : List Nat) (x : Src) (r : Report)
    (hb : Bracketed root) (hx : root.at? p = some x) (hf : kindAt root p = some (.item .fn))
    (hi : IsImpl root i) (hin : ¬ p <+: i) (hr : parentImpl root i p = some r) :
    (r.fix.isSome = true ↔ ∃ j, ItsList root i j) ∧
    ∀ e, r.fix = some e → ∃ j cs k, ItsList root i j ∧
      root.at? (i ++ [j]) = some (.node .list cs) ∧ EndSlot cs k ∧ Moves root e p (i ++ [j]) k x ∧
      (moved root p (i ++ [j]) k x).at? (i ++ [j] ++ [k]) = some x ∧
      parentImpl (moved root p (i ++ [j]) k x) i (i ++ [j] ++ [k]) = none := by
  unfold parentImpl at hr
  split at hr
  · cases hr
  cases hr
  constructor
  · simp only [Option.isSome_iff_exists, Option.bind_eq_some_iff, listOf_iff]
    constructor
    · rintro ⟨e, l, ⟨j, rfl, hm⟩, he⟩
      exact ⟨j, hm⟩
    · rintro ⟨j, hm⟩
      obtain ⟨e, he⟩ := moveInto_some root p i (i ++ [j]) insertAssocEnd none x hx hm.list
      exact ⟨e, _, ⟨j, rfl, hm⟩, he⟩
  · intro e he
    simp only [Option.bind_eq_some_iff, listOf_iff] at he
    obtain ⟨l, ⟨j, rfl, hm⟩, he⟩ := he
    obtain ⟨cs, k, hl, h1, h2, h3, h4⟩ := into_impl root i p j x e hb hx hf hi hin hm he
    refine ⟨j, cs, k, hm, hl, h1, h2, h3, ?_⟩
    unfold parentImpl
    rw [h4]
    simp

/-- An `impl` block made for the item. -/
def newImpl (name : List Char) (x : Src) : Src :=
  .node (.item (.impl false)) [.tok false "impl".toList, .tok true [' '], .tok false name,
    .tok true [' '], .node .list [.tok false ['{'], x, .tok false ['}']]]

/-- The move of a constructor or message that is in no `impl` block: to the end of an `impl` block, or
into a new one for the contract around it. The item is otherwise unchanged, nothing else changes, and it
is no longer reported. (`known` gives an `impl` block that is not inside of the function.) -/
theorem C87_impl_fix_partial (known : List Nat → Known) (root : Src) (p : List Nat) (x : Src)
    (r : Report) (e : Edit × Edit) (hb : Bracketed root) (hx : root.at? p = some x)
    (hf : kindAt root p = some (.item .fn))
    (hk : ∀ c i, (known c).inkImpl = some i → IsImpl root i ∧ ¬ p <+: i)
    (hr : implParent known root p = some r) (he : r.fix = some e) :
    (∃ i j cs k, Target known root p i ∧ ItsList root i j ∧ root.at? (i ++ [j]) = some (.node .list cs) ∧
      EndSlot cs k ∧ Moves root e p (i ++ [j]) k x ∧
      (moved root p (i ++ [j]) k x).at? (i ++ [j] ++ [k]) = some x ∧
      implParent known (moved root p (i ++ [j]) k x) (i ++ [j] ++ [k]) = none) ∨
    ((¬ ∃ i, Target known root p i) ∧ ∃ c j cs k name, Closest (HasContract root) p c ∧ ModuleList root c j ∧
      (known c).name = some name ∧ root.at? (c ++ [j]) = some (.node .list cs) ∧ Slot .impl cs k ∧
      Moves root e p (c ++ [j]) k (newImpl name x) ∧
      (moved root p (c ++ [j]) k (newImpl name x)).at? (c ++ [j] ++ [k] ++ [4, 1]) = some x ∧
      implParent known (moved root p (c ++ [j]) k (newImpl name x)) (c ++ [j] ++ [k] ++ [4, 1]) =
        none) := by
  have hi : IsItem root p := ⟨_, hf⟩
  unfold implParent at hr
  split at hr
  · cases hr
  cases hr
  simp only at he
  have viaImpl : ∀ i l, IsImpl root i → ¬ p <+: i → Target known root p i →
      listOf root i = some l → moveInto root p i l insertAssocEnd none = some e →
      ∃ i j cs k, Target known root p i ∧ ItsList root i j ∧ root.at? (i ++ [j]) = some (.node .list cs) ∧
      EndSlot cs k ∧ Moves root e p (i ++ [j]) k x ∧
      (moved root p (i ++ [j]) k x).at? (i ++ [j] ++ [k]) = some x ∧
      implParent known (moved root p (i ++ [j]) k x) (i ++ [j] ++ [k]) = none := by
    intro i l hii hin htg hl hm
    obtain ⟨j, rfl, hj⟩ := (listOf_iff _ _ _).1 hl
    obtain ⟨cs, k, hl, h1, h2, h3, h4⟩ := into_impl root i p j x e hb hx hf hii hin hj hm
    refine ⟨i, j, cs, k, htg, hj, hl, h1, h2, h3, ?_⟩
    unfold implParent
    rw [h4]
    rfl
  split at he
  · rename_i i l hc
    simp only [Option.bind_eq_some_iff, Option.map_eq_some_iff, Prod.mk.injEq] at hc
    obtain ⟨i', hi', l', hl', rfl, rfl⟩ := hc
    have := closestImpl_spec root p i' hf hi'
    obtain ⟨j', -, hj'⟩ := (listOf_iff _ _ _).1 hl'
    exact .inl (viaImpl i' l' this.1 this.2 (.inl ⟨(near_iff root p i' hf).1 hi', j', hj'⟩) hl' he)
  · rename_i hnear
    rw [nearList_iff root p hf] at hnear
    simp only [Option.bind_eq_some_iff, ancestor_iff] at he
    obtain ⟨c, hc, he⟩ := he
    unfold moveToContract at he
    split at he
    · rename_i i l hil
      simp only [Option.bind_eq_some_iff, Option.map_eq_some_iff, Prod.mk.injEq] at hil
      obtain ⟨i', hi', l', hl', rfl, rfl⟩ := hil
      have : IsImpl root i' ∧ ¬ p <+: i' := by
        cases hri : rootImpl root c with
        | none =>
          rw [hri, Option.none_or] at hi'
          exact hk c i' hi'
        | some i2 =>
          rw [hri, Option.some_or, Option.some.injEq] at hi'
          subst hi'
          exact rootImpl_spec root p c i2 hf hc hri
      obtain ⟨j', -, hj'⟩ := (listOf_iff _ _ _).1 hl'
      exact .inl (viaImpl i' l' this.1 this.2
        (.inr ⟨hnear, (ofContract_iff known root p c i' hc).1 hi', j', hj'⟩) hl' he)
    · rename_i hof
      have hnt : ¬ ∃ i, Target known root p i := by
        rintro ⟨i, ⟨h, hj⟩ | ⟨-, h, j, hj⟩⟩
        · exact hnear ⟨i, h, hj⟩
        · rw [← ofContract_iff known root p c i hc] at h
          rw [h, Option.bind_some, (listOf_iff _ _ _).2 ⟨j, rfl, hj⟩] at hof
          cases hof
      simp only [Option.bind_eq_some_iff, moduleList_iff] at he
      obtain ⟨l, ⟨j, rfl, hm⟩, name, hname, he⟩ := he
      obtain ⟨cs, hl⟩ := list_node root (c ++ [j]) hm.2.list
      obtain ⟨ds, hds⟩ := hb _ cs hl
      obtain ⟨k, h1, h2, h3⟩ := scope_slot .impl (startAt 0 root (c ++ [j])) cs ds hds
      have hp : ¬ p <+: c ++ [j] := not_prefix_of_closest root p c j hc.around hi hm.2.list
      have hat := at_moved root p _ k (newImpl name x) .list cs hl hp h2
      have hatx : (moved root p (c ++ [j]) k (newImpl name x)).at? (c ++ [j] ++ [k] ++ [4, 1]) =
          some x := by
        rw [at_append, hat]
        rfl
      refine .inr ⟨hnt, c, j, cs, k, name, hc, hm, hname, hl, h1, ?_, hatx, ?_⟩
      · refine moveInto_moves root p c (c ++ [j]) _ x (newImpl name x) .list cs k e _ hx hl hp h2 h3
          ?_ he
        have hws := ws_children (wsBefore root c)
        refine ⟨?_, ?_⟩
        · intro d hd
          simp only [implAffixes, List.mem_append] at hd
          rcases hd with hd | hd
          · exact hws d hd
          · revert d
            decide
        · have e1 : codeOf "impl ".toList = codeOf "impl".toList := by decide
          have e2 : codeOf " {\n".toList = ['{'] := by decide
          have e3 : codeOf [' '] = [] := by decide
          have e4 : codeOf ['{'] = ['{'] := by decide
          have e5 : codeOf ['}'] = ['}'] := by decide
          simp only [newImpl, Src.text, texts, implAffixes, codeOf_append, codeOf_nl,
            List.cons_append, codeOf_ws _ hws, e1, e2, e3, e4, e5, List.nil_append, List.append_nil,
            List.append_assoc]
          have e6 : isWs ' ' = true := by decide
          have e7 : isWs '{' = false := by decide
          have e8 : isWs '}' = false := by decide
          simp [codeOf_append, e5, codeOf, List.filter_cons, e6, e7, e8]
      · have hfx : kindAt (moved root p (c ++ [j]) k (newImpl name x)) (c ++ [j] ++ [k] ++ [4, 1]) =
            some (.item .fn) := by
          unfold kindAt
          rw [hatx]
          unfold kindAt at hf
          rw [hx] at hf
          exact hf
        have h4 : kindAt (moved root p (c ++ [j]) k (newImpl name x)) (c ++ [j] ++ [k] ++ [4]) =
            some .list := by
          rw [kindAt_append _ _ _ _ hat]
          rfl
        have h0 : kindAt (moved root p (c ++ [j]) k (newImpl name x)) (c ++ [j] ++ [k]) =
            some (.item (.impl false)) := by
          unfold kindAt
          rw [hat]
          rfl
        have hcl : closest isItem (moved root p (c ++ [j]) k (newImpl name x))
            (c ++ [j] ++ [k] ++ [4, 1]).reverse = some (c ++ [j] ++ [k]) := by
          have e1 : (c ++ [j] ++ [k] ++ [4, 1]).reverse = 1 :: 4 :: (c ++ [j] ++ [k]).reverse := by
            simp
          have e2 : (4 :: (c ++ [j] ++ [k]).reverse).reverse = c ++ [j] ++ [k] ++ [4] := by simp
          rw [e1]
          simp only [closest]
          rw [e2, h4, List.reverse_reverse, h0]
          rfl
        have h0' := h0
        simp only [List.append_assoc, List.cons_append, List.nil_append] at h0'
        unfold implParent parentImplItem
        rw [hfx, hcl]
        simp [Option.filter, isImpl, h0']

/-! ## Cases -/

/-- The trees begin with a bracket. -/
def curlyFirst : List Src → Bool
  | .tok false t :: _ => t == ['{']
  | _ => false

mutual

/-- Whether all lists of items begin with a bracket. -/
def bracketsOk : Src → Bool
  | .tok _ _ => true
  | .node k cs => (k != .list || curlyFirst cs) && bracketsOkAll cs

/-- The same for trees in a row. -/
def bracketsOkAll : List Src → Bool
  | [] => true
  | c :: cs => bracketsOk c && bracketsOkAll cs

end

theorem bracketsOk_mem (cs : List Src) (h : bracketsOkAll cs = true) (c : Src) (hc : c ∈ cs) :
    bracketsOk c = true := by
  induction cs with
  | nil => cases hc
  | cons d ds ih =>
    rw [bracketsOkAll, Bool.and_eq_true] at h
    rcases List.mem_cons.1 hc with rfl | hc
    · exact h.1
    · exact ih h.2 hc

theorem bracketed_of (root : Src) (h : bracketsOk root = true) : Bracketed root := by
  intro l
  induction l generalizing root with
  | nil =>
    intro cs hl
    rw [Src.at?, Option.some.injEq] at hl
    subst hl
    rw [bracketsOk, Bool.and_eq_true] at h
    replace h := h.1
    simp only [bne_self_eq_false, Bool.false_or] at h
    unfold curlyFirst at h
    split at h
    · rename_i t ds
      refine ⟨ds, ?_⟩
      have : t = ['{'] := by simpa using h
      rw [this]
    · simp at h
  | cons i l ih =>
    intro cs hl
    rw [Src.at?, Option.bind_eq_some_iff] at hl
    obtain ⟨c, hc, hl⟩ := hl
    refine ih c ?_ cs hl
    cases root with
    | tok w t => simp [Src.children] at hc
    | node k ds =>
      rw [bracketsOk, Bool.and_eq_true] at h
      exact bracketsOk_mem ds h.2 c (List.mem_of_getElem? hc)

/-- The function of the examples. -/
def exFn (body : List Src) : Src :=
  .node (.item .fn) (.tok false "fn f() ".toList :: body)

/-- A contract with a function next to an `impl` block of a trait, and one in a module: `shape` is what
the list of the contract ends with. -/
def exContract (shape : List Src) : Src :=
  .node .other [.node (.item .module) [
    .node (.attr (some (.macro .contract))) [.tok false "#[ink::contract]".toList], .tok true ['\n'],
    .tok false "mod c ".toList, .node .list ([.tok false ['{'], .tok true "\n    ".toList,
      .node (.item .struct) [.tok false "struct C;".toList], .tok true "\n    ".toList] ++ shape ++
      [.tok true ['\n'], .tok false ['}']])]]

/-- An `impl` block with items. -/
def exImpl (ofTrait : Bool) (its : List Src) : Src :=
  .node (.item (.impl ofTrait)) [.tok false (if ofTrait then "impl D for C " else "impl C ").toList,
    .node .list (.tok false ['{'] :: its ++ [.tok false ['}']])]

/-- An event in a message. -/
def exEvent : Src :=
  exContract [exImpl false [.tok true "\n        ".toList, exFn [.tok false ['{'],
    .node (.item .struct) [.tok false "struct E;".toList], .tok false ['}']],
    .tok true "\n    ".toList]]

/-- A message in the root of the contract, with an `impl` block of a trait and one of the contract. -/
def exMessage : Src :=
  exContract [exFn [.tok false "{}".toList], .tok true "\n    ".toList, exImpl true [],
    .tok true "\n    ".toList, exImpl false []]

/-- A message in the root of the contract, with no `impl` block. -/
def exAlone : Src := exContract [exFn [.tok false "{}".toList]]

/-- No ink! `impl` blocks, and a name. -/
def exKnown : List Nat → Known := fun _ => ⟨none, some ['C']⟩

example : Bracketed exEvent ∧ IsItem exEvent [0, 3, 4, 1, 2, 2] ∧
    HasContract exEvent [0] ∧
    ((contractParent exEvent .event [0, 3, 4, 1, 2, 2]).bind (·.fix)).isSome = true ∧
    ((parentContract exEvent .event [0] [0, 3, 4, 1, 2, 2]).bind (·.fix)).isSome = true ∧
    ((contractParent exEvent .event [0, 3, 4, 1, 2, 2]).bind (·.fix)).bind
      (applyMove exEvent.text) = some "#[ink::contract]
mod c {
    struct C;    struct E;
    impl C {
        fn f() {}
    }
}".toList :=
  ⟨bracketed_of _ (by decide +kernel), ⟨.struct, by decide +kernel⟩, ⟨0, by decide +kernel⟩,
    by decide +kernel, by decide +kernel, by decide +kernel⟩

example : Bracketed exAlone ∧ kindAt exAlone [0, 3, 4] = some (.item .fn) ∧
    ((implParent exKnown exAlone [0, 3, 4]).bind (·.fix)).bind (applyMove exAlone.text) =
      some "#[ink::contract]
mod c {
    struct C;    impl C {
        fn f() {}
    }
    
}".toList :=
  ⟨bracketed_of _ (by decide +kernel), by decide +kernel, by decide +kernel⟩

example : kindAt exMessage [0, 3, 4] = some (.item .fn) ∧ IsImpl exMessage [0, 3, 8] ∧
    ¬ [0, 3, 4] <+: [0, 3, 8] ∧
    ((parentImpl exMessage [0, 3, 8] [0, 3, 4]).bind (·.fix)).isSome = true :=
  ⟨by decide +kernel, ⟨false, by decide +kernel⟩, by decide +kernel, by decide +kernel⟩

/-- A misplaced message is moved into the `impl` block of a trait next to it, which cannot have further
methods, although the contract has an `impl` block of its own. -/
theorem C87_negation_trait : ∃ (known : List Nat → Known) (root : Src) (p c i i' : List Nat)
    (r : Report) (e : Edit × Edit) (n : Src), Bracketed root ∧
    kindAt root p = some (.item .fn) ∧ Closest (HasContract root) p c ∧ FirstInherent root c i' ∧
    implParent known root p = some r ∧ r.fix = some e ∧
    root.at? i = some n ∧ n.kind? = some (.item (.impl true)) ∧
    startAt 0 root i < e.1.start ∧ e.1.start < startAt 0 root i + bytes n.text := by
  refine ⟨exKnown, exMessage, [0, 3, 4], [0], [0, 3, 6], [0, 3, 8],
    ⟨some ((⟨"        fn f() {}".toList, 71, 71, none⟩ : Edit), (⟨[], 43, 52, none⟩ : Edit))⟩,
    ((⟨"        fn f() {}".toList, 71, 71, none⟩ : Edit), (⟨[], 43, 52, none⟩ : Edit)), exImpl true [],
    bracketed_of _ (by decide +kernel), by decide +kernel, ?_, ?_, ?_, rfl, rfl, rfl,
    by decide +kernel, by decide +kernel⟩
  · rw [← ancestor_iff]
    decide +kernel
  · rw [← firstInherent_iff]
    decide +kernel
  · decide +kernel

/-- A function with a string literal of two lines. -/
def exString : Src :=
  exContract [exFn [.tok false "{ g(".toList, .tok false "\"a\n    b\"".toList,
    .tok false ") }".toList], .tok true "\n    ".toList, exImpl false []]

/-- Moving an item changes the string literals of more than one line in it, because their lines are
re-indented too. -/
theorem C87_negation_string : ∃ (known : List Nat → Known) (root : Src) (p : List Nat) (j : Nat)
    (r : Report) (e : Edit × Edit) (lit out : List Char), Bracketed root ∧
    kindAt root p = some (.item .fn) ∧ root.at? (p ++ [j]) = some (.tok false lit) ∧
    implParent known root p = some r ∧ r.fix = some e ∧ applyMove root.text e = some out ∧
    lit <:+: root.text ∧ ¬ lit <:+: out := by
  refine ⟨exKnown, exString, [0, 3, 4], 2,
    ⟨some ((⟨"        fn f() { g(\"a\n        b\") }".toList, 79, 79, none⟩ : Edit),
      (⟨[], 43, 66, none⟩ : Edit))⟩,
    ((⟨"        fn f() { g(\"a\n        b\") }".toList, 79, 79, none⟩ : Edit),
      (⟨[], 43, 66, none⟩ : Edit)), "\"a\n    b\"".toList,
    "#[ink::contract]\nmod c {\n    struct C;\n    \n    impl C {        fn f() { g(\"a\n        b\") }}\n}".toList,
    bracketed_of _ (by decide +kernel), by decide +kernel, rfl, ?_, rfl, by decide +kernel,
    by decide +kernel, by decide +kernel⟩
  decide +kernel

end Verif.Analyzer.Move
