import Verif.Analyzer.ExtractAt
import Verif.Ir.CoverProps

/-!
# C113: an extraction that is offered can be carried out
-/

namespace Verif.Analyzer.ExtractAt

open Verif.Ir

/-! ## Specification -/

/-- There is a node of one of these kinds at the path. -/
def NodeAt (root : Tree) (f : Kind → Prop) (p : List Nat) : Prop :=
  ∃ k cs, root.at? p = some (.node k cs) ∧ f k

/-- The innermost module around a node. -/
def InnermostModule (root : Tree) (s m : List Nat) : Prop :=
  (∃ t, t ≠ [] ∧ s = m ++ t) ∧ NodeAt root (· = .module) m ∧
    ∀ q t, s = q ++ t → t ≠ [] → NodeAt root (· = .module) q → q <+: m

/-- The module has a body: an item list is one of its children. -/
def HasBody (root : Tree) (m : List Nat) : Prop := ∃ i, NodeAt root (· = .itemList) (m ++ [i])

/-- What the event is extracted from: a struct with a name, in a module with a body. -/
def Extractable (root : Tree) (s m : List Nat) : Prop :=
  NodeAt root (· = .struct true) s ∧ InnermostModule root s m ∧ HasBody root m

/-- The attribute at the path is an ink! attribute of an event. -/
def EventAttr (root : Tree) (a : List Nat) : Prop :=
  ∃ k cs, root.at? a = some (.attr (some k) cs) ∧ (k = .arg .event ∨ k = .macro .event)

/-- Attributes have their hash and brackets: they are not empty and none of their children is all of
them. -/
def AttrsOk (root : Tree) : Prop :=
  ∀ p i cs, root.at? p = some (.attr i cs) → 0 < (Node.attr i cs : Tree).len ∧
    ∀ c ∈ cs, c.len < (Node.attr i cs : Tree).len

/-- The range lies in the node at the path and contains one of its tokens (its keyword). -/
def OnKeyword (root : Tree) (s : List Nat) (r : Nat × Nat) : Prop :=
  ∃ st l k kst kl, root.rangeAt s 0 = some (st, l) ∧ st ≤ r.1 ∧ r.2 ≤ st + l ∧
    root.at? (s ++ [k]) = some (.tok kl) ∧ root.rangeAt (s ++ [k]) 0 = some (kst, kl) ∧ 0 < kl ∧
    r.1 ≤ kst ∧ kst + kl ≤ r.2

/-! ## Lemmas -/

theorem kindAt_iff (root : Tree) (f : Kind → Bool) (p : List Nat) :
    kindAt root f p = true ↔ NodeAt root (fun k => f k = true) p := by
  unfold kindAt NodeAt
  split
  · rename_i k cs h
    rw [h]
    constructor
    · exact fun hk => ⟨k, cs, rfl, hk⟩
    · rintro ⟨k', cs', he, hk⟩
      simp only [Option.some.injEq, Node.node.injEq] at he
      rw [he.1]; exact hk
  · rename_i h
    constructor
    · intro h'; cases h'
    · rintro ⟨k, cs, he, _⟩
      exact absurd he (h k cs)

theorem isAttrAt_iff (root : Tree) (p : List Nat) :
    root.isAttrAt p = true ↔ ∃ i cs, root.at? p = some (.attr i cs) := by
  unfold Node.isAttrAt
  cases h : root.at? p with
  | none => simp
  | some n => cases n <;> simp [Node.isAttr]

theorem prefix_ne_iff (q s : List Nat) : (q <+: s ∧ q ≠ s) ↔ ∃ t, t ≠ [] ∧ s = q ++ t := by
  constructor
  · rintro ⟨⟨t, rfl⟩, h⟩
    exact ⟨t, fun ht => h (by simp [ht]), rfl⟩
  · rintro ⟨t, h, rfl⟩
    exact ⟨List.prefix_append _ _, fun he => h (by simpa using he)⟩

theorem drop_ancestors (rp : List Nat) (q : List Nat) :
    q ∈ (Node.ancestorPaths rp).drop 1 ↔ q <+: rp.reverse ∧ q ≠ rp.reverse := by
  cases rp with
  | nil => simp [Node.ancestorPaths]
  | cons i rp =>
    simp only [Node.ancestorPaths, List.drop_succ_cons, List.drop_zero, Node.mem_ancestorPaths,
      List.reverse_cons]
    constructor
    · intro h
      refine ⟨h.trans (List.prefix_append _ _), fun he => ?_⟩
      have := h.length_le
      rw [he] at this
      simp at this
      omega
    · rintro ⟨h, hne⟩
      rcases List.prefix_concat_iff.1 (by simpa [List.concat_eq_append] using h) with h' | h'
      · exact absurd h' hne
      · exact h'

theorem find_ancestors (P : List Nat → Bool) (rp : List Nat) (q : List Nat)
    (h : (Node.ancestorPaths rp).find? P = some q) :
    ∀ r, r <+: rp.reverse → P r = true → r <+: q := by
  induction rp with
  | nil =>
    intro r hr _
    simp only [List.reverse_nil, List.prefix_nil] at hr
    rw [hr]; exact List.nil_prefix
  | cons i rp ih =>
    intro r hr hP
    rw [Node.ancestorPaths, List.find?_cons] at h
    split at h
    · obtain rfl := Option.some.inj h
      exact hr
    · rename_i hf
      rw [List.reverse_cons] at hr
      rcases List.prefix_concat_iff.1 (by simpa [List.concat_eq_append] using hr) with h' | h'
      · rw [List.reverse_cons, ← h', hP] at hf
        cases hf
      · exact ih h r h' hP

theorem closestAbove_iff (root : Tree) (f : Kind → Bool) (p q : List Nat) :
    closestAbove root f p = some q ↔
      kindAt root f q = true ∧ (q <+: p ∧ q ≠ p) ∧
        ∀ r, r <+: p ∧ r ≠ p → kindAt root f r = true → r <+: q := by
  have key : ∀ q, closestAbove root f p = some q → kindAt root f q = true ∧ (q <+: p ∧ q ≠ p) ∧
        ∀ r, r <+: p ∧ r ≠ p → kindAt root f r = true → r <+: q := by
    intro q h
    unfold closestAbove at h
    have h1 := List.find?_some h
    have h2 := List.mem_of_find?_eq_some h
    rw [drop_ancestors, List.reverse_reverse] at h2
    refine ⟨h1, h2, fun r hr hk => ?_⟩
    have hr' : r ∈ (Node.ancestorPaths p.reverse).drop 1 := by
      rw [drop_ancestors, List.reverse_reverse]; exact hr
    generalize hrp : p.reverse = rp at h hr'
    cases rp with
    | nil => simp [Node.ancestorPaths] at hr'
    | cons i rp =>
      simp only [Node.ancestorPaths, List.drop_succ_cons, List.drop_zero] at h hr'
      exact find_ancestors _ _ _ h r ((Node.mem_ancestorPaths _ _).1 hr') hk
  refine ⟨key q, fun ⟨h1, h2, h3⟩ => ?_⟩
  cases h : closestAbove root f p with
  | none =>
    unfold closestAbove at h
    rw [List.find?_eq_none] at h
    have := h q (by rw [drop_ancestors, List.reverse_reverse]; exact h2)
    exact absurd h1 this
  | some r =>
    obtain ⟨k1, k2, k3⟩ := key r h
    have a := h3 r k2 k1
    have b := k3 q h2 h1
    rw [a.eq_of_length_le b.length_le]

theorem innermost_iff (root : Tree) (s m : List Nat) :
    closestAbove root (· == .module) s = some m ↔ InnermostModule root s m := by
  have hk : ∀ q, kindAt root (· == .module) q = true ↔ NodeAt root (· = .module) q := by
    intro q; rw [kindAt_iff]; simp [NodeAt]
  rw [closestAbove_iff, hk, prefix_ne_iff]
  unfold InnermostModule
  constructor
  · rintro ⟨h1, h2, h3⟩
    exact ⟨h2, h1, fun q t he ht hq => h3 q ((prefix_ne_iff q s).2 ⟨t, ht, he⟩) ((hk q).2 hq)⟩
  · rintro ⟨h2, h1, h3⟩
    refine ⟨h1, h2, fun r hr hq => ?_⟩
    obtain ⟨t, ht, he⟩ := (prefix_ne_iff r s).1 hr
    exact h3 r t he ht ((hk r).1 hq)

theorem hasList_iff (root : Tree) (p : List Nat) : hasList root p = true ↔ HasBody root p := by
  unfold hasList HasBody NodeAt
  cases h : root.at? p with
  | none => simp [Node.at?_append, h]
  | some n =>
    simp only [List.any_eq_true, Node.at?_append, h, Option.bind_some, Node.at?]
    constructor
    · rintro ⟨c, hc, hk⟩
      obtain ⟨i, hi, rfl⟩ := List.mem_iff_getElem.1 hc
      refine ⟨i, ?_⟩
      rw [List.getElem?_eq_getElem hi]
      cases hc' : n.children[i] with
      | tok l => rw [hc'] at hk; cases hk
      | attr a cs => rw [hc'] at hk; cases hk
      | node k cs =>
        rw [hc'] at hk
        exact ⟨k, cs, rfl, by simpa using hk⟩
    · rintro ⟨i, k, cs, hi, rfl⟩
      cases hc : n.children[i]? with
      | none => rw [hc] at hi; cases hi
      | some c =>
        rw [hc] at hi
        obtain rfl := Option.some.inj hi
        exact ⟨_, List.mem_of_getElem? hc, by simp⟩

/-- What is extracted once the struct in focus is known. -/
theorem extract_of_struct (trivia : List Nat → Bool) (root : Tree) (r : Nat × Nat) (p s : List Nat)
    (hf : focused trivia root r = some p) (hs : structIn root p = some s)
    (he : isEvent root s = true) (s' m : List Nat) :
    extractAt trivia root r = some (s', m) ↔ s' = s ∧ Extractable root s m := by
  have hk : kindAt root (· == .struct true) s = true ↔ NodeAt root (· = .struct true) s := by
    rw [kindAt_iff]; simp [NodeAt]
  unfold extractAt Extractable
  rw [hf, Option.bind_some, hs, Option.filter_some, he, if_pos rfl, Option.bind_some, ← hk,
    ← innermost_iff, ← hasList_iff]
  split
  · rename_i hn
    rw [Option.map_eq_some_iff]
    constructor
    · rintro ⟨m', hm, he'⟩
      obtain ⟨rfl, rfl⟩ := Prod.mk.inj he'
      rw [Option.filter_eq_some_iff] at hm
      exact ⟨rfl, hn, hm.1, hm.2⟩
    · rintro ⟨rfl, _, h1, h2⟩
      exact ⟨m, by rw [Option.filter_eq_some_iff]; exact ⟨h1, h2⟩, rfl⟩
  · rename_i hn
    constructor
    · intro h; cases h
    · rintro ⟨_, h, _⟩; exact absurd h hn

theorem rangeAt_len (n : Tree) (p : List Nat) (off st l : Nat) (h : n.rangeAt p off = some (st, l)) :
    ∃ m, n.at? p = some m ∧ m.len = l := by
  induction p generalizing n off with
  | nil =>
    rw [Node.rangeAt_nil] at h
    obtain ⟨_, rfl⟩ := Prod.mk.inj (Option.some.inj h)
    exact ⟨n, rfl, rfl⟩
  | cons i p ih =>
    rw [Node.rangeAt_cons, Option.bind_eq_some_iff] at h
    obtain ⟨c, hc, h⟩ := h
    obtain ⟨m, hm, hl⟩ := ih c _ h
    exact ⟨m, by rw [Node.at?_cons, hc]; exact hm, hl⟩

theorem rangeAt_exists (n m : Tree) (p : List Nat) (off : Nat) (h : n.at? p = some m) :
    ∃ st, n.rangeAt p off = some (st, m.len) := by
  induction p generalizing n off with
  | nil =>
    obtain rfl : n = m := by simpa [Node.at?] using h
    exact ⟨off, Node.rangeAt_nil n off⟩
  | cons i p ih =>
    rw [Node.at?_cons, Option.bind_eq_some_iff] at h
    obtain ⟨c, hc, h⟩ := h
    obtain ⟨st, hst⟩ := ih c _ h
    exact ⟨st, by rw [Node.rangeAt_cons, hc]; exact hst⟩

theorem len_le_of_at (m m' : Tree) (t : List Nat)
    (h' : m.at? t = some m') : m'.len ≤ m.len := by
  obtain ⟨st, hst⟩ := rangeAt_exists m m' t 0 h'
  have := Node.rangeAt_inside m t 0 st _ hst
  omega

/-- Nothing strictly inside an attribute is as long as the attribute. -/
theorem inside_attr_shorter (root : Tree) (hw : AttrsOk root) (a t : List Nat) (ht : t ≠ [])
    (i : Option AttrKind) (cs : List Tree) (ha : root.at? a = some (.attr i cs)) (m : Tree)
    (hm : root.at? (a ++ t) = some m) : m.len < (Node.attr i cs : Tree).len := by
  cases t with
  | nil => exact absurd rfl ht
  | cons j t =>
    rw [Node.at?_append, ha, Option.bind_some, Node.at?_cons, Option.bind_eq_some_iff] at hm
    obtain ⟨c, hc, hm⟩ := hm
    have h1 := (hw a i cs ha).2 c (List.mem_of_getElem? hc)
    have h2 := len_le_of_at c m t hm
    omega

/-- The covering element of the range of an attribute is the attribute. -/
theorem cover_attr (root : Tree) (hw : AttrsOk root) (a : List Nat) (i : Option AttrKind)
    (cs : List Tree) (ha : root.at? a = some (.attr i cs)) (st l : Nat)
    (hr : root.rangeAt a 0 = some (st, l)) :
    Node.coverPath st (st + l) root 0 = a ∧ 0 < l ∧ st + l ≤ root.len := by
  obtain ⟨m, hm, hl⟩ := rangeAt_len root a 0 st l hr
  rw [ha] at hm
  obtain rfl := Option.some.inj hm
  have hpos := (hw a i cs ha).1
  have hin := Node.rangeAt_inside root a 0 st l hr
  refine ⟨?_, by omega, by omega⟩
  obtain ⟨t, ht⟩ := Node.cover_prefix st (st + l) (by omega) root 0 a st l hr (Nat.le_refl _)
    (Nat.le_refl _)
  obtain ⟨cst, cl, hc, h1, h2⟩ := Node.cover_contains st (st + l) root 0 (by omega) (by omega)
  by_cases htn : t = []
  · rw [← ht, htn, List.append_nil]
  · exfalso
    obtain ⟨m', hm', hl'⟩ := rangeAt_len root _ 0 cst cl hc
    rw [← ht] at hm'
    have := inside_attr_shorter root hw a t htn i cs ha m' hm'
    omega

theorem attrRanges_contains (root : Tree) (hw : AttrsOk root) (a q : List Nat) (i : Option AttrKind)
    (cs : List Tree) (ha : root.at? a = some (.attr i cs)) :
    (attrRanges root q).contains (root.rangeAt a 0) = true ↔ ∃ j, a = q ++ [j] := by
  have hattr : root.isAttrAt a = true := (isAttrAt_iff _ _).2 ⟨i, cs, ha⟩
  rw [List.contains_iff_mem]
  unfold attrRanges
  constructor
  · intro h
    cases hq : root.at? q with
    | none => rw [hq] at h; cases h
    | some n =>
      rw [hq] at h
      simp only [List.mem_map, List.mem_filter] at h
      obtain ⟨j, ⟨_, hj⟩, he⟩ := h
      refine ⟨j, ?_⟩
      obtain ⟨i', cs', ha'⟩ := (isAttrAt_iff _ _).1 hj
      obtain ⟨st, hst⟩ := rangeAt_exists root _ a 0 ha
      rw [hst] at he
      have hpos := (hw a i cs ha).1
      obtain ⟨m', hm', hl'⟩ := rangeAt_len root _ 0 _ _ he
      rw [ha'] at hm'
      obtain rfl := Option.some.inj hm'
      rcases Node.rangeAt_disjoint root _ _ 0 _ _ _ _ he hst with ⟨t, ht⟩ | ⟨t, ht⟩ | h | h
      · by_cases htn : t = []
        · rw [← ht, htn, List.append_nil]
        · have := inside_attr_shorter root hw (q ++ [j]) t htn i' cs' ha' _ (by rw [ht]; exact ha)
          omega
      · by_cases htn : t = []
        · rw [← ht, htn, List.append_nil]
        · have := inside_attr_shorter root hw a t htn i cs ha _ (by rw [ht]; exact ha')
          omega
      · omega
      · omega
  · rintro ⟨j, rfl⟩
    have ha2 := ha
    rw [Node.at?_append, Option.bind_eq_some_iff] at ha2
    obtain ⟨n, hn, hj⟩ := ha2
    rw [hn]
    simp only [List.mem_map, List.mem_filter, List.mem_range]
    refine ⟨j, ⟨?_, hattr⟩, rfl⟩
    rw [Node.at?_cons, Option.bind_eq_some_iff] at hj
    obtain ⟨c, hc, _⟩ := hj
    exact (List.getElem?_eq_some_iff.1 hc).1

theorem kindAt_attr (root : Tree) (f : Kind → Bool) (a : List Nat) (i : Option AttrKind)
    (cs : List Tree) (ha : root.at? a = some (.attr i cs)) : kindAt root f a = false := by
  simp [kindAt, ha]

theorem kindAt_tok (root : Tree) (f : Kind → Bool) (a : List Nat) (l : Nat)
    (ha : root.at? a = some (.tok l)) : kindAt root f a = false := by
  simp [kindAt, ha]

theorem isItem_of_isStruct (root : Tree) (s : List Nat) (h : kindAt root Kind.isStruct s = true) :
    kindAt root Kind.isItem s = true := by
  obtain ⟨k, cs, h1, h2⟩ := (kindAt_iff _ _ _).1 h
  refine (kindAt_iff _ _ _).2 ⟨k, cs, h1, ?_⟩
  cases k <;> first | rfl | cases h2

/-- The closest item above a child of an item is that item. -/
theorem closestAbove_child (root : Tree) (f : Kind → Bool) (s : List Nat) (j : Nat)
    (h : kindAt root f s = true) : closestAbove root f (s ++ [j]) = some s := by
  rw [closestAbove_iff]
  refine ⟨h, ⟨List.prefix_append _ _, by simp⟩, fun r hr _ => ?_⟩
  rcases List.prefix_concat_iff.1 (by simpa [List.concat_eq_append] using hr.1) with h' | h'
  · exact absurd h' hr.2
  · exact h'

/-- The struct in focus on an attribute. -/
theorem structIn_attr (root : Tree) (hw : AttrsOk root) (a s : List Nat) (i : Option AttrKind)
    (cs : List Tree) (ha : root.at? a = some (.attr i cs)) :
    structIn root a = some s ↔ (∃ j, a = s ++ [j]) ∧ kindAt root Kind.isStruct s = true := by
  unfold structIn parentItem
  rw [kindAt_attr root _ a i cs ha]
  simp only [Bool.false_eq_true, if_false, Option.filter_eq_some_iff,
    (isAttrAt_iff root a).2 ⟨i, cs, ha⟩, Bool.not_true, Bool.false_or,
    attrRanges_contains root hw a _ i cs ha]
  constructor
  · rintro ⟨⟨_, h2⟩, h3⟩
    exact ⟨h2, h3⟩
  · rintro ⟨⟨j, rfl⟩, h⟩
    exact ⟨⟨closestAbove_child root _ s j (isItem_of_isStruct root s h), j, rfl⟩, h⟩

theorem ink_mem (root : Tree) (s : List Nat) (j : Nat) (k : AttrKind) (cs : List Tree)
    (h : root.at? (s ++ [j]) = some (.attr (some k) cs)) : k ∈ root.inkAttrsAt s := by
  rw [Node.at?_append, Option.bind_eq_some_iff] at h
  obtain ⟨n, hn, hj⟩ := h
  rw [Node.at?_cons, Option.bind_eq_some_iff] at hj
  obtain ⟨c, hc, hj⟩ := hj
  obtain rfl : c = .attr (some k) cs := by simpa [Node.at?] using hj
  unfold Node.inkAttrsAt
  rw [hn]
  unfold Node.inkAttrs
  exact List.mem_filterMap.2 ⟨_, List.mem_of_getElem? hc, rfl⟩

theorem named_isStruct (root : Tree) (s : List Nat) (h : NodeAt root (· = .struct true) s) :
    kindAt root Kind.isStruct s = true := by
  obtain ⟨k, cs, h1, rfl⟩ := h
  exact (kindAt_iff _ _ _).2 ⟨_, cs, h1, rfl⟩

theorem coveringAttr_isAttr (trivia : List Nat → Bool) (root : Tree) (s e : Nat) (a : List Nat)
    (h : Node.coveringAttr trivia root s e = some (some a)) : root.isAttrAt a = true := by
  unfold Node.coveringAttr at h
  split at h
  · split at h
    · cases h
    · simp only [Option.some.injEq, Option.bind_eq_some_iff] at h
      obtain ⟨p, _, h⟩ := h
      exact (Node.closestAttr_spec root p a h).1
  · split at h
    · simp only [Option.some.injEq] at h
      exact (Node.closestAttr_spec root _ a h).1
    · cases h

/-! ## The theorems -/

/-- **C113** (partial). An extraction that is offered for an attribute is offered for an ink! event
attribute, with the range of that attribute, and it can be carried out for this range exactly if the
attribute is one of a named struct inside a module with a body; the struct and the module are then the
ones of the extraction. (Missing: that it can always be carried out, which is false, see below.) -/
theorem C113_attr_partial (trivia closed traitFn : List Nat → Bool) (version : Version) (root : Tree)
    (hw : AttrsOk root) (sel r : Nat × Nat)
    (h : attrOffer trivia closed traitFn version root sel = some r) :
    ∃ a st l, EventAttr root a ∧ root.rangeAt a 0 = some (st, l) ∧ r = (st, st + l) ∧
      ∀ s m, extractAt trivia root r = some (s, m) ↔
        (∃ i, a = s ++ [i]) ∧ Extractable root s m := by
  unfold attrOffer at h
  split at h
  case h_2 => cases h
  rename_i a ha
  split at h
  case h_2 => cases h
  rename_i k hk
  split at h
  case isFalse => cases h
  rename_i hc
  rw [Option.map_eq_some_iff] at h
  obtain ⟨⟨st, l⟩, hr, rfl⟩ := h
  obtain ⟨i, cs, hat⟩ := (isAttrAt_iff _ _).1 (coveringAttr_isAttr trivia root _ _ a ha)
  rw [hat] at hk
  obtain rfl : i = some k := hk
  have hev : k = .arg .event ∨ k = .macro .event := by
    simp only [Bool.and_eq_true, Bool.or_eq_true, beq_iff_eq] at hc
    exact hc.2.symm
  obtain ⟨h1, h2, h3⟩ := cover_attr root hw a _ cs hat st l hr
  refine ⟨a, st, l, ⟨k, cs, hat, hev⟩, hr, rfl, fun s m => ?_⟩
  have hf : focused trivia root (st, st + l) = some a := by
    unfold focused
    rw [if_neg (by simp only; omega), if_pos h3, h1]
  have hstr := fun s => structIn_attr root hw a s _ cs hat
  have hisev : ∀ s j, a = s ++ [j] → isEvent root s = true := by
    rintro s j rfl
    unfold isEvent
    rw [List.any_eq_true]
    exact ⟨k, ink_mem root s j k cs hat, by rcases hev with rfl | rfl <;> rfl⟩
  constructor
  · intro hx
    cases hs : structIn root a with
    | none => simp [extractAt, hf, hs] at hx
    | some s' =>
      obtain ⟨⟨j, hj⟩, _⟩ := (hstr s').1 hs
      obtain ⟨rfl, hex⟩ := (extract_of_struct trivia root _ a s' hf hs (hisev s' j hj) s m).1 hx
      exact ⟨⟨j, hj⟩, hex⟩
  · rintro ⟨⟨j, hj⟩, hex⟩
    have hs := (hstr s).2 ⟨⟨j, hj⟩, named_isStruct root s hex.1⟩
    exact (extract_of_struct trivia root _ a s hf hs (hisev s j hj) s m).2 ⟨rfl, hex⟩

/-- The focus of a range on the keyword of a struct is the struct. -/
theorem focus_keyword (trivia : List Nat → Bool) (root : Tree) (s : List Nat) (r : Nat × Nat)
    (hk : kindAt root Kind.isStruct s = true) (h : OnKeyword root s r) :
    ∃ p, focused trivia root r = some p ∧ structIn root p = some s := by
  obtain ⟨st, l, k, kst, kl, h1, h2, h3, h4, h5, h6, h7, h8⟩ := h
  have hin := Node.rangeAt_inside root s 0 st l h1
  refine ⟨Node.coverPath r.1 r.2 root 0, ?_, ?_⟩
  · unfold focused
    rw [if_neg (by omega), if_pos (by omega)]
  · obtain ⟨t, ht⟩ := Node.cover_prefix r.1 r.2 (by omega) root 0 s st l h1 h2 h3
    obtain ⟨cst, cl, c1, c2, c3⟩ := Node.cover_contains r.1 r.2 root 0 (by omega) (by omega)
    have hcase : Node.coverPath r.1 r.2 root 0 = s ∨ Node.coverPath r.1 r.2 root 0 = s ++ [k] := by
      rcases Node.rangeAt_disjoint root _ _ 0 _ _ _ _ c1 h5 with hp | ⟨u, hu⟩ | hd | hd
      · rw [← ht] at hp ⊢
        rw [List.prefix_append_right_inj] at hp
        rcases List.prefix_concat_iff.1 (show t <+: [] ++ [k] by simpa using hp) with h' | h'
        · exact .inr (by rw [h']; rfl)
        · exact .inl (by rw [List.prefix_nil.1 h']; simp)
      · obtain ⟨m, hm, _⟩ := rangeAt_len root _ 0 _ _ c1
        rw [← hu, Node.at?_append, h4, Option.bind_some] at hm
        cases u with
        | nil => exact .inr (by rw [← hu]; simp)
        | cons i u => simp [Node.at?, Node.children] at hm
      · omega
      · omega
    unfold structIn
    rcases hcase with he | he
    · rw [he, hk, if_pos rfl]
    · rw [he, kindAt_tok root _ _ _ h4]
      simp only [Bool.false_eq_true, if_false]
      unfold parentItem
      rw [closestAbove_child root _ s k (isItem_of_isStruct root s hk), Option.filter_some]
      have : root.isAttrAt (s ++ [k]) = false := by simp [Node.isAttrAt, h4, Node.isAttr]
      simp [this, Option.filter_some, hk]

/-- **C113** (partial). An extraction that is offered for a struct is offered for a struct with an ink!
event attribute, and it can be carried out for the range of the offer exactly if the struct has a name
and is inside a module with a body. The range of the declaration is assumed to lie in the struct and to
contain its keyword, and a struct to have a keyword. (Missing: that it can always be carried out, which is
false, see below.) -/
theorem C113_item_partial (trivia : List Nat → Bool) (onItem : List Nat → Nat × Nat → Bool)
    (decl : List Nat → Option (Nat × Nat)) (version : Version) (root : Tree)
    (hkw : ∀ s, NodeAt root (fun k => ∃ named, k = .struct named) s →
      ∃ k kl, root.at? (s ++ [k]) = some (.tok kl) ∧ 0 < kl)
    (hdecl : ∀ s d, NodeAt root (fun k => ∃ named, k = .struct named) s → decl s = some d →
      OnKeyword root s d)
    (sel r : Nat × Nat) (h : itemOffer trivia onItem decl version root sel = some r) :
    ∃ s, NodeAt root (fun k => ∃ named, k = .struct named) s ∧ (∃ i, EventAttr root (s ++ [i])) ∧
      OnKeyword root s r ∧
      ∀ s' m, extractAt trivia root r = some (s', m) ↔ s' = s ∧ Extractable root s m := by
  unfold itemOffer at h
  split at h
  case h_2 => cases h
  rename_i s _ _
  split at h
  case isFalse => cases h
  rename_i hs
  split at h
  case isFalse => cases h
  rename_i hev
  rw [Bool.and_eq_true] at hs
  obtain ⟨k, cs, hat, hk⟩ := (kindAt_iff _ _ _).1 hs.1
  have hnode : NodeAt root (fun k => ∃ named, k = .struct named) s := by
    refine ⟨k, cs, hat, ?_⟩
    cases k <;> first | exact ⟨_, rfl⟩ | cases hk
  have hattr : ∃ x ∈ root.inkAttrsAt s, x = .arg .event ∨ x = .macro .event := by
    simp only [Bool.or_eq_true, Bool.and_eq_true, List.any_eq_true, beq_iff_eq] at hev
    rcases hev with ⟨⟨x, hx, rfl⟩, _⟩ | ⟨_, x, hx, rfl⟩
    · exact ⟨_, hx, .inl rfl⟩
    · exact ⟨_, hx, .inr rfl⟩
  obtain ⟨x, hx, hxe⟩ := hattr
  have hatt : ∃ i, EventAttr root (s ++ [i]) := by
    unfold Node.inkAttrsAt at hx
    rw [hat] at hx
    obtain ⟨c, hc, hcx⟩ := List.mem_filterMap.1 hx
    obtain ⟨i, hi, rfl⟩ := List.mem_iff_getElem.1 hc
    refine ⟨i, x, ?_⟩
    cases hci : (Node.node k cs).children[i] with
    | tok l => rw [hci] at hcx; cases hcx
    | node k' cs' => rw [hci] at hcx; cases hcx
    | attr y ds =>
      rw [hci] at hcx
      obtain rfl : y = some x := hcx
      refine ⟨ds, ?_, hxe⟩
      rw [Node.at?_append, hat, Option.bind_some, Node.at?_cons, List.getElem?_eq_getElem hi, hci]
      rfl
  have hon : OnKeyword root s r := by
    cases hd : decl s with
    | some d =>
      rw [hd] at h
      obtain rfl : d = r := by simpa using h
      exact hdecl s d hnode hd
    | none =>
      rw [hd, Option.none_or, Option.map_eq_some_iff] at h
      obtain ⟨⟨st, l⟩, hr, rfl⟩ := h
      obtain ⟨j, kl, h1, h2⟩ := hkw s hnode
      obtain ⟨kst, h3⟩ := rangeAt_exists root _ _ 0 h1
      obtain ⟨t, m, h4, h5, h6⟩ := Node.rangeAt_append root s [j] 0 kst _ h3
      rw [hr] at h4
      obtain ⟨rfl, rfl⟩ := Prod.mk.inj (Option.some.inj h4)
      exact ⟨st, l, j, kst, kl, hr, Nat.le_refl _, Nat.le_refl _, h1, h3, h2, h5, h6⟩
  refine ⟨s, hnode, hatt, hon, fun s' m => ?_⟩
  obtain ⟨p, hf, hst⟩ := focus_keyword trivia root s r hs.1 hon
  refine extract_of_struct trivia root r p s hf hst ?_ s' m
  unfold isEvent
  rw [List.any_eq_true]
  exact ⟨x, hx, by rcases hxe with rfl | rfl <;> rfl⟩

/-! ## Examples and findings -/

/-- `#[ink::event]` (the path and the bracket are one token each). -/
def sampleAttr (k : AttrKind) : Tree := .attr (some k) [.tok 1, .tok 1, .tok 10, .tok 1]

/-- `#[ink::event] struct E;` -/
def sampleStruct (k : AttrKind) (named : Bool) : Tree :=
  .node (.struct named) [sampleAttr k, .tok 1, .tok 6, .tok 1, .node .other [.tok 1], .tok 1]

/-- `mod m {#[ink::event] struct E;}` -/
def sampleInModule : Tree :=
  .node .other [.node .module [.tok 3, .tok 1, .node .other [.tok 1], .tok 1,
    .node .itemList [.tok 1, sampleStruct (.macro .event) true, .tok 1]]]

/-- `#[ink::event] struct E;` at the top of a file. -/
def sampleTop : Tree := .node .other [sampleStruct (.macro .event) true]

/-- `mod m {#[ink::event] enum E {}}` -/
def sampleEnum : Tree :=
  .node .other [.node .module [.tok 3, .tok 1, .node .other [.tok 1], .tok 1,
    .node .itemList [.tok 1, .node .item [sampleAttr (.macro .event), .tok 1, .tok 4, .tok 1,
      .node .other [.tok 1], .tok 3], .tok 1]]]

/-- A cursor in the attribute of the event in the module. -/
example : attrOffer (fun _ => false) (fun _ => true) (fun _ => false) .v5 sampleInModule (10, 10) =
      some (7, 20) ∧
    extractAt (fun _ => false) sampleInModule (7, 20) = some ([0, 4, 1], [0]) := by decide

/-- A selection of the keyword of the event in the module, in version 4 and 5. -/
example (version : Version) : itemOffer (fun _ => false) (fun _ _ => true)
      (fun s => if s = [0, 4, 1] then some (21, 30) else none) version sampleInModule (21, 27) =
      some (21, 30) ∧
    extractAt (fun _ => false) sampleInModule (21, 30) = some ([0, 4, 1], [0]) := by
  cases version <;> decide

/-- The declaration of the event in the module. -/
example : OnKeyword sampleInModule [0, 4, 1] (21, 30) :=
  ⟨7, 23, 2, 21, 6, by decide, by decide, by decide, rfl, by decide, by decide, by decide, by decide⟩

/-- Attributes of the samples are as assumed. -/
theorem sampleAttr_ok (k : AttrKind) : 0 < (sampleAttr k).len ∧
    ∀ c ∈ (sampleAttr k).children, c.len < (sampleAttr k).len := by
  constructor
  · simp [sampleAttr, Node.len, Node.lenList]
  · intro c hc
    simp only [sampleAttr, Node.children, List.mem_cons, List.not_mem_nil, or_false] at hc
    rcases hc with rfl | rfl | rfl | rfl <;> simp [sampleAttr, Node.len, Node.lenList]

theorem attrsOk_tok (l : Nat) : AttrsOk (.tok l) := by
  intro p i cs h
  cases p <;> simp [Node.at?, Node.children] at h

theorem attrsOk_children (n : Tree) (hn : ∀ i cs, n = .attr i cs → 0 < (Node.attr i cs : Tree).len ∧
    ∀ c ∈ cs, c.len < (Node.attr i cs : Tree).len) (h : ∀ c ∈ n.children, AttrsOk c) :
    AttrsOk n := by
  intro p i cs hp
  cases p with
  | nil => exact hn i cs (by simpa [Node.at?] using hp)
  | cons j p =>
    rw [Node.at?_cons, Option.bind_eq_some_iff] at hp
    obtain ⟨c, hc, hp⟩ := hp
    exact h c (List.mem_of_getElem? hc) p i cs hp

theorem attrsOk_node (k : Kind) (cs : List Tree) (h : ∀ c ∈ cs, AttrsOk c) : AttrsOk (.node k cs) :=
  attrsOk_children _ (by simp) h

theorem sampleAttr_attrsOk (k : AttrKind) : AttrsOk (sampleAttr k) := by
  refine attrsOk_children _ ?_ ?_
  · intro i cs he
    rw [← he]
    have := sampleAttr_ok k
    rw [he] at this
    rw [he]
    exact this
  · intro c hc
    simp only [sampleAttr, Node.children, List.mem_cons, List.not_mem_nil, or_false] at hc
    rcases hc with rfl | rfl | rfl | rfl <;> exact attrsOk_tok _

/-- The assumption on attributes holds of the sample in a module. -/
example : AttrsOk sampleInModule := by
  repeat' first
    | exact attrsOk_tok _
    | exact sampleAttr_attrsOk _
    | (refine attrsOk_node _ _ ?_; simp only [List.forall_mem_cons, List.not_mem_nil, false_imp_iff,
        implies_true, and_true])
    | refine ⟨?_, ?_⟩

/-- Finding: an extraction is offered for an event at the top of a file, on its attribute as well as on its
declaration, although it fails there. -/
theorem C113_negation_top (version : Version) :
    attrOffer (fun _ => false) (fun _ => true) (fun _ => false) .v5 sampleTop (5, 5) = some (0, 13) ∧
    itemOffer (fun _ => false) (fun _ _ => true) (fun s => if s = [0] then some (14, 23) else none)
      version sampleTop (14, 20) = some (14, 23) ∧
    extractAt (fun _ => false) sampleTop (0, 13) = none ∧
    extractAt (fun _ => false) sampleTop (14, 23) = none := by
  cases version <;> decide

/-- Finding: an extraction is offered for an event attribute of an enum, although only a struct can be
extracted. -/
theorem C113_negation_enum :
    attrOffer (fun _ => false) (fun _ => true) (fun _ => false) .v5 sampleEnum (10, 10) =
      some (7, 20) ∧
    extractAt (fun _ => false) sampleEnum (7, 20) = none := by decide

end Verif.Analyzer.ExtractAt
