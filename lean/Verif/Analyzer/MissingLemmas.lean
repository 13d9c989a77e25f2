import Verif.Analyzer.Missing
import Verif.Analyzer.MoveProps
import Verif.Analyzer.WalkProps
import Verif.Analyzer.SnippetProps
import Verif.Analyzer.TemplatesProps

/-!
# Trees with a node added, and what is below what in them
-/

namespace Verif.Analyzer.Missing

open Verif.Ir Verif.Ir.Token Verif.Analyzer.Move

/-! ## Specification -/

/-- The node at `p` carries an ink! attribute of kind `k`. -/
def Marked (root : Src) (k : AttrKind) (p : List Nat) : Prop :=
  ∃ i, kindAt root (p ++ [i]) = some (.attr (some k))

/-- The node at `p` carries no ink! attribute. -/
def Bare (root : Src) (p : List Nat) : Prop := ∀ k, ¬ Marked root k p

/-- The node at `p` is below the one at `c`, with no node with ink! attributes in between. -/
def Within (root : Src) (c p : List Nat) : Prop :=
  c <+: p ∧ c ≠ p ∧ ∀ r, c <+: r → r ≠ c → r <+: p → r ≠ p → Bare root r

/-- The node at `q` is annotated as an `impl`, or is an `impl` block with a namespace or an unknown
ink! attribute. -/
def ImplLike (root : Src) (q : List Nat) : Prop :=
  Marked root (.arg .impl) q ∨ (IsImpl root q ∧ (Marked root (.arg .namespace) q ∨
    Marked root (.macro .unknown) q ∨ Marked root (.arg .unknown) q))

/-- The node at `p` is an entity of kind `k` of the one at `c`. -/
def PartOf (root : Src) (k : AttrKind) (c p : List Nat) : Prop := Marked root k p ∧ Within root c p

/-- The node at `p` is a constructor or message (`k`) of the contract at `c`, or of an `impl` of it. -/
def CallableOf (root : Src) (k : AttrKind) (c p : List Nat) : Prop :=
  Marked root k p ∧ (Within root c p ∨
    ∃ q, Within root c q ∧ ImplLike root q ∧ Within root q p)

/-- Where a node is after another has been added as child `k` of the one at `l`. -/
def shift : List Nat → Nat → List Nat → List Nat
  | [], _, [] => []
  | [], k, i :: p => (if i < k then i else i + 1) :: p
  | _ :: _, _, [] => []
  | j :: l, k, i :: p => if i = j then i :: shift l k p else i :: p

/-! ## The two kinds of trees -/

theorem toNodes_map (cs : List Src) : toNodes cs = cs.map toNode := by
  induction cs with
  | nil => rfl
  | cons c cs ih => rw [toNodes, ih, List.map_cons]

theorem toNode_children (n : Src) : (toNode n).children = n.children.map toNode := by
  cases n with
  | tok w t => rfl
  | node k cs =>
    rw [toNode, toNodes_map]
    cases k <;> rfl

theorem toNode_at (root : Src) (p : List Nat) : (toNode root).at? p = (root.at? p).map toNode := by
  induction p generalizing root with
  | nil => rfl
  | cons i p ih =>
    rw [Node.at?, Src.at?, toNode_children, List.getElem?_map]
    cases root.children[i]? with
    | none => rfl
    | some c => exact ih c

theorem attr_iff (n : Src) (a : Option AttrKind) :
    (∃ cs, toNode n = .attr a cs) ↔ n.kind? = some (.attr a) := by
  cases n with
  | tok w t => simp [toNode, Src.kind?]
  | node k cs =>
    cases k with
    | attr b => simp [toNode, wrap, Src.kind?]
    | _ => simp [toNode, wrap, Src.kind?]

theorem inkAt_iff (root : Src) (p : List Nat) (a : AttrKind) :
    (toNode root).InkAt p a ↔ kindAt root p = some (.attr (some a)) := by
  unfold Node.InkAt kindAt
  rw [toNode_at]
  cases root.at? p with
  | none => simp
  | some n =>
    rw [Option.map_some, Option.bind_some, ← attr_iff]
    simp only [Option.some.injEq]

theorem carries_iff (root : Src) (k : AttrKind) (p : List Nat) :
    (toNode root).Carries id k p ↔ Marked root k p := by
  unfold Node.Carries Marked
  simp only [inkAt_iff, id]
  constructor
  · rintro ⟨i, a, h, rfl⟩
    exact ⟨i, h⟩
  · rintro ⟨i, h⟩
    exact ⟨i, k, h, rfl⟩

theorem annotated_iff (root : Src) (p : List Nat) : (toNode root).Annotated p ↔ ¬ Bare root p := by
  unfold Bare
  constructor
  · rintro ⟨i, a, cs, h⟩ hb
    exact hb a ⟨i, (inkAt_iff root _ a).1 ⟨cs, h⟩⟩
  · intro h
    obtain ⟨k, h⟩ := Classical.not_forall.1 h
    obtain ⟨i, h⟩ := Classical.not_not.1 h
    obtain ⟨cs, h⟩ := (inkAt_iff root _ k).2 h
    exact ⟨i, k, cs, h⟩

theorem inside_iff (root : Src) (c p : List Nat) :
    Walk.Inside (toNode root) c p ↔ Within root c p := by
  unfold Walk.Inside Node.NoneBetween Within
  simp only [annotated_iff, Classical.not_not]

theorem kindIs_iff (test : NKind → Bool) (root : Src) (p : List Nat)
    (ht : ∀ a, test (.attr a) = false) :
    Walk.KindIs test (toNode root) p ↔ ∃ k, kindAt root p = some k ∧ test k = true := by
  unfold Walk.KindIs kindAt
  rw [toNode_at]
  cases root.at? p with
  | none => simp
  | some n =>
    cases n with
    | tok w t => simp [toNode, Src.kind?]
    | node k cs =>
      cases k with
      | attr a => simp [toNode, wrap, Src.kind?, ht]
      | _ => simp [toNode, wrap, Src.kind?]

theorem implKind_iff (root : Src) (p : List Nat) :
    Walk.KindIs shape.isImpl (toNode root) p ↔ IsImpl root p := by
  rw [kindIs_iff _ _ _ (fun a => rfl)]
  unfold IsImpl
  constructor
  · rintro ⟨k, h, hk⟩
    cases k with
    | item k =>
      cases k with
      | impl t => exact ⟨t, h⟩
      | _ => cases hk
    | _ => cases hk
  · rintro ⟨t, h⟩
    exact ⟨_, h, rfl⟩

theorem itemKind_iff (root : Src) (p : List Nat) :
    Walk.KindIs shape.isItem (toNode root) p ↔ IsItem root p := by
  rw [kindIs_iff _ _ _ (fun a => rfl)]
  unfold IsItem
  constructor
  · rintro ⟨k, h, hk⟩
    cases k with
    | item k => exact ⟨k, h⟩
    | _ => cases hk
  · rintro ⟨t, h⟩
    exact ⟨_, h, rfl⟩

theorem looks_iff (root : Src) (q : List Nat) :
    (toNode root).LooksLikeImpl id shape.isImpl q ↔ ImplLike root q := by
  unfold Node.LooksLikeImpl ImplLike
  have : (∃ k cs, (toNode root).at? q = some (.node k cs) ∧ shape.isImpl k = true) ↔ IsImpl root q :=
    implKind_iff root q
  rw [this]
  simp only [carries_iff]
  constructor
  · rintro (h | ⟨h1, h2⟩)
    · exact .inl h
    · exact .inr ⟨h2, h1⟩
  · rintro (h | ⟨h1, h2⟩)
    · exact .inl h
    · exact .inr ⟨h2, h1⟩

theorem below_iff (root : Src) (k : AttrKind) (c p : List Nat) :
    p ∈ below k root c ↔ PartOf root k c p := by
  unfold below PartOf
  rw [Walk.mem_below, inside_iff, carries_iff]
  exact And.comm

theorem callables_iff (root : Src) (k : AttrKind) (hk : k = .arg .constructor ∨ k = .arg .message)
    (c p : List Nat) : p ∈ callables k root c ↔ CallableOf root k c p := by
  unfold callables CallableOf
  rw [Walk.mem_callablesBelow id shape k (toNode root) hk, carries_iff, inside_iff]
  simp only [inside_iff, looks_iff]

theorem callables_nodup (root : Src) (k : AttrKind)
    (hk : k = .arg .constructor ∨ k = .arg .message) (c : List Nat) :
    (callables k root c).Nodup := by
  unfold callables Walk.callablesBelow
  split
  · rename_i n _
    refine List.Pairwise.map _ ?_ (Node.C62_callables id shape.isImpl k n hk).1
    intro a b hab he
    exact hab (List.append_cancel_left he)
  · exact List.nodup_nil

/-! ## Paths after a node has been added -/

theorem shift_concat (l : List Nat) (k : Nat) (r : List Nat) (i : Nat) (h : r ≠ l) :
    shift l k (r ++ [i]) = shift l k r ++ [i] := by
  induction l generalizing r with
  | nil =>
    cases r with
    | nil => exact absurd rfl h
    | cons a r => rfl
  | cons j l ih =>
    cases r with
    | nil => by_cases hij : i = j <;> cases l <;> simp [shift, hij]
    | cons a r =>
      simp only [List.cons_append, shift]
      by_cases haj : a = j
      · subst haj
        rw [if_pos rfl, if_pos rfl, ih r (by rintro rfl; exact h rfl)]
        rfl
      · rw [if_neg haj, if_neg haj]
        rfl

theorem shift_self (l : List Nat) (k : Nat) : shift l k l = l := by
  induction l with
  | nil => rfl
  | cons j l ih => simp [shift, ih]

theorem shift_child (l : List Nat) (k i : Nat) :
    shift l k (l ++ [i]) = l ++ [if i < k then i else i + 1] := by
  induction l with
  | nil => rfl
  | cons j l ih => simp [shift, ih]

theorem shift_out (l : List Nat) (k : Nat) (p : List Nat) (h : l <+: p → p = l) : shift l k p = p := by
  induction l generalizing p with
  | nil =>
    have := h List.nil_prefix
    subst this
    rfl
  | cons j l ih =>
    cases p with
    | nil => rfl
    | cons i p =>
      rw [shift]
      split
      · rename_i hij
        subst hij
        rw [ih]
        intro hl
        exact (List.cons.inj (h (List.cons_prefix_cons.2 ⟨rfl, hl⟩))).2
      · rfl

theorem shift_prefix (l : List Nat) (k : Nat) (p q : List Nat) (h : p <+: q) :
    shift l k p <+: shift l k q := by
  induction l generalizing p q with
  | nil =>
    cases p with
    | nil => exact List.nil_prefix
    | cons i p =>
      cases q with
      | nil => simp at h
      | cons j q =>
        obtain ⟨rfl, h'⟩ := List.cons_prefix_cons.1 h
        exact List.cons_prefix_cons.2 ⟨rfl, h'⟩
  | cons a l ih =>
    cases p with
    | nil => exact List.nil_prefix
    | cons i p =>
      cases q with
      | nil => simp at h
      | cons j q =>
        obtain ⟨rfl, h'⟩ := List.cons_prefix_cons.1 h
        simp only [shift]
        split
        · exact List.cons_prefix_cons.2 ⟨rfl, ih p q h'⟩
        · exact List.cons_prefix_cons.2 ⟨rfl, h'⟩

theorem shift_length (l : List Nat) (k : Nat) (p : List Nat) : (shift l k p).length = p.length := by
  induction l generalizing p with
  | nil => cases p <;> rfl
  | cons a l ih =>
    cases p with
    | nil => rfl
    | cons i p =>
      rw [shift]
      split
      · simp [ih]
      · rfl

/-- What lies above the new place of a node are the new places of what was above it. -/
theorem shift_above (l : List Nat) (k : Nat) (p r : List Nat) (h : r <+: shift l k p) :
    ∃ q, q <+: p ∧ r = shift l k q := by
  refine ⟨p.take r.length, List.take_prefix _ _, ?_⟩
  have h1 := shift_prefix l k _ _ (List.take_prefix r.length p)
  have hl : (shift l k (p.take r.length)).length = r.length := by
    have := h.length_le
    rw [shift_length] at this ⊢
    simp [Nat.min_eq_left this]
  exact (List.prefix_of_prefix_length_le h h1 (by omega)).eq_of_length hl.symm

theorem shift_inj (l : List Nat) (k : Nat) (p q : List Nat) (h : shift l k p = shift l k q) : p = q := by
  induction l generalizing p q with
  | nil =>
    cases p with
    | nil => cases q with
      | nil => rfl
      | cons j q => cases h
    | cons i p => cases q with
      | nil => cases h
      | cons j q =>
        simp only [shift, List.cons.injEq] at h
        obtain ⟨h1, rfl⟩ := h
        have : i = j := by
          split at h1 <;> split at h1 <;> omega
        rw [this]
  | cons a l ih =>
    cases p with
    | nil => cases q with
      | nil => rfl
      | cons j q =>
        have := congrArg List.length h
        rw [shift_length, shift_length] at this
        simp at this
    | cons i p => cases q with
      | nil =>
        have := congrArg List.length h
        rw [shift_length, shift_length] at this
        simp at this
      | cons j q =>
        simp only [shift] at h
        split at h <;> split at h
        · rename_i h1 h2
          obtain ⟨h3, h4⟩ := List.cons.inj h
          rw [h3, ih p q h4]
        · rename_i h1 h2
          obtain ⟨h3, h4⟩ := List.cons.inj h
          exact absurd (h3 ▸ h1) h2
        · rename_i h1 h2
          obtain ⟨h3, h4⟩ := List.cons.inj h
          exact absurd (h3 ▸ h2) h1
        · exact h

/-! ## What carries attributes after a node has been added -/

variable {root : Src} {l : List Nat} {k : Nat} {y : Src} {cs : List Src}

theorem kindAt_shift (root : Src) (l : List Nat) (k : Nat) (y : Src) (kd : NKind) (cs : List Src)
    (hl : root.at? l = some (.node kd cs)) (hk : k ≤ cs.length) (p : List Nat) :
    kindAt (putIn root l k y) (shift l k p) = kindAt root p := by
  induction l generalizing root p with
  | nil =>
    simp only [Src.at?, Option.some.injEq] at hl
    subst hl
    cases p with
    | nil => rfl
    | cons i p =>
      simp only [shift, putIn, kindAt_cons]
      congr 1
      by_cases hi : i < k
      · rw [if_pos hi, List.getElem?_append_left (by simp; omega), List.getElem?_take_of_lt hi]
      · rw [if_neg hi, List.getElem?_append_right (by simp; omega)]
        rw [List.length_take, Nat.min_eq_left hk, show i + 1 - k = (i - k) + 1 by omega,
          List.getElem?_cons_succ, List.getElem?_drop]
        congr 1
        omega
  | cons j l ih =>
    cases root with
    | tok w t => simp [Src.at?, Src.children] at hl
    | node kd' ds =>
      simp only [Src.at?, Src.children] at hl
      cases hj : ds[j]? with
      | none => simp [hj] at hl
      | some d =>
        rw [hj, Option.bind_some] at hl
        cases p with
        | nil => rfl
        | cons i p =>
          rw [shift]
          split
          · rename_i hij
            subst hij
            simp only [putIn, kindAt_cons, List.getElem?_modify, hj]
            exact ih d hl p
          · rename_i hij
            have : ¬ j = i := fun h => hij h.symm
            simp only [putIn, kindAt_cons, List.getElem?_modify, this, if_false]
            cases ds[i]? <;> rfl

theorem marked_shift (hl : root.at? l = some (.node .list cs)) (hk : k ≤ cs.length)
    (hy : ∀ a, y.kind? ≠ some (.attr a)) (a : AttrKind) (p : List Nat) :
    Marked (putIn root l k y) a (shift l k p) ↔ Marked root a p := by
  unfold Marked
  by_cases hp : p = l
  · subst hp
    rw [shift_self]
    constructor
    · rintro ⟨i, h⟩
      have : i < k ∨ i = k ∨ k < i := by omega
      rcases this with hi | hi | hi
      · refine ⟨i, ?_⟩
        rw [← kindAt_shift root p k y _ cs hl hk, shift_child, if_pos hi]
        exact h
      · subst hi
        unfold kindAt at h
        rw [at_putIn root p i y _ cs hl hk] at h
        exact absurd h (hy _)
      · refine ⟨i - 1, ?_⟩
        rw [← kindAt_shift root p k y _ cs hl hk, shift_child, if_neg (by omega),
          show i - 1 + 1 = i by omega]
        exact h
    · rintro ⟨i, h⟩
      rw [← kindAt_shift root p k y _ cs hl hk, shift_child] at h
      exact ⟨_, h⟩
  · constructor
    · rintro ⟨i, h⟩
      refine ⟨i, ?_⟩
      rw [← kindAt_shift root l k y _ cs hl hk, shift_concat l k p i hp]
      exact h
    · rintro ⟨i, h⟩
      rw [← kindAt_shift root l k y _ cs hl hk, shift_concat l k p i hp] at h
      exact ⟨i, h⟩

theorem bare_shift (hl : root.at? l = some (.node .list cs)) (hk : k ≤ cs.length)
    (hy : ∀ a, y.kind? ≠ some (.attr a)) (p : List Nat) :
    Bare (putIn root l k y) (shift l k p) ↔ Bare root p := by
  unfold Bare
  simp only [marked_shift hl hk hy]

theorem within_shift (hl : root.at? l = some (.node .list cs)) (hk : k ≤ cs.length)
    (hy : ∀ a, y.kind? ≠ some (.attr a)) (c p : List Nat) (h : Within root c p) :
    Within (putIn root l k y) (shift l k c) (shift l k p) := by
  obtain ⟨h1, h2, h3⟩ := h
  refine ⟨shift_prefix l k c p h1, fun h => h2 (shift_inj l k c p h), ?_⟩
  intro r hr1 hr2 hr3 hr4
  obtain ⟨q, hq, rfl⟩ := shift_above l k p r hr3
  rw [bare_shift hl hk hy]
  refine h3 q ?_ (by rintro rfl; exact hr2 rfl) hq (by rintro rfl; exact hr4 rfl)
  have hlen := hr1.length_le
  rw [shift_length, shift_length] at hlen
  exact List.prefix_of_prefix_length_le h1 hq hlen

theorem implLike_shift (hl : root.at? l = some (.node .list cs)) (hk : k ≤ cs.length)
    (hy : ∀ a, y.kind? ≠ some (.attr a)) (p : List Nat) :
    ImplLike (putIn root l k y) (shift l k p) ↔ ImplLike root p := by
  unfold ImplLike IsImpl
  simp only [marked_shift hl hk hy, kindAt_shift root l k y _ cs hl hk]

theorem partOf_shift (hl : root.at? l = some (.node .list cs)) (hk : k ≤ cs.length)
    (hy : ∀ a, y.kind? ≠ some (.attr a)) (a : AttrKind) (c p : List Nat) (h : PartOf root a c p) :
    PartOf (putIn root l k y) a (shift l k c) (shift l k p) :=
  ⟨(marked_shift hl hk hy a p).2 h.1, within_shift hl hk hy c p h.2⟩

theorem callableOf_shift (hl : root.at? l = some (.node .list cs)) (hk : k ≤ cs.length)
    (hy : ∀ a, y.kind? ≠ some (.attr a)) (a : AttrKind) (c p : List Nat) (h : CallableOf root a c p) :
    CallableOf (putIn root l k y) a (shift l k c) (shift l k p) := by
  refine ⟨(marked_shift hl hk hy a p).2 h.1, ?_⟩
  rcases h.2 with h | ⟨q, h1, h2, h3⟩
  · exact .inl (within_shift hl hk hy c p h)
  · exact .inr ⟨_, within_shift hl hk hy c q h1, (implLike_shift hl hk hy q).2 h2,
      within_shift hl hk hy q p h3⟩

/-- The added node is below whatever its list is below or the list belongs to. -/
theorem within_added (hl : root.at? l = some (.node .list cs)) (hk : k ≤ cs.length)
    (hy : ∀ a, y.kind? ≠ some (.attr a)) (c : List Nat) (hc : c <+: l)
    (hb : ∀ r, c <+: r → r ≠ c → r <+: l → Bare root r) :
    Within (putIn root l k y) c (l ++ [k]) := by
  refine ⟨hc.trans (List.prefix_append _ _), ?_, ?_⟩
  · intro h
    have := hc.length_le
    rw [h, List.length_append, List.length_singleton] at this
    omega
  · intro r h1 h2 h3 h4
    have hrl : r <+: l := by
      rcases List.prefix_concat_iff.1 h3 with h | h
      · exact absurd h h4
      · exact h
    have hs : shift l k r = r := by
      refine shift_out l k r fun h => ?_
      exact hrl.eq_of_length (Nat.le_antisymm hrl.length_le h.length_le)
    rw [← hs, bare_shift hl hk hy]
    exact hb r h1 h2 hrl

theorem marked_added (hl : root.at? l = some (.node .list cs)) (hk : k ≤ cs.length) (a : AttrKind)
    (q : List Nat) (h : Marked y a q) : Marked (putIn root l k y) a (l ++ [k] ++ q) := by
  obtain ⟨i, h⟩ := h
  refine ⟨i, ?_⟩
  rw [List.append_assoc, kindAt_append _ y _ _ (at_putIn root l k y _ cs hl hk)]
  exact h

end Verif.Analyzer.Missing
