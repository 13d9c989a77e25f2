import Verif.Analyzer.Move
import Verif.Analyzer.MembersProps
import Verif.Analyzer.IndentProps

/-!
# Replacing and adding nodes in syntax trees, and what happens to the text
-/

namespace Verif.Analyzer.Move

open Verif.Ir Verif.Ir.Token

/-! ## Specification of trees after a change -/

/-- The tree with the node at a path replaced. -/
def setAt : Src → List Nat → Src → Src
  | _, [], y => y
  | .tok w t, _ :: _, _ => .tok w t
  | .node k cs, i :: p, y => .node k (cs.modify i fun c => setAt c p y)

/-- The tree with a node added as child `k` of the node at a path; later children move up. -/
def putIn : Src → List Nat → Nat → Src → Src
  | .tok w t, _, _, _ => .tok w t
  | .node kd cs, [], k, x => .node kd (cs.take k ++ x :: cs.drop k)
  | .node kd cs, i :: l, k, x => .node kd (cs.modify i fun c => putIn c l k x)

/-- The tree with the node at `p` taken out and `y` added as child `k` of the node at `l`. (An empty
token is left where the node was, so that the paths of the others stay.) -/
def moved (root : Src) (p l : List Nat) (k : Nat) (y : Src) : Src :=
  putIn (setAt root p (.tok true [])) l k y

/-! ## Texts -/

theorem texts_append (a b : List Src) : texts (a ++ b) = texts a ++ texts b := by
  induction a with
  | nil => rfl
  | cons c a ih => simp [texts, ih]

theorem split_index {cs : List Src} {i : Nat} {c : Src} (h : cs[i]? = some c) :
    ∃ a d, cs = a ++ c :: d ∧ a.length = i := by
  have hi : i < cs.length := by
    rcases Nat.lt_or_ge i cs.length with h1 | h1
    · exact h1
    · rw [List.getElem?_eq_none h1] at h
      cases h
  refine ⟨cs.take i, cs.drop (i + 1), ?_, by simp; omega⟩
  rw [List.getElem?_eq_getElem hi] at h
  have := List.drop_eq_getElem_cons hi
  rw [Option.some.inj h] at this
  rw [← this, List.take_append_drop]

theorem modify_at (a d : List Src) (c : Src) (f : Src → Src) :
    (a ++ c :: d).modify a.length f = a ++ f c :: d := by
  induction a with
  | nil => rfl
  | cons x a ih => simp [ih]

theorem index_at (a d : List Src) (c : Src) : (a ++ c :: d)[a.length]? = some c := by simp

theorem at_split (root : Src) (p : List Nat) (x : Src) (h : root.at? p = some x) :
    ∃ A B, root.text = A ++ x.text ++ B ∧ (∀ o, startAt o root p = o + bytes A) ∧
      ∀ y, (setAt root p y).text = A ++ y.text ++ B := by
  induction p generalizing root with
  | nil =>
    simp only [Src.at?, Option.some.injEq] at h
    subst h
    exact ⟨[], [], by simp, by simp [startAt, bytes], by simp [setAt]⟩
  | cons i p ih =>
    cases root with
    | tok w t => simp [Src.at?, Src.children] at h
    | node k cs =>
      simp only [Src.at?, Src.children] at h
      cases hc : cs[i]? with
      | none => simp [hc] at h
      | some c =>
        rw [hc, Option.bind_some] at h
        obtain ⟨A, B, h1, h2, h3⟩ := ih c h
        obtain ⟨a, d, rfl, rfl⟩ := split_index hc
        refine ⟨texts a ++ A, B ++ texts d, ?_, ?_, ?_⟩
        · simp [Src.text, texts_append, texts, h1]
        · intro o
          simp [startAt, Src.children, h2, bytes_append, Nat.add_assoc]
        · intro y
          simp only [setAt, modify_at]
          simp [Src.text, texts_append, texts, h3]

theorem put_split (root : Src) (l : List Nat) (kd : NKind) (ns : List Src) (k : Nat)
    (h : root.at? l = some (.node kd ns)) :
    ∃ A B, root.text = A ++ B ∧
      (∀ o, startAt o root l + bytes (texts (ns.take k)) = o + bytes A) ∧
      ∀ y, (putIn root l k y).text = A ++ y.text ++ B := by
  induction l generalizing root with
  | nil =>
    simp only [Src.at?, Option.some.injEq] at h
    subst h
    refine ⟨texts (ns.take k), texts (ns.drop k), ?_, by simp [startAt], ?_⟩
    · rw [← texts_append, List.take_append_drop]
      rfl
    · intro y
      simp [putIn, Src.text, texts_append, texts]
  | cons i l ih =>
    cases root with
    | tok w t => simp [Src.at?, Src.children] at h
    | node k' cs =>
      simp only [Src.at?, Src.children] at h
      cases hc : cs[i]? with
      | none => simp [hc] at h
      | some c =>
        rw [hc, Option.bind_some] at h
        obtain ⟨A, B, h1, h2, h3⟩ := ih c h
        obtain ⟨a, d, rfl, rfl⟩ := split_index hc
        refine ⟨texts a ++ A, B ++ texts d, ?_, ?_, ?_⟩
        · simp [Src.text, texts_append, texts, h1]
        · intro o
          simp [startAt, Src.children, h2, bytes_append, Nat.add_assoc]
        · intro y
          simp only [putIn, modify_at]
          simp [Src.text, texts_append, texts, h3]

/-- The text with the node moved: forward or backward past the text between both places. -/
structure Shift (root x : Src) (start offset : Nat → Nat) (out : Src → Src) : Prop where
  shift : (∃ A M B, root.text = A ++ (M ++ (x.text ++ B)) ∧ (∀ o, offset o = o + bytes A) ∧
      (∀ o, start o = o + bytes (A ++ M)) ∧ ∀ y, (out y).text = A ++ (y.text ++ (M ++ B))) ∨
    ∃ A M B, root.text = A ++ (x.text ++ (M ++ B)) ∧ (∀ o, start o = o + bytes A) ∧
      (∀ o, offset o = o + bytes (A ++ (x.text ++ M))) ∧ ∀ y, (out y).text = A ++ (M ++ (y.text ++ B))

theorem moved_text (root : Src) (p : List Nat) (x : Src) (l : List Nat) (kd : NKind) (ns : List Src)
    (k : Nat) (hx : root.at? p = some x) (hl : root.at? l = some (.node kd ns)) (hk : k ≤ ns.length)
    (hp : ¬ p <+: l) :
    Shift root x (fun o => startAt o root p)
      (fun o => startAt o root l + bytes (texts (ns.take k))) (moved root p l k) := by
  induction p generalizing root l with
  | nil => exact absurd (List.nil_prefix) hp
  | cons i p ih =>
    cases root with
    | tok w t => simp [Src.at?, Src.children] at hx
    | node k' cs =>
      simp only [Src.at?, Src.children] at hx
      cases hc : cs[i]? with
      | none => simp [hc] at hx
      | some c =>
        rw [hc, Option.bind_some] at hx
        cases l with
        | nil =>
          simp only [Src.at?, Option.some.injEq, Src.node.injEq] at hl
          obtain ⟨rfl, rfl⟩ := hl
          obtain ⟨A, B, h1, h2, h3⟩ := at_split c p x hx
          obtain ⟨a, d, rfl, rfl⟩ := split_index hc
          rcases Nat.lt_or_ge a.length k with hlt | hge
          · -- behind
            refine ⟨.inr ?_⟩
            have hd : d = d.take (k - a.length - 1) ++ d.drop (k - a.length - 1) :=
              (List.take_append_drop _ _).symm
            generalize hd1 : d.take (k - a.length - 1) = d1 at hd
            generalize d.drop (k - a.length - 1) = d2 at hd
            have hlen : d1.length = k - a.length - 1 := by
              rw [← hd1, List.length_take]
              simp only [List.length_append, List.length_cons] at hk
              omega
            have hk' : ∀ z : Src, (a ++ z :: d).take k = a ++ z :: d1 ∧
                (a ++ z :: d).drop k = d2 := by
              intro z
              have e : k = (a ++ z :: d1).length := by simp [hlen]; omega
              have e2 : a ++ z :: d = (a ++ z :: d1) ++ d2 := by simp [hd]
              rw [e2, e]
              exact ⟨List.take_left, List.drop_left⟩
            refine ⟨texts a ++ A, B ++ texts d1, texts d2, ?_, ?_, ?_, ?_⟩
            · simp [Src.text, texts_append, texts, h1, hd]
            · intro o
              simp [startAt, Src.children, h2, bytes_append, Nat.add_assoc]
            · intro o
              rw [(hk' c).1]
              simp [startAt, texts_append, texts, h1, bytes_append, Nat.add_assoc]
            · intro y
              simp only [moved, setAt, modify_at, putIn, (hk' _).1, (hk' _).2]
              simp [Src.text, texts_append, texts, h3]
          · -- before
            refine ⟨.inl ?_⟩
            have ha : a = a.take k ++ a.drop k := (List.take_append_drop _ _).symm
            have hk' : ∀ z : Src, (a ++ z :: d).take k = a.take k ∧
                (a ++ z :: d).drop k = a.drop k ++ z :: d := by
              intro z
              rw [List.take_append_of_le_length hge, List.drop_append_of_le_length hge]
              exact ⟨rfl, rfl⟩
            refine ⟨texts (a.take k), texts (a.drop k) ++ A, B ++ texts d, ?_, ?_, ?_, ?_⟩
            · have e : texts a = texts (a.take k) ++ texts (a.drop k) := by
                rw [← texts_append, ← ha]
              simp [Src.text, texts_append, texts, h1, e]
            · intro o
              rw [(hk' c).1]
              simp [startAt]
            · intro o
              have e : texts (a.take k) ++ (texts (a.drop k) ++ A) = texts a ++ A := by
                rw [← List.append_assoc, ← texts_append, ← ha]
              rw [e]
              simp [startAt, Src.children, h2, bytes_append, Nat.add_assoc]
            · intro y
              simp only [moved, setAt, modify_at, putIn, (hk' _).1, (hk' _).2]
              simp [Src.text, texts_append, texts, h3]
        | cons j l =>
          simp only [Src.at?, Src.children] at hl
          cases hj : cs[j]? with
          | none => simp [hj] at hl
          | some cj =>
            rw [hj, Option.bind_some] at hl
            rcases Nat.lt_trichotomy i j with hij | rfl | hij
            · -- the list is in a later child
              obtain ⟨A, B, h1, h2, h3⟩ := at_split c p x hx
              obtain ⟨C, D, g1, g2, g3⟩ := put_split cj l kd ns k hl
              obtain ⟨a, d, rfl, rfl⟩ := split_index hc
              have hj' : d[j - a.length - 1]? = some cj := by
                have : j = a.length + 1 + (j - a.length - 1) := by omega
                rw [this] at hj
                simpa [List.getElem?_append, Nat.add_assoc, Nat.add_comm 1] using hj
              obtain ⟨b, e, rfl, hb⟩ := split_index hj'
              have hjl : ∀ z, j = (a ++ z :: b).length := by intro z; simp; omega
              refine ⟨.inr ⟨texts a ++ A, B ++ (texts b ++ C), D ++ texts e, ?_, ?_, ?_, ?_⟩⟩
              · simp [Src.text, texts_append, texts, h1, g1]
              · intro o
                have e0 : startAt o (.node k' (a ++ c :: (b ++ cj :: e))) (a.length :: p) =
                    startAt (o + bytes (texts a)) c p := by
                  simp only [startAt, Src.children]
                  rw [index_at, List.take_left]
                rw [e0, h2]
                simp [bytes_append, Nat.add_assoc]
              · intro o
                have e1 : startAt o (.node k' (a ++ c :: (b ++ cj :: e))) (j :: l) =
                    startAt (o + bytes (texts (a ++ c :: b))) cj l := by
                  have e2 : a ++ c :: (b ++ cj :: e) = (a ++ c :: b) ++ cj :: e := by simp
                  simp only [startAt, Src.children]
                  rw [e2, hjl c, index_at, List.take_left]
                rw [e1, g2]
                simp [texts_append, texts, h1, bytes_append, Nat.add_assoc]
              · intro y
                simp only [moved, setAt, modify_at, putIn]
                have e2 : ∀ z : Src, a ++ z :: (b ++ cj :: e) = (a ++ z :: b) ++ cj :: e := by simp
                rw [e2, hjl, modify_at]
                simp [Src.text, texts_append, texts, h3, g3]
            · -- the list is in the same child
              rw [hc, Option.some.injEq] at hj
              subst hj
              have hp' : ¬ p <+: l := by
                intro h
                exact hp (List.cons_prefix_cons.2 ⟨rfl, h⟩)
              obtain ⟨h⟩ := ih c l hx hl hp'
              obtain ⟨a, d, rfl, rfl⟩ := split_index hc
              have hout : ∀ y, (moved (.node k' (a ++ c :: d)) (a.length :: p) (a.length :: l) k y).text =
                  texts a ++ (moved c p l k y).text ++ texts d := by
                intro y
                simp only [moved, setAt, modify_at, putIn]
                simp [Src.text, texts_append, texts]
              have hs : ∀ o q, startAt o (.node k' (a ++ c :: d)) (a.length :: q) =
                  startAt (o + bytes (texts a)) c q := by
                intro o q
                simp [startAt, Src.children]
              refine ⟨?_⟩
              rcases h with ⟨A, M, B, h1, h2, h3, h4⟩ | ⟨A, M, B, h1, h2, h3, h4⟩
              · refine .inl ⟨texts a ++ A, M, B ++ texts d, ?_, ?_, ?_, ?_⟩
                · simp [Src.text, texts_append, texts, h1]
                · intro o
                  simp only [hs, h2]
                  simp [bytes_append, Nat.add_assoc]
                · intro o
                  simp only [hs, h3]
                  simp [bytes_append, Nat.add_assoc]
                · intro y
                  rw [hout, h4]
                  simp
              · refine .inr ⟨texts a ++ A, M, B ++ texts d, ?_, ?_, ?_, ?_⟩
                · simp [Src.text, texts_append, texts, h1]
                · intro o
                  simp only [hs, h2]
                  simp [bytes_append, Nat.add_assoc]
                · intro o
                  simp only [hs, h3]
                  simp [bytes_append, Nat.add_assoc]
                · intro y
                  rw [hout, h4]
                  simp
            · -- the list is in an earlier child
              obtain ⟨A, B, h1, h2, h3⟩ := at_split c p x hx
              obtain ⟨C, D, g1, g2, g3⟩ := put_split cj l kd ns k hl
              obtain ⟨a, d, rfl, rfl⟩ := split_index hj
              have hi' : d[i - a.length - 1]? = some c := by
                have : i = a.length + 1 + (i - a.length - 1) := by omega
                rw [this] at hc
                simpa [List.getElem?_append, Nat.add_assoc, Nat.add_comm 1] using hc
              obtain ⟨b, e, rfl, hb⟩ := split_index hi'
              have hil : ∀ z, i = (a ++ z :: b).length := by intro z; simp; omega
              have e2 : ∀ z w : Src, a ++ z :: (b ++ w :: e) = (a ++ z :: b) ++ w :: e := by simp
              refine ⟨.inl ⟨texts a ++ C, D ++ (texts b ++ A), B ++ texts e, ?_, ?_, ?_, ?_⟩⟩
              · simp [Src.text, texts_append, texts, h1, g1]
              · intro o
                have : startAt o (.node k' (a ++ cj :: (b ++ c :: e))) (a.length :: l) =
                    startAt (o + bytes (texts a)) cj l := by
                  simp [startAt, Src.children]
                rw [this, g2]
                simp [bytes_append, Nat.add_assoc]
              · intro o
                have e1 : startAt o (.node k' (a ++ cj :: (b ++ c :: e))) (i :: p) =
                    startAt (o + bytes (texts (a ++ cj :: b))) c p := by
                  simp only [startAt, Src.children]
                  rw [e2, hil cj, index_at, List.take_left]
                rw [e1, h2]
                simp [texts_append, texts, g1, bytes_append, Nat.add_assoc]
              · intro y
                simp only [moved, setAt, putIn]
                rw [e2, hil cj, modify_at, ← e2, modify_at]
                simp [Src.text, texts_append, texts, h3, g3]

/-! ## Kinds of nodes after a change -/

theorem kindAt_nil (n : Src) : kindAt n [] = n.kind? := rfl

theorem kindAt_cons (k : NKind) (cs : List Src) (i : Nat) (p : List Nat) :
    kindAt (.node k cs) (i :: p) = (cs[i]?).bind fun c => kindAt c p := by
  simp only [kindAt, Src.at?, Src.children]
  cases cs[i]? <;> rfl

theorem kindAt_tok (w : Bool) (t : List Char) (i : Nat) (p : List Nat) :
    kindAt (.tok w t) (i :: p) = none := by
  simp [kindAt, Src.at?, Src.children]

theorem kindAt_setAt (root : Src) (p q : List Nat) (y : Src) (h : ¬ p <+: q) :
    kindAt (setAt root p y) q = kindAt root q := by
  induction p generalizing root q with
  | nil => exact absurd List.nil_prefix h
  | cons i p ih =>
    cases root with
    | tok w t => rfl
    | node k cs =>
      cases q with
      | nil => rfl
      | cons j q =>
        simp only [setAt, kindAt_cons, List.getElem?_modify]
        by_cases hij : i = j
        · subst hij
          have := fun c => ih c q (fun h' => h (List.cons_prefix_cons.2 ⟨rfl, h'⟩))
          cases cs[i]? <;> simp [this]
        · cases cs[j]? <;> simp [hij]

theorem kindAt_putIn (root : Src) (l q : List Nat) (k : Nat) (y : Src) (h : l <+: q → q = l) :
    kindAt (putIn root l k y) q = kindAt root q := by
  induction l generalizing root q with
  | nil =>
    have := h List.nil_prefix
    subst this
    cases root <;> rfl
  | cons i l ih =>
    cases root with
    | tok w t => rfl
    | node kd cs =>
      cases q with
      | nil => rfl
      | cons j q =>
        simp only [putIn, kindAt_cons, List.getElem?_modify]
        by_cases hij : i = j
        · subst hij
          have := fun c => ih c q (fun h' => by
            have := h (List.cons_prefix_cons.2 ⟨rfl, h'⟩)
            exact (List.cons.inj this).2)
          cases cs[i]? <;> simp [this]
        · cases cs[j]? <;> simp [hij]

theorem at_setAt_kind (root : Src) (p l : List Nat) (y : Src) (kd : NKind) (ns : List Src)
    (h : ¬ p <+: l) (hl : root.at? l = some (.node kd ns)) :
    ∃ ms, (setAt root p y).at? l = some (.node kd ms) ∧ ms.length = ns.length := by
  induction p generalizing root l with
  | nil => exact absurd List.nil_prefix h
  | cons i p ih =>
    cases root with
    | tok w t => exact ⟨ns, hl, rfl⟩
    | node k cs =>
      cases l with
      | nil =>
        simp only [Src.at?, Option.some.injEq, Src.node.injEq] at hl
        obtain ⟨rfl, rfl⟩ := hl
        exact ⟨_, rfl, by simp⟩
      | cons j l =>
        simp only [Src.at?, Src.children] at hl
        simp only [setAt, Src.at?, Src.children, List.getElem?_modify]
        cases hj : cs[j]? with
        | none => simp [hj] at hl
        | some c =>
          rw [hj, Option.bind_some] at hl
          by_cases hij : i = j
          · subst hij
            simp only [if_true, Option.map_some, Option.bind_some]
            exact ih c l (fun h' => h (List.cons_prefix_cons.2 ⟨rfl, h'⟩)) hl
          · simp only [hij, if_false, Option.map_some, Option.bind_some]
            exact ⟨ns, hl, rfl⟩

theorem at_putIn (root : Src) (l : List Nat) (k : Nat) (y : Src) (kd : NKind) (ns : List Src)
    (hl : root.at? l = some (.node kd ns)) (hk : k ≤ ns.length) :
    (putIn root l k y).at? (l ++ [k]) = some y := by
  induction l generalizing root with
  | nil =>
    simp only [Src.at?, Option.some.injEq] at hl
    subst hl
    simp [putIn, Src.at?, Src.children, List.getElem?_append, Nat.min_eq_left hk]
  | cons i l ih =>
    cases root with
    | tok w t => simp [Src.at?, Src.children] at hl
    | node k' cs =>
      simp only [Src.at?, Src.children] at hl
      cases hj : cs[i]? with
      | none => simp [hj] at hl
      | some c =>
        rw [hj, Option.bind_some] at hl
        simp only [putIn, List.cons_append, Src.at?, Src.children, List.getElem?_modify, hj]
        simp only [if_true, Option.map_some, Option.bind_some]
        exact ih c hl

theorem at_append (root : Src) (p q : List Nat) :
    root.at? (p ++ q) = (root.at? p).bind fun n => n.at? q := by
  induction p generalizing root with
  | nil => rfl
  | cons i p ih =>
    simp only [List.cons_append, Src.at?]
    cases root.children[i]? with
    | none => rfl
    | some c => exact ih c

theorem kindAt_append (root n : Src) (p q : List Nat) (h : root.at? p = some n) :
    kindAt root (p ++ q) = kindAt n q := by
  simp [kindAt, at_append, h]

/-! ## Places in lists -/

/-- Child `i` is the last item of such a kind in the list. -/
def LastOf (test : IKind → Bool) (cs : List Src) (i : Nat) : Prop :=
  (∃ c k, cs[i]? = some c ∧ c.kind? = some (.item k) ∧ test k = true) ∧
    ∀ j c k, i < j → cs[j]? = some c → c.kind? = some (.item k) → test k = false

/-- Child `i` is the first item of such a kind in the list. -/
def FirstOf (test : IKind → Bool) (cs : List Src) (i : Nat) : Prop :=
  (∃ c k, cs[i]? = some c ∧ c.kind? = some (.item k) ∧ test k = true) ∧
    ∀ j c k, j < i → cs[j]? = some c → c.kind? = some (.item k) → test k = false

/-- The list has no item of such a kind. -/
def NoneOf (test : IKind → Bool) (cs : List Src) : Prop :=
  ∀ c ∈ cs, ∀ k, c.kind? = some (.item k) → test k = false

theorem items_cons (o : Nat) (c : Src) (cs : List Src) :
    items o (c :: cs) = (match c.kind? with
      | some (.item k) => [(⟨k, o, o + bytes c.text⟩ : Placed)]
      | _ => []) ++ items (o + bytes c.text) cs := rfl

theorem last_cons_none (test : IKind → Bool) (o : Nat) (c : Src) (cs : List Src)
    (h : ∀ k, c.kind? = some (.item k) → test k = false) :
    lastStop test o (c :: cs) = lastStop test (o + bytes c.text) cs := by
  unfold lastStop
  rw [items_cons]
  cases hk : c.kind? with
  | none => rfl
  | some nk =>
    cases nk with
    | item k => simp [h k hk]
    | list => rfl
    | attr a => rfl
    | other => rfl

theorem last_cons_some (test : IKind → Bool) (o : Nat) (c : Src) (cs : List Src) (k : IKind)
    (hk : c.kind? = some (.item k)) (ht : test k = true) :
    lastStop test o (c :: cs) =
      some ((lastStop test (o + bytes c.text) cs).getD (o + bytes c.text)) := by
  unfold lastStop
  rw [items_cons, hk]
  simp only [List.cons_append, List.nil_append]
  rw [List.filter_cons, if_pos ht, List.getLast?_cons]
  cases ((items (o + bytes c.text) cs).filter fun i => test i.kind).getLast? <;> rfl

theorem lastStop_spec (test : IKind → Bool) (o : Nat) (cs : List Src) :
    (lastStop test o cs = none ∧ NoneOf test cs) ∨
      ∃ i, LastOf test cs i ∧ i < cs.length ∧
        lastStop test o cs = some (o + bytes (texts (cs.take (i + 1)))) := by
  induction cs generalizing o with
  | nil => exact .inl ⟨rfl, by simp [NoneOf]⟩
  | cons c cs ih =>
    rcases ih (o + bytes c.text) with ⟨h1, h2⟩ | ⟨i, h1, hi, h2⟩
    · by_cases hc : ∃ k, c.kind? = some (.item k) ∧ test k = true
      · obtain ⟨k, hk, ht⟩ := hc
        refine .inr ⟨0, ⟨⟨c, k, rfl, hk, ht⟩, ?_⟩, by simp, ?_⟩
        · intro j d k' hj hd hk'
          cases j with
          | zero => omega
          | succ j =>
            simp only [List.getElem?_cons_succ] at hd
            exact h2 d (List.mem_of_getElem? hd) k' hk'
        · rw [last_cons_some test o c cs k hk ht, h1]
          simp [texts]
      · have hc' : ∀ k, c.kind? = some (.item k) → test k = false := by
          intro k hk
          cases ht : test k with
          | false => rfl
          | true => exact absurd ⟨k, hk, ht⟩ hc
        refine .inl ⟨by rw [last_cons_none test o c cs hc', h1], ?_⟩
        intro d hd k hk
        rcases List.mem_cons.1 hd with rfl | hd
        · exact hc' k hk
        · exact h2 d hd k hk
    · refine .inr ⟨i + 1, ⟨?_, ?_⟩, by simp; omega, ?_⟩
      · obtain ⟨d, k, hd, hk, ht⟩ := h1.1
        exact ⟨d, k, by simpa using hd, hk, ht⟩
      · intro j d k hj hd hk
        cases j with
        | zero => omega
        | succ j => exact h1.2 j d k (by omega) (by simpa using hd) hk
      · by_cases hc : ∃ k, c.kind? = some (.item k) ∧ test k = true
        · obtain ⟨k, hk, ht⟩ := hc
          rw [last_cons_some test o c cs k hk ht, h2]
          simp [texts, bytes_append, Nat.add_assoc]
        · rw [last_cons_none test o c cs, h2]
          · simp [texts, bytes_append, Nat.add_assoc]
          · intro k hk
            cases ht : test k with
            | false => rfl
            | true => exact absurd ⟨k, hk, ht⟩ hc

theorem lastStop_all (o : Nat) (cs : List Src) :
    (items o cs).getLast?.map (·.stop) = lastStop (fun _ => true) o cs := by
  unfold lastStop
  rw [List.filter_eq_self.2 (by simp)]

theorem find_spec (test : IKind → Bool) (o : Nat) (cs : List Src) :
    (((items o cs).find? fun i => test i.kind).map (·.start) = none ∧ NoneOf test cs) ∨
      ∃ i, FirstOf test cs i ∧ i < cs.length ∧
        ((items o cs).find? fun i => test i.kind).map (·.start) =
          some (o + bytes (texts (cs.take i))) := by
  induction cs generalizing o with
  | nil => exact .inl ⟨rfl, by simp [NoneOf]⟩
  | cons c cs ih =>
    by_cases hc : ∃ k, c.kind? = some (.item k) ∧ test k = true
    · obtain ⟨k, hk, ht⟩ := hc
      refine .inr ⟨0, ⟨⟨c, k, rfl, hk, ht⟩, by intro j _ _ hj; omega⟩, by simp, ?_⟩
      rw [items_cons, hk]
      simp [ht, texts, bytes]
    · have hc' : ∀ k, c.kind? = some (.item k) → test k = false := by
        intro k hk
        cases ht : test k with
        | false => rfl
        | true => exact absurd ⟨k, hk, ht⟩ hc
      have he : ((items o (c :: cs)).find? fun i => test i.kind) =
          (items (o + bytes c.text) cs).find? fun i => test i.kind := by
        rw [items_cons]
        cases hk : c.kind? with
        | none => rfl
        | some nk =>
          cases nk with
          | item k => simp [hc' k hk]
          | list => rfl
          | attr a => rfl
          | other => rfl
      rw [he]
      rcases ih (o + bytes c.text) with ⟨h1, h2⟩ | ⟨i, h1, hi, h2⟩
      · refine .inl ⟨h1, ?_⟩
        intro d hd k hk
        rcases List.mem_cons.1 hd with rfl | hd
        · exact hc' k hk
        · exact h2 d hd k hk
      · refine .inr ⟨i + 1, ⟨?_, ?_⟩, by simp; omega, ?_⟩
        · obtain ⟨d, k, hd, hk, ht⟩ := h1.1
          exact ⟨d, k, by simpa using hd, hk, ht⟩
        · intro j d k hj hd hk
          cases j with
          | zero =>
            simp only [List.getElem?_cons_zero, Option.some.injEq] at hd
            subst hd
            exact hc' k hk
          | succ j => exact h1.2 j d k (by omega) (by simpa using hd) hk
        · rw [h2]
          simp [texts, bytes_append, Nat.add_assoc]

/-! ## Ancestors -/

theorem prefix_concat {q p : List Nat} {i : Nat} (h : q <+: p ++ [i]) (hne : q ≠ p ++ [i]) :
    q <+: p := by
  rcases List.prefix_concat_iff.1 h with h | h
  · exact absurd h hne
  · exact h

end Verif.Analyzer.Move
