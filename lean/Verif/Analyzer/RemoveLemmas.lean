import Verif.Analyzer.Remove
import Verif.Analyzer.FlattenProps
import Verif.Ir.MetaProps

/-!
# Lemmas about the tokens around an argument
-/

namespace Verif.Analyzer
open Verif.Ir

mutual

/-- No token is empty and no node is without tokens. -/
def Full : Elem → Bool
  | .tok _ s => s != ""
  | .tree cs => !cs.isEmpty && FullList cs
  | .error cs => !cs.isEmpty && FullList cs

/-- See `Full`. -/
def FullList : List Elem → Bool
  | [] => true
  | c :: cs => Full c && FullList cs

end

theorem fullList_append (a b : List Elem) : FullList (a ++ b) = (FullList a && FullList b) := by
  induction a with
  | nil => simp [FullList]
  | cons x a ih => simp [FullList, ih, Bool.and_assoc]

theorem lenList_append (a b : List Elem) :
    Elem.lenList (a ++ b) = Elem.lenList a + Elem.lenList b := by
  induction a with
  | nil => simp [Elem.lenList]
  | cons x a ih => simp [Elem.lenList, ih, Nat.add_assoc]

theorem leavesList_append (a b : List Elem) (o : Nat) :
    leavesList o (a ++ b) = leavesList o a ++ leavesList (o + Elem.lenList a) b := by
  induction a generalizing o with
  | nil => simp [leavesList, Elem.lenList]
  | cons x a ih => simp [leavesList, Elem.lenList, ih, Nat.add_assoc]

/-- A node contributes the tokens of its children. -/
theorem leavesList_tree (A cs B : List Elem) (o : Nat) :
    leavesList o (A ++ .tree cs :: B) = leavesList o (A ++ cs ++ B) := by
  simp only [leavesList_append, leavesList, leaves, Elem.len, List.append_assoc]

theorem utf8ByteSize_pos (s : String) (h : s ≠ "") : 0 < s.utf8ByteSize := by
  rcases Nat.eq_zero_or_pos s.utf8ByteSize with h' | h'
  · exact absurd (String.utf8ByteSize_eq_zero_iff.1 h') h
  · exact h'

/-- Tokens in source order inside `[lo, hi]`, none of them empty. -/
def Tiled (lo hi : Nat) (l : List Leaf) : Prop :=
  (l.Pairwise fun a b => a.stop ≤ b.start) ∧
    ∀ t ∈ l, lo ≤ t.start ∧ t.start < t.stop ∧ t.stop ≤ hi

theorem Tiled.append {lo mid hi : Nat} {a b : List Leaf} (ha : Tiled lo mid a)
    (hb : Tiled mid hi b) (h1 : lo ≤ mid) (h2 : mid ≤ hi) : Tiled lo hi (a ++ b) := by
  constructor
  · refine List.pairwise_append.2 ⟨ha.1, hb.1, ?_⟩
    intro x hx y hy
    have := ha.2 x hx
    have := hb.2 y hy
    omega
  · intro t ht
    rcases List.mem_append.1 ht with ht | ht
    · have := ha.2 t ht
      omega
    · have := hb.2 t ht
      omega

mutual

theorem leaves_tiled : ∀ (e : Elem) (o : Nat), Full e = true → Tiled o (o + e.len) (leaves o e)
  | .tok k s, o, h => by
    have hs := utf8ByteSize_pos s (by simpa [Full] using h)
    simp [leaves, Tiled, Elem.len, hs]
  | .tree cs, o, h => by
    simp only [Full, Bool.and_eq_true] at h
    simpa [leaves, Elem.len] using leavesList_tiled cs o h.2
  | .error cs, o, h => by
    simp only [Full, Bool.and_eq_true] at h
    simpa [leaves, Elem.len] using leavesList_tiled cs o h.2

theorem leavesList_tiled : ∀ (cs : List Elem) (o : Nat), FullList cs = true →
    Tiled o (o + Elem.lenList cs) (leavesList o cs)
  | [], o, _ => by simp [leavesList, Tiled]
  | c :: cs, o, h => by
    simp only [FullList, Bool.and_eq_true] at h
    have h1 := leaves_tiled c o h.1
    have h2 := leavesList_tiled cs (o + c.len) h.2
    rw [leavesList, Elem.lenList, ← Nat.add_assoc]
    exact h1.append h2 (by omega) (by omega)

end

mutual

/-- A node has a first token, where it starts, and a last one, where it ends. -/
theorem leaves_ends : ∀ (e : Elem) (o : Nat), Full e = true →
    (∃ t, (leaves o e).head? = some t ∧ t.start = o) ∧
      ∃ t, (leaves o e).getLast? = some t ∧ t.stop = o + e.len
  | .tok k s, o, h => by simp [leaves, Elem.len]
  | .tree cs, o, h => by
    simp only [Full, Bool.and_eq_true, Bool.not_eq_true', List.isEmpty_eq_false_iff] at h
    simpa [leaves, Elem.len] using leavesList_ends cs o h.2 h.1
  | .error cs, o, h => by
    simp only [Full, Bool.and_eq_true, Bool.not_eq_true', List.isEmpty_eq_false_iff] at h
    simpa [leaves, Elem.len] using leavesList_ends cs o h.2 h.1

theorem leavesList_ends : ∀ (cs : List Elem) (o : Nat), FullList cs = true → cs ≠ [] →
    (∃ t, (leavesList o cs).head? = some t ∧ t.start = o) ∧
      ∃ t, (leavesList o cs).getLast? = some t ∧ t.stop = o + Elem.lenList cs
  | [], _, _, h => absurd rfl h
  | c :: cs, o, h, _ => by
    simp only [FullList, Bool.and_eq_true] at h
    obtain ⟨⟨t1, h1, h1'⟩, t2, h2, h2'⟩ := leaves_ends c o h.1
    refine ⟨⟨t1, by simp [leavesList, h1], h1'⟩, ?_⟩
    by_cases hc : cs = []
    · subst hc
      exact ⟨t2, by simp [leavesList, h2], by simpa [Elem.lenList] using h2'⟩
    · obtain ⟨_, t3, h3, h3'⟩ := leavesList_ends cs (o + c.len) h.2 hc
      exact ⟨t3, by simp [leavesList, h3], by rw [h3', Elem.lenList, Nat.add_assoc]⟩

end

theorem tiled_after {lo hi : Nat} {L1 L2 : List Leaf} {t : Leaf} (h : Tiled lo hi (L1 ++ t :: L2)) :
    (L1 ++ t :: L2).dropWhile (fun l => decide (l.start ≤ t.start)) = L2 := by
  obtain ⟨h1, h2⟩ := h
  obtain ⟨_, hb, hc⟩ := List.pairwise_append.1 h1
  rw [List.dropWhile_append_of_pos, List.dropWhile_cons_of_pos (by simp)]
  · cases L2 with
    | nil => rfl
    | cons y L2 =>
      rw [List.dropWhile_cons_of_neg]
      have := (List.pairwise_cons.1 hb).1 y (by simp)
      have := h2 t (by simp)
      simp
      omega
  · intro x hx
    have := hc x hx t (by simp)
    have := h2 x (by simp [hx])
    simp
    omega

theorem tiled_before {lo hi : Nat} {L1 L2 : List Leaf} {t : Leaf}
    (h : Tiled lo hi (L1 ++ t :: L2)) :
    (L1 ++ t :: L2).takeWhile (fun l => decide (l.start < t.start)) = L1 := by
  obtain ⟨h1, h2⟩ := h
  obtain ⟨_, hb, hc⟩ := List.pairwise_append.1 h1
  rw [List.takeWhile_append_of_pos, List.takeWhile_cons_of_neg (by simp), List.append_nil]
  intro x hx
  have := hc x hx t (by simp)
  have := h2 x (by simp [hx])
  simp
  omega

/-- Trivia elements are tokens. -/
theorem leavesList_trivia (T : List Elem) (h : ∀ e ∈ T, e.isTrivia = true) (o : Nat) :
    ∀ t ∈ leavesList o T, t.kind.isTrivia = true := by
  induction T generalizing o with
  | nil => simp [leavesList]
  | cons x T ih =>
    intro t ht
    rw [leavesList] at ht
    rcases List.mem_append.1 ht with ht | ht
    · have := h x (by simp)
      cases x with
      | tok k s =>
        rw [leaves, List.mem_singleton] at ht
        rw [ht]
        exact this
      | tree _ => cases this
      | error _ => cases this
    · exact ih (fun e he => h e (by simp [he])) _ t ht

theorem closestWhich_skip (T rest : List Leaf) (h : ∀ t ∈ T, t.kind.isTrivia = true) :
    Token.closestWhich (fun l : Leaf => l.kind == .comma) (fun l => !l.kind.isTrivia) (T ++ rest) =
      Token.closestWhich (fun l : Leaf => l.kind == .comma) (fun l => !l.kind.isTrivia) rest := by
  induction T with
  | nil => rfl
  | cons x T ih =>
    have hx := h x (by simp)
    have hc : (x.kind == Ir.TokKind.comma) = false := by
      cases hk : x.kind <;> rw [hk] at hx <;> first | rfl | cases hx
    rw [List.cons_append, Token.closestWhich, if_neg (by simp [hc]), if_neg (by simp [hx]),
      ih (fun t ht => h t (by simp [ht]))]

/-- The delimiter after an element: `z` is followed by trivia and a comma. -/
theorem delim_next (X T R : List Elem) (z : Elem) (c : String)
    (hf : FullList (X ++ z :: (T ++ .tok .comma c :: R)) = true)
    (hT : ∀ e ∈ T, e.isTrivia = true) :
    ∃ t, (leaves (Elem.lenList X) z).getLast? = some t ∧
      (tokenAndDelim (leavesList 0 (X ++ z :: (T ++ .tok .comma c :: R))) t).2 =
        Elem.lenList (X ++ z :: (T ++ [.tok .comma c])) := by
  have hz : Full z = true := by
    simp only [fullList_append, FullList, Bool.and_eq_true] at hf
    exact hf.2.1
  obtain ⟨_, t, ht, _⟩ := leaves_ends z (Elem.lenList X) hz
  refine ⟨t, ht, ?_⟩
  have htl := leavesList_tiled _ 0 hf
  obtain ⟨L, hL⟩ : ∃ L, leaves (Elem.lenList X) z = L ++ [t] := by
    rw [List.getLast?_eq_some_iff] at ht
    exact ht
  have hfile : leavesList 0 (X ++ z :: (T ++ .tok .comma c :: R)) =
      (leavesList 0 X ++ L) ++ t :: (leavesList (Elem.lenList X + z.len) T ++
        leavesList (Elem.lenList X + z.len + Elem.lenList T) (.tok .comma c :: R)) := by
    rw [leavesList_append, Nat.zero_add, leavesList, hL, leavesList_append]
    simp
  rw [hfile] at htl ⊢
  unfold tokenAndDelim nextDelim
  rw [tiled_after htl, closestWhich_skip _ _ (leavesList_trivia T hT _), leavesList, leaves,
    List.singleton_append, Token.closestWhich, if_pos (by simp)]
  simp only [lenList_append, Elem.lenList, Elem.len]
  omega

/-- No delimiter directly after an element: it is followed by trivia and a token that is neither
trivia nor a comma. -/
theorem delim_none (X T R : List Elem) (z : Elem) (k : Ir.TokKind) (c : String)
    (hf : FullList (X ++ z :: (T ++ .tok k c :: R)) = true)
    (hT : ∀ e ∈ T, e.isTrivia = true) (hk : k.isTrivia = false) (hc : k ≠ .comma) :
    ∃ t, (leaves (Elem.lenList X) z).getLast? = some t ∧
      nextDelim (leavesList 0 (X ++ z :: (T ++ .tok k c :: R))) t = none ∧
      (tokenAndDelim (leavesList 0 (X ++ z :: (T ++ .tok k c :: R))) t).2 =
        Elem.lenList (X ++ [z]) := by
  have hz : Full z = true := by
    simp only [fullList_append, FullList, Bool.and_eq_true] at hf
    exact hf.2.1
  obtain ⟨_, t, ht, hstop⟩ := leaves_ends z (Elem.lenList X) hz
  have htl := leavesList_tiled _ 0 hf
  obtain ⟨L, hL⟩ : ∃ L, leaves (Elem.lenList X) z = L ++ [t] := by
    rw [List.getLast?_eq_some_iff] at ht
    exact ht
  have hfile : leavesList 0 (X ++ z :: (T ++ .tok k c :: R)) =
      (leavesList 0 X ++ L) ++ t :: (leavesList (Elem.lenList X + z.len) T ++
        leavesList (Elem.lenList X + z.len + Elem.lenList T) (.tok k c :: R)) := by
    rw [leavesList_append, Nat.zero_add, leavesList, hL, leavesList_append]
    simp
  have hnone : nextDelim (leavesList 0 (X ++ z :: (T ++ .tok k c :: R))) t = none := by
    rw [hfile] at htl ⊢
    unfold nextDelim
    rw [tiled_after htl, closestWhich_skip _ _ (leavesList_trivia T hT _), leavesList, leaves,
      List.singleton_append, Token.closestWhich, if_neg (by simpa using hc),
      if_pos (by simp [hk])]
  refine ⟨t, ht, hnone, ?_⟩
  unfold tokenAndDelim
  rw [hnone]
  simp only [hstop, lenList_append, Elem.lenList]
  omega

/-- The delimiter before a token that has none after it: a comma and trivia precede it. -/
theorem delim_prev (X T Y : List Elem) (c : String) (k : Ir.TokKind) (s : String)
    (hf : FullList (X ++ .tok .comma c :: (T ++ .tok k s :: Y)) = true)
    (hT : ∀ e ∈ T, e.isTrivia = true) (t : Leaf)
    (ht : leaves (Elem.lenList (X ++ .tok .comma c :: T)) (.tok k s) = [t])
    (hnone : nextDelim (leavesList 0 (X ++ .tok .comma c :: (T ++ .tok k s :: Y))) t = none) :
    (tokenAndDelim (leavesList 0 (X ++ .tok .comma c :: (T ++ .tok k s :: Y))) t).1 =
      Elem.lenList X := by
  have htl := leavesList_tiled _ 0 hf
  have hfile : leavesList 0 (X ++ .tok .comma c :: (T ++ .tok k s :: Y)) =
      (leavesList 0 X ++ (⟨.comma, Elem.lenList X, Elem.lenList X + c.utf8ByteSize⟩ ::
        leavesList (Elem.lenList X + c.utf8ByteSize) T)) ++ t ::
        leavesList (Elem.lenList (X ++ .tok .comma c :: T) + (Elem.tok k s).len) Y := by
    rw [show X ++ .tok .comma c :: (T ++ .tok k s :: Y) =
      (X ++ .tok .comma c :: T) ++ .tok k s :: Y by simp, leavesList_append, leavesList,
      Nat.zero_add, ht, leavesList_append, leavesList, leaves, Nat.zero_add]
    rfl
  unfold tokenAndDelim
  rw [hnone]
  rw [hfile] at htl ⊢
  unfold prevDelim
  rw [tiled_before htl, List.reverse_append, List.reverse_cons, List.append_assoc,
    closestWhich_skip _ _ (fun t ht => leavesList_trivia T hT _ t (List.mem_reverse.1 ht)),
    List.singleton_append, Token.closestWhich, if_pos (by simp)]
  rfl

end Verif.Analyzer
