import Verif.Analyzer.Snippet

/-!
Lemmas on `replaceAll`.
-/

namespace Verif.Analyzer

/-- The text before and after the first occurrence of a pattern (proof device for
`str::replace`). -/
def findPat (pat : List Char) : List Char → Option (List Char × List Char)
  | [] => none
  | c :: cs =>
    if pat.isPrefixOf (c :: cs) then some ([], (c :: cs).drop pat.length)
    else (findPat pat cs).map fun (b, a) => (c :: b, a)

theorem replaceGo_skip (pat rep : List Char) (k : Nat) (t : List Char) :
    replaceGo pat rep k t = replaceGo pat rep 0 (t.drop k) := by
  induction t generalizing k with
  | nil => cases k <;> simp [replaceGo]
  | cons c cs ih =>
    cases k with
    | zero => rfl
    | succ k => simp [replaceGo, ih k]

theorem replaceAll_nil (pat rep : List Char) : replaceAll pat rep [] = [] := by
  simp [replaceAll, replaceGo]

theorem replaceAll_match (pat rep t : List Char) (hp : pat ≠ []) :
    replaceAll pat rep (pat ++ t) = rep ++ replaceAll pat rep t := by
  cases pat with
  | nil => exact absurd rfl hp
  | cons c pat =>
    have : (c :: pat).isPrefixOf (c :: (pat ++ t)) = true := by
      rw [List.isPrefixOf_iff_prefix]
      exact ⟨t, rfl⟩
    simp only [replaceAll, List.cons_append, replaceGo, this, if_true]
    rw [replaceGo_skip]
    simp

theorem replaceAll_step (pat rep : List Char) (c : Char) (cs : List Char)
    (h : pat.isPrefixOf (c :: cs) = false) :
    replaceAll pat rep (c :: cs) = c :: replaceAll pat rep cs := by
  simp [replaceAll, replaceGo, h]

theorem findPat_none (pat rep t : List Char) (h : findPat pat t = none) :
    replaceAll pat rep t = t := by
  induction t with
  | nil => rfl
  | cons c cs ih =>
    unfold findPat at h
    cases hp : pat.isPrefixOf (c :: cs) with
    | true => rw [hp] at h; simp at h
    | false =>
      rw [hp] at h
      simp only [Bool.false_eq_true, if_false, Option.map_eq_none_iff] at h
      rw [replaceAll_step pat rep c cs hp, ih h]

theorem findPat_some (pat rep t b a : List Char) (hp : pat ≠ []) (h : findPat pat t = some (b, a)) :
    t = b ++ (pat ++ a) ∧ replaceAll pat rep t = b ++ (rep ++ replaceAll pat rep a) := by
  induction t generalizing b with
  | nil => simp [findPat] at h
  | cons c cs ih =>
    unfold findPat at h
    cases hq : pat.isPrefixOf (c :: cs) with
    | true =>
      rw [hq] at h
      simp only [if_true, Option.some.injEq, Prod.mk.injEq] at h
      obtain ⟨rfl, rfl⟩ := h
      obtain ⟨r, hr⟩ := List.isPrefixOf_iff_prefix.1 hq
      rw [← hr, List.drop_left]
      exact ⟨rfl, replaceAll_match pat rep r hp⟩
    | false =>
      rw [hq] at h
      simp only [Bool.false_eq_true, if_false, Option.map_eq_some_iff] at h
      obtain ⟨⟨b', a'⟩, h1, h2⟩ := h
      simp only [Prod.mk.injEq] at h2
      obtain ⟨rfl, rfl⟩ := h2
      obtain ⟨h3, h4⟩ := ih b' h1
      rw [replaceAll_step pat rep c cs hq, h4]
      exact ⟨by rw [h3]; rfl, rfl⟩

/-- A text with exactly one occurrence of the pattern. -/
def oncePat (pat t : List Char) : Bool :=
  match findPat pat t with
  | some (_, a) => (findPat pat a).isNone
  | none => false

theorem replaceAll_once (pat t : List Char) (hp : pat ≠ []) (h : oncePat pat t = true) :
    ∃ b a, t = b ++ (pat ++ a) ∧ ∀ rep, replaceAll pat rep t = b ++ (rep ++ a) := by
  unfold oncePat at h
  cases hf : findPat pat t with
  | none => rw [hf] at h; cases h
  | some ba =>
    rw [hf] at h
    refine ⟨ba.1, ba.2, (findPat_some pat [] t _ _ hp hf).1, fun rep => ?_⟩
    rw [(findPat_some pat rep t _ _ hp hf).2, findPat_none]
    exact Option.isNone_iff_eq_none.1 h

end Verif.Analyzer
