import Verif.Analyzer.Text

/-!
Lemmas on lines and indenting.
-/

namespace Verif.Analyzer

/-- The segments between line feeds; always at least one. -/
def splitNl : List Char → List (List Char)
  | [] => [[]]
  | '\n' :: cs => [] :: splitNl cs
  | c :: cs =>
    match splitNl cs with
    | [] => [[c]]
    | l :: ls => (c :: l) :: ls

/-- Joins segments with line feeds. -/
def joinNl : List (List Char) → List Char
  | [] => []
  | [l] => l
  | l :: ls => l ++ '\n' :: joinNl ls

theorem splitNl_nl (cs : List Char) : splitNl ('\n' :: cs) = [] :: splitNl cs := rfl

theorem splitNl_ne (t : List Char) : splitNl t ≠ [] := by
  cases t with
  | nil => simp [splitNl]
  | cons c cs =>
    by_cases hc : c = '\n'
    · subst hc; rw [splitNl_nl]; simp
    · rw [splitNl]
      · split <;> simp
      · exact hc

theorem splitNl_cons (c : Char) (cs : List Char) (hc : c ≠ '\n') :
    ∃ l ls, splitNl cs = l :: ls ∧ splitNl (c :: cs) = (c :: l) :: ls := by
  rw [splitNl]
  · cases h : splitNl cs with
    | nil => exact absurd h (splitNl_ne cs)
    | cons l ls => exact ⟨l, ls, rfl, rfl⟩
  · exact hc

theorem joinNl_cons (l : List Char) (ls : List (List Char)) (h : ls ≠ []) :
    joinNl (l :: ls) = l ++ '\n' :: joinNl ls := by
  cases ls with
  | nil => exact absurd rfl h
  | cons a as => rfl

theorem joinNl_splitNl (t : List Char) : joinNl (splitNl t) = t := by
  induction t with
  | nil => rfl
  | cons c cs ih =>
    by_cases hc : c = '\n'
    · subst hc
      rw [splitNl_nl, joinNl_cons _ _ (splitNl_ne cs), ih]
      rfl
    · obtain ⟨l, ls, h1, h2⟩ := splitNl_cons c cs hc
      rw [h2]
      rw [h1] at ih
      cases ls with
      | nil => simp only [joinNl] at ih ⊢; rw [ih]
      | cons a as =>
        rw [joinNl_cons _ _ (by simp)] at ih ⊢
        rw [← ih]
        rfl

theorem splitNl_append (l : List Char) (h : '\n' ∉ l) (t : List Char) :
    splitNl (l ++ '\n' :: t) = l :: splitNl t := by
  induction l with
  | nil => rfl
  | cons c cs ih =>
    have hc : c ≠ '\n' := fun e => h (by simp [e])
    obtain ⟨l, ls, h1, h2⟩ := splitNl_cons c (cs ++ '\n' :: t) hc
    rw [List.cons_append, h2]
    rw [ih (fun hm => h (List.mem_cons_of_mem _ hm))] at h1
    cases h1
    rfl

theorem splitNl_single (l : List Char) (h : '\n' ∉ l) : splitNl l = [l] := by
  induction l with
  | nil => rfl
  | cons c cs ih =>
    have hc : c ≠ '\n' := fun e => h (by simp [e])
    obtain ⟨l, ls, h1, h2⟩ := splitNl_cons c cs hc
    rw [ih (fun hm => h (List.mem_cons_of_mem _ hm))] at h1
    cases h1
    exact h2

theorem splitNl_joinNl (ls : List (List Char)) (hn : ls ≠ []) (h : ∀ l ∈ ls, '\n' ∉ l) :
    splitNl (joinNl ls) = ls := by
  induction ls with
  | nil => exact absurd rfl hn
  | cons l ls ih =>
    cases ls with
    | nil => exact splitNl_single l (h l List.mem_cons_self)
    | cons a as =>
      rw [joinNl_cons _ _ (by simp), splitNl_append l (h l List.mem_cons_self),
        ih (by simp) (fun x hx => h x (List.mem_cons_of_mem _ hx))]

theorem splitNl_noNl (t l : List Char) (h : l ∈ splitNl t) : '\n' ∉ l := by
  induction t generalizing l with
  | nil => simp [splitNl] at h; subst h; simp
  | cons c cs ih =>
    by_cases hc : c = '\n'
    · subst hc
      rw [splitNl_nl] at h
      rcases List.mem_cons.1 h with rfl | h
      · simp
      · exact ih l h
    · obtain ⟨l', ls, h1, h2⟩ := splitNl_cons c cs hc
      rw [h2] at h
      rcases List.mem_cons.1 h with rfl | h
      · intro hm
        rcases List.mem_cons.1 hm with e | hm
        · exact hc e.symm
        · exact ih l' (by rw [h1]; exact List.mem_cons_self) hm
      · exact ih l (by rw [h1]; exact List.mem_cons_of_mem _ h)

/-- Removes a final carriage return. -/
def stripCr (l : List Char) : List Char := if l.getLast? = some '\r' then l.dropLast else l

/-- What `str::lines` makes of the segments between line feeds: carriage returns before line
feeds are dropped, and so is an empty last segment. -/
def fixup : List (List Char) → List (List Char)
  | [] => []
  | [l] => if l = [] then [] else [l]
  | l :: ls => stripCr l :: fixup ls

theorem fixup_cons (l : List Char) (ls : List (List Char)) (h : ls ≠ []) :
    fixup (l :: ls) = stripCr l :: fixup ls := by
  cases ls with
  | nil => exact absurd rfl h
  | cons a as => rfl

theorem splitInclusive_nl (cs : List Char) :
    splitInclusive ('\n' :: cs) = ['\n'] :: splitInclusive cs := rfl

theorem splitInclusive_eq_nil (t : List Char) : splitInclusive t = [] ↔ t = [] := by
  cases t with
  | nil => simp [splitInclusive]
  | cons c cs =>
    by_cases hc : c = '\n'
    · subst hc; simp [splitInclusive_nl]
    · rw [splitInclusive]
      · split <;> simp
      · exact hc

theorem stripEnding_nl (l : List Char) : stripEnding (l ++ ['\n']) = stripCr l := by
  rcases List.eq_nil_or_concat l with rfl | ⟨m, c, rfl⟩
  · rfl
  · unfold stripEnding stripCr
    simp only [List.concat_eq_append, List.reverse_append, List.reverse_cons, List.reverse_nil,
      List.nil_append, List.getLast?_append, List.getLast?_singleton,
      Option.some_or, Option.some.injEq, List.cons_append]
    by_cases hc : c = '\r'
    · subst hc
      simp
    · rw [if_neg hc]
      split
      · rename_i heq
        simp only [List.cons.injEq, true_and] at heq
        exact absurd heq.1 hc
      · rename_i r _ heq
        simp only [List.cons.injEq, true_and] at heq
        rw [← heq]
        simp
      · rename_i h
        exact absurd rfl (h _)

theorem stripEnding_id (l : List Char) (h : '\n' ∉ l) : stripEnding l = l := by
  unfold stripEnding
  split
  · rename_i r heq
    exact absurd (List.mem_reverse.1 (heq ▸ List.mem_cons_self)) h
  · rename_i r _ heq
    exact absurd (List.mem_reverse.1 (heq ▸ List.mem_cons_self)) h
  · rfl

/-- The lines with their endings, from the segments between line feeds. -/
def withEndings : List (List Char) → List (List Char)
  | [] => []
  | [l] => if l = [] then [] else [l]
  | l :: ls => (l ++ ['\n']) :: withEndings ls

theorem splitInclusive_eq (t : List Char) : splitInclusive t = withEndings (splitNl t) := by
  induction t with
  | nil => rfl
  | cons c cs ih =>
    by_cases hc : c = '\n'
    · subst hc
      rw [splitNl_nl, splitInclusive_nl, ih]
      cases h : splitNl cs with
      | nil => exact absurd h (splitNl_ne cs)
      | cons a as => rfl
    · obtain ⟨l, ls, h1, h2⟩ := splitNl_cons c cs hc
      rw [h2]
      rw [h1] at ih
      rw [splitInclusive]
      · rw [ih]
        cases ls with
        | nil => by_cases hl : l = [] <;> simp [withEndings, hl]
        | cons a as => rfl
      · exact hc

theorem lines_eq (t : List Char) : lines t = fixup (splitNl t) := by
  unfold lines
  rw [splitInclusive_eq]
  have : ∀ ls : List (List Char), (∀ l ∈ ls, '\n' ∉ l) →
      (withEndings ls).map stripEnding = fixup ls := by
    intro ls h
    induction ls with
    | nil => rfl
    | cons l ls ih =>
      cases ls with
      | nil =>
        by_cases hl : l = []
        · simp [withEndings, fixup, hl]
        · simp [withEndings, fixup, hl, stripEnding_id l (h l List.mem_cons_self)]
      | cons a as =>
        have := ih (fun x hx => h x (List.mem_cons_of_mem _ hx))
        rw [fixup_cons _ _ (by simp), ← this]
        simp [withEndings, stripEnding_nl]
  exact this _ (splitNl_noNl t)

/-- What `joinLines` does to one line. -/
def onLine (f : List Char → List Char) (l : List Char) : List Char := if l.isEmpty then [] else f l

theorem joinLines_eq (f : List Char → List Char) (ls : List (List Char)) :
    joinLines f ls = joinNl (ls.map (onLine f)) := by
  induction ls with
  | nil => rfl
  | cons l ls ih =>
    cases ls with
    | nil => rfl
    | cons a as =>
      rw [List.map_cons, joinNl_cons _ _ (by simp), ← ih]
      rfl

/-- Segments that `str::lines` leaves alone. -/
def Good : List (List Char) → Prop
  | [] => False
  | [l] => l ≠ []
  | l :: ls => l.getLast? ≠ some '\r' ∧ Good ls

theorem good_cons (l : List Char) (ls : List (List Char)) (h : ls ≠ []) :
    Good (l :: ls) ↔ l.getLast? ≠ some '\r' ∧ Good ls := by
  cases ls with
  | nil => exact absurd rfl h
  | cons a as => exact Iff.rfl

theorem fixup_good (ls : List (List Char)) (h : Good ls) : fixup ls = ls := by
  induction ls with
  | nil => rfl
  | cons l ls ih =>
    cases ls with
    | nil => exact if_neg h
    | cons a as =>
      rw [good_cons _ _ (by simp)] at h
      rw [fixup_cons _ _ (by simp), ih h.2, stripCr, if_neg h.1]

theorem good_map (g : List Char → List Char) (ls : List (List Char)) (h : Good ls)
    (h1 : ∀ l, l ≠ [] → g l ≠ []) (h2 : ∀ l, l.getLast? ≠ some '\r' → (g l).getLast? ≠ some '\r') :
    Good (ls.map g) := by
  induction ls with
  | nil => exact h
  | cons l ls ih =>
    cases ls with
    | nil => exact h1 l h
    | cons a as =>
      rw [good_cons _ _ (by simp)] at h
      rw [List.map_cons, good_cons _ _ (by simp)]
      exact ⟨h2 l h.1, ih h.2⟩

theorem stripIndent_append (i l : List Char) : stripIndent i (i ++ l) = some l := by
  induction i with
  | nil => rfl
  | cons c i ih => simp [stripIndent, ih]

theorem stripIndent_some (i l r : List Char) (h : stripIndent i l = some r) : l = i ++ r := by
  induction i generalizing l with
  | nil => simp only [stripIndent, Option.some.injEq] at h; simpa using h
  | cons c i ih =>
    cases l with
    | nil => simp [stripIndent] at h
    | cons d l =>
      simp only [stripIndent] at h
      split at h
      · rename_i e
        rw [ih l h, e]
        rfl
      · cases h

theorem stripIndent_none (i l : List Char) (h : stripIndent i l = none) (r : List Char) :
    l ≠ i ++ r := by
  rintro rfl
  rw [stripIndent_append] at h
  cases h

end Verif.Analyzer
