import Verif.Analyzer.IndentLemmas

/-!
# C32: indenting is reversible and changes only line starts
# C33: the computed indent is the whitespace before the item
-/

namespace Verif.Analyzer

/-! ## Specification: `splitNl` gives the lines of a text, `joinNl` puts them together -/

/-- A text with Unix line endings that does not end with one. -/
structure Plain (t : List Char) : Prop where
  noCrlf : ∀ a b, t ≠ a ++ '\r' :: '\n' :: b
  noFinal : t.getLast? ≠ some '\n'

theorem good_of_plain (t : List Char) (h : Plain t) (hn : t ≠ []) : Good (splitNl t) := by
  induction t with
  | nil => exact absurd rfl hn
  | cons c cs ih =>
    have hcs : cs ≠ [] → Good (splitNl cs) := by
      intro hne
      refine ih ⟨fun a b e => h.noCrlf (c :: a) b (by rw [e]; rfl), ?_⟩ hne
      have := h.noFinal
      rw [List.getLast?_cons_of_ne_nil hne] at this
      exact this
    by_cases hc : c = '\n'
    · subst hc
      rw [splitNl_nl, good_cons _ _ (splitNl_ne cs)]
      refine ⟨by simp, hcs ?_⟩
      rintro rfl
      exact h.noFinal rfl
    · obtain ⟨l, ls, h1, h2⟩ := splitNl_cons c cs hc
      rw [h2]
      cases ls with
      | nil => simp [Good]
      | cons a as =>
        rw [good_cons _ _ (by simp)]
        have hne : cs ≠ [] := by rintro rfl; simp [splitNl] at h1
        have hg := hcs hne
        rw [h1, good_cons _ _ (by simp)] at hg
        refine ⟨?_, hg.2⟩
        cases l with
        | nil =>
          intro e
          simp only [List.getLast?_singleton, Option.some.injEq] at e
          have hj := joinNl_splitNl cs
          rw [h1, joinNl_cons _ _ (by simp)] at hj
          exact h.noCrlf [] (joinNl (a :: as)) (by rw [← hj, e]; rfl)
        | cons b bs =>
          rw [List.getLast?_cons_of_ne_nil (by simp)]
          exact hg.1

theorem splitNl_joinLines (f : List Char → List Char) (t : List Char) (hp : Plain t)
    (hf : ∀ l ∈ splitNl t, l ≠ [] → '\n' ∉ f l) :
    splitNl (joinLines f (lines t)) = (splitNl t).map (onLine f) := by
  by_cases hn : t = []
  · subst hn
    rfl
  · rw [lines_eq, fixup_good _ (good_of_plain t hp hn), joinLines_eq, splitNl_joinNl]
    · simpa using splitNl_ne t
    · intro l hl
      obtain ⟨m, hm, rfl⟩ := List.mem_map.1 hl
      unfold onLine
      cases m with
      | nil => simp
      | cons c m => exact hf _ hm (by simp)

/-- Applying an indent leaves the number and order of lines alone; every non-empty line gets
the indent in front, every empty line stays empty. -/
theorem C32_apply (t i : List Char) (hp : Plain t) (hi : '\n' ∉ i) :
    splitNl (applyIndenting t i) =
      (splitNl t).map fun l => if l = [] then [] else i ++ l := by
  unfold applyIndenting
  by_cases he : i = []
  · subst he
    simp only [List.isEmpty_nil, if_true, List.nil_append]
    rw [List.map_congr_left (g := id), List.map_id]
    intro l _
    by_cases hl : l = [] <;> simp [hl]
  · rw [if_neg (by simpa using he), splitNl_joinLines _ t hp]
    · apply List.map_congr_left
      intro l _
      cases l <;> simp [onLine]
    · intro l hl _ hm
      rcases List.mem_append.1 hm with h | h
      · exact hi h
      · exact splitNl_noNl t l hl h

/-- Removing an indent leaves the number and order of lines alone; a line that starts with the
indent loses it, every other line is unchanged. -/
theorem C32_reduce (t i : List Char) (hp : Plain t) :
    ∃ f : List Char → List Char, splitNl (reduceIndenting t i) = (splitNl t).map f ∧
      ∀ l, (∀ r, l = i ++ r → f l = r) ∧ ((∀ r, l ≠ i ++ r) → f l = l) := by
  refine ⟨fun l => (stripIndent i l).getD l, ?_, ?_⟩
  · unfold reduceIndenting
    by_cases he : i = []
    · subst he
      simp only [List.isEmpty_nil, if_true]
      rw [List.map_congr_left (g := id), List.map_id]
      intro l _
      rfl
    · rw [if_neg (by simpa using he), splitNl_joinLines _ t hp]
      · apply List.map_congr_left
        intro l _
        cases l with
        | nil =>
          cases i with
          | nil => rfl
          | cons c i => rfl
        | cons c l => rfl
      · intro l hl _ hm
        refine splitNl_noNl t l hl ?_
        cases h : stripIndent i l with
        | none => rw [h] at hm; exact hm
        | some r =>
          rw [h] at hm
          rw [stripIndent_some i l r h]
          exact List.mem_append_right _ hm
  · intro l
    constructor
    · rintro r rfl
      simp [stripIndent_append]
    · intro h
      cases hs : stripIndent i l with
      | none => simp [hs]
      | some r => exact absurd (stripIndent_some i l r hs) (h r)

theorem plain_apply (t i : List Char) (hp : Plain t) (hn : t ≠ []) (hi : '\n' ∉ i) :
    Good (splitNl (applyIndenting t i)) := by
  rw [C32_apply t i hp hi]
  apply good_map _ _ (good_of_plain t hp hn)
  · intro l hl
    rw [if_neg hl]
    simp [hl]
  · intro l hl
    by_cases h : l = []
    · simp [h]
    · rw [if_neg h, List.getLast?_append]
      cases hg : l.getLast? with
      | none => exact absurd (List.getLast?_eq_none_iff.1 hg) h
      | some c => rw [hg] at hl; exact hl

/-- Removing the indent that was applied restores the text.

Missing for the full claim: a final line feed and carriage returns are lost, see
`C32_negation`. -/
theorem C32_round_trip_partial (t i : List Char) (hp : Plain t) (hi : '\n' ∉ i) :
    reduceIndenting (applyIndenting t i) i = t := by
  by_cases he : i = []
  · subst he
    rfl
  by_cases hn : t = []
  · subst hn
    cases i with
    | nil => rfl
    | cons c i => rfl
  unfold reduceIndenting
  rw [if_neg (by simpa using he), lines_eq, fixup_good _ (plain_apply t i hp hn hi), joinLines_eq,
    C32_apply t i hp hi, List.map_map]
  conv => rhs; rw [← joinNl_splitNl t]
  congr 1
  conv => rhs; rw [← List.map_id (splitNl t)]
  apply List.map_congr_left
  intro l _
  by_cases hl : l = []
  · simp [hl, onLine]
  · have : i ++ l ≠ [] := by simp [hl]
    simp only [Function.comp, if_neg hl, onLine, id]
    rw [if_neg (by simpa using fun h => absurd h he), stripIndent_append]
    rfl

/-- With a final line feed, or with Windows line endings, indenting changes more than line
starts and cannot be undone. -/
theorem C32_negation :
    ∃ (t i : List Char), i = [' '] ∧ reduceIndenting (applyIndenting t i) i ≠ t ∧
    ∃ t' : List Char, reduceIndenting (applyIndenting t' i) i ≠ t' ∧ t'.getLast? ≠ some '\n' :=
  ⟨"a\n".toList, [' '], rfl, by decide, "a\r\nb".toList, by decide, by decide⟩

/-- Removing line feeds, carriage returns and other whitespace. -/
def codeOf (t : List Char) : List Char := t.filter fun c => !isWs c

theorem codeOf_append (a b : List Char) : codeOf (a ++ b) = codeOf a ++ codeOf b :=
  List.filter_append ..

theorem codeOf_nl (a : List Char) : codeOf ('\n' :: a) = codeOf a := by
  simp [codeOf, show isWs '\n' = true by decide]

theorem codeOf_ws (a : List Char) (h : ∀ c ∈ a, isWs c = true) : codeOf a = [] := by
  simpa [codeOf] using h

theorem codeOf_joinNl (ls : List (List Char)) : codeOf (joinNl ls) = ls.flatMap codeOf := by
  induction ls with
  | nil => rfl
  | cons l ls ih =>
    cases ls with
    | nil => simp [joinNl]
    | cons a as =>
      rw [joinNl_cons _ _ (by simp), codeOf_append, codeOf_nl, ih]
      rfl

theorem codeOf_stripCr (l : List Char) : codeOf (stripCr l) = codeOf l := by
  unfold stripCr
  split
  · rename_i h
    rcases List.eq_nil_or_concat l with rfl | ⟨m, c, rfl⟩
    · rfl
    · simp only [List.concat_eq_append, List.getLast?_append, List.getLast?_singleton,
        Option.some_or, Option.some.injEq] at h
      subst h
      rw [List.concat_eq_append, codeOf_append, List.dropLast_concat]
      rw [show codeOf ['\r'] = [] by decide, List.append_nil]
  · rfl

theorem codeOf_lines (t : List Char) : (lines t).flatMap codeOf = codeOf t := by
  rw [lines_eq]
  conv => rhs; rw [← joinNl_splitNl t, codeOf_joinNl]
  generalize splitNl t = ls
  induction ls with
  | nil => rfl
  | cons l ls ih =>
    cases ls with
    | nil =>
      by_cases hl : l = []
      · subst hl
        rfl
      · simp [fixup, hl]
    | cons a as =>
      rw [fixup_cons _ _ (by simp), List.flatMap_cons, List.flatMap_cons, ih, codeOf_stripCr]

/-- Whatever the line endings: applying or removing an indent of whitespace changes nothing
but whitespace. -/
theorem C32_code (t i : List Char) (hi : ∀ c ∈ i, isWs c = true) :
    codeOf (applyIndenting t i) = codeOf t ∧ codeOf (reduceIndenting t i) = codeOf t := by
  have key : ∀ f : List Char → List Char, (∀ l, codeOf (f l) = codeOf l) →
      codeOf (joinLines f (lines t)) = codeOf t := by
    intro f hf
    rw [joinLines_eq, codeOf_joinNl, List.flatMap_map]
    conv => rhs; rw [← codeOf_lines t]
    congr 1
    funext l
    cases l with
    | nil => rfl
    | cons c l => exact hf _
  constructor
  · unfold applyIndenting
    split
    · rfl
    · apply key
      intro l
      rw [codeOf_append, codeOf_ws i hi, List.nil_append]
  · unfold reduceIndenting
    split
    · rfl
    · apply key
      intro l
      cases h : stripIndent i l with
      | none => rfl
      | some r => rw [stripIndent_some i l r h, codeOf_append, codeOf_ws i hi]; rfl

example : applyIndenting "fn f() {\n\n    x\n}".toList "  ".toList =
      "  fn f() {\n\n      x\n  }".toList ∧ Plain "fn f() {\n\n    x\n}".toList := by
  refine ⟨by decide, ⟨fun a b e => ?_, by decide⟩⟩
  have : '\r' ∈ "fn f() {\n\n    x\n}".toList := by rw [e]; simp
  exact absurd this (by decide)

/-! ## C33 -/

/-- The whitespace that precedes an item on its line, given the whitespace token before the
item: what comes after the last line feed. -/
structure IsIndent (ws ind : List Char) : Prop where
  suffix : ∃ pre, ws = pre ++ ind
  sameLine : '\n' ∉ ind
  maximal : ∀ pre c, ws = pre ++ c :: ind → c = '\n'

theorem endIndenting_isIndent (ws ind : List Char) (hw : ∀ c ∈ ws, isWs c = true)
    (h : IsIndent ws ind) : endIndenting ws = ind.reverse := by
  obtain ⟨pre, rfl⟩ := h.suffix
  unfold endIndenting
  rw [List.reverse_append]
  have h1 : ∀ c ∈ ind.reverse, (c != '\n' && isWs c) = true := by
    intro c hc
    rw [List.mem_reverse] at hc
    have : c ≠ '\n' := fun e => h.sameLine (e ▸ hc)
    simp [this, hw c (List.mem_append_right _ hc)]
  rw [List.takeWhile_append_of_pos h1]
  rcases List.eq_nil_or_concat pre with rfl | ⟨m, c, rfl⟩
  · simp
  · have : c = '\n' := h.maximal m c (by simp)
    subst this
    simp

/-- If all the whitespace before the item on its line is of one kind (only tabs, or only
spaces), that exact whitespace is computed.

Missing for the full claim: mixed whitespace, see `C33_negation`. -/
theorem C33_uniform_partial (ws ind : List Char) (hw : ∀ c ∈ ws, isWs c = true)
    (h : IsIndent ws ind) (c : Char) (hu : ∀ d ∈ ind, d = c) :
    itemIndenting (some ws) = some ind := by
  rw [itemIndenting, Option.map_some, endIndenting_isIndent ws ind hw h,
    List.eq_replicate_of_mem hu, List.reverse_replicate]

/-- In general the computed indent is the whitespace before the item in reverse. -/
theorem C33_reversed (ws ind : List Char) (hw : ∀ c ∈ ws, isWs c = true)
    (h : IsIndent ws ind) : itemIndenting (some ws) = some ind.reverse := by
  rw [itemIndenting, Option.map_some, endIndenting_isIndent ws ind hw h]

/-- A line indented with a tab followed by a space gets the indent "space, tab". -/
theorem C33_negation :
    ∃ ws ind : List Char, IsIndent ws ind ∧ (∀ c ∈ ws, isWs c = true) ∧
      itemIndenting (some ws) ≠ some ind := by
  refine ⟨['\n', '\t', ' '], ['\t', ' '], ⟨⟨['\n'], rfl⟩, by decide, ?_⟩, by decide, by decide⟩
  intro pre c e
  cases pre with
  | nil => simp at e; exact e.symm
  | cons a pre =>
    have := congrArg List.length e
    simp at this

/-- The indent for code inserted into an item: twice the item's own indent, or four spaces
for an item that is not indented. Always whitespace. -/
theorem C33_children (prevWs : Option (List Char)) :
    (∀ c ∈ itemChildrenIndenting prevWs, isWs c = true ∧ c ≠ '\n') ∧
    itemChildrenIndenting prevWs ≠ [] := by
  have he : ∀ ws : List Char, ∀ c ∈ endIndenting ws, isWs c = true ∧ c ≠ '\n' := by
    intro ws c hc
    have hall : ∀ l : List Char, ∀ c ∈ l.takeWhile (fun c => c != '\n' && isWs c),
        (c != '\n' && isWs c) = true := by
      intro l
      induction l with
      | nil => simp
      | cons a l ih =>
        intro c hc
        rw [List.takeWhile_cons] at hc
        split at hc
        · rcases List.mem_cons.1 hc with rfl | hc
          · assumption
          · exact ih c hc
        · simp at hc
    have := hall _ c hc
    simpa [and_comm] using this
  unfold itemChildrenIndenting itemIndenting
  cases prevWs with
  | none => exact ⟨by decide, by decide⟩
  | some ws =>
    simp only [Option.map_some]
    split
    · exact ⟨by decide, by decide⟩
    · rename_i h
      refine ⟨?_, by simpa using h⟩
      intro c hc
      rcases List.mem_append.1 hc with hc | hc <;> exact he ws c hc

example : itemIndenting (some "\n\n        ".toList) = some "        ".toList ∧
    itemChildrenIndenting (some "\n\t".toList) = "\t\t".toList := by decide

end Verif.Analyzer
