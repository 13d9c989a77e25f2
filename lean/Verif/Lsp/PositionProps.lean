import Verif.Lsp.PositionLemmas

/-!
# Properties of position translation (C08, C09, C60)
-/

namespace Verif.Lsp

open Spec

/-- "aé\n😀b": one line feed, one two-byte and one four-byte character. -/
def demoText : List Char := ['a', 'é', '\n', '😀', 'b']

/-! ## C08 -/

/-- The position sent for a character boundary is the LSP position of that place: the number of
line feeds before it, and the number of code units since the last one. -/
theorem C08_position (enc : Encoding) (pre post : List Char) :
    toPosition enc (LineIndex.new (pre ++ post)) (utf8Len pre)
      = some ⟨pre.count '\n', unitsOf enc (lastLine pre)⟩ :=
  toPosition_eq enc pre post

/-- The LSP position of a place in the document is read back as that place's offset. -/
theorem C08_offset (bd : Build) (enc : Encoding) (pre post : List Char)
    (hsize : utf8Len (pre ++ post) < 2 ^ 32) :
    fromPosition bd enc (LineIndex.new (pre ++ post))
        ⟨pre.count '\n', unitsOf enc (lastLine pre)⟩
      = .value (some (utf8Len pre)) :=
  fromPosition_eq bd enc pre post hsize

/-- Offset to position and back is the identity on character boundaries. -/
theorem C08_round_trip (bd : Build) (enc : Encoding) (pre post : List Char)
    (hsize : utf8Len (pre ++ post) < 2 ^ 32) :
    ∃ p, toPosition enc (LineIndex.new (pre ++ post)) (utf8Len pre) = some p ∧
      fromPosition bd enc (LineIndex.new (pre ++ post)) p = .value (some (utf8Len pre)) :=
  ⟨_, C08_position enc pre post, C08_offset bd enc pre post hsize⟩

/-- An offset after the end of the document has no position. -/
theorem C08_outside (enc : Encoding) (text : List Char) (o : Nat) (h : utf8Len text < o) :
    toPosition enc (LineIndex.new text) o = none := by
  unfold toPosition LineIndex.tryLineCol
  rw [if_pos (by simpa [LineIndex.new] using h)]
  rfl

example : utf8Len demoText < 2 ^ 32 ∧ demoText = ['a', 'é', '\n', '😀'] ++ ['b'] ∧
    toPosition .utf16 (LineIndex.new demoText) 8 = some ⟨1, 2⟩ ∧
    toPosition .utf8 (LineIndex.new demoText) 8 = some ⟨1, 4⟩ ∧
    toPosition .utf32 (LineIndex.new demoText) 8 = some ⟨1, 1⟩ := by decide

/-! ## C09 -/

theorem addSize_release (x y : Nat) : ∃ o, addSize .release x y = .value o := by
  unfold addSize
  split
  · exact ⟨_, rfl⟩
  · exact ⟨_, rfl⟩

theorem fromPosition_release (enc : Encoding) (ix : LineIndex) (p : Pos) :
    ∃ o, fromPosition .release enc ix p = .value o := by
  unfold fromPosition
  cases clientColumn enc ix p with
  | none => exact ⟨_, rfl⟩
  | some col =>
    cases ix.startOffset p.line with
    | none => exact ⟨_, rfl⟩
    | some start =>
      obtain ⟨o, ho⟩ := addSize_release start col
      simp only [ho]
      exact ⟨_, rfl⟩

theorem fromLspRange_some (bd : Build) (enc : Encoding) (ix : LineIndex) (p q : Pos) (r : Nat × Nat)
    (h : fromLspRange bd enc ix (p, q) = .value (some r)) :
    fromPosition bd enc ix p = .value (some r.1) ∧ fromPosition bd enc ix q = .value (some r.2) ∧
      r.1 ≤ r.2 := by
  unfold fromLspRange at h
  simp only at h
  cases hp : fromPosition bd enc ix p with
  | panic => rw [hp] at h; simp at h
  | value a =>
    cases a with
    | none => rw [hp] at h; simp at h
    | some a =>
      cases hq : fromPosition bd enc ix q with
      | panic => rw [hp, hq] at h; simp at h
      | value b =>
        cases b with
        | none => rw [hp, hq] at h; simp at h
        | some b =>
          rw [hp, hq] at h
          simp only at h
          split at h
          · rename_i hab
            simp only [textRangeNew, hab, if_true] at h
            simp only [Panics.value.injEq, Option.some.injEq] at h
            subst h
            exact ⟨rfl, rfl, hab⟩
          · simp at h

/-- A client range yields nothing, or an ordered range of the offsets of its ends. -/
theorem C09_ordered (bd : Build) (enc : Encoding) (ix : LineIndex) (p q : Pos) (r : Nat × Nat)
    (h : fromLspRange bd enc ix (p, q) = .value (some r)) :
    r.1 ≤ r.2 ∧ fromPosition bd enc ix p = .value (some r.1) ∧
      fromPosition bd enc ix q = .value (some r.2) :=
  have := fromLspRange_some bd enc ix p q r h
  ⟨this.2.2, this.1, this.2.1⟩

/-- Built for release, no client range makes the translation panic. -/
theorem C09_release_total (enc : Encoding) (ix : LineIndex) (p q : Pos) :
    ∃ r, fromLspRange .release enc ix (p, q) = .value r := by
  unfold fromLspRange
  obtain ⟨a, ha⟩ := fromPosition_release enc ix p
  obtain ⟨b, hb⟩ := fromPosition_release enc ix q
  simp only [ha, hb]
  cases a with
  | none => exact ⟨_, rfl⟩
  | some a =>
    cases b with
    | none => exact ⟨_, rfl⟩
    | some b =>
      simp only [textRangeNew]
      split
      · exact ⟨_, rfl⟩
      · exact ⟨_, rfl⟩

/-- An inverted pair of translatable positions is rejected. -/
theorem C09_inverted (bd : Build) (enc : Encoding) (ix : LineIndex) (p q : Pos) (a b : Nat)
    (hp : fromPosition bd enc ix p = .value (some a)) (hq : fromPosition bd enc ix q = .value (some b))
    (hab : b < a) : fromLspRange bd enc ix (p, q) = .value none := by
  simp only [fromLspRange, hp, hq]
  rw [if_neg (by omega)]

/-- In terms of the text: the ends of a non-empty part of the document in inverted order are
rejected. -/
theorem C09_inverted_text (bd : Build) (enc : Encoding) (pre mid post : List Char) (hmid : mid ≠ [])
    (hsize : utf8Len (pre ++ mid ++ post) < 2 ^ 32) :
    fromLspRange bd enc (LineIndex.new (pre ++ mid ++ post)) (posOf enc (pre ++ mid), posOf enc pre)
      = .value none := by
  have h1 := fromPosition_eq bd enc (pre ++ mid) post hsize
  have h2 := fromPosition_eq bd enc pre (mid ++ post) (by simpa using hsize)
  rw [← List.append_assoc] at h2
  unfold fromLspRange
  simp only [h1, h2]
  rw [if_neg]
  rw [utf8Len_append]
  cases mid with
  | nil => exact absurd rfl hmid
  | cons c cs =>
    have := Char.utf8Size_pos c
    simp only [utf8Len]
    omega

/-- A range of the document survives the way to the client and back. -/
theorem C09_round_trip (bd : Build) (enc : Encoding) (pre mid post : List Char)
    (hsize : utf8Len (pre ++ mid ++ post) < 2 ^ 32) :
    ∃ r, toLspRange enc (LineIndex.new (pre ++ mid ++ post))
          (utf8Len pre, utf8Len pre + utf8Len mid) = some r ∧
      fromLspRange bd enc (LineIndex.new (pre ++ mid ++ post)) r
        = .value (some (utf8Len pre, utf8Len pre + utf8Len mid)) := by
  have h1 := fromPosition_eq bd enc (pre ++ mid) post hsize
  have h2 := fromPosition_eq bd enc pre (mid ++ post) (by simpa using hsize)
  have h3 := toPosition_eq enc (pre ++ mid) post
  have h4 := toPosition_eq enc pre (mid ++ post)
  rw [← List.append_assoc] at h2 h4
  rw [utf8Len_append] at h1 h3
  refine ⟨(posOf enc pre, posOf enc (pre ++ mid)), ?_, ?_⟩
  · simp only [toLspRange, h3, h4]
  · simp only [fromLspRange, h1, h2, textRangeNew, Nat.le_add_right, if_true]

theorem lastLine_append (a b : List Char) :
    lastLine (a ++ b) = if '\n' ∈ b then lastLine b else lastLine a ++ b := by
  induction b using rev_ind with
  | h0 => simp
  | h1 l c ih =>
    rw [← List.append_assoc, lastLine_snoc, lastLine_snoc, ih]
    by_cases hc : c = '\n'
    · simp [hc]
    · have hc' : ¬ '\n' = c := fun e => hc e.symm
      by_cases hl : '\n' ∈ l <;> simp [hc, hc', hl]

theorem unitsOf_append (enc : Encoding) (a b : List Char) :
    unitsOf enc (a ++ b) = unitsOf enc a + unitsOf enc b := by
  simp [unitsOf]

/-- A place later in the document has a later position. -/
theorem C09_monotone (enc : Encoding) (pre mid post : List Char) (hmid : mid ≠ []) :
    ∃ p q, toPosition enc (LineIndex.new (pre ++ mid ++ post)) (utf8Len pre) = some p ∧
      toPosition enc (LineIndex.new (pre ++ mid ++ post)) (utf8Len (pre ++ mid)) = some q ∧
      Pos.le p q ∧ p ≠ q := by
  have h3 := toPosition_eq enc (pre ++ mid) post
  have h4 := toPosition_eq enc pre (mid ++ post)
  rw [← List.append_assoc] at h4
  refine ⟨_, _, h4, h3, ?_, ?_⟩
  · unfold Pos.le
    simp only [posOf, List.count_append, lastLine_append]
    by_cases hm : '\n' ∈ mid
    · left
      have := List.count_pos_iff.mpr hm
      omega
    · right
      rw [List.count_eq_zero.mpr hm]
      simp [hm, unitsOf_append]
  · intro heq
    simp only [posOf, Pos.mk.injEq, List.count_append, lastLine_append] at heq
    have hm : '\n' ∉ mid := List.count_eq_zero.mp (by omega)
    simp only [hm, if_false, unitsOf_append] at heq
    cases mid with
    | nil => exact hmid rfl
    | cons c cs =>
      have := units_pos enc c
      rw [unitsOf_cons] at heq
      omega

example : utf8Len (['a', 'é'] ++ ['\n', '😀'] ++ ['b']) < 2 ^ 32 ∧
    fromLspRange .debug .utf16 (LineIndex.new demoText) (⟨0, 2⟩, ⟨1, 2⟩) = .value (some (3, 8)) ∧
    fromLspRange .debug .utf16 (LineIndex.new demoText) (⟨1, 2⟩, ⟨0, 2⟩) = .value none := by decide

/-! ## C60 -/

/-- A position after the end of its line, or even of the document, is accepted and gives an offset
outside of the document. -/
theorem C60_negation :
    ¬ ∀ (bd : Build) (enc : Encoding) (text : List Char) (p : Pos) (o : Nat),
      fromPosition bd enc (LineIndex.new text) p = .value (some o) → o ≤ utf8Len text := by
  intro h
  have := h .debug .utf16 ['a'] ⟨0, 5⟩ 5 (by decide)
  revert this
  decide

/-- In UTF-8, a column inside a multi-byte character is accepted and gives an offset which is not
a character boundary. -/
theorem C60_boundary_negation :
    ¬ ∀ (bd : Build) (enc : Encoding) (text : List Char) (p : Pos) (o : Nat),
      fromPosition bd enc (LineIndex.new text) p = .value (some o) → o ≤ utf8Len text →
      ∃ pre post, text = pre ++ post ∧ o = utf8Len pre := by
  intro h
  obtain ⟨pre, post, h1, h2⟩ := h .debug .utf8 ['é'] ⟨0, 1⟩ 1 (by decide) (by decide)
  cases pre with
  | nil => simp [utf8Len] at h2
  | cons c cs =>
    simp only [List.cons_append, List.cons.injEq] at h1
    have hc : c.utf8Size = 2 := by rw [← h1.1]; decide
    simp only [utf8Len, hc] at h2
    omega

/-- With overflow checks on, a client range can crash the translation: a range ending at the
largest column of the second line of a two-line document. -/
theorem C60_overflow_negation :
    ¬ ∀ (enc : Encoding) (text : List Char) (p q : Pos),
      p.line < 2 ^ 32 → p.character < 2 ^ 32 → q.line < 2 ^ 32 → q.character < 2 ^ 32 →
      ∃ r, fromLspRange .debug enc (LineIndex.new text) (p, q) = .value r := by
  intro h
  obtain ⟨r, hr⟩ := h .utf8 ['\n'] ⟨0, 0⟩ ⟨1, 2 ^ 32 - 1⟩ (by decide) (by decide) (by decide) (by decide)
  have : fromLspRange .debug .utf8 (LineIndex.new ['\n']) (⟨0, 0⟩, ⟨1, 2 ^ 32 - 1⟩) = .panic := by
    decide
  rw [this] at hr
  cases hr

/-- With overflow checks on, the translation succeeds or rejects the range whenever the columns of
its ends do not exceed `2 ^ 31` and neither does the document. Missing for the full claim: columns
beyond that. -/
theorem C60_overflow_partial (text : List Char) (p q : Pos) (ht : utf8Len text < 2 ^ 31)
    (hp : p.character ≤ 2 ^ 31) (hq : q.character ≤ 2 ^ 31) :
    ∃ r, fromLspRange .debug .utf8 (LineIndex.new text) (p, q) = .value r := by
  have key : ∀ p : Pos, p.character ≤ 2 ^ 31 →
      ∃ o, fromPosition .debug .utf8 (LineIndex.new text) p = .value o := by
    intro p hp
    unfold fromPosition
    simp only [clientColumn, Encoding.wide?]
    cases hs : (LineIndex.new text).startOffset p.line with
    | none => exact ⟨_, rfl⟩
    | some start =>
      have hle : start ≤ utf8Len text := by
        cases hl : p.line with
        | zero => rw [hl] at hs; simp [LineIndex.startOffset] at hs; omega
        | succ k =>
          rw [hl] at hs
          simp only [LineIndex.startOffset, LineIndex.new] at hs
          have := newlineTable_bounds text 0 start (List.mem_of_getElem? hs)
          omega
      simp only [addSize]
      rw [if_pos (by omega)]
      exact ⟨_, rfl⟩
  obtain ⟨a, ha⟩ := key p hp
  obtain ⟨b, hb⟩ := key q hq
  unfold fromLspRange
  simp only [ha, hb]
  cases a with
  | none => exact ⟨_, rfl⟩
  | some a =>
    cases b with
    | none => exact ⟨_, rfl⟩
    | some b =>
      simp only [textRangeNew]
      split
      · exact ⟨_, rfl⟩
      · exact ⟨_, rfl⟩

/-- Offsets made from client columns stay in the range of the offsets: columns which do not fit are
rejected, and with overflow checks on an accepted position is its column counted from the start of
its line. -/
theorem C60_fits (bd : Build) (enc : Encoding) (text : List Char) (p : Pos)
    (hp : p.character < 2 ^ 32) :
    (∀ c, clientColumn enc (LineIndex.new text) p = some c → p.character ≤ c ∧ c < 2 ^ 32) ∧
    ∀ o, fromPosition bd enc (LineIndex.new text) p = .value (some o) → o < 2 ^ 32 ∧
      (bd = .debug → ∃ start c, (LineIndex.new text).startOffset p.line = some start ∧
        clientColumn enc (LineIndex.new text) p = some c ∧ o = start + c) := by
  have key : ∀ w cs col c, col < 2 ^ 32 → toUtf8Loop w cs col = some c → col ≤ c ∧ c < 2 ^ 32 := by
    intro w cs
    induction cs with
    | nil =>
      intro col c hc h
      obtain rfl := Option.some.inj h
      exact ⟨Nat.le_refl _, hc⟩
    | cons x cs ih =>
      intro col c hc h
      rw [toUtf8Loop] at h
      split at h
      · split at h
        · rename_i hlt
          have := ih _ c hlt h
          omega
        · cases h
      · obtain rfl := Option.some.inj h
        exact ⟨Nat.le_refl _, hc⟩
  refine ⟨?_, ?_⟩
  · intro c h
    unfold clientColumn at h
    split at h
    · exact key _ _ _ _ hp h
    · obtain rfl := Option.some.inj h
      exact ⟨Nat.le_refl _, hp⟩
  · intro o h
    unfold fromPosition at h
    split at h
    · cases h
    · rename_i col hcol
      split at h
      · cases h
      · rename_i start hstart
        unfold addSize at h
        by_cases hlt : start + col < 2 ^ 32
        · rw [if_pos hlt] at h
          simp only [Panics.value.injEq, Option.some.injEq] at h
          exact ⟨by omega, fun _ => ⟨start, col, hstart, hcol, h.symm⟩⟩
        · rw [if_neg hlt] at h
          cases bd with
          | debug => cases h
          | release =>
            simp only [Panics.value.injEq, Option.some.injEq] at h
            exact ⟨by omega, fun h => by cases h⟩

/-- A column which fits and one which does not: after an emoji, the last UTF-16 column. -/
example : clientColumn .utf16 (LineIndex.new ['😀']) ⟨0, 2⟩ = some 4 ∧
    clientColumn .utf16 (LineIndex.new ['😀']) ⟨0, 2 ^ 32 - 1⟩ = none := by decide

theorem startOffset_none (text : List Char) (l : Nat) :
    (LineIndex.new text).startOffset l = none ↔ text.count '\n' < l := by
  cases l with
  | zero => simp [LineIndex.startOffset]
  | succ k =>
    simp only [LineIndex.startOffset, LineIndex.new, List.getElem?_eq_none_iff, newlineTable_length]
    omega

/-- A position in a line which the document does not have is rejected. Missing for the full claim:
columns after the end of the line, which are accepted (`C60_negation`). -/
theorem C60_line_partial (bd : Build) (enc : Encoding) (text : List Char) (p : Pos)
    (h : text.count '\n' < p.line) :
    fromPosition bd enc (LineIndex.new text) p = .value none := by
  unfold fromPosition
  cases clientColumn enc (LineIndex.new text) p with
  | none => rfl
  | some col => simp only [(startOffset_none text p.line).mpr h]

/-- A position which is that of some place in the document is accepted, and gives a character
boundary inside of the document. Missing for the full claim: as above. -/
theorem C60_inside_partial (bd : Build) (enc : Encoding) (text : List Char) (p : Pos)
    (hsize : utf8Len text < 2 ^ 32)
    (h : ∃ pre post, text = pre ++ post ∧ p = ⟨pre.count '\n', unitsOf enc (lastLine pre)⟩) :
    ∃ o pre post, fromPosition bd enc (LineIndex.new text) p = .value (some o) ∧
      text = pre ++ post ∧ o = utf8Len pre ∧ o ≤ utf8Len text := by
  obtain ⟨pre, post, rfl, rfl⟩ := h
  exact ⟨_, pre, post, fromPosition_eq bd enc pre post hsize, rfl, rfl, by
    rw [utf8Len_append]; omega⟩

example : demoText.count '\n' < 2 ∧
    (∃ pre post, demoText = pre ++ post ∧
      (⟨1, 2⟩ : Pos) = ⟨pre.count '\n', unitsOf .utf16 (lastLine pre)⟩) :=
  ⟨by decide, ['a', 'é', '\n', '😀'], ['b'], by decide, by decide⟩

end Verif.Lsp
