import Verif.Lsp.Crash
import Verif.Lsp.PositionProps
import Verif.Ir.TokenProps

/-!
# C116: which positions make a request panic
-/

namespace Verif.Lsp.Crash

open Verif.Ir.Token Verif.Lsp.Spec

/-! ## Lemmas -/

theorem bytes_eq (cs : List Char) : bytes cs = utf8Len cs := by
  induction cs with
  | nil => rfl
  | cons c cs ih => simp [bytes, utf8Len, ih]

/-- A column inside a line stays inside the line. -/
theorem toUtf8Loop_le (enc : WideEncoding) (e : Encoding) (he : e.wide? = some enc)
    (line : List Char) (c0 col : Nat) (hb : c0 + utf8Len line < 2 ^ 32)
    (h : col ≤ c0 + unitsOf e line) :
    ∃ r, toUtf8Loop enc (wideOf line c0) col = some r ∧ r ≤ c0 + utf8Len line := by
  induction line generalizing c0 col with
  | nil => exact ⟨col, rfl, by simpa [unitsOf, utf8Len] using h⟩
  | cons c cs ih =>
    simp only [wideOf, utf8Len, unitsOf_cons] at hb h ⊢
    have hle := units_le e c
    have hcs := unitsOf_le e cs
    by_cases hw : 1 < c.utf8Size
    · rw [if_pos hw]
      simp only [toUtf8Loop]
      rw [wideLen_eq enc e he]
      simp only [WideChar.len, Nat.add_sub_cancel_left]
      by_cases hc : col > c0
      · rw [if_pos hc, if_pos (by omega)]
        obtain ⟨r, h1, h2⟩ := ih (c0 + c.utf8Size) (col + (c.utf8Size - units e c)) (by omega) (by omega)
        exact ⟨r, h1, by omega⟩
      · rw [if_neg hc]
        exact ⟨col, rfl, by omega⟩
    · rw [if_neg hw]
      have hu := units_ascii e c hw
      obtain ⟨r, h1, h2⟩ := ih (c0 + c.utf8Size) col (by omega) (by omega)
      exact ⟨r, h1, by omega⟩

/-- A column after the end of a line stays as far after it. -/
theorem toUtf8Loop_beyond (enc : WideEncoding) (e : Encoding) (he : e.wide? = some enc)
    (line : List Char) (c0 k : Nat) (hb : c0 + utf8Len line + k < 2 ^ 32) :
    toUtf8Loop enc (wideOf line c0) (c0 + unitsOf e line + k) = some (c0 + utf8Len line + k) := by
  induction line generalizing c0 with
  | nil => simp [wideOf, unitsOf, utf8Len, toUtf8Loop]
  | cons c cs ih =>
    simp only [wideOf, utf8Len, unitsOf_cons] at hb ⊢
    have hle := units_le e c
    have hpos := units_pos e c
    have hcs := unitsOf_le e cs
    by_cases hw : 1 < c.utf8Size
    · rw [if_pos hw]
      simp only [toUtf8Loop]
      rw [wideLen_eq enc e he]
      simp only [WideChar.len, Nat.add_sub_cancel_left]
      rw [if_pos (by omega), if_pos (by omega)]
      have := ih (c0 + c.utf8Size) (by omega)
      rw [show c0 + (units e c + unitsOf e cs) + k + (c.utf8Size - units e c)
        = c0 + c.utf8Size + unitsOf e cs + k by omega, this]
      congr 1; omega
    · rw [if_neg hw]
      have hu := units_ascii e c hw
      have := ih (c0 + c.utf8Size) (by omega)
      rw [show c0 + (units e c + unitsOf e cs) + k = c0 + c.utf8Size + unitsOf e cs + k by omega, this]
      congr 1; omega

/-! ## Specification -/

/-- A line of the text ends where `before` ends and `after` starts. -/
def LineEnd (text before after : List Char) : Prop :=
  text = before ++ after ∧ (after = [] ∨ ∃ rest, after = '\n' :: rest)

theorem lineEnd_takeWhile {text before after : List Char} (h : LineEnd text before after) :
    after.takeWhile (· ≠ '\n') = [] := by
  rcases h.2 with h | ⟨rest, h⟩ <;> simp [h]

/-- Where a position on an existing line is taken to be. -/
theorem fromPosition_on (bd : Build) (enc : Encoding) (text before after : List Char) (c : Nat)
    (hl : LineEnd text before after) (hsize : utf8Len text + c < 2 ^ 32) :
    ∃ o, fromPosition bd enc (LineIndex.new text) ⟨before.count '\n', c⟩ = .value (some o) ∧
      (c ≤ unitsOf enc (lastLine before) → o ≤ utf8Len before) ∧
      (unitsOf enc (lastLine before) ≤ c →
        o + unitsOf enc (lastLine before) = utf8Len before + c) := by
  have htw := lineEnd_takeWhile hl
  obtain ⟨rfl, _⟩ := hl
  rw [utf8Len_append] at hsize
  have hla := lastLine_le before
  have hul := unitsOf_le enc (lastLine before)
  have hcol : ∃ col, clientColumn enc (LineIndex.new (before ++ after)) ⟨before.count '\n', c⟩ = some col ∧
      (c ≤ unitsOf enc (lastLine before) → col ≤ utf8Len (lastLine before)) ∧
      (unitsOf enc (lastLine before) ≤ c →
        col + unitsOf enc (lastLine before) = utf8Len (lastLine before) + c) := by
    unfold clientColumn
    cases hw : enc.wide? with
    | none =>
      have : enc = .utf8 := by cases enc <;> simp [Encoding.wide?] at hw ⊢
      subst this
      rw [unitsOf_utf8]
      exact ⟨c, rfl, id, fun _ => by omega⟩
    | some w =>
      have hwt : (LineIndex.new (before ++ after)).wide (before.count '\n') = wideOf (lastLine before) 0 := by
        have := wideTable_eq before after 0 0
        rw [htw] at this
        simpa [LineIndex.new] using this
      simp only [hwt]
      by_cases hc : c ≤ unitsOf enc (lastLine before)
      · obtain ⟨r, h1, h2⟩ := toUtf8Loop_le w enc hw (lastLine before) 0 c (by omega) (by omega)
        refine ⟨r, h1, fun _ => by omega, fun hge => ?_⟩
        have heq : c = unitsOf enc (lastLine before) := by omega
        have := toUtf8Loop_beyond w enc hw (lastLine before) 0 0 (by omega)
        simp only [Nat.zero_add, Nat.add_zero] at this
        rw [heq, this] at h1
        have := Option.some.inj h1
        omega
      · have := toUtf8Loop_beyond w enc hw (lastLine before) 0 (c - unitsOf enc (lastLine before)) (by omega)
        rw [show 0 + unitsOf enc (lastLine before) + (c - unitsOf enc (lastLine before)) = c by omega] at this
        exact ⟨_, this, fun h => absurd h hc, fun _ => by omega⟩
  obtain ⟨col, h1, h2, h3⟩ := hcol
  have hstart := startOffset_eq before after
  have hle : col ≤ utf8Len (lastLine before) + c := by
    by_cases hc : c ≤ unitsOf enc (lastLine before)
    · have := h2 hc; omega
    · have := h3 (by omega); omega
  refine ⟨utf8Len before - utf8Len (lastLine before) + col, ?_, fun hc => ?_, fun hc => ?_⟩
  · unfold fromPosition
    simp only [h1, hstart, addSize]
    rw [if_pos (by omega)]
  · have := h2 hc; omega
  · have := h3 hc; omega

theorem atOffset_panic {α : Type} (file : List Tok) (o : Nat) (rest : AtOffset → Answer α)
    (hrest : ∀ a, rest a ≠ .panic) :
    atOffset file o rest = .panic ↔ utf8Len (textOf file) < o := by
  unfold atOffset tokenAt
  rw [bytes_eq]
  change _ ↔ utf8Len (file.flatMap Tok.text) < o
  by_cases h : o ≤ utf8Len (file.flatMap Tok.text)
  · rw [if_pos h]
    exact ⟨fun g => absurd g (hrest _), fun g => absurd h (by omega)⟩
  · rw [if_neg h]
    exact ⟨fun _ => by omega, fun _ => rfl⟩

theorem withRange_point {α : Type} (bd : Build) (ctx : Context) (p : Pos) (o : Nat)
    (h : fromPosition bd ctx.encoding (LineIndex.new ctx.text) p = .value (some o))
    (f : Nat × Nat → Answer α) : withRange bd ctx (p, p) f = f (o, o) := by
  simp [withRange, fromLspRange, h, textRangeNew]

/-! ## C116 -/

/-- Exactly which positions on a line of the document panic: those whose column is further after the
end of the line than the document has bytes after it. This holds for completion, signature help,
hover and code actions at a position, for every encoding. -/
theorem C116_column {α : Type} (bd : Build) (ctx : Context) (file : List Tok)
    (before after : List Char) (c : Nat)
    (hfile : textOf file = ctx.text) (hl : LineEnd ctx.text before after)
    (hsize : utf8Len ctx.text + c < 2 ^ 32)
    (rest : AtOffset → Answer α) (hrest : ∀ a, rest a ≠ .panic)
    (restF : Focus → Answer α) (hrestF : ∀ a, restF a ≠ .panic) :
    let p : Pos := ⟨before.count '\n', c⟩
    let crash := unitsOf ctx.encoding (lastLine before) + utf8Len after < c
    (completionRequest bd ctx file rest p = .panic ↔ crash) ∧
    (signatureRequest bd ctx file rest p = .panic ↔ crash) ∧
    (hoverRequest bd ctx file restF p = .panic ↔ crash) ∧
    (actionRequest bd ctx file restF (p, p) = .panic ↔ crash) := by
  intro p crash
  obtain ⟨o, ho, h1, h2⟩ := fromPosition_on bd ctx.encoding ctx.text before after c hl hsize
  have hlen : utf8Len ctx.text = utf8Len before + utf8Len after := by rw [hl.1, utf8Len_append]
  have hkey : utf8Len (textOf file) < o ↔ crash := by
    rw [hfile, hlen]
    show _ ↔ unitsOf ctx.encoding (lastLine before) + utf8Len after < c
    by_cases hc : c ≤ unitsOf ctx.encoding (lastLine before)
    · have := h1 hc; omega
    · have := h2 (by omega); omega
  have hp := atOffset_panic file o rest hrest
  have hpF := atOffset_panic file o (fun a => restF (.token a)) (fun a => hrestF _)
  refine ⟨?_, ?_, ?_, ?_⟩
  · simp only [completionRequest, withOffset, p, ho, completions]
    exact hp.trans hkey
  · simp only [signatureRequest, withOffset, p, ho, signatureHelp]
    exact hp.trans hkey
  · simp only [hoverRequest, withOffset, p, ho, hover, focused, if_true]
    exact hpF.trans hkey
  · rw [actionRequest, withRange_point bd ctx p o ho]
    simp only [actions, focused, if_true]
    exact hpF.trans hkey

/-- The two-line document `é`, `b` in two tokens: on the first line (one unit, then two bytes) a
column of four panics, a column of three does not. -/
example :
    let file : List Tok := [⟨false, ['é']⟩, ⟨true, ['\n']⟩, ⟨false, ['b']⟩]
    let ctx : Context := ⟨.utf16, ['é', '\n', 'b']⟩
    textOf file = ctx.text ∧ LineEnd ctx.text ['é'] ['\n', 'b'] ∧ utf8Len ctx.text + 4 < 2 ^ 32 ∧
      completionRequest (α := Unit) .release ctx file (fun _ => .ok ()) ⟨0, 4⟩ = .panic ∧
      completionRequest (α := Unit) .release ctx file (fun _ => .ok ()) ⟨0, 3⟩ = .ok () :=
  ⟨rfl, ⟨rfl, .inr ⟨_, rfl⟩⟩, by decide, by decide, by decide⟩

/-- At a place of the document the lookup succeeds, and the request is answered with what is computed
from the tokens at that place. -/
theorem C116_place {α : Type} (bd : Build) (ctx : Context) (file : List Tok) (pre post : List Char)
    (hfile : textOf file = ctx.text) (htext : ctx.text = pre ++ post)
    (hsize : utf8Len ctx.text < 2 ^ 32)
    (rest : AtOffset → Answer α) (restF : Focus → Answer α) :
    ∃ a, tokenAt file (utf8Len pre) = some a ∧
      completionRequest bd ctx file rest (posOf ctx.encoding pre) = rest a ∧
      signatureRequest bd ctx file rest (posOf ctx.encoding pre) = rest a ∧
      hoverRequest bd ctx file restF (posOf ctx.encoding pre) = restF (.token a) ∧
      actionRequest bd ctx file restF (posOf ctx.encoding pre, posOf ctx.encoding pre)
        = restF (.token a) := by
  have ho := fromPosition_eq bd ctx.encoding pre post (htext ▸ hsize)
  rw [← htext] at ho
  have hin : utf8Len pre ≤ bytes (textOf file) := by
    rw [bytes_eq, hfile, htext, utf8Len_append]; omega
  obtain ⟨a, ha⟩ : ∃ a, tokenAt file (utf8Len pre) = some a := by
    unfold tokenAt
    rw [if_pos (show _ ≤ bytes (file.flatMap Tok.text) from hin)]
    exact ⟨_, rfl⟩
  have hat : ∀ (f : AtOffset → Answer α), atOffset file (utf8Len pre) f = f a := by
    intro f; simp [atOffset, ha]
  refine ⟨a, ha, ?_, ?_, ?_, ?_⟩
  · simp [completionRequest, withOffset, ho, completions, hat]
  · simp [signatureRequest, withOffset, ho, signatureHelp, hat]
  · simp [hoverRequest, withOffset, ho, hover, focused, hat]
  · rw [actionRequest, withRange_point bd ctx _ _ ho]
    simp [actions, focused, hat]

example :
    let file : List Tok := [⟨false, ['é']⟩, ⟨true, ['\n']⟩, ⟨false, ['b']⟩]
    let ctx : Context := ⟨.utf16, ['é', '\n', 'b']⟩
    textOf file = ctx.text ∧ ctx.text = ['é', '\n'] ++ ['b'] ∧ utf8Len ctx.text < 2 ^ 32 :=
  ⟨rfl, rfl, by decide⟩

/-- A line the document does not have is answered with an error. -/
theorem C116_line {α : Type} (bd : Build) (ctx : Context) (file : List Tok) (p : Pos)
    (h : ctx.text.count '\n' < p.line)
    (rest : AtOffset → Answer α) (restF : Focus → Answer α) :
    completionRequest bd ctx file rest p = .error "Invalid offset." ∧
    signatureRequest bd ctx file rest p = .error "Invalid offset." ∧
    hoverRequest bd ctx file restF p = .error "Invalid offset." ∧
    ∀ q, actionRequest bd ctx file restF (p, q) = .error "Invalid range." := by
  have ho := C60_line_partial bd ctx.encoding ctx.text p h
  refine ⟨?_, ?_, ?_, fun q => ?_⟩
  · simp [completionRequest, withOffset, ho]
  · simp [signatureRequest, withOffset, ho]
  · simp [hoverRequest, withOffset, ho]
  · simp [actionRequest, withRange, fromLspRange, ho]

example : (['a', '\n', 'b'] : List Char).count '\n' < (⟨2, 0⟩ : Pos).line := by decide

/-- A selection panics (release build) only if it is empty and outside the document: both of its ends
are taken to be the same offset after the end of the document. -/
theorem C116_selection {α : Type} (ctx : Context) (file : List Tok) (p q : Pos)
    (hfile : textOf file = ctx.text)
    (restF : Focus → Answer α) (hrestF : ∀ a, restF a ≠ .panic) :
    actionRequest .release ctx file restF (p, q) = .panic ↔
      ∃ o, utf8Len ctx.text < o ∧
        fromPosition .release ctx.encoding (LineIndex.new ctx.text) p = .value (some o) ∧
        fromPosition .release ctx.encoding (LineIndex.new ctx.text) q = .value (some o) := by
  constructor
  · intro h
    obtain ⟨r, hr⟩ := C09_release_total ctx.encoding (LineIndex.new ctx.text) p q
    simp only [actionRequest, withRange, hr] at h
    cases r with
    | none => simp at h
    | some r =>
      obtain ⟨h1, h2, h3⟩ := fromLspRange_some .release ctx.encoding _ p q r hr
      simp only [actions, focused] at h
      by_cases he : r.1 = r.2
      · rw [if_pos he] at h
        have := (atOffset_panic file r.1 _ (fun a => hrestF _)).mp h
        rw [hfile] at this
        exact ⟨r.1, this, h1, he ▸ h2⟩
      · rw [if_neg he] at h
        by_cases hin : r.2 ≤ bytes (file.flatMap Tok.text)
        · rw [if_pos hin] at h; exact absurd h (hrestF _)
        · rw [if_neg hin] at h; exact absurd h (hrestF _)
  · rintro ⟨o, ho, h1, h2⟩
    have : fromLspRange .release ctx.encoding (LineIndex.new ctx.text) (p, q) = .value (some (o, o)) := by
      simp [fromLspRange, h1, h2, textRangeNew]
    simp only [actionRequest, withRange, this, actions, focused, if_true]
    exact (atOffset_panic file o _ (fun a => hrestF _)).mpr (by rwa [hfile])

/-- The claim is false of the code: LSP lets a client send a column after the end of the line, which
means the end of the line. In the document `a` the column 5 makes completion, signature help, hover
and code actions panic. -/
theorem C116_negation :
    ¬ ∀ (ctx : Context) (file : List Tok) (p : Pos), textOf file = ctx.text →
      utf8Len ctx.text < 2 ^ 32 → p.line ≤ ctx.text.count '\n' → p.character < 2 ^ 16 →
      completionRequest (α := Unit) .release ctx file (fun _ => .ok ()) p ≠ .panic := by
  intro h
  exact h ⟨.utf16, ['a']⟩ [⟨false, ['a']⟩] ⟨0, 5⟩ rfl (by decide) (by decide) (by decide) (by decide)

end Verif.Lsp.Crash
