import Verif.Analyzer.CompleteEntity
import Verif.Analyzer.CompleteProps

/-!
# C83: completions of ink! entities
-/

namespace Verif.Analyzer.CompleteEntity

open Verif.Ir Verif.Analyzer.Complete
open Verif.Ir.Token (bytes bytes_append)

/-! ## Specification -/

/-- The characters are white space. -/
def Blank (t : List Char) : Prop := ∀ x ∈ t, isWs x = true

/-- The tokens of the line of the token in focus: `before` and `after` it there are only tokens without
newlines, up to whitespace with a newline above and whitespace or a comment with a newline below (or the
start or end of the file). If the token in focus has a newline itself, it is whitespace. -/
structure OneLine (c : Cursor) (above before after below : List CTok) : Prop where
  left : c.left.reverse = above ++ before
  right : c.right = after ++ below
  inline : ∀ t ∈ before ++ after, '\n' ∉ t.text
  up : above = [] ∨ ∃ a w, above = a ++ [w] ∧ w.kind = .whitespace ∧ '\n' ∈ w.text ∧ Blank w.text
  down : below = [] ∨ ∃ w b, below = w :: b ∧ '\n' ∈ w.text ∧
    (w.kind = .whitespace ∧ Blank w.text ∨ w.kind = .comment)
  focus : '\n' ∉ c.text ∨ c.kind = .whitespace ∧ Blank c.text
  full : c.text ≠ []

/-- The words on the line of the cursor. (If the token in focus has newlines, the line starts behind, or
ends in front of, one of them.) -/
def words (c : Cursor) (before after : List CTok) : List (List Char) :=
  (Complete.solid ((if '\n' ∈ c.pre then [] else before) ++ c.focus :: (if '\n' ∈ c.post then [] else after))).map
    CTok.text

/-- The line has no words, or one of its words is a part of a keyword. -/
def Mentions (ws : List (List Char)) (keywords : List String) : Prop :=
  ws = [] ∨ ∃ w ∈ ws, w ≠ [] ∧ ∃ k ∈ keywords, ∃ a b, k.toList = a ++ w ++ b

/-- The keywords of an entity. -/
def keywords : Entity → List String
  | .contract => ["mod", "contract"]
  | .storage => ["struct", "storage"]
  | .event | .eventV2 => ["struct", "event"]
  | .test => ["fn", "test"]
  | .e2eTest => ["async", "fn", "test", "e2e"]
  | .constructor => ["fn", "constructor", "new"]
  | .message | .traitMessage => ["fn", "message"]
  | .errorCode => ["type", "error", "code", "ErrorCode"]
  | .extension => ["fn", "extension", "function"]
  | .topic => []
  | .traitDef => ["trait", "definition", "trait_definition"]
  | .chainExtension => ["trait", "chain", "extension", "chain_extension"]
  | .combineExtensions => ["ink", "combine", "extensions", "combine_extensions"]
  | .storageItem => ["struct", "enum", "storage", "item", "storage_item"]
  | .environment => ["struct", "enum", "environment", "derive", "scale", "scale_derive", "scale_info",
      "encode", "decode", "type", "info", "type_info"]

/-- Where an entity belongs: `none` is the root of the file. -/
inductive Belongs : Option Around → Entity → Prop
  | contract : Belongs none .contract
  | traitDef : Belongs none .traitDef
  | chainExtension : Belongs none .chainExtension
  | combineExtensions : Belongs none .combineExtensions
  | storageItem : Belongs none .storageItem
  | environment : Belongs none .environment
  | rootEvent : Belongs none .eventV2
  | eventV2 (s) : Belongs (some (.contract s)) .eventV2
  | event (s) : Belongs (some (.contract s)) .event
  | storage : Belongs (some (.contract false)) .storage
  | test (e) : Belongs (some (.mod true e)) .test
  | e2eTest (t) : Belongs (some (.mod t true)) .e2eTest
  | constructor (i k) : i = true ∨ k = true → Belongs (some (.impl false i k)) .constructor
  | message (i k) : i = true ∨ k = true → Belongs (some (.impl false i k)) .message
  | traitMessage : Belongs (some .traitDef) .traitMessage
  | errorCode : Belongs (some (.chainExtension false)) .errorCode
  | extension (e) : Belongs (some (.chainExtension e)) .extension
  | topic : Belongs (some (.struct true)) .topic

/-- The items around the cursor that count: on a line without words and in a struct field all of them,
otherwise those around the innermost one, which is being written. -/
def outer (c : Cursor) (before after : List CTok) (x : Ctx) : List (Around × Nat) :=
  if x.recordField = true ∨ c.kind = .whitespace ∧ words c before after = [] then x.items
  else x.items.tail

/-- The innermost item around the cursor goes on behind the line. -/
def GoesOn (c : Cursor) (before after : List CTok) (x : Ctx) : Prop :=
  ∃ a stop more, x.items = (a, stop) :: more ∧ outer c before after x = more ∧
    stop > (if '\n' ∈ c.post then c.stop else c.stop + bytes (textOf after)) ∧
    ¬ (x.recordField = true ∨ c.kind = .whitespace ∧ words c before after = [])

/-- Entities of which there is at most one. -/
def Single : Entity → Prop
  | .contract | .storage => True
  | _ => False

/-! ## Lemmas -/

theorem indent_split (ws : List Char) (hb : Blank ws) (hn : '\n' ∈ ws) :
    ∃ l ind, ws = l ++ ind ∧ (∃ l', l = l' ++ ['\n']) ∧ '\n' ∉ ind ∧ Blank ind ∧
      endIndenting ws = ind.reverse := by
  have key : ∀ r : List Char, Blank r → '\n' ∈ r →
      ∃ a b, r = a ++ '\n' :: b ∧ '\n' ∉ a ∧ r.takeWhile (fun c => c != '\n' && isWs c) = a := by
    intro r hb hn
    induction r with
    | nil => simp at hn
    | cons x r ih =>
      by_cases hx : x = '\n'
      · subst hx
        exact ⟨[], r, rfl, by simp, by rw [List.takeWhile_cons_of_neg (by simp)]⟩
      · have : '\n' ∈ r := by
          rcases List.mem_cons.1 hn with h | h
          · exact absurd h.symm hx
          · exact h
        obtain ⟨a, b, h1, h2, h3⟩ := ih (fun y hy => hb y (by simp [hy])) this
        refine ⟨x :: a, b, by rw [h1]; rfl, ?_, ?_⟩
        · simp only [List.mem_cons, not_or]
          exact ⟨fun h => hx h.symm, h2⟩
        · rw [List.takeWhile_cons_of_pos (by simp [hx, hb x (by simp)]), h3]
  obtain ⟨a, b, h1, h2, h3⟩ := key ws.reverse (fun y hy => hb y (by simpa using hy)) (by simpa using hn)
  have hw : ws = b.reverse ++ ['\n'] ++ a.reverse := by
    have := congrArg List.reverse h1
    simpa using this
  refine ⟨b.reverse ++ ['\n'], a.reverse, hw, ⟨_, rfl⟩, by simpa using h2, ?_, ?_⟩
  · intro y hy
    exact hb y (by rw [hw]; simp at hy; simp [hy])
  · unfold endIndenting
    rw [h3]
    simp

theorem bytes_reverse (t : List Char) : bytes t.reverse = bytes t := by
  induction t with
  | nil => rfl
  | cons x t ih =>
    rw [List.reverse_cons, bytes_append, ih]
    simp [bytes]
    omega

theorem takeWhile_line (p : CTok → Bool) (a b : List CTok) (ha : ∀ t ∈ a, p t = true)
    (hb : b = [] ∨ ∃ w r, b = w :: r ∧ p w = false) :
    (a ++ b).takeWhile p = a ∧ (a ++ b).dropWhile p = b := by
  rw [List.takeWhile_append_of_pos ha, List.dropWhile_append_of_pos ha]
  rcases hb with rfl | ⟨w, r, rfl, h⟩
  · simp
  · rw [List.takeWhile_cons_of_neg (by simp [h]), List.dropWhile_cons_of_neg (by simp [h])]
    simp

theorem inline_of (t : CTok) (h : '\n' ∉ t.text) : inline t = true := by
  simp [inline, h]

theorem not_inline (t : CTok) (h : '\n' ∈ t.text) (hk : t.kind.isTrivia = true) : inline t = false := by
  simp [inline, h, hk]

theorem line_left {c : Cursor} {above before after below : List CTok}
    (h : OneLine c above before after below) :
    lineLeft c = before.reverse ∧ c.left.dropWhile inline = above.reverse := by
  have hl : c.left = before.reverse ++ above.reverse := by
    have := congrArg List.reverse h.left
    simpa using this
  unfold lineLeft
  rw [hl]
  refine takeWhile_line _ _ _ ?_ ?_
  · intro t ht
    exact inline_of t (h.inline t (by simp at ht; simp [ht]))
  · rcases h.up with h | ⟨a, w, h, hk, hn, -⟩
    · left
      simp [h]
    · right
      exact ⟨w, a.reverse, by simp [h], not_inline w hn (by rw [hk]; rfl)⟩

theorem line_right {c : Cursor} {above before after below : List CTok}
    (h : OneLine c above before after below) : lineRight c = after := by
  unfold lineRight
  rw [h.right]
  refine (takeWhile_line _ _ _ ?_ ?_).1
  · intro t ht
    exact inline_of t (h.inline t (by simp [ht]))
  · rcases h.down with h | ⟨w, b, h, hn, hk⟩
    · exact .inl h
    · right
      refine ⟨w, b, h, not_inline w hn ?_⟩
      rcases hk with hk | hk
      · rw [hk.1]; rfl
      · rw [hk]; rfl

theorem on_newline {c : Cursor} {above before after below : List CTok}
    (h : OneLine c above before after below) :
    (afterNewline c = true ↔ '\n' ∈ c.pre) ∧ (beforeNewline c = true ↔ '\n' ∈ c.post) := by
  unfold afterNewline beforeNewline onNewline
  rcases h.focus with hf | ⟨hk, -⟩
  · have h1 : '\n' ∉ c.pre := fun hh => hf (by simp [Cursor.text, hh])
    have h2 : '\n' ∉ c.post := fun hh => hf (by simp [Cursor.text, hh])
    simp [h1, h2]
  · have e : c.kind == Kind.whitespace := by simp [hk]
    simp [e, Cursor.text]
    constructor <;> (intro hh; simp [hh])

theorem indentStart_eq {c : Cursor} {above before after below : List CTok}
    (h : OneLine c above before after below) :
    ∃ l ind, textOf above = l ++ ind ∧ indentStart c = bytes l ∧ '\n' ∉ ind ∧ Blank ind ∧
      (l = [] ∨ ∃ l', l = l' ++ ['\n']) := by
  have hd := (line_left h).2
  unfold indentStart
  rcases h.up with ha | ⟨a, w, ha, hk, hn, hb⟩
  · refine ⟨[], [], by simp [ha, textOf], ?_, by simp, by intro x hx; simp at hx, .inl rfl⟩
    rw [hd, ha]
    simp [lineStart, hd, ha, textOf, bytes]
  · obtain ⟨l, ind, h1, ⟨l', h2⟩, h3, h4, h5⟩ := indent_split w.text hb hn
    refine ⟨textOf a ++ l, ind, ?_, ?_, h3, h4, .inr ⟨textOf a ++ l', by rw [h2]; simp⟩⟩
    · rw [ha, textOf_append, textOf_cons, textOf_nil, h1]
      simp
    · rw [hd, ha]
      simp only [List.reverse_append, List.reverse_singleton, List.singleton_append]
      rw [if_pos hk]
      simp only [List.reverse_cons, List.reverse_reverse]
      rw [textOf_append, textOf_cons, textOf_nil, h5, bytes_reverse, h1]
      simp only [List.append_nil, bytes_append]
      omega

theorem range_split {c : Cursor} {above before after below : List CTok}
    (h : OneLine c above before after below) :
    ∃ l ind r, c.doc = l ++ (ind ++ ((if '\n' ∈ c.pre then [] else textOf before ++ c.pre) ++
        (if '\n' ∈ c.post then [] else c.post ++ textOf after))) ++ r ∧
      (l = [] ∨ ∃ l', l = l' ++ ['\n']) ∧ '\n' ∉ ind ∧ Blank ind ∧
      r = (if '\n' ∈ c.post then c.post ++ textOf c.right else textOf below) ∧
      (range c).1 = bytes l ∧
      c.offset = bytes (l ++ (ind ++ (if '\n' ∈ c.pre then [] else textOf before ++ c.pre))) ∧
      (range c).2 = bytes (l ++ (ind ++ ((if '\n' ∈ c.pre then [] else textOf before ++ c.pre) ++
        (if '\n' ∈ c.post then [] else c.post ++ textOf after)))) := by
  obtain ⟨n1, n2⟩ := on_newline h
  have hpost : (if '\n' ∈ c.post then [] else c.post ++ textOf after) ++
      (if '\n' ∈ c.post then c.post ++ textOf c.right else textOf below) = c.post ++ textOf c.right := by
    split
    · simp
    · rw [h.right, textOf_append]
      simp
  have hend : (range c).2 = c.offset + bytes (if '\n' ∈ c.post then [] else c.post ++ textOf after) := by
    unfold range
    simp only [n2]
    split
    · simp [bytes]
    · rw [lineEnd, line_right h, Cursor.stop, Cursor.text, Cursor.offset, bytes_append, bytes_append]
      omega
  have hpre : ∃ l ind, textOf c.left.reverse ++ c.pre =
      l ++ (ind ++ (if '\n' ∈ c.pre then [] else textOf before ++ c.pre)) ∧
      (l = [] ∨ ∃ l', l = l' ++ ['\n']) ∧ '\n' ∉ ind ∧ Blank ind ∧ (range c).1 = bytes l := by
    unfold range
    simp only [n1]
    by_cases hn : '\n' ∈ c.pre
    · rcases h.focus with hf | ⟨hk, hb⟩
      · exact absurd hn (fun hh => hf (by simp [Cursor.text, hh]))
      · obtain ⟨l, ind, h1, ⟨l', h2⟩, h3, h4, h5⟩ :=
          indent_split c.pre (fun x hx => hb x (by simp [Cursor.text, hx])) hn
        refine ⟨textOf c.left.reverse ++ l, ind, ?_, .inr ⟨textOf c.left.reverse ++ l', by rw [h2]; simp⟩,
          h3, h4, ?_⟩
        · rw [if_pos hn]
          simp [← h1]
        · rw [if_pos hn, offsetStart, Cursor.offset, Cursor.start, h5, bytes_reverse]
          conv_lhs => rw [h1]
          simp only [bytes_append]
          omega
    · obtain ⟨l, ind, h1, h2, h3, h4, h5⟩ := indentStart_eq h
      refine ⟨l, ind, ?_, h5, h3, h4, ?_⟩
      · rw [if_neg hn, h.left, textOf_append, h1]
        simp
      · rw [if_neg hn, h2]
  obtain ⟨l, ind, p1, p2, p3, p4, p5⟩ := hpre
  have hoff : c.offset = bytes (l ++ (ind ++ (if '\n' ∈ c.pre then [] else textOf before ++ c.pre))) := by
    rw [← p1, bytes_append]
    rfl
  refine ⟨l, ind, _, ?_, p2, p3, p4, rfl, p5, hoff, ?_⟩
  · unfold Cursor.doc Cursor.text
    have := congrArg (fun z => (l ++ (ind ++ (if '\n' ∈ c.pre then [] else textOf before ++ c.pre))) ++ z)
      hpost
    simp only [← p1] at this
    rw [show textOf c.left.reverse ++ (c.pre ++ c.post ++ textOf c.right) =
      (textOf c.left.reverse ++ c.pre) ++ (c.post ++ textOf c.right) by simp, ← this, p1]
    simp only [List.append_assoc]
  · rw [hend, hoff]
    simp only [bytes_append]
    omega

theorem textOf_newline (ts : List CTok) (h : ∀ t ∈ ts, '\n' ∉ t.text) : '\n' ∉ textOf ts := by
  unfold textOf
  rw [List.mem_flatMap]
  rintro ⟨t, ht, hn⟩
  exact h t ht hn

theorem contains_iff (w k : List Char) : contains w k = true ↔ ∃ a b, k = a ++ w ++ b := by
  induction k with
  | nil =>
    simp only [contains, List.isEmpty_iff]
    constructor
    · rintro rfl
      exact ⟨[], [], rfl⟩
    · rintro ⟨a, b, h⟩
      simp at h
      exact h.2.1
  | cons x k ih =>
    simp only [contains, Bool.or_eq_true, ih, List.isPrefixOf_iff_prefix]
    constructor
    · rintro (⟨b, h⟩ | ⟨a, b, h⟩)
      · exact ⟨[], b, by simpa using h.symm⟩
      · exact ⟨x :: a, b, by simp [h]⟩
    · rintro ⟨a, b, h⟩
      cases a with
      | nil => exact .inl ⟨b, by simpa using h.symm⟩
      | cons y a =>
        simp at h
        exact .inr ⟨a, b, by simp [h.2]⟩

theorem solid_focus (c : Cursor) : (Complete.solid [c.focus]).map CTok.text =
    if c.kind.isTrivia then [] else [c.text] := by
  unfold Complete.solid Cursor.focus
  cases h : c.kind.isTrivia <;> simp [h]

theorem words_eq {c : Cursor} {above before after below : List CTok}
    (h : OneLine c above before after below) :
    words c before after = (prevWords c).reverse ++ ((if c.kind.isTrivia then [] else [c.text]) ++
      nextWords c) := by
  obtain ⟨n1, n2⟩ := on_newline h
  unfold words prevWords nextWords
  rw [show c.focus :: (if '\n' ∈ c.post then [] else after) =
    [c.focus] ++ (if '\n' ∈ c.post then [] else after) from rfl, Complete.solid_append, Complete.solid_append, List.map_append,
    List.map_append, solid_focus, (line_left h).1, line_right h]
  simp only [n1, n2]
  congr 1
  · split
    · rfl
    · rw [Complete.solid_reverse]; simp
  · congr 1
    split <;> simp [Complete.solid]

theorem affix_iff {c : Cursor} {above before after below : List CTok}
    (h : OneLine c above before after below) (ks : List String) :
    isLineAffixOf c ks = true ↔ Mentions (words c before after) ks := by
  have hw := words_eq h
  have hf := h.full
  unfold isLineAffixOf Mentions focusedText
  rw [hw]
  cases hk : c.kind.isTrivia
  · simp [hf, contains_iff]
    constructor
    · rintro (h | ⟨w, h1, h2, h3⟩ | ⟨w, h1, h2, h3⟩)
      · exact ⟨c.text, .inr (.inl rfl), hf, h⟩
      · exact ⟨w, .inl h1, h2, h3⟩
      · exact ⟨w, .inr (.inr h1), h2, h3⟩
    · rintro ⟨w, (h1 | rfl | h1), h2, h3⟩
      · exact .inr (.inl ⟨w, h1, h2, h3⟩)
      · exact .inl h3
      · exact .inr (.inr ⟨w, h1, h2, h3⟩)
  · simp [contains_iff]
    refine or_congr Iff.rfl ?_
    constructor
    · rintro (⟨w, h1, h2, h3⟩ | ⟨w, h1, h2, h3⟩)
      · exact ⟨w, .inl h1, h2, h3⟩
      · exact ⟨w, .inr h1, h2, h3⟩
    · rintro ⟨w, (h1 | h1), h2, h3⟩
      · exact .inl ⟨w, h1, h2, h3⟩
      · exact .inr ⟨w, h1, h2, h3⟩

theorem blank_iff {c : Cursor} {above before after below : List CTok}
    (h : OneLine c above before after below) (x : Ctx) :
    fieldOrBlank c x = true ↔
      (x.recordField = true ∨ c.kind = .whitespace ∧ words c before after = []) := by
  unfold fieldOrBlank
  rw [words_eq h]
  simp
  refine or_congr Iff.rfl ?_
  constructor
  · rintro ⟨⟨a, b⟩, d⟩
    exact ⟨a, b, by simp [a, Kind.isTrivia], d⟩
  · rintro ⟨a, b, -, d⟩
    exact ⟨⟨a, b⟩, d⟩

theorem lastEnd_eq {c : Cursor} {above before after below : List CTok}
    (h : OneLine c above before after below) :
    lastEnd c = if '\n' ∈ c.post then c.stop else c.stop + bytes (textOf after) := by
  obtain ⟨-, n2⟩ := on_newline h
  unfold lastEnd lineEnd
  rw [line_right h]
  simp only [n2]

theorem multiLine_iff {c : Cursor} {above before after below : List CTok}
    (h : OneLine c above before after below) (x : Ctx) :
    multiLine c x = true ↔ GoesOn c before after x := by
  have hb := blank_iff h x
  unfold multiLine GoesOn outer
  rw [← lastEnd_eq h]
  by_cases hf : fieldOrBlank c x = true
  · rw [if_pos hf]
    constructor
    · intro h; cases h
    · rintro ⟨a, s, m, -, -, -, h⟩
      exact absurd (hb.1 hf) h
  · rw [if_neg hf]
    have hn := fun hh => hf (hb.2 hh)
    rw [if_neg hn]
    cases hi : x.items with
    | nil => simp
    | cons y ys =>
      obtain ⟨a, s⟩ := y
      simp only [List.tail_cons, decide_eq_true_eq]
      constructor
      · intro hs
        exact ⟨a, s, ys, rfl, rfl, hs, hn⟩
      · rintro ⟨a', s', m, he, -, hs, -⟩
        cases he
        exact hs

theorem mem_offerIf (b : Bool) (e e' : Entity) : e' ∈ offerIf b e ↔ b = true ∧ e' = e := by
  unfold offerIf
  cases b <;> simp

/-! ## Theorems -/

/-- Accepting a completion replaces the line of the cursor and nothing else: the replaced text has no
newline, starts at the start of the line (its indentation included), contains the cursor and ends at the
end of the file, in front of white space with a newline, or in front of a comment over several lines.
Missing: literals over several lines on the line and comments over several lines in front of it (see
`C83_negation_literal` and `C83_negation_comment`). -/
theorem C83_line_partial (c : Cursor) (above before after below : List CTok)
    (h : OneLine c above before after below) :
    ∃ l m m' r, c.doc = l ++ (m ++ m') ++ r ∧ (range c).1 = bytes l ∧
      c.offset = bytes (l ++ m) ∧ (range c).2 = bytes (l ++ (m ++ m')) ∧ '\n' ∉ m ++ m' ∧
      (l = [] ∨ ∃ l', l = l' ++ ['\n']) ∧
      (r = [] ∨ ∃ t r', r = t ++ r' ∧ '\n' ∈ t ∧ (Blank t ∨ (⟨.comment, t⟩ : CTok) ∈ c.right)) := by
  obtain ⟨l, ind, r, h1, h2, h3, h4, h5, h6, h7, h8⟩ := range_split h
  refine ⟨l, ind ++ (if '\n' ∈ c.pre then [] else textOf before ++ c.pre),
    (if '\n' ∈ c.post then [] else c.post ++ textOf after), r, by rw [h1]; simp, h6, h7,
    by rw [h8]; simp, ?_, h2, ?_⟩
  · have hb : '\n' ∉ textOf before := textOf_newline _ (fun t ht => h.inline t (by simp [ht]))
    have ha : '\n' ∉ textOf after := textOf_newline _ (fun t ht => h.inline t (by simp [ht]))
    by_cases p1 : '\n' ∈ c.pre <;> by_cases p2 : '\n' ∈ c.post <;> simp [p1, p2, h3, hb, ha]
  · by_cases p2 : '\n' ∈ c.post
    · right
      rw [if_pos p2] at h5
      refine ⟨c.post, textOf c.right, h5, p2, .inl ?_⟩
      rcases h.focus with hf | ⟨-, hb⟩
      · exact absurd p2 (fun hh => hf (by simp [Cursor.text, hh]))
      · exact fun y hy => hb y (by simp [Cursor.text, hy])
    · rw [if_neg p2] at h5
      rcases h.down with hd | ⟨w, b, hd, hn, hk⟩
      · left
        rw [h5, hd]
        rfl
      · right
        refine ⟨w.text, textOf b, by rw [h5, hd, textOf_cons], hn, ?_⟩
        rcases hk with hk | hk
        · exact .inl hk.2
        · right
          rw [h.right, hd, ← hk]
          simp

/-- **C83** (behind a comment). If a comment over several lines ends on the line, then what is replaced
starts right behind it if the comment is at the start of a line or directly behind other code; but if there
is white space in front of the comment on its line, then the comment is replaced as well, with this white
space. -/
theorem C83_comment (c : Cursor) (above before : List CTok) (w t : CTok)
    (hleft : c.left.reverse = above ++ w :: t :: before) (hbefore : ∀ x ∈ before, '\n' ∉ x.text)
    (ht : t.kind = .comment) (hn : '\n' ∈ t.text) (hc : '\n' ∉ c.text) :
    (∀ p ind, w.kind = .whitespace → w.text = p ++ ind → (p = [] ∨ ∃ p', p = p' ++ ['\n']) →
        Blank ind → '\n' ∉ ind → ind ≠ [] → (range c).1 = bytes (textOf above ++ p)) ∧
      ((w.kind ≠ .whitespace ∨ ∃ p, w.text = p ++ ['\n']) →
        (range c).1 = bytes (textOf above ++ (w.text ++ t.text))) := by
  have hl : c.left = before.reverse ++ t :: w :: above.reverse := by
    have := congrArg List.reverse hleft
    simpa using this
  have hd : c.left.dropWhile inline = t :: w :: above.reverse := by
    rw [hl, List.dropWhile_append_of_pos, List.dropWhile_cons_of_neg]
    · have : t.kind.isTrivia = true := by rw [ht]; rfl
      simp [inline, this, hn]
    · intro x hx
      have := hbefore x (by simpa using hx)
      simp [inline, this]
  have hpre : afterNewline c = false := by
    have : '\n' ∉ c.pre := fun hh => hc (by simp [Cursor.text, hh])
    simp [afterNewline, this]
  have hr : (range c).1 = indentStart c := by simp [range, hpre]
  have hls : lineStart c = bytes (textOf above ++ (w.text ++ t.text)) := by
    unfold lineStart
    rw [hd]
    simp [textOf]
  have hk : t.kind ≠ .whitespace := by rw [ht]; simp
  rw [hr]
  unfold indentStart
  rw [hd]
  simp only [hk, if_false]
  constructor
  · intro p ind hw htx hp hbl hni hne
    have he : endIndenting w.text = ind.reverse := by
      unfold endIndenting
      rw [htx, List.reverse_append, List.takeWhile_append_of_pos]
      · rcases hp with rfl | ⟨p', rfl⟩
        · simp
        · rw [List.reverse_append]
          simp
      · intro x hx
        have hx : x ∈ ind := by simpa using hx
        have h1 := hbl x hx
        have h2 : x ≠ '\n' := fun h => hni (h ▸ hx)
        simp [h1, h2]
    rw [if_pos hw, he, if_neg (by simpa using hne), bytes_reverse]
    simp only [List.reverse_cons, List.reverse_reverse, textOf_append]
    rw [show textOf [w] = w.text by simp [textOf], htx]
    simp only [bytes_append]
    omega
  · rintro (hw | ⟨p, hp⟩)
    · rw [if_neg hw, hls]
    · have he : endIndenting w.text = [] := by
        unfold endIndenting
        rw [hp, List.reverse_append]
        simp
      by_cases hw : w.kind = .whitespace
      · rw [if_pos hw, he, if_pos (by rfl), hls]
      · rw [if_neg hw, hls]

/-- `C83_comment` applies to the comment in `\n  /* a\n b */ st`: the two spaces in front are replaced, and
the comment with them. -/
example : (range ⟨[⟨.whitespace, " ".toList⟩, ⟨.comment, "/* a\n b */".toList⟩, ⟨.whitespace, "\n  ".toList⟩],
    .ident, "st".toList, [], []⟩).1 = bytes ("\n".toList) :=
  (C83_comment _ [] [⟨.whitespace, " ".toList⟩] ⟨.whitespace, "\n  ".toList⟩ ⟨.comment, "/* a\n b */".toList⟩
    (by decide) (by decide) rfl (by decide) (by decide)).1 "\n".toList "  ".toList rfl (by decide)
    (.inr ⟨[], by decide⟩) (by unfold Blank; decide) (by decide) (by decide)

/-- On a line of white space, only white space is replaced. -/
theorem C83_blank (c : Cursor) (above before after below : List CTok)
    (h : OneLine c above before after below) (hc : Blank c.text)
    (hw : ∀ t ∈ before ++ after, Blank t.text) :
    ∃ l m r, c.doc = l ++ m ++ r ∧ (range c).1 = bytes l ∧ (range c).2 = bytes (l ++ m) ∧ Blank m := by
  obtain ⟨l, ind, r, h1, h2, h3, h4, h5, h6, h7, h8⟩ := range_split h
  refine ⟨l, _, r, h1, h6, h8, ?_⟩
  have hb : ∀ ts : List CTok, (∀ t ∈ ts, Blank t.text) → Blank (textOf ts) := by
    intro ts hts x hx
    unfold textOf at hx
    obtain ⟨t, ht, hx⟩ := List.mem_flatMap.1 hx
    exact hts t ht x hx
  intro x hx
  simp only [List.mem_append] at hx
  rcases hx with hx | hx | hx
  · exact h4 x hx
  · split at hx
    · simp at hx
    · rcases List.mem_append.1 hx with hx | hx
      · exact hb before (fun t ht => hw t (by simp [ht])) x hx
      · exact hc x (by simp [Cursor.text, hx])
  · split at hx
    · simp at hx
    · rcases List.mem_append.1 hx with hx | hx
      · exact hc x (by simp [Cursor.text, hx])
      · exact hb after (fun t ht => hw t (by simp [ht])) x hx

/-- The entities offered are exactly those that belong where the cursor is, that exist in this version
of ink!, and whose keywords the line mentions (any line, for topics); at most one contract is offered per
file and one storage per contract, and these two not while the parser stumbles over the next token.
Nothing is offered in comments and attributes, and on the first line of an item that goes on behind the
line unless the parser stumbles over the next token. -/
theorem C83_offered (v : Version) (c : Cursor) (x : Ctx) (above before after below : List CTok)
    (h : OneLine c above before after below) (e : Entity) :
    e ∈ entityCompletions v c x ↔
      c.kind ≠ .comment ∧ x.inAttr = false ∧ (GoesOn c before after x → x.nextError = true) ∧
      Belongs ((outer c before after x).head?.map Prod.fst) e ∧
      (e = .topic ∨ Mentions (words c before after) (keywords e)) ∧
      (e = .eventV2 ∨ e = .combineExtensions → v = .v5) ∧
      (e = .contract → x.hasContract = false) ∧ (Single e → x.nextError = false) := by
  have ha := affix_iff h
  have hp : parentItem c x = (outer c before after x).head?.map Prod.fst := by
    unfold parentItem outer
    simp only [blank_iff h x]
  unfold entityCompletions
  rw [← hp]
  by_cases h1 : c.kind = .comment
  · simp [h1]
  rw [if_neg h1]
  by_cases h2 : x.inAttr = true
  · simp [h2]
  rw [if_neg h2]
  have h2 : x.inAttr = false := by simpa using h2
  by_cases h3 : (multiLine c x && !x.nextError) = true
  · rw [if_pos h3]
    simp only [Bool.and_eq_true, Bool.not_eq_true'] at h3
    have := (multiLine_iff h x).1 h3.1
    simp [this, h3.2]
  rw [if_neg h3]
  have h3 : GoesOn c before after x → x.nextError = true := by
    intro hg
    have := (multiLine_iff h x).2 hg
    simpa [this] using h3
  have h3 := eq_true h3
  simp only [h1, h2, h3, ne_eq, not_false_eq_true, true_and]
  generalize parentItem c x = p
  cases p with
  | none =>
    simp only [atRoot, List.mem_append, mem_offerIf, Bool.and_eq_true, ha, Bool.not_eq_true']
    constructor
    · rintro ((((((⟨h, rfl⟩ | ⟨h, rfl⟩) | ⟨h, rfl⟩) | ⟨h, rfl⟩) | ⟨h, rfl⟩) | ⟨h, rfl⟩) | ⟨h, rfl⟩)
      · exact ⟨.contract, .inr h.1.2, by simp, fun _ => h.1.1, fun _ => h.2⟩
      · exact ⟨.rootEvent, .inr h.2, fun _ => by cases v <;> simp_all [isV5], by simp, by simp [Single]⟩
      · exact ⟨.traitDef, .inr h, by simp, by simp, by simp [Single]⟩
      · exact ⟨.chainExtension, .inr h, by simp, by simp, by simp [Single]⟩
      · exact ⟨.combineExtensions, .inr h.2, fun _ => by cases v <;> simp_all [isV5], by simp,
          by simp [Single]⟩
      · exact ⟨.storageItem, .inr h, by simp, by simp, by simp [Single]⟩
      · exact ⟨.environment, .inr h, by simp, by simp, by simp [Single]⟩
    · rintro ⟨hb, hk, hv, hc, hs⟩
      cases hb <;> simp only [reduceCtorEq, false_or] at hk <;> simp [Single, isV5] at hv hc hs ⊢ <;>
        (try subst hv) <;> simp_all [keywords]
  | some a =>
    cases a with
    | contract s =>
      simp only [inItem, List.mem_append, mem_offerIf, Bool.and_eq_true, ha, Bool.not_eq_true']
      constructor
      · rintro ((⟨h, rfl⟩ | ⟨h, rfl⟩) | ⟨h, rfl⟩)
        · rw [h.1.1]
          exact ⟨.storage, .inr h.1.2, by simp, by simp, fun _ => h.2⟩
        · exact ⟨.eventV2 s, .inr h.2, fun _ => by cases v <;> simp_all [isV5], by simp, by simp [Single]⟩
        · exact ⟨.event s, .inr h, by simp, by simp, by simp [Single]⟩
      · rintro ⟨hb, hk, hv, hc, hs⟩
        cases hb <;> simp only [reduceCtorEq, false_or] at hk <;> simp [Single, isV5] at hv hc hs ⊢ <;>
          (try subst hv) <;> simp_all [keywords]
    | mod t e2e =>
      simp only [inItem, List.mem_append, mem_offerIf, Bool.and_eq_true, ha]
      constructor
      · rintro (⟨h, rfl⟩ | ⟨h, rfl⟩)
        · rw [h.1]
          exact ⟨.test _, .inr h.2, by simp, by simp, by simp [Single]⟩
        · rw [h.1]
          exact ⟨.e2eTest _, .inr h.2, by simp, by simp, by simp [Single]⟩
      · rintro ⟨hb, hk, hv, hc, hs⟩
        cases hb <;> simp only [reduceCtorEq, false_or] at hk <;> simp_all [keywords]
    | impl t i k =>
      simp only [inItem]
      cases t with
      | true =>
        simp only [if_true, List.not_mem_nil, false_iff]
        rintro ⟨hb, -⟩
        cases hb
      | false =>
        cases i <;> cases k <;>
          simp only [Bool.not_true, Bool.not_false, Bool.and_true, Bool.and_false, if_true, if_false,
            Bool.false_eq_true, List.not_mem_nil, false_iff, List.mem_append, mem_offerIf, ha]
        · rintro ⟨hb, -⟩
          cases hb with
          | constructor _ _ h => simp at h
          | message _ _ h => simp at h
        all_goals
          constructor
          · rintro (⟨h, rfl⟩ | ⟨h, rfl⟩)
            · exact ⟨.constructor _ _ (by simp), .inr h, by simp, by simp, by simp [Single]⟩
            · exact ⟨.message _ _ (by simp), .inr h, by simp, by simp, by simp [Single]⟩
          · rintro ⟨hb, hk, hv, hc, hs⟩
            cases hb <;> simp only [reduceCtorEq, false_or] at hk <;> simp_all [keywords]
    | traitDef =>
      simp only [inItem, mem_offerIf, ha]
      constructor
      · rintro ⟨h, rfl⟩
        exact ⟨.traitMessage, .inr h, by simp, by simp, by simp [Single]⟩
      · rintro ⟨hb, hk, hv, hc, hs⟩
        cases hb; simp_all [keywords]
    | chainExtension ec =>
      simp only [inItem, List.mem_append, mem_offerIf, Bool.and_eq_true, ha, Bool.not_eq_true']
      constructor
      · rintro (⟨h, rfl⟩ | ⟨h, rfl⟩)
        · rw [h.1]
          exact ⟨.errorCode, .inr h.2, by simp, by simp, by simp [Single]⟩
        · exact ⟨.extension _, .inr h, by simp, by simp, by simp [Single]⟩
      · rintro ⟨hb, hk, hv, hc, hs⟩
        cases hb <;> simp only [reduceCtorEq, false_or] at hk <;> simp_all [keywords]
    | struct ev =>
      simp only [inItem, mem_offerIf]
      constructor
      · rintro ⟨rfl, rfl⟩
        exact ⟨.topic, .inl rfl, by simp, by simp, by simp [Single]⟩
      · rintro ⟨hb, -⟩
        cases hb
        exact ⟨rfl, rfl⟩
    | trait =>
      simp only [inItem, List.not_mem_nil, false_iff]
      rintro ⟨hb, -⟩
      cases hb
    | other =>
      simp only [inItem, List.not_mem_nil, false_iff]
      rintro ⟨hb, -⟩
      cases hb

/-- Different entities have different labels. -/
theorem C83_labels (v : Version) (e e' : Entity) (h : label v e = label v e') : e = e' := by
  revert h
  cases v <;> cases e <;> cases e' <;> first | (intro _; rfl) | (intro h; exact absurd h (by decide))

/-- Other code on the line is replaced as well: in `pub struct A; st`, accepting a completion for `st`
deletes the struct in front of it. -/
theorem C83_negation_code :
    ∃ c : Cursor, c.doc = "pub struct A; st".toList ∧ c.offset = 16 ∧ range c = (0, 16) ∧
      ∀ v err has, Entity.storageItem ∈ entityCompletions v c ⟨false, false, [], err, has⟩ :=
  ⟨⟨[⟨.whitespace, " ".toList⟩, ⟨.other, ";".toList⟩, ⟨.ident, "A".toList⟩, ⟨.whitespace, " ".toList⟩,
      ⟨.other, "struct".toList⟩, ⟨.whitespace, " ".toList⟩, ⟨.other, "pub".toList⟩], .ident, "st".toList, [],
      []⟩, by decide, by decide, by decide, by intro v; cases v <;> decide⟩

/-- A comment behind the word is deleted: `st // keep`. -/
theorem C83_negation_trailing :
    ∃ c : Cursor, c.doc = "st // keep".toList ∧ c.offset = 2 ∧ range c = (0, 10) ∧
      ∀ v err has, Entity.storageItem ∈ entityCompletions v c ⟨false, false, [], err, has⟩ :=
  ⟨⟨[], .ident, "st".toList, [], [⟨.whitespace, " ".toList⟩, ⟨.comment, "// keep".toList⟩]⟩,
    by decide, by decide, by decide, by intro v; cases v <;> decide⟩

/-- With a literal over several lines on the line, all of its lines are replaced. -/
theorem C83_negation_literal :
    ∃ c : Cursor, c.doc = "const A: &str = \"a\nb\"; st".toList ∧ c.offset = 25 ∧ range c = (0, 25) ∧
      ∀ v err has, Entity.storageItem ∈ entityCompletions v c ⟨false, false, [], err, has⟩ :=
  ⟨⟨[⟨.whitespace, " ".toList⟩, ⟨.other, ";".toList⟩, ⟨.other, "\"a\nb\"".toList⟩, ⟨.whitespace, " ".toList⟩,
      ⟨.other, "=".toList⟩, ⟨.whitespace, " ".toList⟩, ⟨.ident, "str".toList⟩, ⟨.other, "&".toList⟩,
      ⟨.whitespace, " ".toList⟩, ⟨.colon, ":".toList⟩, ⟨.ident, "A".toList⟩, ⟨.whitespace, " ".toList⟩,
      ⟨.other, "const".toList⟩], .ident, "st".toList, [], []⟩,
    by decide, by decide, by decide, by intro v; cases v <;> decide⟩

/-- A comment over several lines in front of the line is deleted if it is indented itself. -/
theorem C83_negation_comment :
    ∃ c : Cursor, c.doc = "\n  /* a\n b */ st".toList ∧ c.offset = 16 ∧ range c = (1, 16) ∧
      ∀ v err has, Entity.storageItem ∈ entityCompletions v c ⟨false, false, [], err, has⟩ :=
  ⟨⟨[⟨.whitespace, " ".toList⟩, ⟨.comment, "/* a\n b */".toList⟩, ⟨.whitespace, "\n  ".toList⟩],
    .ident, "st".toList, [], []⟩, by decide, by decide, by decide, by intro v; cases v <;> decide⟩

/-! ## Examples -/

/-- The cursor behind `st` in the module `mod c {\n    st // x\n}`. -/
def sampleLine : Cursor :=
  ⟨[⟨.whitespace, "\n    ".toList⟩, ⟨.other, "{".toList⟩, ⟨.whitespace, " ".toList⟩, ⟨.ident, "c".toList⟩,
    ⟨.whitespace, " ".toList⟩, ⟨.other, "mod".toList⟩], .ident, "st".toList, [],
    [⟨.whitespace, " ".toList⟩, ⟨.comment, "// x".toList⟩, ⟨.whitespace, "\n".toList⟩, ⟨.other, "}".toList⟩]⟩

/-- `C83_line_partial` and `C83_offered` apply there. -/
example : OneLine sampleLine
    [⟨.other, "mod".toList⟩, ⟨.whitespace, " ".toList⟩, ⟨.ident, "c".toList⟩, ⟨.whitespace, " ".toList⟩,
      ⟨.other, "{".toList⟩, ⟨.whitespace, "\n    ".toList⟩] []
    [⟨.whitespace, " ".toList⟩, ⟨.comment, "// x".toList⟩]
    [⟨.whitespace, "\n".toList⟩, ⟨.other, "}".toList⟩] where
  left := by decide
  right := by decide
  inline := by decide
  up := .inr ⟨[⟨.other, "mod".toList⟩, ⟨.whitespace, " ".toList⟩, ⟨.ident, "c".toList⟩,
    ⟨.whitespace, " ".toList⟩, ⟨.other, "{".toList⟩], ⟨.whitespace, "\n    ".toList⟩, by decide, by decide,
    by decide, by unfold Blank; decide⟩
  down := .inr ⟨⟨.whitespace, "\n".toList⟩, [⟨.other, "}".toList⟩], rfl, by decide,
    .inl ⟨rfl, by unfold Blank; decide⟩⟩
  focus := .inl (by decide)
  full := by decide

/-- In a contract without storage, storage and events are offered there. -/
example : entityCompletions .v5 sampleLine ⟨false, false, [(.other, 15), (.contract false, 22)], false, true⟩ =
    [.storage, .eventV2, .event] ∧ range sampleLine = (8, 19) := by decide

/-- `C83_blank`: a cursor on an empty line inside of a module. -/
example : range ⟨[⟨.other, "{".toList⟩, ⟨.ident, "m".toList⟩], .whitespace, "\n    ".toList, "\n".toList,
    [⟨.other, "}".toList⟩]⟩ = (3, 7) := by decide

end Verif.Analyzer.CompleteEntity
