import Verif.Analyzer.CompleteProps
import Verif.Analyzer.CompleteArgProps
import Verif.Analyzer.CompleteEntityProps
import Verif.Lsp.TranslateProps
import Verif.Lsp.CrashProps

/-!
# Property C119: a completion replaces text of the line of the cursor, around the cursor

LSP 3.17 on `CompletionItem.textEdit`: "the range of the edit must be a single line range and it must
contain the position at which completion was requested".
-/

namespace Verif.Lsp.Fit

open Verif.Ir Verif.Analyzer Verif.Lsp.Spec
open Verif.Ir.Token (bytes bytes_append bytes_pos)
open Verif.Lsp.Crash (bytes_eq)

/-! ## Specification -/

/-- What LSP demands of the range of the edit of a completion requested at `p`. -/
def Demanded (q : Pos × Pos) (p : Pos) : Prop :=
  q.1.line = p.line ∧ q.2.line = p.line ∧ q.1.character ≤ p.character ∧ p.character ≤ q.2.character

/-- The same in terms of the text: the range goes from some characters in front of the offset to some
characters behind it, and there is no newline in between. -/
def Fits (doc : List Char) (off : Nat) (range : Nat × Nat) : Prop :=
  ∃ l a b r, doc = l ++ (a ++ b) ++ r ∧ range.1 = bytes l ∧ off = bytes (l ++ a) ∧
    range.2 = bytes (l ++ (a ++ b)) ∧ '\n' ∉ a ++ b

/-! ## Lemmas -/

theorem pre_eq (a b c d : List Char) (h : a ++ b = c ++ d) (hb : bytes a = bytes c) : a = c := by
  rcases List.append_eq_append_iff.1 h with ⟨x, h1, -⟩ | ⟨x, h1, -⟩
  · subst h1
    rw [bytes_append] at hb
    cases x with
    | nil => simp
    | cons y x =>
      have := bytes_pos (y :: x) (by simp)
      omega
  · subst h1
    rw [bytes_append] at hb
    cases x with
    | nil => simp
    | cons y x =>
      have := bytes_pos (y :: x) (by simp)
      omega

theorem fits_token (l p q r : List Char) :
    Fits (l ++ (p ++ q) ++ r) (bytes (l ++ p)) (bytes l, bytes (l ++ (p ++ q))) ↔ '\n' ∉ p ++ q := by
  constructor
  · rintro ⟨l', a, b, r', h1, h2, h3, h4, h5⟩
    simp only at h2 h4
    have e1 : l = l' := pre_eq l (p ++ q ++ r) l' (a ++ b ++ r') (by simpa using h1) h2
    subst e1
    have e2 : l ++ (p ++ q) = l ++ (a ++ b) := pre_eq _ r _ r' h1 h4
    rw [List.append_cancel_left e2]
    exact h5
  · intro h
    exact ⟨l, p, q, r, rfl, rfl, rfl, rfl, h⟩

theorem fits_end (l p q r : List Char) :
    Fits (l ++ (p ++ q) ++ r) (bytes (l ++ p)) (bytes (l ++ (p ++ q)), bytes (l ++ (p ++ q))) ↔ q = [] := by
  constructor
  · rintro ⟨l', a, b, r', h1, h2, h3, h4, h5⟩
    simp only at h2 h4
    simp only [bytes_append] at h2 h3 h4
    cases q with
    | nil => rfl
    | cons y x =>
      have := bytes_pos (y :: x) (by simp)
      omega
  · rintro rfl
    exact ⟨l ++ (p ++ []), [], [], r, by simp, rfl, by simp, by simp, by simp⟩

theorem later (enc : Encoding) (pre mid : List Char) (hm : mid ≠ []) :
    (posOf enc pre).line < (posOf enc (pre ++ mid)).line ∨
      (posOf enc pre).line = (posOf enc (pre ++ mid)).line ∧
        (posOf enc pre).character < (posOf enc (pre ++ mid)).character := by
  simp only [posOf, List.count_append, lastLine_append]
  by_cases h : '\n' ∈ mid
  · have := List.count_pos_iff.mpr h
    left
    omega
  · right
    rw [List.count_eq_zero.mpr h]
    cases mid with
    | nil => exact absurd rfl hm
    | cons c cs =>
      have := units_pos enc c
      simp only [h, if_false, unitsOf_append, unitsOf_cons]
      omega

theorem same_line (enc : Encoding) (pre mid : List Char) :
    (posOf enc pre).line = (posOf enc (pre ++ mid)).line ↔ '\n' ∉ mid := by
  simp only [posOf, List.count_append]
  rw [← List.count_eq_zero]
  omega

theorem not_before (enc : Encoding) (a b : List Char) (x y : List Char) (h : a ++ x = b ++ y)
    (hl : (posOf enc a).line = (posOf enc b).line) (hc : (posOf enc a).character ≤ (posOf enc b).character) :
    ∃ m, b = a ++ m := by
  rcases List.append_eq_append_iff.1 h with ⟨m, h1, -⟩ | ⟨m, h1, -⟩
  · exact ⟨m, h1⟩
  · cases m with
    | nil => exact ⟨[], by simpa using h1.symm⟩
    | cons c m =>
      have := later enc b (c :: m) (by simp)
      rw [← h1] at this
      omega

theorem each_mem {α β : Type} {R : α → β → Prop} {xs : List α} {ys : List β} (h : Each R xs ys) (y : β)
    (hy : y ∈ ys) : ∃ x ∈ xs, R x y := by
  induction h with
  | nil => simp at hy
  | cons h1 h2 ih =>
    rcases List.mem_cons.1 hy with rfl | hy
    · exact ⟨_, by simp, h1⟩
    · obtain ⟨x, hx, hr⟩ := ih hy
      exact ⟨x, by simp [hx], hr⟩

/-! ## The theorems -/

/-- The demand of LSP on positions, in whatever encoding was agreed on, is the demand on the text. -/
theorem C119_client (enc : Encoding) (doc : List Char) (off : Nat) (range : Nat × Nat) (p : Pos)
    (q : Pos × Pos) (hp : PlaceAt enc doc off p) (hq : RangeAt enc doc range q) :
    Demanded q p ↔ Fits doc off range := by
  obtain ⟨pre, post, hd, ho, rfl⟩ := hp
  obtain ⟨⟨s, s', hs, hs1, hs2⟩, e, e', he, he1, he2⟩ := hq
  obtain ⟨q1, q2⟩ := q
  simp only at hs2 he2
  subst hs2 he2
  rw [← bytes_eq] at ho hs1 he1
  unfold Demanded
  simp only
  constructor
  · rintro ⟨h1, h2, h3, h4⟩
    obtain ⟨a, ha⟩ := not_before enc s pre s' post (hs ▸ hd) h1 h3
    obtain ⟨b, hb⟩ := not_before enc pre e post e' (hd ▸ he) h2.symm h4
    refine ⟨s, a, b, e', ?_, hs1, ?_, ?_, ?_⟩
    · rw [he, hb, ha]; simp
    · rw [ho, ha]
    · rw [he1, hb, ha]; simp
    · have n1 := (same_line enc s a).1 (by rw [← ha]; exact h1)
      have n2 := (same_line enc pre b).1 (by rw [← hb]; exact h2.symm)
      simp [n1, n2]
  · rintro ⟨l, a, b, r, g1, g2, g3, g4, g5⟩
    have e1 : s = l := pre_eq s s' l (a ++ b ++ r) (by rw [← hs, g1]; simp) (by rw [← hs1, g2])
    have e2 : pre = l ++ a := pre_eq pre post (l ++ a) (b ++ r) (by rw [← hd, g1]; simp) (by rw [← ho, g3])
    have e3 : e = l ++ (a ++ b) := pre_eq e e' _ r (by rw [← he, g1]) (by rw [← he1, g4])
    have n1 : '\n' ∉ a := fun h => g5 (by simp [h])
    have n2 : '\n' ∉ b := fun h => g5 (by simp [h])
    have l1 := (same_line enc l a).2 n1
    have l2 := (same_line enc (l ++ a) b).2 n2
    rw [e1, e2, e3, ← List.append_assoc]
    refine ⟨l1, l2.symm, ?_, ?_⟩
    · by_cases ha : a = []
      · simp [ha]
      · have := later enc l a ha
        omega
    · by_cases hb : b = []
      · simp [hb]
      · have := later enc (l ++ a) b hb
        omega

/-- A client that asks at a place of the document gets only items whose ranges are as LSP demands, if the
completions fit the text. -/
theorem C119_answer (bd : Build) (caps : ClientCaps) (enc : Encoding) (pre post : List Char)
    (hsize : utf8Len (pre ++ post) < 2 ^ 32) (completions : Nat → List Compl)
    (hf : ∀ c ∈ completions (utf8Len pre), Fits (pre ++ post) (utf8Len pre) c.range)
    (items : List LspCompl)
    (h : handleCompletion bd caps ⟨enc, pre ++ post⟩ completions (posOf enc pre) = .ok (some items)) :
    ∀ i ∈ items, Demanded i.range (posOf enc pre) := by
  obtain ⟨answer, h1, -, h2⟩ := C77_completion bd caps enc pre post hsize completions (by
    intro c hc
    obtain ⟨l, a, b, r, g1, g2, -, g4, -⟩ := hf c hc
    refine ⟨l, a ++ b, r, g1, ?_⟩
    rw [← bytes_eq, ← bytes_eq, ← g2, ← g4])
  rw [h] at h1
  cases h1
  intro i hi
  obtain ⟨c, hc, hr⟩ := each_mem (h2 items rfl) i hi
  exact (C119_client enc (pre ++ post) (utf8Len pre) c.range _ _ ⟨pre, post, rfl, rfl, rfl⟩ hr.2.2.2.1).2 (hf c hc)

/-- A completion for a macro fits exactly if the token in focus has no newline, or is a `[` with the
cursor behind it. -/
theorem C119_macro (v : Version) (c : Complete.Cursor) (site : Option Complete.MacroSite)
    (i : Complete.Item) (h : i ∈ Complete.macroCompletions v c site) :
    Fits c.doc c.offset (i.edit.start, i.edit.stop) ↔
      (c.kind = .lBrack ∧ c.post = []) ∨ (c.kind ≠ .lBrack ∧ '\n' ∉ c.text) := by
  have hr : (i.edit.start, i.edit.stop) = Complete.macroRange c := by
    unfold Complete.macroCompletions at h
    cases site with
    | none => simp at h
    | some s =>
      simp only at h
      split at h
      · split at h
        · obtain ⟨m, -, rfl⟩ := List.mem_map.1 h
          rfl
        · split at h
          · unfold Complete.crateItems at h
            split at h
            · obtain ⟨m, -, rfl⟩ := List.mem_map.1 h
              rfl
            · simp at h
          · simp at h
      · simp at h
  rw [hr]
  have hd : c.doc = Complete.textOf c.left.reverse ++ (c.pre ++ c.post) ++ Complete.textOf c.right := by
    simp [Complete.Cursor.doc, Complete.Cursor.text]
  have ho : c.offset = bytes (Complete.textOf c.left.reverse ++ c.pre) := by
    simp [Complete.Cursor.offset, Complete.Cursor.start, bytes_append]
  have hst : c.stop = bytes (Complete.textOf c.left.reverse ++ (c.pre ++ c.post)) := by
    simp [Complete.Cursor.stop, Complete.Cursor.start, Complete.Cursor.text, bytes_append]
  have hs : c.start = bytes (Complete.textOf c.left.reverse) := rfl
  unfold Complete.macroRange Complete.Cursor.onBracket
  rw [hd, ho, hst, hs]
  by_cases hk : c.kind = .lBrack
  · simp only [hk, beq_self_eq_true, if_true]
    rw [fits_end]
    simp
  · have : (c.kind == Complete.Kind.lBrack) = false := by simpa using hk
    simp only [this, Bool.false_eq_true, if_false]
    rw [fits_token]
    simp [hk, Complete.Cursor.text]

/-- The argument around the cursor into which further arguments can be nested, and the range behind its
name. -/
def NestedAt (off : Nat) (args : List Arg) (range : Nat × Nat) : Prop :=
  ∃ a ∈ args, ∃ x name start, CompleteArg.Around off a.item ∧
    CompleteArg.Innermost off a.item x ∧ (Arg.ofMeta x).kind ∈ [.backend, .node, .runtimeOnly] ∧
    x.name = .ok name ∧ range.1 = name.stop ∧ x.textRange = some (start, range.2)

/-- A completion for an argument either goes behind the name of an argument around the cursor, or fits
exactly if the token in focus (the text `p ++ q` with the cursor in between) has no newline, or is a `(`
or `,` with the cursor behind it. -/
theorem C119_argument (hash : String → Vector UInt8 32) (v : Version) (c : CompleteArg.ArgCursor) (off : Nat)
    (typed : Option String) (attrs : List AttrV) (k : AttrKind) (args : List Arg)
    (hm : ∀ a ∈ args, a = Arg.ofMeta a.item)
    (itemKind : Option ItemKind) (scope : List AttrKind) (site : InsertText.Site)
    (items : List CompleteArg.ArgItem)
    (h : CompleteArg.argumentCompletions hash v c off typed attrs k args itemKind scope site = some items)
    (l p q r : List Char) (hs : c.focus.start = bytes l) (he : c.focus.stop = bytes (l ++ (p ++ q)))
    (ho : off = bytes (l ++ p)) (it : CompleteArg.ArgItem) (hit : it ∈ items) :
    NestedAt off args (it.start, it.stop) ∨
      (Fits (l ++ (p ++ q) ++ r) off (it.start, it.stop) ↔
        ((c.focus.kind = .lParen ∨ c.focus.kind = .comma) ∧ q = []) ∨
        (c.focus.kind ≠ .lParen ∧ c.focus.kind ≠ .comma ∧ '\n' ∉ p ++ q)) := by
  obtain ⟨h1, h2⟩ := CompleteArg.C82_items hash v c off typed attrs k args itemKind scope site items h
  by_cases hc : CompleteArg.AmongArgs c
  · obtain ⟨f, info, hf, hi, hall⟩ := h2 hc
    obtain ⟨a, ha, hitem⟩ := (hall it).1 hit
    obtain ⟨-, hst, hsp, -⟩ := CompleteArg.argItem_some _ _ _ _ _ _ hitem
    have flat : it.start = (CompleteArg.range c none).1 → it.stop = (CompleteArg.range c none).2 →
        (Fits (l ++ (p ++ q) ++ r) off (it.start, it.stop) ↔
        ((c.focus.kind = .lParen ∨ c.focus.kind = .comma) ∧ q = []) ∨
        (c.focus.kind ≠ .lParen ∧ c.focus.kind ≠ .comma ∧ '\n' ∉ p ++ q)) := by
      intro g1 g2
      rw [g1, g2, ho]
      unfold CompleteArg.range CompleteArg.ArgCursor.onParen CompleteArg.ArgCursor.onComma
      rw [Option.getD_none, hs, he]
      by_cases hk : c.focus.kind = .lParen ∨ c.focus.kind = .comma
      · have : (c.focus.kind == .lParen || c.focus.kind == .comma) = true := by simpa using hk
        rw [this, if_pos rfl, fits_end]
        grind
      · have : (c.focus.kind == .lParen || c.focus.kind == .comma) = false := by simpa using hk
        rw [this, if_neg (by simp), fits_token]
        grind
    rcases CompleteArg.C82_focus off args hm f hf with ⟨rfl, -⟩ | ⟨la, y, ra, x, e1, -, e2, e3, rfl⟩
    · right
      unfold CompleteArg.focusInfo at hi
      cases hi
      simp only [Option.map_none, ite_self] at hst hsp
      exact flat hst hsp
    · unfold CompleteArg.focusInfo at hi
      simp only at hi
      split at hi
      · rename_i name hname
        rw [Option.map_eq_some_iff] at hi
        obtain ⟨⟨x1, x2⟩, hx, rfl⟩ := hi
        by_cases hn : nestedArgCompletions (Arg.ofMeta x).kind = []
        · right
          simp only [Option.map_some, Analyzer.nestedOf, hn, List.isEmpty_nil, if_true] at hst hsp
          exact flat hst hsp
        · left
          have hn' : (nestedArgCompletions (Arg.ofMeta x).kind).isEmpty = false := by
            simpa using hn
          simp only [Option.map_some, Analyzer.nestedOf, hn', Bool.false_eq_true, if_false] at hst hsp
          refine ⟨y, by rw [e1]; simp, x, name, x1, e2, e3, ?_, hname, hst, ?_⟩
          · revert hn
            cases (Arg.ofMeta x).kind <;> decide
          · rw [show (it.start, it.stop).2 = x2 from hsp]
            exact hx
      · cases hi
  · rw [h1 hc] at hit
    simp at hit

/-- A completion for an entity fits. Missing: literals and comments over several lines on the line of the
cursor (`C83_negation_literal`, `C83_negation_comment`). -/
theorem C119_entity_partial (c : Complete.Cursor) (above before after below : List Complete.CTok)
    (h : CompleteEntity.OneLine c above before after below) :
    Fits c.doc c.offset (CompleteEntity.range c) := by
  obtain ⟨l, m, m', r, h1, h2, h3, h4, h5, -⟩ := CompleteEntity.C83_line_partial c above before after below h
  exact ⟨l, m, m', r, h1, h2, h3, h4, h5⟩

/-- The tokens of `#[`, two line ends, and `] mod m;`. -/
def tornFile : List Complete.CTok :=
  [⟨.other, ['#']⟩, ⟨.lBrack, ['[']⟩, ⟨.whitespace, ['\n', '\n']⟩, ⟨.other, [']']⟩] ++ Complete.tailToks

/-- The cursor between the two line ends. -/
def tornCursor : Complete.Cursor := ⟨[⟨.lBrack, ['[']⟩, ⟨.other, ['#']⟩], .whitespace, ['\n'], ['\n'],
  ⟨.other, [']']⟩ :: Complete.tailToks⟩

/-- Between the two line ends behind `#[`, a macro replaces both: a range over three lines. -/
theorem C119_negation_macro :
    ∃ c i, Complete.cursorAt tornFile 3 = some c ∧
      i ∈ Complete.macroCompletions .v5 c (some (Complete.onModule none)) ∧
      ¬ Fits c.doc c.offset (i.edit.start, i.edit.stop) := by
  have hi : Complete.macroItem tornCursor .contract ∈
      Complete.macroCompletions .v5 tornCursor (some (Complete.onModule none)) := by decide
  refine ⟨tornCursor, _, by decide, hi, ?_⟩
  rw [C119_macro .v5 _ _ _ hi]
  decide

/-- The tokens of `#[ink_e2e::test(backend)]`. -/
def backendLeaves : List Leaf := [⟨.other, 0, 1⟩, ⟨.other, 1, 2⟩, ⟨.ident, 2, 9⟩, ⟨.other, 9, 11⟩,
  ⟨.ident, 11, 15⟩, ⟨.lParen, 15, 16⟩, ⟨.ident, 16, 23⟩, ⟨.rParen, 23, 24⟩, ⟨.rBrack, 24, 25⟩]

/-- The argument `backend` there. -/
def backendArg : Arg := Arg.ofMeta (.mk (.ok ⟨.tok .ident "backend", 16⟩) none .none none 16 none)

/-- In front of the name of an argument that nests others, a completion goes behind the name, away from
the cursor: in `#[ink_e2e::test(backend)]` with the cursor in front of `backend`. -/
theorem C119_negation_argument (hash : String → Vector UInt8 32) :
    ∃ items it, CompleteArg.argumentCompletions hash .v5 ⟨(backendLeaves.take 5).reverse, ⟨.lParen, 15, 16⟩⟩ 16
        none [⟨.macro .e2eTest, [.backend]⟩] (.macro .e2eTest) [backendArg] (some .fn) []
        ⟨backendLeaves, 0, 25, [.backend], true, none, none, none, none⟩ = some items ∧
      it ∈ items ∧ it.text = "(node)" ∧
      ¬ Fits "#[ink_e2e::test(backend)]".toList 16 (it.start, it.stop) := by
  refine ⟨[⟨"node", "(node)", 23, 23, none, "ink! node attribute argument."⟩,
    ⟨"runtime_only", "(runtime_only)", 23, 23, none, "ink! runtime_only attribute argument."⟩],
    ⟨"node", "(node)", 23, 23, none, "ink! node attribute argument."⟩, by rfl, by simp, rfl, ?_⟩
  rintro ⟨l, a, b, r, -, h2, h3, -⟩
  simp only [bytes_append] at h2 h3
  omega

/-! ## Examples -/

/-- `C119_macro` and `C119_answer`: behind `[` in `#[] mod m;`. -/
example : ∃ c, Complete.cursorAt ([⟨.other, ['#']⟩, ⟨.lBrack, ['[']⟩, ⟨.other, [']']⟩] ++ Complete.tailToks) 2 =
    some c ∧ Complete.macroItem c .contract ∈ Complete.macroCompletions .v5 c (some (Complete.onModule none)) ∧
    c.kind = .lBrack ∧ c.post = [] :=
  ⟨⟨[⟨.other, ['#']⟩], .lBrack, ['['], [], ⟨.other, [']']⟩ :: Complete.tailToks⟩, by decide, by decide, rfl, rfl⟩

/-- `C119_entity_partial`: a line of a module. -/
example : Fits CompleteEntity.sampleLine.doc CompleteEntity.sampleLine.offset (8, 19) :=
  ⟨"mod c {\n".toList, "    st".toList, " // x".toList, "\n}".toList, by decide, by decide, by decide, by decide,
    by decide⟩

/-- `C119_client`: the demand, and a range that does not meet it. -/
example : Demanded (⟨1, 0⟩, ⟨1, 11⟩) ⟨1, 6⟩ ∧ ¬ Demanded (⟨0, 2⟩, ⟨2, 0⟩) ⟨1, 0⟩ := by
  unfold Demanded
  decide

end Verif.Lsp.Fit
