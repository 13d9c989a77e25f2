import Verif.Analyzer.Templates
import Verif.Analyzer.SnippetLemmas
import Verif.Analyzer.IndentProps
import Verif.Analyzer.OverlapProps
import Verif.Analyzer.ProjectProps
import Verif.Analyzer.ReservedProps

/-!
# C70: snippets insert the same code as plain texts
-/

namespace Verif.Analyzer

open Verif.Ir

set_option maxRecDepth 10000

/-! ## Specification

`expand` reads a snippet as an editor does: `$n` is a tab stop without text, `${n:text}` a tab
stop showing the text. The other features of the snippet syntax (escapes, nesting, choices,
variables) make the reading fail. -/

/-- Where the reader of a snippet is. -/
inductive Reading
  /-- In ordinary text. -/
  | text
  /-- After `$`. -/
  | dollar
  /-- After `${`. -/
  | opened
  /-- In the number of `$n`. -/
  | bare (n : Nat)
  /-- In the number of `${n:text}`. -/
  | braced (n : Nat)
  /-- In the text of `${n:text}`. -/
  | shown (n : Nat)
  deriving DecidableEq

/-- The value of a decimal digit. -/
def decimal (c : Char) : Option Nat := if c.isDigit then some (c.toNat - 48) else none

/-- Reads a character: the next place, the text shown and the tab stops completed. -/
def Reading.step : Reading → Char → Option (Reading × List Char × List Nat)
  | .text, c =>
    if c = '$' then some (.dollar, [], []) else if c = '\\' then none else some (.text, [c], [])
  | .dollar, c =>
    if c = '{' then some (.opened, [], []) else (decimal c).map fun d => (.bare d, [], [])
  | .opened, c => (decimal c).map fun d => (.braced d, [], [])
  | .bare n, c =>
    match decimal c with
    | some d => some (.bare (n * 10 + d), [], [])
    | none =>
      if c = '$' then some (.dollar, [], [n]) else if c = '\\' then none
      else some (.text, [c], [n])
  | .braced n, c =>
    match decimal c with
    | some d => some (.braced (n * 10 + d), [], [])
    | none => if c = ':' then some (.shown n, [], []) else none
  | .shown n, c =>
    if c = '}' then some (.text, [], [n]) else if c = '$' then none else if c = '\\' then none
    else some (.shown n, [c], [])

/-- Reads a text from a place on. -/
def Reading.run : Reading → List Char → Option (Reading × List Char × List Nat)
  | st, [] => some (st, [], [])
  | st, c :: cs =>
    (st.step c).bind fun (st', o, s) => (st'.run cs).map fun (st'', o', s') => (st'', o ++ o', s ++ s')

/-- The tab stops completed by the end of the snippet. -/
def Reading.finish : Reading → Option (List Nat)
  | .text => some []
  | .bare n => some [n]
  | _ => none

/-- The text a snippet inserts and its tab stops in order. -/
def expand (t : List Char) : Option (List Char × List Nat) :=
  (Reading.text.run t).bind fun (st, o, s) => st.finish.map fun e => (o, s ++ e)

/-- What precedes a position of a text: nothing or an opening brace, a word, or white space
after a word. -/
inductive Before
  | opening
  | word
  | space
  deriving DecidableEq

/-- The normal form of a text, reading a character: runs of white space become one space and
white space next to the inner side of braces and at the ends is dropped. -/
def Before.step : Before → Char → Before × List Char
  | b, c =>
    if c.isWhitespace then (match b with | .opening => .opening | _ => .space, [])
    else
      (if c = '{' then .opening else .word,
        if b = .space ∧ c ≠ '}' then [' ', c] else [c])

/-- The normal form of a text from a position on. -/
def Before.run : Before → List Char → Before × List Char
  | b, [] => (b, [])
  | b, c :: cs => (((b.step c).1.run cs).1, (b.step c).2 ++ ((b.step c).1.run cs).2)

/-- The normal form of a text up to white space. -/
def normalText (t : List Char) : List Char := (Before.opening.run t).2

/-- The tab stops are numbered from 1 without gaps (equal numbers are linked). -/
def Numbered (stops : List Nat) : Prop := ∃ n, ∀ i, i ∈ stops ↔ 1 ≤ i ∧ i ≤ n

/-- The snippet is well-formed, its tab stops are numbered without gaps, and accepting it
without changes inserts the plain text up to white space. -/
def Insertion.Agrees (t : Insertion) : Prop :=
  ∃ out stops, expand t.snippet = some (out, stops) ∧ normalText out = normalText t.plain ∧
    Numbered stops

/-- A name or path: no white space, no braces and no characters special in snippets. -/
def Clean (t : List Char) : Prop :=
  ∀ c ∈ t, c.isWhitespace = false ∧ c ≠ '{' ∧ c ≠ '}' ∧ c ≠ '$' ∧ c ≠ '\\'

/-- An indent: white space within a line. -/
def IndentText (t : List Char) : Prop := ∀ c ∈ t, c.isWhitespace = true ∧ c ≠ '\n' ∧ c ≠ '\r'

/-- The texts offered for insertion. -/
inductive Offered : Insertion → Prop
  | contract (v) : Offered (contractInsertion v)
  | storage (name : List Char) (h : Clean name) (hn : name ≠ []) :
    Offered (storageInsertion (some name))
  | namelessStorage : Offered (storageInsertion none)
  | event (used) : Offered (eventInsertion used)
  | eventV2 (used) : Offered (eventInsertionV2 used)
  | topic (used) : Offered (topicInsertion used)
  | constructor (used) : Offered (constructorInsertion used)
  | message (used) : Offered (messageInsertion used)
  | handler (used) : Offered (handlerInsertion used)
  | traitDef : Offered traitDefInsertion
  | traitMessage (used) : Offered (traitMessageInsertion used)
  | chainExtension (v) : Offered (chainExtensionInsertion v)
  | errorCode : Offered errorCodeInsertion
  | extension (v extensions functions) : Offered (extensionInsertion v extensions functions)
  | combine (paths : List (List Char)) (h : ∀ p ∈ paths, Clean p ∧ p ≠ []) :
    Offered (combineInsertion paths)
  | storageItem : Offered storageItemInsertion
  | environment (v) : Offered (environmentInsertion v)
  | environmentImpl (name : List Char) (h : Clean name) (hn : name ≠ []) :
    Offered (environmentImplInsertion name)
  | statusCodeImpl (name : List Char) (h : Clean name) (hn : name ≠ []) :
    Offered (statusCodeImplInsertion name)
  | test (used) : Offered (testInsertion used)
  | e2eTest (v used) : Offered (e2eTestInsertion v used)
  | package (v : Version) :
    Offered (match v with | .v5 => ⟨cargoPlainV5, cargoSnippetV5⟩ | .v4 => ⟨cargoPlain, cargoSnippet⟩)

/-! ## Pieces of a plain text and a snippet -/

theorem Reading.run_append (st : Reading) (x y : List Char) :
    st.run (x ++ y) = (st.run x).bind fun r =>
      (r.1.run y).map fun r' => (r'.1, r.2.1 ++ r'.2.1, r.2.2 ++ r'.2.2) := by
  induction x generalizing st with
  | nil => simp [Reading.run]
  | cons c x ih =>
    simp only [List.cons_append, Reading.run]
    cases st.step c with
    | none => rfl
    | some r =>
      simp only [Option.bind_some, ih]
      cases r.1.run x with
      | none => rfl
      | some r' =>
        simp only [Option.bind_some, Option.map_some]
        cases r'.1.run y with
        | none => rfl
        | some r'' => simp

theorem Before.run_append (b : Before) (x y : List Char) :
    b.run (x ++ y) = (((b.run x).1.run y).1, (b.run x).2 ++ ((b.run x).1.run y).2) := by
  induction x generalizing b with
  | nil => simp [Before.run]
  | cons c x ih => simp [Before.run, ih]

/-- A piece of the snippet inserts the corresponding piece of the plain text: the place and
normal form state afterwards and the tab stops. -/
def piece (st : Reading) (b : Before) (p s : List Char) : Option (Reading × Before × List Nat) :=
  (st.run s).bind fun r =>
    if b.run r.2.1 = b.run p then some (r.1, (b.run p).1, r.2.2) else none

theorem piece_iff (st : Reading) (b : Before) (p s : List Char) (st' b' ns) :
    piece st b p s = some (st', b', ns) ↔
      ∃ o, st.run s = some (st', o, ns) ∧ b.run o = b.run p ∧ (b.run p).1 = b' := by
  unfold piece
  cases st.run s with
  | none => simp
  | some r =>
    obtain ⟨st1, o, ns1⟩ := r
    by_cases h : b.run o = b.run p
    · simp only [Option.bind_some, h, if_true, Option.some.injEq, Prod.mk.injEq]
      constructor
      · rintro ⟨rfl, h2, rfl⟩
        exact ⟨o, ⟨rfl, rfl, rfl⟩, h, h2⟩
      · rintro ⟨o', ⟨rfl, -, rfl⟩, -, h2⟩
        exact ⟨rfl, h2, rfl⟩
    · simp only [Option.bind_some, h, if_false, reduceCtorEq, false_iff]
      rintro ⟨o', h1, h2, -⟩
      simp only [Option.some.injEq, Prod.mk.injEq] at h1
      exact h (h1.2.1 ▸ h2)

theorem piece_append {st : Reading} {b : Before} {p s st' b' ns p' s' st'' b'' ns'}
    (h : piece st b p s = some (st', b', ns)) (h' : piece st' b' p' s' = some (st'', b'', ns')) :
    piece st b (p ++ p') (s ++ s') = some (st'', b'', ns ++ ns') := by
  rw [piece_iff] at h h' ⊢
  obtain ⟨o, h1, h2, h3⟩ := h
  obtain ⟨o', h4, h5, h6⟩ := h'
  refine ⟨o ++ o', ?_, ?_, ?_⟩
  · rw [Reading.run_append, h1, Option.bind_some]
    simp only [h4, Option.map_some]
  · rw [Before.run_append, Before.run_append, h2, h3, h5]
  · rw [Before.run_append]
    simp only [h3, h6]

theorem Reading.run_clean (st : Reading) (t : List Char) (ht : Clean t)
    (hs : st = .text ∨ ∃ n, st = .shown n) : st.run t = some (st, t, []) := by
  induction t with
  | nil => rfl
  | cons c t ih =>
    obtain ⟨-, -, h3, h4, h5⟩ := ht c List.mem_cons_self
    have ih := ih fun d hd => ht d (List.mem_cons_of_mem c hd)
    rcases hs with rfl | ⟨n, rfl⟩
    · simp [Reading.run, Reading.step, h4, h5, ih]
    · simp [Reading.run, Reading.step, h3, h4, h5, ih]

theorem Before.run_clean (b : Before) (t : List Char) (ht : Clean t) (hn : t ≠ []) :
    (b.run t).1 = .word := by
  induction t generalizing b with
  | nil => exact absurd rfl hn
  | cons c t ih =>
    obtain ⟨h1, h2, -⟩ := ht c List.mem_cons_self
    by_cases hte : t = []
    · subst hte
      simp [Before.run, Before.step, h1, h2]
    · simp only [Before.run]
      exact ih _ (fun d hd => ht d (List.mem_cons_of_mem c hd)) hte

theorem piece_clean (st : Reading) (b : Before) (t : List Char) (ht : Clean t) (hn : t ≠ [])
    (hs : st = .text ∨ ∃ n, st = .shown n) : piece st b t t = some (st, .word, []) := by
  rw [piece_iff]
  exact ⟨t, Reading.run_clean st t ht hs, rfl, Before.run_clean b t ht hn⟩

theorem agrees_of_piece {p s : List Char} {st b ns e} (h : piece .text .opening p s = some (st, b, ns))
    (he : st.finish = some e) (hn : Numbered (ns ++ e)) : (⟨p, s⟩ : Insertion).Agrees := by
  rw [piece_iff] at h
  obtain ⟨o, h1, h2, -⟩ := h
  refine ⟨o, ns ++ e, ?_, ?_, hn⟩
  · simp [expand, h1, he]
  · simp [normalText, h2]

/-! ## Checks of concrete templates -/

/-- Do the numbers, without repetitions, count from 1? -/
def numberedCheck (ns : List Nat) : Bool := ns.eraseDups == List.range' 1 ns.eraseDups.length

theorem numbered_of_check {ns : List Nat} (h : numberedCheck ns = true) : Numbered ns := by
  refine ⟨ns.eraseDups.length, fun i => ?_⟩
  rw [← List.mem_eraseDups]
  have h : ns.eraseDups = List.range' 1 ns.eraseDups.length := by simpa [numberedCheck] using h
  generalize ns.eraseDups.length = n at h
  rw [h, List.mem_range'_1]
  omega

/-- Does the snippet insert the plain text? -/
def fixedCheck (t : Insertion) : Bool :=
  match piece .text .opening t.plain t.snippet with
  | some (st, _, ns) => match st.finish with
    | some e => numberedCheck (ns ++ e)
    | none => false
  | none => false

theorem agrees_of_fixedCheck (t : Insertion) (h : fixedCheck t = true) : t.Agrees := by
  unfold fixedCheck at h
  cases hp : piece .text .opening t.plain t.snippet with
  | none => rw [hp] at h; cases h
  | some r =>
    rw [hp] at h
    cases he : r.1.finish with
    | none => simp [he] at h
    | some e =>
      simp only [he] at h
      exact agrees_of_piece hp he (numbered_of_check h)

/-- Is the place one where characters of names are copied? -/
def Reading.copies : Reading → Bool
  | .text => true
  | .shown _ => true
  | _ => false

/-- Does the snippet insert the plain text whatever replaces the name? -/
def namedCheck (pat p s : List Char) : Bool :=
  match findPat pat p, findPat pat s with
  | some (p1, p2), some (s1, s2) =>
    (findPat pat p2).isNone && (findPat pat s2).isNone &&
      match piece .text .opening p1 s1 with
      | some (st, _, ns) => st.copies &&
        match piece st .word p2 s2 with
        | some (st', _, ns') => match st'.finish with
          | some e => numberedCheck (ns ++ ns' ++ e)
          | none => false
        | none => false
      | none => false
  | _, _ => false

theorem agrees_of_namedCheck (pat p s : List Char) (hp : pat ≠ []) (h : namedCheck pat p s = true)
    (name : List Char) (hc : Clean name) (hn : name ≠ []) :
    (⟨replaceAll pat name p, replaceAll pat name s⟩ : Insertion).Agrees := by
  unfold namedCheck at h
  cases h1 : findPat pat p with
  | none => simp [h1] at h
  | some pp =>
  cases h2 : findPat pat s with
  | none => simp [h1, h2] at h
  | some ss =>
  obtain ⟨p1, p2⟩ := pp
  obtain ⟨s1, s2⟩ := ss
  simp only [h1, h2, Bool.and_eq_true, Option.isNone_iff_eq_none] at h
  obtain ⟨⟨h3, h4⟩, h5⟩ := h
  rw [(findPat_some pat name p p1 p2 hp h1).2, (findPat_some pat name s s1 s2 hp h2).2,
    findPat_none _ _ _ h3, findPat_none _ _ _ h4]
  cases h6 : piece .text .opening p1 s1 with
  | none => simp [h6] at h5
  | some r =>
    obtain ⟨st, b, ns⟩ := r
    simp only [h6, Bool.and_eq_true] at h5
    obtain ⟨h7, h8⟩ := h5
    have hst : st = .text ∨ ∃ n, st = .shown n := by
      cases st <;> simp [Reading.copies] at h7 ⊢
    cases h9 : piece st .word p2 s2 with
    | none => simp [h9] at h8
    | some r' =>
      obtain ⟨st', b', ns'⟩ := r'
      simp only [h9] at h8
      cases he : st'.finish with
      | none => simp [he] at h8
      | some e =>
        simp only [he] at h8
        have := piece_append h6 (piece_append (piece_clean st b name hc hn hst) h9)
        refine agrees_of_piece this he ?_
        simpa using numbered_of_check h8

/-! ## Indenting -/

/-- The second text is the first with white space inserted at the start of lines; the flag says
whether the texts start a line. -/
inductive Padded : Bool → List Char → List Char → Prop
  | nil (f) : Padded f [] []
  | keep (f c x y) : Padded (c == '\n') x y → Padded f (c :: x) (c :: y)
  | space (c x y) : c.isWhitespace = true → Padded true x y → Padded true x (c :: y)

theorem Padded.weaken {f x y} (h : Padded false x y) : Padded f x y := by
  cases h with
  | nil => exact .nil f
  | keep _ c x y h => exact .keep f c x y h

theorem padded_indent (i x y : List Char) (hi : IndentText i) (h : Padded true x y) :
    Padded true x (i ++ y) := by
  induction i with
  | nil => exact h
  | cons c i ih =>
    exact .space c _ _ (hi c List.mem_cons_self).1 (ih fun d hd => hi d (List.mem_cons_of_mem c hd))

theorem padded_line (l : List Char) (hl : '\n' ∉ l) (x y : List Char) (f : Bool)
    (h : Padded (if l = [] then f else false) x y) : Padded f (l ++ x) (l ++ y) := by
  induction l generalizing f with
  | nil => simpa using h
  | cons c l ih =>
    have hc : c ≠ '\n' := fun e => hl (e ▸ List.mem_cons_self)
    refine .keep f c _ _ ?_
    apply ih (fun hm => hl (List.mem_cons_of_mem c hm))
    rw [show (c == '\n') = false by simpa using hc]
    simpa using h

theorem padded_lines (i : List Char) (hi : IndentText i) (ls : List (List Char))
    (h : ∀ l ∈ ls, '\n' ∉ l) :
    Padded true (joinNl ls) (joinNl (ls.map fun l => if l = [] then [] else i ++ l)) := by
  induction ls with
  | nil => exact .nil _
  | cons l ls ih =>
    have hl := h l List.mem_cons_self
    have ih := ih fun m hm => h m (List.mem_cons_of_mem l hm)
    have hone : ∀ x y, (∀ f, Padded f x y) →
        Padded true (l ++ x) ((if l = [] then [] else i ++ l) ++ y) := by
      intro x y hxy
      by_cases hn : l = []
      · simpa [hn] using hxy true
      · simp only [hn, if_false, List.append_assoc]
        exact padded_indent i _ _ hi (padded_line l hl x y true (by simpa [hn] using hxy _))
    cases ls with
    | nil => simpa [joinNl] using hone [] [] fun f => .nil f
    | cons m ls =>
      rw [List.map_cons, joinNl_cons l (m :: ls) (by simp),
        joinNl_cons _ (List.map _ (m :: ls)) (by simp)]
      exact hone _ _ fun f => .keep f '\n' _ _ ih

theorem padded_applyIndenting (t i : List Char) (hi : IndentText i) (hp : Plain t) :
    Padded true t (applyIndenting t i) := by
  have := padded_lines i hi (splitNl t) (splitNl_noNl t)
  rw [← C32_apply t i hp (fun hm => (hi _ hm).2.1 rfl), joinNl_splitNl, joinNl_splitNl] at this
  exact this

theorem Before.run_padded {f x y} (h : Padded f x y) (b : Before) (hb : f = true → b ≠ .word) :
    b.run x = b.run y := by
  induction h generalizing b with
  | nil => rfl
  | keep f c x y _ ih =>
    simp only [Before.run]
    rw [ih]
    intro hc
    have : c = '\n' := by simpa using hc
    subst this
    cases b <;> decide
  | space c x y hc _ ih =>
    have : b.step c = (b, []) := by
      cases b with
      | word => exact absurd rfl (hb rfl)
      | opening => simp [Before.step, hc]
      | space => simp [Before.step, hc]
    simp only [Before.run, this, List.nil_append]
    exact ih b hb

theorem Reading.step_newline (st : Reading) (r) (h : st.step '\n' = some r) :
    (r.1 = .text ∨ ∃ n, r.1 = .shown n) ∧ r.2.1 = ['\n'] := by
  have hd : decimal '\n' = none := by decide
  cases st <;> simp [Reading.step, hd] at h <;> subst h <;> simp

theorem Reading.step_out (st : Reading) (c : Char) (r) (h : st.step c = some r) :
    r.2.1 = [] ∨ r.2.1 = [c] := by
  cases st <;> simp only [Reading.step] at h
  all_goals repeat' split at h
  all_goals simp at h
  all_goals first
    | (subst h; simp; done)
    | (obtain ⟨d, -, rfl⟩ := h; simp)

theorem isWhitespace_ne {c : Char} (h : c.isWhitespace = true) : c ≠ '$' ∧ c ≠ '\\' ∧ c ≠ '}' := by
  refine ⟨?_, ?_, ?_⟩ <;> rintro rfl <;> revert h <;> decide

theorem Reading.run_padded {f x y} (h : Padded f x y) (st : Reading)
    (hs : f = true → st = .text ∨ ∃ n, st = .shown n) (r) (hr : st.run x = some r) :
    ∃ o, st.run y = some (r.1, o, r.2.2) ∧ Padded f r.2.1 o := by
  induction h generalizing st r with
  | nil f =>
    simp only [Reading.run, Option.some.injEq] at hr
    subst hr
    exact ⟨[], rfl, .nil f⟩
  | keep f c x y _ ih =>
    simp only [Reading.run] at hr ⊢
    cases hst : st.step c with
    | none => simp [hst] at hr
    | some q =>
      obtain ⟨st1, o1, n1⟩ := q
      simp only [hst, Option.bind_some, Option.map_eq_some_iff] at hr ⊢
      obtain ⟨r1, hr1, rfl⟩ := hr
      obtain ⟨o, h1, h2⟩ := ih st1 (fun hc => by
        have : c = '\n' := by simpa using hc
        subst this
        exact (Reading.step_newline st _ hst).1) r1 hr1
      refine ⟨o1 ++ o, ⟨_, h1, rfl⟩, ?_⟩
      rcases Reading.step_out st c _ hst with ho | ho
      · simp only at ho
        subst ho
        by_cases hc : c = '\n'
        · subst hc
          have := (Reading.step_newline st _ hst).2
          simp at this
        · rw [show (c == '\n') = false by simpa using hc] at h2
          exact h2.weaken
      · simp only at ho
        subst ho
        exact .keep f c _ _ h2
  | space c x y hc _ ih =>
    obtain ⟨o, h1, h2⟩ := ih st hs r hr
    refine ⟨c :: o, ?_, .space c _ _ hc h2⟩
    obtain ⟨n1, n2, n3⟩ := isWhitespace_ne hc
    rcases hs rfl with rfl | ⟨n, rfl⟩
    · simp [Reading.run, Reading.step, n1, n2, h1]
    · simp [Reading.run, Reading.step, n1, n2, n3, h1]

/-- Indenting both texts keeps the agreement. -/
theorem agrees_withIndent (t : Insertion) (h : t.Agrees) (hp : Plain t.plain) (hs : Plain t.snippet)
    (i : Option (List Char)) (hi : ∀ x, i = some x → IndentText x) : (t.withIndent i).Agrees := by
  cases i with
  | none => exact h
  | some i =>
    have hi := hi i rfl
    obtain ⟨out, stops, h1, h2, h3⟩ := h
    unfold expand at h1
    cases hr : Reading.text.run t.snippet with
    | none => simp [hr] at h1
    | some r =>
      simp only [hr, Option.bind_some, Option.map_eq_some_iff] at h1
      obtain ⟨e, he, h1⟩ := h1
      obtain ⟨o, h4, h5⟩ := Reading.run_padded (padded_applyIndenting t.snippet i hi hs) .text
        (fun _ => .inl rfl) r hr
      simp only [Prod.mk.injEq] at h1
      refine ⟨o, stops, ?_, ?_, h3⟩
      · simp [expand, Insertion.withIndent, h4, he, h1.2]
      · show (Before.opening.run o).2 = (Before.opening.run (applyIndenting t.plain i)).2
        rw [← Before.run_padded h5 .opening (by simp),
          ← Before.run_padded (padded_applyIndenting t.plain i hi hp) .opening (by simp), h1.1]
        exact h2

/-- A text that ends with the character and has no carriage returns. -/
def Closes (d : Char) (t : List Char) : Prop := t.getLast? = some d ∧ '\r' ∉ t

instance (d t) : Decidable (Closes d t) := by unfold Closes; infer_instance

theorem Closes.plain {d t} (h : Closes d t) (hd : d ≠ '\n') : Plain t := by
  refine ⟨fun a b e => h.2 ?_, ?_⟩
  · rw [e]
    simp
  · rw [h.1]
    simpa using hd

theorem mem_replaceGo (pat rep : List Char) (c : Char) (k : Nat) (t : List Char)
    (h : c ∈ replaceGo pat rep k t) : c ∈ rep ∨ c ∈ t := by
  induction t generalizing k with
  | nil => cases k <;> simp [replaceGo] at h
  | cons d t ih =>
    cases k with
    | succ k =>
      rcases ih k (by simpa [replaceGo] using h) with h | h
      · exact .inl h
      · exact .inr (List.mem_cons_of_mem d h)
    | zero =>
      simp only [replaceGo] at h
      split at h
      · rcases List.mem_append.1 h with h | h
        · exact .inl h
        · rcases ih _ h with h | h
          · exact .inl h
          · exact .inr (List.mem_cons_of_mem d h)
      · rcases List.mem_cons.1 h with h | h
        · exact .inr (h ▸ List.mem_cons_self)
        · rcases ih _ h with h | h
          · exact .inl h
          · exact .inr (List.mem_cons_of_mem d h)

theorem Closes.replaceAll {d t} (h : Closes d t) (pat rep : List Char) (hp : pat ≠ []) (hd : d ∉ pat)
    (hr : '\r' ∉ rep) : Closes d (replaceAll pat rep t) := by
  refine ⟨?_, fun hm => ?_⟩
  · obtain ⟨x, hx⟩ := List.getLast?_eq_some_iff.1 h.1
    rw [hx, replaceAll_sep pat rep x [] d hd hp]
    simp [replaceAll_nil]
  · rcases mem_replaceGo pat rep _ 0 t hm with h1 | h1
    · exact hr h1
    · exact h.2 h1

theorem Clean.noCr {t} (h : Clean t) : '\r' ∉ t := fun hm => by
  have := (h _ hm).1
  revert this
  decide

/-! ## Suggested names -/

theorem isDigitOf_ten {c : Char} (h : isDigitOf 10 c = true) :
    c.isDigit = true ∧ (digitVal c).getD 0 = c.toNat - 48 := by
  unfold isDigitOf digitVal at h
  by_cases hd : c.isDigit = true
  · exact ⟨hd, by simp [digitVal, hd]⟩
  · exfalso
    simp only [hd] at h
    by_cases h1 : 'a' ≤ c ∧ c ≤ 'f'
    · have h2 : (97 : Nat) ≤ c.toNat := h1.1
      simp [h1] at h
      omega
    · by_cases h3 : 'A' ≤ c ∧ c ≤ 'F'
      · have h2 : (65 : Nat) ≤ c.toNat := h3.1
        simp [h1, h3] at h
        omega
      · simp [h1, h3] at h

theorem repr_isDigit {n : Nat} {c : Char} (h : c ∈ n.repr.toList) : c.isDigit = true :=
  (isDigitOf_ten (List.all_eq_true.1 (repr_digits n).2.1 c h)).1

theorem isDigit_clean {c : Char} (h : c.isDigit = true) :
    c.isWhitespace = false ∧ c ≠ '{' ∧ c ≠ '}' ∧ c ≠ '$' ∧ c ≠ '\\' := by
  refine ⟨?_, ?_, ?_, ?_, ?_⟩
  · cases hw : c.isWhitespace with
    | false => rfl
    | true =>
      exfalso
      simp only [Char.isWhitespace, Bool.or_eq_true, decide_eq_true_eq] at hw
      rcases hw with ((rfl | rfl) | rfl) | rfl <;> revert h <;> decide
  all_goals rintro rfl; revert h; decide

theorem clean_repr (n : Nat) : Clean n.repr.toList := fun _ h => isDigit_clean (repr_isDigit h)

theorem mem_suggestName (p : String) (used : List String) (c : Char)
    (h : c ∈ (suggestName p used).toList) : c ∈ p.toList ∨ c.isDigit = true := by
  have hc : ∀ j, c ∈ (nameCandidate p j).toList → c ∈ p.toList ∨ c.isDigit = true := by
    intro j hj
    cases j with
    | zero => exact .inl hj
    | succ j =>
      rw [nameCandidate, String.toList_append, List.mem_append] at hj
      exact hj.imp_right repr_isDigit
  rcases suggestName_spec p used with ⟨j, -, -, -, he⟩ | ⟨-, he⟩
  · exact hc j (he ▸ h)
  · exact hc 0 (he ▸ h)

theorem suggestName_ne (p : String) (used : List String) (h : p.toList ≠ []) :
    (suggestName p used).toList ≠ [] := by
  have hc : ∀ j, (nameCandidate p j).toList ≠ [] := by
    intro j
    cases j with
    | zero => exact h
    | succ j => simp [nameCandidate, String.toList_append, String.toList_eq_nil_iff] at h ⊢
  rcases suggestName_spec p used with ⟨j, -, -, -, he⟩ | ⟨-, he⟩
  · rw [he]
    exact hc j
  · rw [he]
    exact h

theorem clean_suggestName (p : String) (used : List String) (h : Clean p.toList) :
    Clean (suggestName p used).toList := by
  intro c hc
  rcases mem_suggestName p used c hc with hc | hc
  · exact h c hc
  · exact isDigit_clean hc

instance (t : List Char) : Decidable (IndentText t) := by unfold IndentText; infer_instance

instance (t : List Char) : Decidable (Clean t) := by unfold Clean; infer_instance

/-! ## Single insertions -/

/-- Both texts agree and can be indented. -/
structure Insertion.Fits (t : Insertion) : Prop where
  agrees : t.Agrees
  plain : Plain t.plain
  snippet : Plain t.snippet

/-- The check of a template without names. -/
def fixedFits (t : Insertion) : Bool :=
  fixedCheck t && t.plain.getLast?.any (· != '\n') && t.snippet.getLast?.any (· != '\n') &&
    !t.plain.contains '\r' && !t.snippet.contains '\r'

theorem closes_of_check (t : List Char) (h : t.getLast?.any (· != '\n') = true)
    (hr : (!t.contains '\r') = true) : ∃ d, d ≠ '\n' ∧ Closes d t := by
  cases hl : t.getLast? with
  | none => simp [hl] at h
  | some d => exact ⟨d, by simpa [hl] using h, hl, by simpa using hr⟩

theorem fits_of_fixed (t : Insertion) (h : fixedFits t = true) : t.Fits := by
  simp only [fixedFits, Bool.and_eq_true] at h
  obtain ⟨⟨⟨⟨h1, h2⟩, h3⟩, h4⟩, h5⟩ := h
  obtain ⟨d, hd, hc⟩ := closes_of_check _ h2 h4
  obtain ⟨d', hd', hc'⟩ := closes_of_check _ h3 h5
  exact ⟨agrees_of_fixedCheck t h1, hc.plain hd, hc'.plain hd'⟩

/-- The check of a template with a name. -/
def namedFits (pat p s : List Char) : Bool :=
  namedCheck pat p s && p.getLast?.any (fun d => d != '\n' && !pat.contains d) &&
    s.getLast?.any (fun d => d != '\n' && !pat.contains d) &&
    !p.contains '\r' && !s.contains '\r' && !pat.isEmpty

theorem closes_replace (pat name t : List Char)
    (h : t.getLast?.any (fun d => d != '\n' && !pat.contains d) = true)
    (hr : (!t.contains '\r') = true) (hp : pat ≠ []) (hc : Clean name) :
    ∃ d, d ≠ '\n' ∧ Closes d (replaceAll pat name t) := by
  cases hl : t.getLast? with
  | none => simp [hl] at h
  | some d =>
    have h : d ≠ '\n' ∧ d ∉ pat := by simpa [hl] using h
    exact ⟨d, h.1, Closes.replaceAll ⟨hl, by simpa using hr⟩ pat name hp h.2 hc.noCr⟩

theorem fits_of_named (pat p s : List Char) (h : namedFits pat p s = true) (name : List Char)
    (hc : Clean name) (hn : name ≠ []) :
    (⟨replaceAll pat name p, replaceAll pat name s⟩ : Insertion).Fits := by
  simp only [namedFits, Bool.and_eq_true] at h
  obtain ⟨⟨⟨⟨⟨h1, h2⟩, h3⟩, h4⟩, h5⟩, h6⟩ := h
  have hp : pat ≠ [] := by simpa using h6
  obtain ⟨d, hd, hcl⟩ := closes_replace pat name p h2 h4 hp hc
  obtain ⟨d', hd', hcl'⟩ := closes_replace pat name s h3 h5 hp hc
  exact ⟨agrees_of_namedCheck pat p s hp h1 name hc hn, hcl.plain hd, hcl'.plain hd'⟩

theorem fits_of_unique (p s pat : String) (h : namedFits pat.toList p.toList s.toList = true)
    (hc : Clean pat.toList) (used : List String) : (uniqueInsertion p s pat used).Fits := by
  have hn : pat.toList ≠ [] := by
    intro he
    rw [he] at h
    simp [namedFits] at h
  exact fits_of_named _ _ _ h _ (clean_suggestName pat used hc) (suggestName_ne pat used hn)

/-! ## Functions of chain extensions -/

theorem findPat_none_of_notMem (pat t : List Char) (c : Char) (hc : c ∈ pat) (ht : c ∉ t) :
    findPat pat t = none := by
  apply findPat_none_of
  rintro ⟨a, b, rfl⟩
  exact ht (by simp [hc])

/-- Replacing the id in front of a line without `]`. -/
theorem replaceAll_id (pat rep x1 x2 y : List Char) (hp : pat ≠ []) (hb : ']' ∈ pat) (hn : '\n' ∉ pat)
    (hy : ']' ∉ y) (hx : findPat pat (x1 ++ pat ++ x2) = some (x1, x2)) (h2 : findPat pat x2 = none) :
    replaceAll pat rep (x1 ++ pat ++ x2 ++ '\n' :: y) = x1 ++ rep ++ x2 ++ '\n' :: y := by
  rw [replaceAll_sep pat rep _ y '\n' hn hp, (findPat_some pat rep _ _ _ hp hx).2,
    findPat_none _ _ _ h2, findPat_none _ _ _ (findPat_none_of_notMem pat y ']' hb hy)]
  simp

theorem piece_keep {st : Reading} {b : Before} {p s st' b' ns} (p' s' : List Char) {st'' b'' ns'}
    (h' : piece st' b' p' s' = some (st'', b'', ns')) (h : piece st b p s = some (st', b', ns)) :
    piece st b (p ++ p') (s ++ s') = some (st'', b'', ns ++ ns') := piece_append h h'

/-- The texts of an extension function. -/
theorem extension_pieces (arg name id : List Char) (ha : Clean arg) (hi : Clean id) (hc : Clean name)
    (ha0 : arg ≠ []) (hi0 : id ≠ []) (hc0 : name ≠ []) :
    (⟨chars! "#[ink(" ++ arg ++ chars! " = " ++ id ++ chars! ")]\nfn " ++ name ++ chars! "();",
      chars! "#[ink(" ++ arg ++ chars! " = ${1:" ++ id ++ chars! "})]\nfn ${2:" ++ name ++
        chars! "}();"⟩ : Insertion).Agrees := by
  have h1 : piece .text .opening (chars! "#[ink(") (chars! "#[ink(") = some (.text, .word, []) := by
    decide
  have h2 := piece_append h1 (piece_clean .text .word arg ha ha0 (.inl rfl))
  have h3 := piece_append (p' := chars! " = ") (s' := chars! " = ${1:") h2
    (st'' := .shown 1) (b'' := .space) (ns' := []) (by decide)
  have h4 := piece_append h3 (piece_clean (.shown 1) .space id hi hi0 (.inr ⟨1, rfl⟩))
  have h5 := piece_append (p' := chars! ")]\nfn ") (s' := chars! "})]\nfn ${2:") h4
    (st'' := .shown 2) (b'' := .space) (ns' := [1]) (by decide)
  have h6 := piece_append h5 (piece_clean (.shown 2) .space name hc hc0 (.inr ⟨2, rfl⟩))
  have h7 := piece_append (p' := chars! "();") (s' := chars! "}();") h6
    (st'' := .text) (b'' := .word) (ns' := [2]) (by decide)
  exact agrees_of_piece h7 (e := []) rfl (numbered_of_check (by decide))

theorem extensionTexts_eq (v : Version) (name : List Char) (id : Nat) (hb : ']' ∉ name)
    (hid : 1 ≤ id) :
    extensionTexts v name id =
      (let arg := match v with | .v5 => chars! "function" | .v4 => chars! "extension"
       ⟨chars! "#[ink(" ++ arg ++ chars! " = " ++ id.repr.toList ++ chars! ")]\nfn " ++ name ++
          chars! "();",
        chars! "#[ink(" ++ arg ++ chars! " = ${1:" ++ id.repr.toList ++ chars! "})]\nfn ${2:" ++
          name ++ chars! "}();"⟩) := by
  have e1 : replaceAll (chars! "my_function") name extensionFnPlainV5.toList =
      chars! "#[ink(function = 1)]\nfn " ++ (name ++ chars! "();") :=
    (findPat_some (chars! "my_function") name _ (chars! "#[ink(function = 1)]\nfn ") (chars! "();")
      (by decide) (by decide +kernel)).2
  have e2 : replaceAll (chars! "my_function") name extensionFnSnippetV5.toList =
      chars! "#[ink(function = ${1:1})]\nfn ${2:" ++ (name ++ chars! "}();") :=
    (findPat_some (chars! "my_function") name _ (chars! "#[ink(function = ${1:1})]\nfn ${2:")
      (chars! "}();") (by decide) (by decide +kernel)).2
  have e3 : replaceAll (chars! "my_extension") name extensionFnPlain.toList =
      chars! "#[ink(extension = 1)]\nfn " ++ (name ++ chars! "();") :=
    (findPat_some (chars! "my_extension") name _ (chars! "#[ink(extension = 1)]\nfn ")
      (chars! "();") (by decide) (by decide +kernel)).2
  have e4 : replaceAll (chars! "my_extension") name extensionFnSnippet.toList =
      chars! "#[ink(extension = ${1:1})]\nfn ${2:" ++ (name ++ chars! "}();") :=
    (findPat_some (chars! "my_extension") name _ (chars! "#[ink(extension = ${1:1})]\nfn ${2:")
      (chars! "}();") (by decide) (by decide +kernel)).2
  have hp : ']' ∉ chars! "fn " ++ name ++ chars! "();" := by simp [hb]
  have hs : ']' ∉ chars! "fn ${2:" ++ name ++ chars! "}();" := by simp [hb]
  have f1 := fun rep => replaceAll_id (chars! "1)]") rep (chars! "#[ink(function = ") [] _ (by decide)
    (by decide) (by decide) hp (by decide) rfl
  have f2 := fun rep => replaceAll_id (chars! "1})]") rep (chars! "#[ink(function = ${1:") [] _
    (by decide) (by decide) (by decide) hs (by decide) rfl
  have f3 := fun rep => replaceAll_id (chars! "1)]") rep (chars! "#[ink(extension = ") [] _ (by decide)
    (by decide) (by decide) hp (by decide) rfl
  have f4 := fun rep => replaceAll_id (chars! "1})]") rep (chars! "#[ink(extension = ${1:") [] _
    (by decide) (by decide) (by decide) hs (by decide) rfl
  by_cases h1 : id > 1
  · cases v
    · simp only [extensionTexts, e3, e4, h1, if_true, Insertion.mk.injEq]
      constructor
      · refine Eq.trans (Eq.trans ?_ (f3 (id.repr.toList ++ chars! ")]"))) ?_ <;> simp
      · refine Eq.trans (Eq.trans ?_ (f4 (id.repr.toList ++ chars! "})]"))) ?_ <;> simp
    · simp only [extensionTexts, e1, e2, h1, if_true, Insertion.mk.injEq]
      constructor
      · refine Eq.trans (Eq.trans ?_ (f1 (id.repr.toList ++ chars! ")]"))) ?_ <;> simp
      · refine Eq.trans (Eq.trans ?_ (f2 (id.repr.toList ++ chars! "})]"))) ?_ <;> simp
  · have : id = 1 := by omega
    subst this
    have hr : (1 : Nat).repr.toList = ['1'] := by decide
    cases v
    · simp [extensionTexts, e3, e4, hr]
    · simp [extensionTexts, e1, e2, hr]

/-! ## Combined extensions -/

theorem Reading.run_digits (n : Nat) (ds : List Char) (h : ds.all (isDigitOf 10) = true) :
    Reading.run (.braced n) ds =
      some (.braced (ds.foldl (fun acc c => acc * 10 + (digitVal c).getD 0) n), [], []) := by
  induction ds generalizing n with
  | nil => rfl
  | cons c ds ih =>
    simp only [List.all_cons, Bool.and_eq_true] at h
    obtain ⟨h1, h2⟩ := isDigitOf_ten h.1
    simp [Reading.run, Reading.step, decimal, h1, ih _ h.2, h2]

theorem Reading.run_number (n : Nat) :
    Reading.run .opened n.repr.toList = some (.braced n, [], []) := by
  obtain ⟨h0, h1, h2⟩ := repr_digits n
  rw [positional, filter_digits 10 _ h1] at h2
  cases hr : n.repr.toList with
  | nil => exact absurd hr h0
  | cons c ds =>
    rw [hr] at h1 h2
    simp only [List.all_cons, Bool.and_eq_true] at h1
    obtain ⟨h3, h4⟩ := isDigitOf_ten h1.1
    have := Reading.run_digits (c.toNat - 48) ds h1.2
    simp only [List.foldl_cons, Nat.zero_mul, Nat.zero_add, h4] at h2
    simp [Reading.run, Reading.step, decimal, h3, this, h2]

theorem piece_number (n : Nat) (b : Before) :
    piece .opened b [] n.repr.toList = some (.braced n, b, []) := by
  rw [piece_iff]
  exact ⟨[], Reading.run_number n, rfl, rfl⟩

theorem piece_field (idx : Nat) (b : Before) (path : List Char) (hc : Clean path) (hn : path ≠ [])
    (hb : b ≠ .word) :
    ∀ f ∈ combineFields idx [path], piece .text b f.1 f.2 =
      some (.text, .word, [2 * idx + 2, 2 * idx + 3]) := by
  intro f hf
  simp only [combineFields, List.mem_singleton] at hf
  subst hf
  have e1 : 1 + idx * 2 + 1 = 2 * idx + 2 := by omega
  have e2 : 1 + idx * 2 + 1 + 1 = 2 * idx + 3 := by omega
  have hn1 : (idx + 1).repr.toList ≠ [] := (repr_digits _).1
  have h1 : ∃ b', piece .text b (chars! "        pub ") (chars! "        pub ${") =
      some (.opened, b', []) ∧ b' = .space := by
    cases b with
    | word => exact absurd rfl hb
    | opening => exact ⟨_, by decide, rfl⟩
    | space => exact ⟨_, by decide, rfl⟩
  obtain ⟨b', h1, rfl⟩ := h1
  have h2 := piece_append h1 (piece_number (2 * idx + 2) .space)
  have h3 := piece_append (p' := chars! "ext") (s' := chars! ":ext") h2
    (st'' := .shown (2 * idx + 2)) (b'' := .word) (ns' := []) rfl
  have h4 := piece_append h3
    (piece_clean _ .word (idx + 1).repr.toList (clean_repr _) hn1 (.inr ⟨_, rfl⟩))
  have h5 := piece_append (p' := chars! ": ") (s' := chars! "}: ${") h4
    (st'' := .opened) (b'' := .space) (ns' := [2 * idx + 2]) rfl
  have h6 := piece_append h5 (piece_number (2 * idx + 3) .space)
  have h7 := piece_append (p' := []) (s' := chars! ":") h6
    (st'' := .shown (2 * idx + 3)) (b'' := .space) (ns' := []) rfl
  have h8 := piece_append h7 (piece_clean _ .space path hc hn (.inr ⟨_, rfl⟩))
  have h9 := piece_append (p' := chars! ",") (s' := chars! "},") h8
    (st'' := .text) (b'' := .word) (ns' := [2 * idx + 3]) rfl
  rw [e2, e1]
  simpa using h9

theorem piece_fields (paths : List (List Char)) (hc : ∀ p ∈ paths, Clean p ∧ p ≠ []) (hn : paths ≠ [])
    (idx : Nat) (b : Before) (hb : b ≠ .word) :
    piece .text b (joinLf ((combineFields idx paths).map (·.1)))
        (joinLf ((combineFields idx paths).map (·.2))) =
      some (.text, .word, List.range' (2 * idx + 2) (2 * paths.length)) := by
  induction paths generalizing idx b with
  | nil => exact absurd rfl hn
  | cons path paths ih =>
    obtain ⟨h1, h2⟩ := hc path List.mem_cons_self
    have hf := piece_field idx b path h1 h2 hb _ (by simp only [combineFields]; exact List.mem_singleton_self _)
    cases paths with
    | nil => exact hf
    | cons q qs =>
      have := ih (fun p hp => hc p (List.mem_cons_of_mem _ hp)) (by simp) (idx + 1) .space (by simp)
      have hnl : piece .text .word (chars! "\n") (chars! "\n") = some (.text, .space, []) := by decide
      have := piece_append (piece_append hf hnl) this
      have hr : List.range' (2 * idx + 2) (2 * (path :: q :: qs).length) =
          [2 * idx + 2, 2 * idx + 3] ++ [] ++
            List.range' (2 * (idx + 1) + 2) (2 * (q :: qs).length) := by
        have : 2 * (path :: q :: qs).length = 2 * (q :: qs).length + 1 + 1 := by simp; omega
        rw [this, List.range'_succ, List.range'_succ]
        simp
        constructor <;> omega
      rw [hr]
      simpa [combineFields, joinLf] using this

theorem combineFields_length (idx : Nat) (paths : List (List Char)) :
    (combineFields idx paths).length = paths.length := by
  induction paths generalizing idx with
  | nil => rfl
  | cons p ps ih => simp [combineFields, ih]

theorem mem_joinLf (c : Char) (ls : List (List Char)) (h : c ∈ joinLf ls) :
    c = '\n' ∨ ∃ l ∈ ls, c ∈ l := by
  induction ls with
  | nil => simp [joinLf] at h
  | cons l ls ih =>
    cases ls with
    | nil => exact .inr ⟨l, List.mem_cons_self, h⟩
    | cons m ls =>
      simp only [joinLf, List.mem_append] at h
      rcases h with (h | h) | h
      · exact .inr ⟨l, List.mem_cons_self, h⟩
      · exact .inl (by simpa using h)
      · rcases ih h with h | ⟨k, hk, h⟩
        · exact .inl h
        · exact .inr ⟨k, List.mem_cons_of_mem l hk, h⟩

theorem fields_noCr (paths : List (List Char)) (hc : ∀ p ∈ paths, Clean p ∧ p ≠ []) (idx : Nat)
    (f) (hf : f ∈ combineFields idx paths) : '\r' ∉ f.1 ∧ '\r' ∉ f.2 := by
  induction paths generalizing idx with
  | nil => simp [combineFields] at hf
  | cons p ps ih =>
    rcases List.mem_cons.1 hf with rfl | hf
    · have h1 := (hc p List.mem_cons_self).1.noCr
      have h2 : ∀ n : Nat, '\r' ∉ n.repr.toList := fun n => (clean_repr n).noCr
      simp only [List.mem_append, h1, h2, or_false]
      decide
    · exact ih (fun q hq => hc q (List.mem_cons_of_mem p hq)) (idx + 1) hf

theorem closes_append {d : Char} {t : List Char} (h : Closes d t) (x : List Char) (hx : '\r' ∉ x) :
    Closes d (x ++ t) := by
  refine ⟨?_, fun hm => ?_⟩
  · rw [List.getLast?_append, h.1]
    rfl
  · rcases List.mem_append.1 hm with hm | hm
    · exact hx hm
    · exact h.2 hm

theorem replaceAll_split (pat rep t b a : List Char) (hp : pat ≠ []) (h : findPat pat t = some (b, a))
    (h2 : findPat pat a = none) : replaceAll pat rep t = b ++ rep ++ a := by
  rw [(findPat_some pat rep t b a hp h).2, findPat_none _ _ _ h2, List.append_assoc]

theorem combineInsertion_eq (paths : List (List Char)) (hn : paths ≠ []) :
    combineInsertion paths =
      (let fields := combineFields 0 paths
       ⟨chars! "ink::combine_extensions! {\n    pub struct CombinedChainExtension {\n" ++
          joinLf (fields.map (·.1)) ++
          (if paths.length > 1 then chars! "\n    }\n}"
          else chars! "\n        pub ext2: Extension2,\n    }\n}"),
        chars! "ink::combine_extensions! {\n    pub struct ${1:CombinedChainExtension} {\n" ++
          joinLf (fields.map (·.2)) ++
          (if paths.length > 1 then chars! "\n    }\n}"
          else chars! "\n        pub ${4:ext2}: ${5:Extension2},\n    }\n}")⟩) := by
  have hne : (combineFields 0 paths).isEmpty = false := by
    cases paths with
    | nil => exact absurd rfl hn
    | cons p ps => rfl
  unfold combineInsertion
  simp only [hne, combineFields_length]
  by_cases hl : paths.length > 1
  · simp only [hl, if_true]
    rw [replaceAll_split _ _ combineExtensionsPlain _ _ (by decide)
        (show _ = some (chars! "ink::combine_extensions! {\n    pub struct CombinedChainExtension {\n",
          chars! "\n    }\n}") by decide +kernel) (by decide),
      replaceAll_split _ _ combineExtensionsSnippet _ _ (by decide)
        (show _ = some (chars! "ink::combine_extensions! {\n    pub struct ${1:CombinedChainExtension} {\n",
          chars! "\n    }\n}") by decide +kernel) (by decide)]
    rfl
  · simp only [hl, if_false]
    rw [replaceAll_split _ _ combineExtensionsPlain _ _ (by decide)
        (show _ = some (chars! "ink::combine_extensions! {\n    pub struct CombinedChainExtension {\n",
          chars! "\n        pub ext2: Extension2,\n    }\n}") by decide +kernel) (by decide),
      replaceAll_split _ _ combineExtensionsSnippet _ _ (by decide)
        (show _ = some (chars! "ink::combine_extensions! {\n    pub struct ${1:CombinedChainExtension} {\n",
          chars! "\n        pub ${4:ext2}: ${5:Extension2},\n    }\n}") by decide +kernel) (by decide)]
    rfl

theorem fits_combine (paths : List (List Char)) (hc : ∀ p ∈ paths, Clean p ∧ p ≠ []) :
    (combineInsertion paths).Fits := by
  by_cases hn : paths = []
  · subst hn
    exact fits_of_fixed _ (by decide +kernel)
  have hne : (combineFields 0 paths).isEmpty = false := by
    cases paths with
    | nil => exact absurd rfl hn
    | cons p ps => rfl
  have hf := piece_fields paths hc hn 0 .opening (by simp)
  have hcr1 : '\r' ∉ joinLf ((combineFields 0 paths).map (·.1)) := by
    intro hm
    rcases mem_joinLf _ _ hm with h | ⟨l, hl, h⟩
    · revert h; decide
    · obtain ⟨f, hf, rfl⟩ := List.mem_map.1 hl
      exact (fields_noCr paths hc 0 f hf).1 h
  have hcr2 : '\r' ∉ joinLf ((combineFields 0 paths).map (·.2)) := by
    intro hm
    rcases mem_joinLf _ _ hm with h | ⟨l, hl, h⟩
    · revert h; decide
    · obtain ⟨f, hf, rfl⟩ := List.mem_map.1 hl
      exact (fields_noCr paths hc 0 f hf).2 h
  have ha : piece .text .opening
      (chars! "ink::combine_extensions! {\n    pub struct CombinedChainExtension {\n")
      (chars! "ink::combine_extensions! {\n    pub struct ${1:CombinedChainExtension} {\n") =
      some (.text, .opening, [1]) := by decide
  have hab := piece_append ha hf
  have e := combineInsertion_eq paths hn
  simp only at e
  have hb : piece .text .word (chars! "\n    }\n}") (chars! "\n    }\n}") =
    some (.text, .word, []) := by decide
  have hb1 : piece .text .word (chars! "\n        pub ext2: Extension2,\n    }\n}")
      (chars! "\n        pub ${4:ext2}: ${5:Extension2},\n    }\n}") =
    some (.text, .word, [4, 5]) := by decide
  rw [e]
  by_cases hl : paths.length > 1
  · simp only [hl, if_true]
    refine ⟨?_, ?_, ?_⟩
    · refine agrees_of_piece (piece_append hab hb) (e := []) rfl ⟨2 * paths.length + 1, fun i => ?_⟩
      simp only [List.append_nil, List.mem_append, List.mem_singleton, List.mem_range'_1]
      omega
    · exact Closes.plain (d := '}') (closes_append (by decide) _ (by simp [hcr1])) (by decide)
    · exact Closes.plain (d := '}') (closes_append (by decide) _ (by simp [hcr2])) (by decide)
  · simp only [hl, if_false]
    have hl : paths.length = 1 := by
      have := List.length_pos_iff.2 hn
      omega
    refine ⟨?_, ?_, ?_⟩
    · refine agrees_of_piece (piece_append hab hb1) (e := []) rfl ⟨5, fun i => ?_⟩
      simp only [List.append_nil, List.mem_append, List.mem_range'_1, hl,
        List.mem_cons, List.not_mem_nil, or_false]
      omega
    · exact Closes.plain (d := '}') (closes_append (by decide) _ (by simp [hcr1])) (by decide)
    · exact Closes.plain (d := '}') (closes_append (by decide) _ (by simp [hcr2])) (by decide)

theorem fits_extensionTexts (v : Version) (p : String) (used : List String) (id : Nat)
    (hp : p = "my_function" ∨ p = "my_extension") (hid : 1 ≤ id) :
    (extensionTexts v (suggestName p used).toList id).Fits := by
  have hp1 : Clean p.toList ∧ ']' ∉ p.toList ∧ p.toList ≠ [] := by
    rcases hp with rfl | rfl <;> decide
  have hb : ']' ∉ (suggestName p used).toList := by
    intro hm
    rcases mem_suggestName p used _ hm with h | h
    · exact hp1.2.1 h
    · revert h; decide
  have hc := clean_suggestName p used hp1.1
  have hn := suggestName_ne p used hp1.2.2
  generalize (suggestName p used).toList = name at hb hc hn
  rw [extensionTexts_eq v name id hb hid]
  have key : ∀ arg : List Char, Clean arg → arg ≠ [] →
      (⟨chars! "#[ink(" ++ arg ++ chars! " = " ++ id.repr.toList ++ chars! ")]\nfn " ++ name ++
          chars! "();",
        chars! "#[ink(" ++ arg ++ chars! " = ${1:" ++ id.repr.toList ++ chars! "})]\nfn ${2:" ++
          name ++ chars! "}();"⟩ : Insertion).Fits := by
    intro arg ha ha0
    have hr : '\r' ∉ id.repr.toList := (clean_repr id).noCr
    refine ⟨extension_pieces arg name _ ha (clean_repr id) hc ha0 (repr_digits id).1 hn, ?_, ?_⟩
    · refine Closes.plain (d := ';') (closes_append (by decide) _ ?_) (by decide)
      simp only [List.mem_append, ha.noCr, hr, hc.noCr, or_false]
      decide
    · refine Closes.plain (d := ';') (closes_append (by decide) _ ?_) (by decide)
      simp only [List.mem_append, ha.noCr, hr, hc.noCr, or_false]
      decide
  cases v
  · exact key _ (by decide) (by decide)
  · exact key _ (by decide) (by decide)

theorem fits_extension (v : Version) (extensions functions : List (String × Nat)) :
    (extensionInsertion v extensions functions).Fits := by
  have hid : 1 ≤ (addExtension v extensions functions).2 := by
    unfold addExtension
    cases hs : suggestId 4294967295 none (extensions.map (·.2)) with
    | none => simp
    | some i =>
      have := C30_fresh 4294967295 none (extensions.map (·.2)) i (by simp) hs
      simpa using this.2.2.1
  cases v
  · exact fits_extensionTexts _ _ _ _ (.inr rfl) hid
  · exact fits_extensionTexts _ _ _ _ (.inl rfl) hid

theorem uniqueText_absent (text preferred : String) (used : List String)
    (h : findPat preferred.toList text.toList = none) :
    uniqueText text preferred used = text.toList := findPat_none _ _ _ h

theorem handlerInsertion_eq (used : List String) : handlerInsertion used =
    ⟨chars! "#[ink(message, selector = @)]\npub fn my_message(&self) {\n    todo!()\n}",
      chars! "#[ink(message, selector = @)]\npub fn ${1:my_message}(&${2:self}) {\n    ${3:todo!()}\n}"⟩ := by
  have h1 : findPat "handler".toList messagePlain.toList = none := by decide +kernel
  have h2 : findPat "handler".toList messageSnippet.toList = none := by decide +kernel
  unfold handlerInsertion messageSelectorInsertion uniqueInsertion
  rw [uniqueText_absent _ _ _ h1, uniqueText_absent _ _ _ h2]
  decide +kernel

theorem fits_of_offered (t : Insertion) (h : Offered t) : t.Fits := by
  cases h with
  | contract v => cases v <;> exact fits_of_fixed _ (by decide +kernel)
  | storage name h hn => exact fits_of_named _ _ _ (by decide +kernel) name h hn
  | namelessStorage => exact fits_of_fixed _ (by decide +kernel)
  | event used => exact fits_of_unique _ _ _ (by decide +kernel) (by decide) used
  | eventV2 used =>
    cases used with
    | none => exact fits_of_fixed _ (by decide +kernel)
    | some used => exact fits_of_unique _ _ _ (by decide +kernel) (by decide) used
  | topic used => exact fits_of_unique _ _ _ (by decide +kernel) (by decide) used
  | constructor used => exact fits_of_unique _ _ _ (by decide +kernel) (by decide) used
  | message used => exact fits_of_unique _ _ _ (by decide +kernel) (by decide) used
  | handler used =>
    rw [handlerInsertion_eq]
    exact fits_of_fixed _ (by decide +kernel)
  | traitDef => exact fits_of_fixed _ (by decide +kernel)
  | traitMessage used => exact fits_of_unique _ _ _ (by decide +kernel) (by decide) used
  | chainExtension v => cases v <;> exact fits_of_fixed _ (by decide +kernel)
  | errorCode => exact fits_of_fixed _ (by decide +kernel)
  | extension v e f => exact fits_extension v e f
  | combine paths h => exact fits_combine paths h
  | storageItem => exact fits_of_fixed _ (by decide +kernel)
  | environment v => cases v <;> exact fits_of_fixed _ (by decide +kernel)
  | environmentImpl name h hn => exact fits_of_named _ _ _ (by decide +kernel) name h hn
  | statusCodeImpl name h hn => exact fits_of_named _ _ _ (by decide +kernel) name h hn
  | test used => exact fits_of_unique _ _ _ (by decide +kernel) (by decide) used
  | e2eTest v used => cases v <;> exact fits_of_unique _ _ _ (by decide +kernel) (by decide) used
  | package v => cases v <;> exact fits_of_fixed _ (by decide +kernel)

/-! ## Theorems -/

/-- Every snippet offered for insertion is well-formed, numbers its tab stops without gaps and
inserts the plain text, up to white space, at every indent. -/
theorem C70_agree (t : Insertion) (h : Offered t) (i : Option (List Char))
    (hi : ∀ x, i = some x → IndentText x) : (t.withIndent i).Agrees :=
  have hf := fits_of_offered t h
  agrees_withIndent t hf.agrees hf.plain hf.snippet i hi

example : ((combineInsertion ["psp22::Ext".toList, "Fetch".toList, "Other".toList]).withIndent
    (some "    ".toList)).Agrees :=
  C70_agree _ (.combine _ (by decide)) _ (by intro x hx; cases hx; decide)

example : expand "fn ${1:f}() { $2 }".toList = some ("fn f() {  }".toList, [1, 2]) := by decide

example : normalText "a {\n    b  c\n}".toList = "a {b c}".toList := by decide

/-- The message offered as the complement of a wildcard selector is not given a name free in
the contract: it is always named `my_message`. -/
theorem C31_negation_handler (used : List String) :
    (handlerInsertion used).plain =
      chars! "#[ink(message, selector = @)]\npub fn my_message(&self) {\n    todo!()\n}" := by
  rw [handlerInsertion_eq]

/-- The text offered for a function of a chain extension: the suggested id and name. -/
theorem C70_extension (v : Version) (name : List Char) (id : Nat) (hb : ']' ∉ name) (hid : 1 ≤ id) :
    (extensionTexts v name id).plain =
      chars! "#[ink(" ++ (match v with | .v5 => chars! "function" | .v4 => chars! "extension") ++
        chars! " = " ++ id.repr.toList ++ chars! ")]\nfn " ++ name ++ chars! "();" := by
  rw [extensionTexts_eq v name id hb hid]

example : (extensionTexts .v5 "my_function2".toList 12).plain =
    "#[ink(function = 12)]\nfn my_function2();".toList := by
  rw [C70_extension _ _ _ (by decide) (by decide)]
  decide

theorem joinLf_eq (ls : List (List Char)) : joinLf ls = joinNl ls := by
  induction ls with
  | nil => rfl
  | cons l ls ih =>
    cases ls with
    | nil => rfl
    | cons m ls => simp [joinLf, joinNl, ih]

/-- The plain field of a chain extension. -/
def combineField (i : Nat) (p : List Char) : List Char :=
  chars! "        pub ext" ++ (i + 1).repr.toList ++ chars! ": " ++ p ++ chars! ","

theorem combineFields_plain (idx : Nat) (paths : List (List Char)) :
    (combineFields idx paths).map (·.1) = paths.mapIdx fun i p => combineField (idx + i) p := by
  induction paths generalizing idx with
  | nil => rfl
  | cons p ps ih =>
    rw [combineFields, List.map_cons, ih (idx + 1), List.mapIdx_cons]
    have : (fun i q => combineField (idx + 1 + i) q) = fun i q => combineField (idx + (i + 1)) q := by
      funext i q
      rw [Nat.add_assoc, Nat.add_comm 1 i]
    rw [this]
    rfl

/-- The text offered for combining at least two chain extensions: one field for each in order
and no others.

Missing for the full claim: a single chain extension, see `C70_negation_single`. -/
theorem C70_combined_partial (paths : List (List Char)) (h : paths.length > 1) :
    (combineInsertion paths).plain =
      chars! "ink::combine_extensions! {\n    pub struct CombinedChainExtension {\n" ++
        joinNl (paths.mapIdx fun i p =>
          chars! "        pub ext" ++ (i + 1).repr.toList ++ chars! ": " ++ p ++ chars! ",") ++
        chars! "\n    }\n}" := by
  have hn : paths ≠ [] := by
    intro he
    rw [he] at h
    simp at h
  rw [combineInsertion_eq paths hn]
  simp only [h, if_true, combineFields_plain, joinLf_eq, Nat.zero_add]
  rfl

/-- With a single chain extension, a field for the inexistent `Extension2` is inserted as
well. -/
theorem C70_negation_single (path : List Char) :
    (combineInsertion [path]).plain =
      chars! "ink::combine_extensions! {\n    pub struct CombinedChainExtension {\n" ++
        chars! "        pub ext1: " ++ path ++ chars! "," ++
        chars! "\n        pub ext2: Extension2,\n    }\n}" := by
  rw [combineInsertion_eq [path] (by simp)]
  have hr : (0 + 1 : Nat).repr.toList = ['1'] := by decide
  simp [combineFields, joinLf, hr]

/-! ## Versions and linked tab stops -/

/-- Does the text occur? -/
def occurs (pat : List Char) : List Char → Bool
  | [] => pat.isEmpty
  | c :: cs => pat.isPrefixOf (c :: cs) || occurs pat cs

theorem occurs_iff (pat t : List Char) : occurs pat t = true ↔ ∃ a b, t = a ++ pat ++ b := by
  induction t with
  | nil =>
    simp only [occurs, List.isEmpty_iff]
    constructor
    · rintro rfl
      exact ⟨[], [], rfl⟩
    · rintro ⟨a, b, h⟩
      have h' := List.append_eq_nil_iff.1 h.symm
      exact (List.append_eq_nil_iff.1 h'.1).2
  | cons c cs ih =>
    simp only [occurs, Bool.or_eq_true, ih, List.isPrefixOf_iff_prefix]
    constructor
    · rintro (⟨b, h⟩ | ⟨a, b, h⟩)
      · exact ⟨[], b, by simpa using h.symm⟩
      · exact ⟨c :: a, b, by simp [h]⟩
    · rintro ⟨a, b, h⟩
      cases a with
      | nil => exact Or.inl ⟨b, by simpa using h.symm⟩
      | cons x a =>
        simp only [List.cons_append, List.cons.injEq] at h
        exact Or.inr ⟨a, b, h.2⟩

/-- The number of the digits. -/
def numberOf (ds : List Char) : Nat := ds.foldl (fun n d => n * 10 + (d.toNat - '0'.toNat)) 0

/-- The tab stops of a snippet with their placeholders, as they are numbered in the text. -/
def holes : List Char → List (Nat × List Char)
  | '$' :: '{' :: cs =>
    (numberOf (cs.takeWhile Char.isDigit), ((cs.dropWhile Char.isDigit).drop 1).takeWhile (· ≠ '}')) ::
      holes cs
  | _ :: cs => holes cs
  | [] => []

/-- Tab stops of the same number are edited together, so they have the same placeholder. -/
def Linked (snippet : List Char) : Prop :=
  ∀ a ∈ holes snippet, ∀ b ∈ holes snippet, a.1 = b.1 → a.2 = b.2

instance (s : List Char) : Decidable (Linked s) := by
  unfold Linked
  infer_instance

/-- The texts offered for a version use the attributes, types and signatures of that version and none of
the other: those of contracts, chain extensions and environments. -/
theorem C70_versions (v : Version) :
    (occurs (chars! "<Client: E2EBackend>(mut client: Client)") (contractInsertion v).plain = true ↔ v = .v5) ∧
    (occurs (chars! "ink_e2e::Client<C, E>") (contractInsertion v).plain = true ↔ v = .v4) ∧
    (occurs (chars! "#[ink::chain_extension(extension = 1)]") (chainExtensionInsertion v).plain = true ↔
      v = .v5) ∧
    (occurs (chars! "#[ink::chain_extension]") (chainExtensionInsertion v).plain = true ↔ v = .v4) ∧
    (occurs (chars! "#[ink(function = 1)]") (chainExtensionInsertion v).plain = true ↔ v = .v5) ∧
    (occurs (chars! "#[ink(extension = 1)]") (chainExtensionInsertion v).plain = true ↔ v = .v4) ∧
    (occurs (chars! "#[ink::scale_derive(") (chainExtensionInsertion v).plain = true ↔ v = .v5) ∧
    (occurs (chars! "scale_info::") (chainExtensionInsertion v).plain = true ↔ v = .v4) ∧
    (occurs (chars! "#[ink::scale_derive(") (environmentInsertion v).plain = true ↔ v = .v5) ∧
    (occurs (chars! "scale_info::") (environmentInsertion v).plain = true ↔ v = .v4) ∧
    (occurs (chars! "scale::") (chainExtensionInsertion v).plain = true ↔ v = .v4) := by
  cases v <;> decide +kernel

example : occurs "b".toList "abc".toList = true ∧ occurs "cb".toList "abc".toList = false := by decide

/-- The text offered for an e2e test has the signature of the version, with a free name. -/
theorem C70_test_versions (v : Version) (used : List String) :
    (e2eTestInsertion v used).plain = chars! "#[ink_e2e::test]\nasync fn " ++
      (suggestName "it_works" used).toList ++ (match v with
        | .v5 => chars! "<Client: E2EBackend>(mut client: Client)"
        | .v4 => chars! "(mut client: ink_e2e::Client<C, E>)") ++
      chars! " -> std::result::Result<(), Box<dyn std::error::Error>> {\n    todo!();\n\n    Ok(())\n}" := by
  have hp : "it_works".toList ≠ [] := by decide
  cases v with
  | v5 =>
    have h1 : findPat "it_works".toList inkE2eTestPlainV5.toList = some (chars! "#[ink_e2e::test]\nasync fn ",
        chars! "<Client: E2EBackend>(mut client: Client) -> std::result::Result<(), Box<dyn std::error::Error>> {\n    todo!();\n\n    Ok(())\n}") := by
      decide +kernel
    simp only [e2eTestInsertion, uniqueInsertion, uniqueText]
    rw [(findPat_some _ _ _ _ _ hp h1).2, findPat_none _ _ _ (by decide +kernel)]
    simp only [List.append_assoc]
    rfl
  | v4 =>
    have h1 : findPat "it_works".toList inkE2eTestPlain.toList = some (chars! "#[ink_e2e::test]\nasync fn ",
        chars! "(mut client: ink_e2e::Client<C, E>) -> std::result::Result<(), Box<dyn std::error::Error>> {\n    todo!();\n\n    Ok(())\n}") := by
      decide +kernel
    simp only [e2eTestInsertion, uniqueInsertion, uniqueText]
    rw [(findPat_some _ _ _ _ _ hp h1).2, findPat_none _ _ _ (by decide +kernel)]
    simp only [List.append_assoc]
    rfl

/-- Tab stops that occur more than once have one placeholder. -/
theorem C70_linked (v : Version) : Linked (contractInsertion v).snippet ∧
    Linked (chainExtensionInsertion v).snippet ∧ Linked (environmentInsertion v).snippet ∧
    Linked traitDefInsertion.snippet ∧ Linked errorCodeInsertion.snippet ∧
    Linked storageItemInsertion.snippet ∧ Linked combineExtensionsSnippet ∧
    Linked (storageInsertion none).snippet := by
  cases v <;> decide +kernel

example : holes "a ${1:x} ${12:y z} $3".toList = [(1, "x".toList), (12, "y z".toList)] := by decide

example : ¬ Linked "${1:x} ${1:y}".toList := by decide

end Verif.Analyzer
