import Verif.Analyzer.CompleteArg
import Verif.Analyzer.InsertTextProps
import Verif.Analyzer.SuggestProps

/-!
# C82: completions of attribute arguments

The argument list of the attribute is any list of well-formed arguments (`Written`, as in C76), and the
completed argument any well-formed argument with the completed text.
-/

namespace Verif.Analyzer.CompleteArg
open Verif.Ir Verif.Analyzer.Insert Verif.Analyzer.InsertText

/-! ## Specification -/

/-- Replacing a range of `text` (in bytes) by `new` gives `result`. -/
def Replaces (text : String) (start stop : Nat) (new result : String) : Prop :=
  ∃ l m r, text = l ++ m ++ r ∧ start = l.utf8ByteSize ∧ stop = (l ++ m).utf8ByteSize ∧
    result = l ++ new ++ r

/-- The cursor with the token `s` in focus, behind the elements `X`. -/
def cursorOn (X : List Elem) (k : Ir.TokKind) (s : String) : ArgCursor :=
  ⟨(leavesList 0 X).reverse, ⟨k, Elem.lenList X, Elem.lenList X + s.utf8ByteSize⟩⟩

/-- The source of arguments that others follow. -/
def sourceBefore : List Written → List Elem
  | [] => []
  | ws => listSource true ws

/-- The argument with white space and comments in front of it. -/
def ledBy (lead : List Elem) (n : Written) : Written := setLead (lead ++ leadOf n) n

/-- The cursor is where an argument can start: on or behind a `(` or a `,`, with only white space and
comments in between. -/
def AmongArgs (c : ArgCursor) : Prop :=
  c.focus.kind = .lParen ∨ c.focus.kind = .comma ∨
    ∃ trivia t rest, c.left = trivia ++ t :: rest ∧ (∀ x ∈ trivia, x.kind.isTrivia = true) ∧
      (t.kind = .lParen ∨ t.kind = .comma)

/-- The argument is of a known kind, and the offset is in its text or at an end of it. -/
def Around (off : Nat) (m : Meta) : Prop :=
  (Arg.ofMeta m).kind ≠ .unknown ∧ ∃ start stop, m.textRange = some (start, stop) ∧ start ≤ off ∧ off ≤ stop

/-- The innermost known argument around the offset: reached from an argument of the list through
nested arguments that are all known and all around the offset, and not nesting a further one. -/
inductive Innermost (off : Nat) : Meta → Meta → Prop
  | here (m : Meta) : (∀ i, m.nested = some i → ¬ Around off i) → Innermost off m m
  | inner (m i x : Meta) : m.nested = some i → Around off i → Innermost off i x → Innermost off m x

/-! ## Lemmas -/

theorem focused_around (off : Nat) (m : Meta) (b : Bool) (h : isFocused off m = some b) :
    b = true ↔ Around off m := by
  unfold isFocused at h
  unfold Around
  split at h
  · rename_i hk
    cases h
    simp [hk]
  · rename_i hk
    simp only [Option.map_eq_some_iff] at h
    obtain ⟨r, hr, rfl⟩ := h
    rw [decide_eq_true_iff]
    constructor
    · intro h
      exact ⟨hk, r.1, r.2, hr, h.1, h.2⟩
    · rintro ⟨-, s, e, he, h1, h2⟩
      rw [hr] at he
      cases he
      exact ⟨h1, h2⟩

theorem not_around (off : Nat) (m : Meta) (h : isFocused off m = some false) : ¬ Around off m :=
  fun ha => nomatch (focused_around off m false h).2 ha

theorem replace_at (before gap after a m b x : List Elem) (s e : Nat) (new : String)
    (hs : s = Elem.lenList before + 1 + Elem.lenList a) (he : e = s + Elem.lenList m)
    (hx : new = Elem.textList x) :
    Replaces (Elem.textList (withList before gap after (a ++ m ++ b)).file) s e new
      (Elem.textList (withList before gap after (a ++ x ++ b)).file) := by
  have h1 : (Elem.tok .lParen "(").len = 1 := rfl
  refine ⟨Elem.textList (before ++ .tok .lParen "(" :: a), Elem.textList m,
    Elem.textList (b ++ .tok .rParen ")" :: (gap ++ .tok .rBrack "]" :: after)), ?_, ?_, ?_, ?_⟩
  · rw [file_text, ← textList_append, ← textList_append]
    simp [flat]
  · rw [textList_size, lenList_append, Elem.lenList, hs, h1]
    omega
  · rw [← textList_append, textList_size, lenList_append, lenList_append, Elem.lenList, he, hs, h1]
    omega
  · rw [file_text, hx, ← textList_append, ← textList_append]
    simp [flat]

theorem led_source (lead : List Elem) (n : Written) : (ledBy lead n).source = lead ++ n.source := by
  obtain ⟨core, h1, h2⟩ := setLead_source (lead ++ leadOf n) n
  unfold ledBy
  rw [h2, h1, List.append_assoc]

theorem led_ok (pe : ExprParser) (lead : List Elem) (hl : AllTrivia lead) (n : Written) (h : n.Ok pe) :
    (ledBy lead n).Ok pe :=
  setLead_ok pe _ (trivia_append hl (leadOf_trivia pe n h)) n h

theorem affix_lead (c : ArgCursor) (n : Written) :
    ∃ lead, AllTrivia lead ∧ (affixes c false).1 ++ Elem.textList n.source ++ (affixes c false).2 =
      Elem.textList (ledBy lead n).source := by
  unfold affixes
  rw [if_neg (by simp)]
  by_cases h : (c.onComma || (c.afterComma && !c.spaced)) = true
  · rw [if_pos h]
    refine ⟨[space], space_trivia, ?_⟩
    rw [led_source, textList_append]
    have : Elem.textList [space] = " " := by decide
    rw [this]
    simp
  · rw [if_neg h]
    refine ⟨[], (by intro e he; simp at he), ?_⟩
    rw [led_source, textList_append]
    simp [Elem.textList]

theorem argItem_some (hash : String → Vector UInt8 32) (c : ArgCursor) (nested : Option (Nat × Nat))
    (site : Site) (k : ArgKind) (it : ArgItem) (h : argItem hash c nested site k = some it) :
    it.text = (affixes c nested.isSome).1 ++ it.label ++ (affixes c nested.isSome).2 ∧
      it.start = (range c nested).1 ∧ it.stop = (range c nested).2 ∧
      it.detail = "ink! " ++ k.name ++ " attribute argument." := by
  unfold argItem at h
  rw [Option.map_eq_some_iff] at h
  obtain ⟨t, -, rfl⟩ := h
  exact ⟨rfl, rfl, rfl, rfl⟩

theorem sourceBefore_append (t : Bool) (as : List Written) (w : Written) (bs : List Written) :
    listSource t (as ++ w :: bs) = sourceBefore as ++ listSource t (w :: bs) := by
  cases as with
  | nil => rfl
  | cons a as =>
    rw [listSource_append t (a :: as) (w :: bs) (by simp) (by simp)]
    show _ = listSource true (a :: as) ++ _
    rw [listSource_true (a :: as) (by simp)]
    simp

theorem listSource_head (t : Bool) (w : Written) (bs : List Written) :
    ∃ tail, (∀ w' : Written, listSource t (w' :: bs) = w'.source ++ tail) ∧
      listSource t (w :: bs) = w.source ++ tail := by
  cases bs with
  | nil => exact ⟨if t then [commaElem] else [], fun _ => rfl, rfl⟩
  | cons b bs => exact ⟨commaElem :: listSource t (b :: bs), fun _ => rfl, rfl⟩

theorem mapM_some_iff {α β : Type} (f : α → Option β) (l : List α) (r : List β)
    (h : l.mapM f = some r) (y : β) : y ∈ r ↔ ∃ x ∈ l, f x = some y := by
  induction l generalizing r with
  | nil =>
    simp at h
    subst h
    simp
  | cons a l ih =>
    rw [List.mapM_cons] at h
    cases ha : f a with
    | none => simp [ha] at h
    | some b =>
      rw [ha] at h
      cases hl : l.mapM f with
      | none => simp [hl] at h
      | some bs =>
        rw [hl] at h
        have : r = b :: bs := by simpa using h.symm
        subst this
        simp only [List.mem_cons, ih bs hl, exists_eq_or_imp, ha, Option.some.injEq]
        rw [eq_comm]

theorem deepest_spec (off : Nat) : ∀ (m x : Meta), deepest off m = some x → Innermost off m x
  | .mk name eq value nested start stop, x, h => by
    unfold deepest at h
    cases nested with
    | none =>
      simp only [Option.some.injEq] at h
      subst h
      exact .here _ (by intro i hi; simp [Meta.nested] at hi)
    | some i =>
      simp only at h
      rw [Option.bind_eq_some_iff] at h
      obtain ⟨b, hb, h⟩ := h
      cases b with
      | true =>
        simp only [if_true] at h
        exact .inner _ i x rfl ((focused_around off i true hb).1 rfl) (deepest_spec off i x h)
      | false =>
        simp only [Bool.false_eq_true, if_false, Option.some.injEq] at h
        subst h
        refine .here _ ?_
        intro j hj
        have : i = j := Option.some.inj hj
        exact this ▸ not_around off i hb

theorem prev_iff (c : ArgCursor) (k : Ir.TokKind) (hk : k.isTrivia = false) : c.prev = some k ↔
    ∃ trivia t rest, c.left = trivia ++ t :: rest ∧ (∀ x ∈ trivia, x.kind.isTrivia = true) ∧ t.kind = k := by
  unfold ArgCursor.prev
  rw [Option.map_eq_some_iff]
  constructor
  · rintro ⟨t, h1, h2⟩
    obtain ⟨-, a, b, h3, h4⟩ := List.find?_eq_some_iff_append.1 h1
    exact ⟨a, t, b, h3, by simpa using h4, h2⟩
  · rintro ⟨a, t, b, h3, h4, h2⟩
    exact ⟨t, List.find?_eq_some_iff_append.2 ⟨by simp [h2, hk], a, b, h3, by simpa using h4⟩, h2⟩

theorem inArgs_iff (c : ArgCursor) : c.inArgs = true ↔ AmongArgs c := by
  have h1 := prev_iff c .lParen rfl
  have h2 := prev_iff c .comma rfl
  simp only [ArgCursor.inArgs, ArgCursor.onParen, ArgCursor.onComma, ArgCursor.afterComma,
    Bool.or_eq_true, beq_iff_eq, h1, h2]
  unfold AmongArgs
  constructor
  · rintro (((h | ⟨a, t, b, h⟩) | h) | ⟨a, t, b, h⟩)
    · exact .inl h
    · exact .inr (.inr ⟨a, t, b, h.1, h.2.1, .inl h.2.2⟩)
    · exact .inr (.inl h)
    · exact .inr (.inr ⟨a, t, b, h.1, h.2.1, .inr h.2.2⟩)
  · rintro (h | h | ⟨a, t, b, h, h', h'' | h''⟩)
    · exact .inl (.inl (.inl h))
    · exact .inl (.inr h)
    · exact .inl (.inl (.inr ⟨a, t, b, h, h', h''⟩))
    · exact .inr ⟨a, t, b, h, h', h''⟩

/-! ## Theorems -/

/-- The completions are exactly those of the arguments that may be given here (C28, in terms of the
argument in focus), one text for each; without `(` or `,` in focus or before the token in focus there
are none. -/
theorem C82_items (hash : String → Vector UInt8 32) (v : Version) (c : ArgCursor) (off : Nat)
    (typed : Option String) (attrs : List AttrV) (k : AttrKind) (args : List Arg)
    (itemKind : Option ItemKind) (scope : List AttrKind) (site : Site) (items : List ArgItem)
    (h : argumentCompletions hash v c off typed attrs k args itemKind scope site = some items) :
    (¬ AmongArgs c → items = []) ∧
    (AmongArgs c → ∃ f info, focusedArg off args = some f ∧ focusInfo f = some info ∧
      ∀ it, it ∈ items ↔ ∃ a, a ∈ argCompletions v attrs k itemKind scope
          (info.map fun x => (x.1, x.2.1)) (if c.onParen || c.onComma then none else typed) ∧
        argItem hash c (if (nestedOf (info.map fun x => (x.1, x.2.1))).isEmpty then none
          else info.map fun x => x.2.2) site a = some it) := by
  unfold argumentCompletions at h
  cases hc : c.inArgs with
  | false =>
    have hno : ¬ AmongArgs c := by rw [← inArgs_iff, hc]; simp
    simp [hc] at h
    exact ⟨fun _ => h, fun h => absurd h hno⟩
  | true =>
    have hyes : AmongArgs c := (inArgs_iff c).1 hc
    refine ⟨fun h => absurd hyes h, fun _ => ?_⟩
    rw [hc, if_pos rfl, Option.bind_eq_some_iff] at h
    obtain ⟨f, hf, h⟩ := h
    rw [Option.bind_eq_some_iff] at h
    obtain ⟨info, hi, h⟩ := h
    exact ⟨f, info, hf, hi, mapM_some_iff _ _ _ h⟩

/-- The argument in focus is the innermost known one around the cursor, of the first argument of the
attribute that is known and around the cursor; its range for nested arguments starts behind its
name. -/
theorem C82_focus (off : Nat) (args : List Arg) (hm : ∀ a ∈ args, a = Arg.ofMeta a.item) (f : Option Arg)
    (h : focusedArg off args = some f) :
    (f = none ∧ ∀ a ∈ args, ¬ Around off a.item) ∨
    ∃ l a r x, args = l ++ a :: r ∧ (∀ b ∈ l, ¬ Around off b.item) ∧
      Around off a.item ∧ Innermost off a.item x ∧ f = some (Arg.ofMeta x) := by
  induction args with
  | nil =>
    unfold focusedArg at h
    cases h
    exact .inl ⟨rfl, fun a ha => nomatch ha⟩
  | cons a as ih =>
    unfold focusedArg at h
    rw [Option.bind_eq_some_iff] at h
    obtain ⟨b, hb, h⟩ := h
    cases b with
    | true =>
      simp only [if_true, Option.map_eq_some_iff] at h
      obtain ⟨x, hx, rfl⟩ := h
      exact .inr ⟨[], a, as, x, rfl, (by intro b hb; simp at hb), (focused_around off _ true hb).1 rfl, deepest_spec off _ _ hx, rfl⟩
    | false =>
      simp only [Bool.false_eq_true, if_false] at h
      rcases ih (fun b hb => hm b (by simp [hb])) h with ⟨h1, h2⟩ | ⟨l, y, r, x, h1, h2, h3⟩
      · refine .inl ⟨h1, ?_⟩
        intro z hz
        rcases List.mem_cons.1 hz with rfl | hz
        · exact not_around off _ hb
        · exact h2 z hz
      · refine .inr ⟨a :: l, y, r, x, by rw [h1]; rfl, ?_, h3⟩
        intro z hz
        rcases List.mem_cons.1 hz with rfl | hz
        · exact not_around off _ hb
        · exact h2 z hz

/-- The text of a completion is a complete argument of the completed kind that the analyzer accepts
(C80), unless an `=` or `(` follows already. -/
theorem C82_accepted_partial (pe : ExprParser) (fi : String → Option String)
    (hash : String → Vector UInt8 32) (c : ArgCursor) (nested : Option (Nat × Nat)) (site : Site)
    (k : ArgKind) (hk : k ≠ .unknown) (hs : k ≠ .signatureTopic)
    (hin : Inside site (range c nested).2)
    (hr : Reads pe fi (site.environment.getD "ink::env::DefaultEnvironment"))
    (hnext : ¬ Follows site.file (range c nested).2 .eq ∧ ¬ Follows site.file (range c nested).2 .lParen)
    (v : Version) (attr : Option AttrKind) (hv : k = .extension → v = .v5 → site.onFn = false) :
    ∃ it, argItem hash c nested site k = some it ∧
      ∃ n : Written, n.Ok pe ∧ Elem.textList n.source = it.label ∧ Accepted pe fi v attr k n := by
  obtain ⟨t, sn, h1, n, h2, h3, h4⟩ := C80_accepted_partial pe fi hash k hk hs (some site)
    (some (range c nested).2) (fun s o e1 e2 => by cases e1; cases e2; exact hin)
    (by simpa using hr)
    ⟨fun ⟨s, o, e1, e2, h⟩ => by cases e1; cases e2; exact hnext.1 h,
      fun ⟨s, o, e1, e2, h⟩ => by cases e1; cases e2; exact hnext.2 h⟩ v attr
    (fun e1 e2 s e3 => by cases e3; exact hv e1 e2)
  refine ⟨{ label := t, text := (affixes c nested.isSome).1 ++ t ++ (affixes c nested.isSome).2,
            start := (range c nested).1, stop := (range c nested).2,
            snippet := sn.map fun s => (affixes c nested.isSome).1 ++ s ++ (affixes c nested.isSome).2,
            detail := "ink! " ++ k.name ++ " attribute argument." }, ?_, n, h2, h3, h4⟩
  unfold argItem
  rw [h1]
  rfl

/-- Accepting a completion between empty parentheses gives the attribute that argument. -/
theorem C82_first (pe : ExprParser) (hash : String → Vector UInt8 32) (before gap after : List Elem)
    (site : Site) (k : ArgKind) (it : ArgItem)
    (h : argItem hash (cursorOn before .lParen "(") none site k = some it)
    (n : Written) (hn : n.Ok pe) (hl : Elem.textList n.source = it.label) :
    ∃ lead, AllTrivia lead ∧
      Replaces (Elem.textList (withArgs before gap after false []).file) it.start it.stop it.text
        (Elem.textList (withArgs before gap after false [ledBy lead n]).file) ∧
      Has pe (withArgs before gap after false [ledBy lead n]) [ledBy lead n] := by
  obtain ⟨h1, h2, h3, -⟩ := argItem_some _ _ _ _ _ _ h
  obtain ⟨lead, t1, t2⟩ := affix_lead (cursorOn before .lParen "(") n
  refine ⟨lead, t1, ?_, has_args pe _ _ _ _ _ (by simpa using led_ok pe lead t1 n hn)⟩
  have := replace_at before gap after [] [] [] (ledBy lead n).source it.start it.stop it.text
    (by rw [h2]; rfl) (by rw [h3, h2]; rfl) (by rw [h1, ← hl, ← t2]; rfl)
  simpa [withArgs, listSource] using this

/-- Accepting a completion behind the comma after the last argument adds that argument, and leaves the
others as they are. -/
theorem C82_next (pe : ExprParser) (hash : String → Vector UInt8 32) (before gap after : List Elem)
    (ws : List Written) (hws : ws ≠ []) (hok : ∀ w ∈ ws, w.Ok pe)
    (site : Site) (k : ArgKind) (it : ArgItem)
    (h : argItem hash (cursorOn (before ++ .tok .lParen "(" :: listSource false ws) .comma ",") none site k =
      some it)
    (n : Written) (hn : n.Ok pe) (hl : Elem.textList n.source = it.label) :
    Replaces (Elem.textList (withArgs before gap after true ws).file) it.start it.stop it.text
        (Elem.textList (withArgs before gap after false (ws ++ [ledBy [space] n])).file) ∧
      Has pe (withArgs before gap after false (ws ++ [ledBy [space] n])) (ws ++ [ledBy [space] n]) := by
  obtain ⟨h1, h2, h3, -⟩ := argItem_some _ _ _ _ _ _ h
  refine ⟨?_, has_args pe _ _ _ _ _ ?_⟩
  · have hp : (Elem.tok .lParen "(").len = 1 := rfl
    have hc : Elem.lenList [commaElem] = 1 := rfl
    have hr : range (cursorOn (before ++ .tok .lParen "(" :: listSource false ws) .comma ",") none =
        (Elem.lenList (before ++ .tok .lParen "(" :: listSource false ws) + 1,
         Elem.lenList (before ++ .tok .lParen "(" :: listSource false ws) + 1) := rfl
    have := replace_at before gap after (listSource false ws ++ [commaElem]) [] []
      (ledBy [space] n).source it.start it.stop it.text
      (by rw [h2, hr, lenList_append, lenList_append, Elem.lenList, hp, hc]; omega)
      (by rw [h3, h2]; rfl)
      (by
        have : Elem.textList [space] = " " := by decide
        rw [h1, ← hl, led_source, textList_append, this]
        show " " ++ _ ++ "" = _
        simp)
    unfold withArgs
    rw [listSource_true ws hws, listSource_append false ws _ hws (by simp)]
    simpa [listSource] using this
  · intro w hw
    rcases List.mem_append.1 hw with hw | hw
    · exact hok w hw
    · rw [List.mem_singleton.1 hw]
      exact led_ok pe _ space_trivia n hn

/-- Accepting a completion for a lone name in focus replaces that argument, and leaves the others as
they are. -/
theorem C82_replace (pe : ExprParser) (hash : String → Vector UInt8 32) (before gap after : List Elem)
    (trailing : Bool) (ws₁ ws₂ : List Written) (lead : List Elem) (nk : Ir.TokKind) (name : String)
    (hnk : nk = .ident ∨ nk = .implKw)
    (hok : ∀ w ∈ ws₁ ++ .flag lead (.tok nk name) [] :: ws₂, w.Ok pe)
    (site : Site) (k : ArgKind) (it : ArgItem)
    (h : argItem hash (cursorOn (before ++ .tok .lParen "(" :: (sourceBefore ws₁ ++ lead)) nk name) none
      site k = some it)
    (n : Written) (hn : n.Ok pe) (hl : Elem.textList n.source = it.label) :
    ∃ more, AllTrivia more ∧
      Replaces (Elem.textList (withArgs before gap after trailing
          (ws₁ ++ .flag lead (.tok nk name) [] :: ws₂)).file) it.start it.stop it.text
        (Elem.textList (withArgs before gap after trailing
          (ws₁ ++ ledBy (lead ++ more) n :: ws₂)).file) ∧
      Has pe (withArgs before gap after trailing (ws₁ ++ ledBy (lead ++ more) n :: ws₂))
        (ws₁ ++ ledBy (lead ++ more) n :: ws₂) := by
  obtain ⟨h1, h2, h3, -⟩ := argItem_some _ _ _ _ _ _ h
  obtain ⟨more, t1, t2⟩ := affix_lead
    (cursorOn (before ++ .tok .lParen "(" :: (sourceBefore ws₁ ++ lead)) nk name) n
  have hlead : AllTrivia lead := (hok (.flag lead (.tok nk name) []) (by simp)).1
  refine ⟨more, t1, ?_, has_args pe _ _ _ _ _ ?_⟩
  · have hp : (Elem.tok .lParen "(").len = 1 := rfl
    have hr : range (cursorOn (before ++ .tok .lParen "(" :: (sourceBefore ws₁ ++ lead)) nk name) none =
        (Elem.lenList (before ++ .tok .lParen "(" :: (sourceBefore ws₁ ++ lead)),
         Elem.lenList (before ++ .tok .lParen "(" :: (sourceBefore ws₁ ++ lead)) +
          name.utf8ByteSize) := by
      rcases hnk with rfl | rfl <;> rfl
    have hm : Elem.lenList [Elem.tok nk name] = name.utf8ByteSize := by simp [Elem.lenList, Elem.len]
    obtain ⟨tail, e1, -⟩ := listSource_head trailing n ws₂
    have := replace_at before gap after (sourceBefore ws₁ ++ lead) [.tok nk name] tail
      (ledBy more n).source it.start it.stop it.text
      (by rw [h2, hr, lenList_append, Elem.lenList, hp]; omega)
      (by rw [h3, h2, hr, hm])
      (by rw [h1, ← hl, ← t2]; rfl)
    unfold withArgs
    rw [sourceBefore_append, sourceBefore_append, e1, e1, led_source]
    rw [led_source] at this
    simpa [Written.source] using this
  · intro w hw
    rcases List.mem_append.1 hw with hw | hw
    · exact hok w (by simp [hw])
    · rcases List.mem_cons.1 hw with rfl | hw
      · exact led_ok pe _ (trivia_append hlead t1) n hn
      · exact hok w (by simp [hw])

/-- Accepting a completion for the argument in focus, a name that takes a nested argument and has none
yet (`backend` or `backend()`), nests the completed argument into it and leaves the others as they are.
Missing: a nested argument that is replaced (see `C82_negation_nested`). -/
theorem C82_nested_partial (pe : ExprParser) (hash : String → Vector UInt8 32)
    (before gap after : List Elem) (trailing : Bool) (ws₁ ws₂ : List Written) (w : Written)
    (lead : List Elem) (name : Elem) (trail : List Elem)
    (hw : w = .flag lead name trail ∨ ∃ g, w = .hollow lead name g trail)
    (hok : ∀ x ∈ ws₁ ++ w :: ws₂, x.Ok pe) (a : Arg)
    (ha : IsRead pe w (Elem.lenList before + 1 + Elem.lenList (sourceBefore ws₁)) a)
    (fk : ArgKind) (fn : String) (rng : Nat × Nat) (hf : focusInfo (some a) = some (some (fk, fn, rng)))
    (c : ArgCursor) (site : Site) (k : ArgKind) (it : ArgItem)
    (h : argItem hash c (some rng) site k = some it)
    (n : Written) (hn : n.Ok pe) (hl : Elem.textList n.source = it.label) :
    Replaces (Elem.textList (withArgs before gap after trailing (ws₁ ++ w :: ws₂)).file) it.start it.stop
        it.text
        (Elem.textList (withArgs before gap after trailing (ws₁ ++ .nest lead name [] n trail :: ws₂)).file) ∧
      Has pe (withArgs before gap after trailing (ws₁ ++ .nest lead name [] n trail :: ws₂))
        (ws₁ ++ .nest lead name [] n trail :: ws₂) := by
  obtain ⟨h1, h2, h3, -⟩ := argItem_some _ _ _ _ _ _ h
  have hwok := hok w (by simp)
  have hdata : ∃ g, w.source = (lead ++ [name]) ++ g ++ trail ∧ AllTrivia lead ∧ IsName name ∧ AllTrivia trail ∧
      rng = (Elem.lenList before + 1 + Elem.lenList (sourceBefore ws₁) + Elem.lenList (lead ++ [name]),
        Elem.lenList before + 1 + Elem.lenList (sourceBefore ws₁) + Elem.lenList (lead ++ [name]) +
          Elem.lenList g) := by
    have hlen : Elem.lenList (lead ++ [name]) = Elem.lenList lead + name.len := by
      simp [lenList_append, Elem.lenList]
    rcases hw with rfl | ⟨g, rfl⟩
    · refine ⟨[], by simp [Written.source], hwok.1, hwok.2.1, hwok.2.2, ?_⟩
      obtain ⟨⟨b1, b2⟩, b3, b4, b5⟩ := ha
      obtain ⟨ak, am⟩ := a
      cases am with
      | mk nm eq value nested start stop =>
        simp only [Meta.name] at b1
        simp only [Meta.eq] at b3
        simp only [Meta.value] at b4
        simp only [Arg.nested, Meta.nested, Option.map_eq_none_iff] at b5
        subst b1; subst b3; subst b4; subst b5
        simp [focusInfo, Meta.name, Meta.textRange, optRange, updateRange, eqRange, rangeNew,
          Placed.stop] at hf
        rw [← hf.2.2, hlen]
        simp [Elem.lenList]
        omega
    · refine ⟨g ++ [parenthesised []], by simp [Written.source], hwok.1, hwok.2.1, hwok.2.2.2, ?_⟩
      obtain ⟨⟨b1, b2⟩, b3, b4, a', b5, b6, b7, b8, b9, b10, b11⟩ := ha
      obtain ⟨ak, am⟩ := a
      cases am with
      | mk nm eq value nested start stop =>
        simp only [Meta.name] at b1
        simp only [Meta.eq] at b3
        simp only [Meta.value] at b4
        simp only [Arg.nested, Meta.nested, Option.map_eq_some_iff] at b5
        obtain ⟨m, b5, rfl⟩ := b5
        subst b1; subst b3; subst b4; subst b5
        have b11 : m.textRange = _ := b11
        have hl2 : Elem.lenList (lead ++ name :: g) = Elem.lenList lead + name.len + Elem.lenList g := by
          simp [lenList_append, Elem.lenList]; omega
        have hl3 : Elem.lenList (g ++ [parenthesised []]) = Elem.lenList g + 2 := by
          rw [lenList_append]; rfl
        rw [hl2] at b11
        have ht : (Meta.mk (.ok ⟨name, Elem.lenList before + 1 + Elem.lenList (sourceBefore ws₁) +
            Elem.lenList lead⟩) none .none (some m) start stop).textRange =
            some (Elem.lenList before + 1 + Elem.lenList (sourceBefore ws₁) + Elem.lenList lead,
              Elem.lenList before + 1 + Elem.lenList (sourceBefore ws₁) +
                (Elem.lenList lead + name.len + Elem.lenList g) + 2) := by
          unfold Meta.textRange
          simp only [optRange, updateRange, eqRange, b11, Option.map_some, Option.bind_some,
            Option.getD_some, Option.some_or, rangeNew]
          exact if_pos (by omega)
        simp [focusInfo, Meta.name, ht, Placed.stop] at hf
        rw [← hf.2.2, hlen, hl3]
        simp
        omega
  obtain ⟨g, e1, e2, e3, e4, e5⟩ := hdata
  refine ⟨?_, has_args pe _ _ _ _ _ ?_⟩
  · obtain ⟨tail, t1, -⟩ := listSource_head trailing n ws₂
    have hr : range c (some rng) = rng := rfl
    have := replace_at before gap after (sourceBefore ws₁ ++ (lead ++ [name])) g (trail ++ tail)
      [parenthesised n.source] it.start it.stop it.text
      (by rw [h2, hr, e5, lenList_append (sourceBefore ws₁)]; omega)
      (by rw [h3, h2, hr, e5])
      (by
        rw [h1, ← hl]
        simp [affixes, parenthesised, Elem.textList, Elem.text, textList_append]
        rfl)
    unfold withArgs
    rw [sourceBefore_append, sourceBefore_append, t1, t1, e1]
    simpa [Written.source] using this
  · intro x hx
    rcases List.mem_append.1 hx with hx | hx
    · exact hok x (by simp [hx])
    · rcases List.mem_cons.1 hx with rfl | hx
      · exact ⟨e2, e3, by intro e he; simp at he, hn, e4⟩
      · exact hok x (by simp [hx])

/-- The tokens of `#[ink(message, )]`. -/
def spacedLeaves : List Leaf := [⟨.other, 0, 1⟩, ⟨.other, 1, 2⟩, ⟨.ident, 2, 5⟩, ⟨.lParen, 5, 6⟩,
  ⟨.ident, 6, 13⟩, ⟨.comma, 13, 14⟩, ⟨.whitespace, 14, 15⟩, ⟨.rParen, 15, 16⟩, ⟨.rBrack, 16, 17⟩]

/-- Accepting a completion in front of the closing parenthesis, behind `, `, replaces the parenthesis:
`#[ink(message, )]` becomes `#[ink(message, payable]`. (Between white space and another token, the token
in focus is the other token.) -/
theorem C82_negation_paren (hash : String → Vector UInt8 32) :
    ∃ it, ArgKind.payable ∈ argCompletions .v5 [⟨.arg .message, [.message]⟩] (.arg .message) (some .fn) []
        none none ∧
      argItem hash ⟨(spacedLeaves.take 7).reverse, ⟨.rParen, 15, 16⟩⟩ none
        ⟨spacedLeaves, 0, 17, [.message], true, none, none, none, none⟩ .payable = some it ∧
      Replaces "#[ink(message, )]" it.start it.stop it.text "#[ink(message, payable]" := by
  refine ⟨⟨"payable", "payable", 15, 16, none, "ink! payable attribute argument."⟩, by decide, by rfl, ?_⟩
  exact ⟨"#[ink(message, ", ")", "]", by decide, by decide, by decide, by decide⟩

/-- Accepting a completion in front of another argument joins the two names: `#[ink(payable)]`
becomes `#[ink(messagepayable)]`. -/
theorem C82_negation_glued (hash : String → Vector UInt8 32) :
    ∃ it, ArgKind.message ∈ argCompletions .v5 [⟨.arg .payable, [.payable]⟩] (.arg .payable) (some .fn) []
        (some (.payable, "payable")) none ∧
      argItem hash ⟨(splitSite.file.take 3).reverse, ⟨.lParen, 5, 6⟩⟩ none splitSite .message = some it ∧
      Replaces "#[ink(payable)]" it.start it.stop it.text "#[ink(messagepayable)]" := by
  refine ⟨⟨"message", "message", 6, 6, none, "ink! message attribute argument."⟩, by decide, by rfl, ?_⟩
  exact ⟨"#[ink(", "", "payable)]", by decide, by decide, by decide, by decide⟩

/-- The tokens of `#[ink_e2e::test(backend(run))]`. -/
def nestedLeaves : List Leaf := [⟨.other, 0, 1⟩, ⟨.other, 1, 2⟩, ⟨.ident, 2, 9⟩, ⟨.other, 9, 11⟩,
  ⟨.ident, 11, 15⟩, ⟨.lParen, 15, 16⟩, ⟨.ident, 16, 23⟩, ⟨.lParen, 23, 24⟩, ⟨.ident, 24, 27⟩,
  ⟨.rParen, 27, 28⟩, ⟨.rParen, 28, 29⟩, ⟨.rBrack, 29, 30⟩]

/-- The argument `backend(run)` there. -/
def backendArg : Arg := Arg.ofMeta (.mk (.ok ⟨.tok .ident "backend", 16⟩) none .none
  (some (.mk (.ok ⟨.tok .ident "run", 24⟩) none .none none 24 none)) 16 none)

/-- Accepting a completion for a nested argument that has been started leaves its closing parenthesis
behind the new one: `#[ink_e2e::test(backend(run))]` becomes `#[ink_e2e::test(backend(node)))]`. -/
theorem C82_negation_nested (hash : String → Vector UInt8 32) :
    ∃ rng it, focusedArg 24 [backendArg] = some (some backendArg) ∧
      focusInfo (some backendArg) = some (some (.backend, "backend", rng)) ∧
      ArgKind.node ∈ argCompletions .v5 [⟨.macro .e2eTest, [.backend]⟩] (.macro .e2eTest) (some .fn) []
        (some (.backend, "backend")) none ∧
      argItem hash ⟨(nestedLeaves.take 7).reverse, ⟨.lParen, 23, 24⟩⟩ (some rng)
        ⟨nestedLeaves, 0, 30, [.backend], true, none, none, none, none⟩ .node = some it ∧
      Replaces "#[ink_e2e::test(backend(run))]" it.start it.stop it.text
        "#[ink_e2e::test(backend(node)))]" := by
  refine ⟨(23, 27), ⟨"node", "(node)", 23, 27, none, "ink! node attribute argument."⟩, by rfl, by rfl,
    by decide, by rfl, ?_⟩
  exact ⟨"#[ink_e2e::test(backend", "(run", "))]", by decide, by decide, by decide, by decide⟩

/-! ## Examples -/

/-- The elements of `#[ink`. -/
def inkStart : List Elem := [.tok .other "#", .tok .other "[", .tok .ident "ink"]

/-- The name `payable` as an argument. -/
def payableArg : Written := .flag [] (.tok .ident "payable") []

/-- `C82_first`: `#[ink()]` becomes `#[ink(payable)]`. -/
example : ∃ it, argItem (fun _ => Vector.replicate 32 0) (cursorOn inkStart .lParen "(") none
    ⟨[⟨.other, 0, 1⟩, ⟨.other, 1, 2⟩, ⟨.ident, 2, 5⟩, ⟨.lParen, 5, 6⟩, ⟨.rParen, 6, 7⟩, ⟨.rBrack, 7, 8⟩],
      0, 8, [], true, none, none, none, none⟩ .payable = some it ∧
    payableArg.Ok literalPe ∧ Elem.textList payableArg.source = it.label ∧
    Elem.textList (withArgs inkStart [] [] false [ledBy [] payableArg]).file = "#[ink(payable)]" :=
  ⟨⟨"payable", "payable", 6, 6, none, "ink! payable attribute argument."⟩, by rfl,
    ⟨(by intro e he; simp at he), ⟨"payable", .inl rfl⟩, (by intro e he; simp at he)⟩, by decide, by decide⟩

/-- `C82_next`: `#[ink(message,)]` becomes `#[ink(message, payable)]`. -/
example : ∃ it, argItem (fun _ => Vector.replicate 32 0)
    (cursorOn (inkStart ++ .tok .lParen "(" :: listSource false [.flag [] (.tok .ident "message") []])
      .comma ",") none
    ⟨[⟨.other, 0, 1⟩, ⟨.other, 1, 2⟩, ⟨.ident, 2, 5⟩, ⟨.lParen, 5, 6⟩, ⟨.ident, 6, 13⟩, ⟨.comma, 13, 14⟩,
      ⟨.rParen, 14, 15⟩, ⟨.rBrack, 15, 16⟩], 0, 16, [.message], true, none, none, none, none⟩ .payable =
        some it ∧ Elem.textList payableArg.source = it.label ∧
    Elem.textList (withArgs inkStart [] [] true [.flag [] (.tok .ident "message") []]).file =
      "#[ink(message,)]" ∧
    Elem.textList (withArgs inkStart [] [] false
      ([.flag [] (.tok .ident "message") []] ++ [ledBy [space] payableArg])).file =
      "#[ink(message, payable)]" :=
  ⟨⟨"payable", " payable", 14, 14, none, "ink! payable attribute argument."⟩, by rfl, by decide,
    by decide, by decide⟩

/-- `C82_replace`: `#[ink(message, pay)]` becomes `#[ink(message, payable)]`. -/
example : ∃ it, argItem (fun _ => Vector.replicate 32 0)
    (cursorOn (inkStart ++ .tok .lParen "(" :: (sourceBefore [.flag [] (.tok .ident "message") []] ++
      [space])) .ident "pay") none
    ⟨[⟨.other, 0, 1⟩, ⟨.other, 1, 2⟩, ⟨.ident, 2, 5⟩, ⟨.lParen, 5, 6⟩, ⟨.ident, 6, 13⟩, ⟨.comma, 13, 14⟩,
      ⟨.whitespace, 14, 15⟩, ⟨.ident, 15, 18⟩, ⟨.rParen, 18, 19⟩, ⟨.rBrack, 19, 20⟩], 0, 20, [.message],
      true, none, none, none, none⟩ .payable = some it ∧ Elem.textList payableArg.source = it.label ∧
    Elem.textList (withArgs inkStart [] [] false ([.flag [] (.tok .ident "message") []] ++
      ledBy ([space] ++ []) payableArg :: [])).file = "#[ink(message, payable)]" :=
  ⟨⟨"payable", "payable", 15, 18, none, "ink! payable attribute argument."⟩, by rfl, by decide, by decide⟩

/-- `C82_nested_partial`: `#[ink(backend())]` becomes `#[ink(backend(node))]`. -/
example : ∃ rng it,
    let a := Arg.ofMeta (.mk (.ok ⟨.tok .ident "backend", 6⟩) none .none
      (some (.mk .none none .none none 13 (some 15))) 6 none)
    IsRead literalPe (.hollow [] (.tok .ident "backend") [] []) 6 a ∧
    focusInfo (some a) = some (some (.backend, "backend", rng)) ∧
    argItem (fun _ => Vector.replicate 32 0) ⟨[], ⟨.lParen, 13, 14⟩⟩ (some rng)
      ⟨[⟨.other, 0, 1⟩, ⟨.other, 1, 2⟩, ⟨.ident, 2, 5⟩, ⟨.lParen, 5, 6⟩, ⟨.ident, 6, 13⟩, ⟨.lParen, 13, 14⟩,
        ⟨.rParen, 14, 15⟩, ⟨.rParen, 15, 16⟩, ⟨.rBrack, 16, 17⟩], 0, 17, [.backend], true, none, none,
        none, none⟩ .node = some it ∧ it.text = "(node)" ∧ (it.start, it.stop) = (13, 15) := by
  refine ⟨(13, 15), ⟨"node", "(node)", 13, 15, none, "ink! node attribute argument."⟩,
    ⟨⟨rfl, by decide⟩, rfl, rfl, _, rfl, by decide, rfl, rfl, rfl, rfl, by rfl⟩, by rfl, by rfl, rfl, rfl⟩

end Verif.Analyzer.CompleteArg
