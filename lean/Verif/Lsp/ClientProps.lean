import Verif.Lsp.TranslateProps

/-!
# C115: places mean the same to the client

LSP 3.17 lets lines end with `\n`, `\r\n` or `\r`, and takes a character beyond the end of a line for the end of
that line. The server only knows `\n` (`crates/lsp-server/src/translator/to_lsp.rs:11-39`,
`crates/lsp-server/src/translator/from_lsp.rs:8-35`, by way of the `line-index` crate).
-/

namespace Verif.Lsp.Client

open Spec

/-! ## Specification: a client that follows the protocol -/

/-- A character of the end of a line. -/
def IsEol (c : Char) : Prop := c = '\n' ∨ c = '\r'

instance (c : Char) : Decidable (IsEol c) := inferInstanceAs (Decidable (_ ∨ _))

/-- The place in the text that a client takes the line and character for, as the text before and behind it. A
`\r` in front of a `\n` does not end a line by itself. -/
def place (enc : Encoding) : List Char → Nat → Nat → Option (List Char × List Char)
  | [], 0, _ => some ([], [])
  | [], _ + 1, _ => none
  | c :: cs, 0, k =>
    if IsEol c ∨ k = 0 then some ([], c :: cs)
    else if units enc c ≤ k then (place enc cs 0 (k - units enc c)).map fun r => (c :: r.1, r.2)
    else none
  | c :: cs, l + 1, k =>
    (place enc cs (if c = '\n' ∨ (c = '\r' ∧ cs.head? ≠ some '\n') then l else l + 1) k).map
      fun r => (c :: r.1, r.2)

/-- The number of ends of lines in a text. -/
def eols : List Char → Nat
  | [] => 0
  | c :: cs => (if c = '\n' ∨ (c = '\r' ∧ cs.head? ≠ some '\n') then 1 else 0) + eols cs

/-- What is behind the last end of a line. -/
def lastPart (pre : List Char) : List Char := (pre.reverse.takeWhile fun c => !decide (IsEol c)).reverse

/-- The position that a client sends for the place behind `pre`. -/
def positionOf (enc : Encoding) (pre : List Char) : Pos := ⟨eols pre, unitsOf enc (lastPart pre)⟩

/-- The place is between the two characters of a `\r\n`, where no position of a client can be. -/
def InsideEol (pre post : List Char) : Prop := pre.getLast? = some '\r' ∧ post.head? = some '\n'

/-- Every `\r` is followed by a `\n`. -/
def NoLoneCr (cs : List Char) : Prop := ∀ a b, cs = a ++ '\r' :: b → ∃ c, b = '\n' :: c

/-- The part of its text that a client takes a range for, with what is before and behind it. -/
def part (enc : Encoding) (text : List Char) (q : Pos × Pos) :
    Option (List Char × List Char × List Char) :=
  match place enc text q.1.line q.1.character, place enc text q.2.line q.2.character with
  | some (a, _), some (b, post) => if a.length ≤ b.length then some (a, b.drop a.length, post) else none
  | _, _ => none

/-! ## Lemmas -/

theorem units_pos (enc : Encoding) (c : Char) : 0 < units enc c := by
  cases enc
  · exact Char.utf8Size_pos c
  · unfold units; dsimp only; split <;> omega
  · exact Nat.one_pos

theorem rev_ind' {P : List Char → Prop} (h0 : P []) (h1 : ∀ l c, P l → P (l ++ [c])) (l : List Char) : P l := by
  have : ∀ l : List Char, P l.reverse := by
    intro l
    induction l with
    | nil => exact h0
    | cons c l ih => rw [List.reverse_cons]; exact h1 _ _ ih
  simpa using this l.reverse

theorem lastPart_snoc (a : List Char) (c : Char) :
    lastPart (a ++ [c]) = if IsEol c then [] else lastPart a ++ [c] := by
  unfold lastPart
  simp only [List.reverse_append, List.reverse_cons, List.reverse_nil, List.nil_append,
    List.cons_append, List.takeWhile_cons]
  by_cases h : IsEol c <;> simp [h]

theorem lastPart_cons (c : Char) (cs : List Char) :
    lastPart (c :: cs) = if (∃ x ∈ cs, IsEol x) ∨ IsEol c then lastPart cs else c :: cs := by
  induction cs using rev_ind' with
  | h0 =>
    have := lastPart_snoc [] c
    rw [List.nil_append] at this
    rw [this]
    by_cases h : IsEol c <;> simp [h, lastPart]
  | h1 l x ih =>
    rw [← List.cons_append, lastPart_snoc, lastPart_snoc, ih]
    by_cases hx : IsEol x
    · have : ∃ y ∈ l ++ [x], IsEol y := ⟨x, by simp, hx⟩
      simp [hx]
    · rw [if_neg hx, if_neg hx]
      have e : ((∃ y ∈ l ++ [x], IsEol y) ∨ IsEol c) ↔ ((∃ y ∈ l, IsEol y) ∨ IsEol c) := by
        simp only [List.mem_append, List.mem_singleton]
        constructor
        · rintro (⟨y, hy | rfl, h⟩ | h)
          · exact .inl ⟨y, hy, h⟩
          · exact absurd h hx
          · exact .inr h
        · rintro (⟨y, hy, h⟩ | h)
          · exact .inl ⟨y, .inl hy, h⟩
          · exact .inr h
      by_cases h : (∃ y ∈ l, IsEol y) ∨ IsEol c
      · rw [if_pos h, if_pos (e.2 h)]
      · rw [if_neg h, if_neg fun g => h (e.1 g), List.cons_append]

theorem eols_zero (cs : List Char) : eols cs = 0 ↔ ∀ c ∈ cs, ¬ IsEol c := by
  induction cs with
  | nil => simp [eols]
  | cons c cs ih =>
    rw [eols]
    constructor
    · intro h x hx
      have h1 : eols cs = 0 := by omega
      rcases List.mem_cons.1 hx with h2 | h2
      · rintro (hc | hc)
        · rw [← h2, if_pos (.inl hc)] at h; omega
        · by_cases hh : cs.head? = some '\n'
          · cases cs with
            | nil => cases hh
            | cons y ys =>
              obtain rfl : y = '\n' := by simpa using hh
              exact ih.1 h1 '\n' (by simp) (.inl rfl)
          · rw [← h2, if_pos (.inr ⟨hc, hh⟩)] at h; omega
      · exact ih.1 h1 x h2
    · intro h
      have hc := h c (by simp)
      rw [if_neg fun g => hc (g.imp id And.left),
        ih.2 fun x hx => h x (by simp [hx])]

theorem lastPart_none (cs : List Char) (h : ∀ c ∈ cs, ¬ IsEol c) : lastPart cs = cs := by
  cases cs with
  | nil => rfl
  | cons c cs =>
    rw [lastPart_cons, if_neg]
    rintro (⟨x, hx, g⟩ | g)
    · exact h x (by simp [hx]) g
    · exact h c (by simp) g

/-- The client finds the place that it sends a position for. -/
theorem place_position (enc : Encoding) (pre post : List Char) (h : ¬ InsideEol pre post) :
    place enc (pre ++ post) (positionOf enc pre).line (positionOf enc pre).character =
      some (pre, post) := by
  unfold positionOf
  induction pre with
  | nil =>
    cases post with
    | nil => rfl
    | cons c cs => simp [eols, lastPart, unitsOf, place]
  | cons c cs ih =>
    have hcs : ¬ InsideEol cs post := by
      rintro ⟨h1, h2⟩
      refine h ⟨?_, h2⟩
      rw [List.getLast?_cons, h1]; rfl
    have ih := ih hcs
    have hhead : c = '\r' → ((cs ++ post).head? = some '\n' ↔ cs.head? = some '\n') := by
      intro hc
      cases cs with
      | nil =>
        simp only [List.nil_append, List.head?_nil, reduceCtorEq, iff_false]
        intro hp
        exact h ⟨by rw [hc]; rfl, hp⟩
      | cons x xs => rfl
    have hcond : (c = '\n' ∨ (c = '\r' ∧ (cs ++ post).head? ≠ some '\n')) ↔
        (c = '\n' ∨ (c = '\r' ∧ cs.head? ≠ some '\n')) := by
      constructor
      · rintro (g | ⟨g, g'⟩)
        · exact .inl g
        · exact .inr ⟨g, fun e => g' ((hhead g).2 e)⟩
      · rintro (g | ⟨g, g'⟩)
        · exact .inl g
        · exact .inr ⟨g, fun e => g' ((hhead g).1 e)⟩
    by_cases hz : eols (c :: cs) = 0
    · have hall := (eols_zero _).1 hz
      have hzcs : eols cs = 0 := (eols_zero _).2 fun x hx => hall x (by simp [hx])
      rw [hz, lastPart_none _ hall, List.cons_append, place, unitsOf_cons]
      dsimp only
      have hu := units_pos enc c
      rw [if_neg (by
        rintro (g | g)
        · exact hall c (by simp) g
        · omega), if_pos (by omega), Nat.add_sub_cancel_left]
      rw [hzcs, lastPart_none _ fun x hx => hall x (by simp [hx])] at ih
      rw [ih]
      rfl
    · have hlp : lastPart (c :: cs) = lastPart cs := by
        rw [lastPart_cons, if_pos]
        have : ¬ ∀ x ∈ c :: cs, ¬ IsEol x := fun g => hz ((eols_zero _).2 g)
        apply Classical.byContradiction
        intro g
        refine this fun x hx hex => g ?_
        rcases List.mem_cons.1 hx with h1 | h1
        · exact .inr (h1 ▸ hex)
        · exact .inl ⟨x, h1, hex⟩
      have hl : ∃ l, eols (c :: cs) = l + 1 := ⟨eols (c :: cs) - 1, by omega⟩
      obtain ⟨l, hl⟩ := hl
      rw [hl, hlp, List.cons_append, place]
      have : (if c = '\n' ∨ (c = '\r' ∧ (cs ++ post).head? ≠ some '\n') then l else l + 1) =
          eols cs := by
        rw [eols] at hl
        by_cases hc : c = '\n' ∨ (c = '\r' ∧ cs.head? ≠ some '\n')
        · rw [if_pos (hcond.2 hc)]; rw [if_pos hc] at hl; omega
        · rw [if_neg fun g => hc (hcond.1 g)]; rw [if_neg hc] at hl; omega
      rw [this, ih]
      rfl

/-- What the client finds is on the line that was asked for. -/
theorem place_line (enc : Encoding) (text : List Char) (l k : Nat) (p q : List Char)
    (h : place enc text l k = some (p, q)) : text = p ++ q ∧ eols p = l := by
  induction text generalizing l k p with
  | nil =>
    cases l with
    | zero => rw [place] at h; cases h; exact ⟨rfl, rfl⟩
    | succ l => rw [place] at h; cases h
  | cons c cs ih =>
    cases l with
    | zero =>
      rw [place] at h
      split at h
      · cases h; exact ⟨rfl, rfl⟩
      · rename_i hc
        split at h
        · obtain ⟨⟨p', q'⟩, h1, h2⟩ := Option.map_eq_some_iff.1 h
          cases h2
          obtain ⟨h3, h4⟩ := ih _ _ _ h1
          refine ⟨by rw [h3]; rfl, ?_⟩
          rw [eols, if_neg, h4]
          rintro (g | g)
          · exact hc (.inl (.inl g))
          · exact hc (.inl (.inr g.1))
        · cases h
    | succ l =>
      rw [place] at h
      obtain ⟨⟨p', q'⟩, h1, h2⟩ := Option.map_eq_some_iff.1 h
      cases h2
      obtain ⟨h3, h4⟩ := ih _ _ _ h1
      refine ⟨by rw [h3]; rfl, ?_⟩
      have hhead : (c = '\r' ∧ cs.head? ≠ some '\n') ↔ (c = '\r' ∧ p'.head? ≠ some '\n') := by
        constructor
        · rintro ⟨g, g'⟩
          refine ⟨g, fun e => g' ?_⟩
          cases p' with
          | nil => cases e
          | cons x xs => rw [h3]; exact e
        · rintro ⟨g, g'⟩
          refine ⟨g, fun e => ?_⟩
          have hl : eols p' = l + 1 := by
            rw [if_neg (by
              rintro (g1 | g1)
              · rw [g] at g1; exact absurd g1 (by decide)
              · exact g1.2 e)] at h4
            exact h4
          cases p' with
          | nil => simp [eols] at hl
          | cons x xs => rw [h3] at e; exact g' e
      rw [eols]
      by_cases hc : c = '\n' ∨ (c = '\r' ∧ cs.head? ≠ some '\n')
      · rw [if_pos hc] at h4
        rw [if_pos (hc.imp id hhead.1), h4]; omega
      · rw [if_neg hc] at h4
        rw [if_neg fun g => hc (g.imp id hhead.2), h4]; omega

theorem noLoneCr_cons (c : Char) (cs : List Char) :
    NoLoneCr (c :: cs) ↔ (c = '\r' → cs.head? = some '\n') ∧ NoLoneCr cs := by
  constructor
  · intro h
    refine ⟨fun hc => ?_, fun a b e => h (c :: a) b (by rw [e]; rfl)⟩
    obtain ⟨d, hd⟩ := h [] cs (by rw [hc]; rfl)
    rw [hd]; rfl
  · rintro ⟨h1, h2⟩ a b e
    cases a with
    | nil =>
      rw [List.nil_append] at e
      injection e with e1 e2
      have := h1 e1
      rw [e2] at this
      cases b with
      | nil => cases this
      | cons x xs =>
        obtain rfl : x = '\n' := by simpa using this
        exact ⟨xs, rfl⟩
    | cons x xs =>
      rw [List.cons_append] at e
      injection e with e1 e2
      exact h2 xs b e2

/-- Lines of the server and of the client. -/
theorem eols_count (cs : List Char) :
    cs.count '\n' ≤ eols cs ∧ (eols cs = cs.count '\n' ↔ NoLoneCr cs) := by
  induction cs with
  | nil =>
    refine ⟨Nat.le_refl _, fun _ => ?_, fun _ => rfl⟩
    intro a b e
    cases a <;> cases e
  | cons c cs ih =>
    obtain ⟨h1, h2⟩ := ih
    have hcount : (c :: cs).count '\n' = cs.count '\n' + if c = '\n' then 1 else 0 := by
      rw [List.count_cons]
      by_cases hn : c = '\n' <;> simp [hn]
    rw [eols, hcount, noLoneCr_cons, ← h2]
    by_cases hn : c = '\n'
    · have hr : c ≠ '\r' := by rw [hn]; decide
      rw [if_pos (Or.inl hn), if_pos hn]
      refine ⟨by omega, fun h => ⟨fun g => absurd g hr, by omega⟩, fun h => by omega⟩
    · rw [if_neg (c := c = '\n') hn]
      by_cases hr : c = '\r'
      · by_cases hh : cs.head? = some '\n'
        · rw [if_neg fun g => g.elim hn fun g => g.2 hh]
          exact ⟨by omega, fun h => ⟨fun _ => hh, by omega⟩, fun h => by omega⟩
        · rw [if_pos (Or.inr ⟨hr, hh⟩)]
          exact ⟨by omega, fun h => by omega, fun h => absurd (h.1 hr) hh⟩
      · rw [if_neg fun g => g.elim hn fun g => hr g.1]
        exact ⟨by omega, fun h => ⟨fun g => absurd g hr, by omega⟩, fun h => by omega⟩

theorem lastLine_none (cs : List Char) (h : '\n' ∉ cs) : lastLine cs = cs := by
  cases cs with
  | nil => rfl
  | cons c cs =>
    rw [lastLine_cons, if_neg]
    rintro (g | g)
    · exact h (by simp [g])
    · exact h (by simp [g])

theorem lastPart_noLoneCr (cs : List Char) (h : NoLoneCr cs) : lastPart cs = lastLine cs := by
  induction cs with
  | nil => rfl
  | cons c cs ih =>
    have h' := (noLoneCr_cons c cs).1 h
    have ih := ih h'.2
    rw [lastPart_cons, lastLine_cons, ih]
    have hiff : ((∃ x ∈ cs, IsEol x) ∨ IsEol c) ↔ ('\n' ∈ cs ∨ c = '\n') := by
      constructor
      · rintro (⟨x, hx, rfl | rfl⟩ | g | g)
        · exact .inl hx
        · obtain ⟨a, b, e⟩ := List.append_of_mem hx
          obtain ⟨d, hd⟩ := h'.2 a b e
          left
          rw [e, hd]
          simp
        · exact .inr g
        · left
          have := h'.1 g
          cases cs with
          | nil => cases this
          | cons x xs => simp at this; simp [this]
      · rintro (g | g)
        · exact .inl ⟨_, g, .inl rfl⟩
        · exact .inr (.inl g)
    by_cases hc : '\n' ∈ cs ∨ c = '\n'
    · rw [if_pos hc, if_pos (hiff.2 hc)]
    · rw [if_neg hc, if_neg fun g => hc (hiff.1 g)]

theorem positionOf_eq (enc : Encoding) (pre : List Char) (h : NoLoneCr pre) :
    positionOf enc pre = posOf enc pre := by
  unfold positionOf posOf
  rw [(eols_count pre).2.2 h, lastPart_noLoneCr pre h]

theorem noLoneCr_outside (pre post : List Char) (h : NoLoneCr pre) : ¬ InsideEol pre post := by
  rintro ⟨h1, -⟩
  obtain ⟨a, rfl⟩ := List.getLast?_eq_some_iff.1 h1
  obtain ⟨c, hc⟩ := h a [] rfl
  cases hc

theorem place_posOf (enc : Encoding) (pre post : List Char) :
    place enc (pre ++ post) (posOf enc pre).line (posOf enc pre).character = some (pre, post) ↔
      NoLoneCr pre := by
  constructor
  · intro h
    exact (eols_count pre).2.1 (place_line enc _ _ _ _ _ h).2
  · intro h
    rw [← positionOf_eq enc pre h]
    exact place_position enc pre post (noLoneCr_outside pre post h)

/-! ## The theorems -/

/-- **C115** (sent). The position that the server sends for a place is that place to the client exactly if
every `\r` in front of it is followed by a `\n` that is also in front of it. -/
theorem C115_sent (enc : Encoding) (pre post : List Char) :
    ∃ p, toPosition enc (LineIndex.new (pre ++ post)) (utf8Len pre) = some p ∧
      (place enc (pre ++ post) p.line p.character = some (pre, post) ↔ NoLoneCr pre) :=
  ⟨_, C08_position enc pre post, place_posOf enc pre post⟩

example : NoLoneCr ['a', '\r', '\n', 'b'] := by
  simp [noLoneCr_cons]
  intro a b e
  cases a <;> cases e

/-- **C115** (received, partial). The position that a client sends for a place is read by the server as that
place, if every `\r` in front of it is followed by a `\n`. (Missing: other texts, where it is false.) -/
theorem C115_received_partial (bd : Build) (enc : Encoding) (pre post : List Char)
    (hsize : utf8Len (pre ++ post) < 2 ^ 32) (h : NoLoneCr pre) :
    fromPosition bd enc (LineIndex.new (pre ++ post)) (positionOf enc pre) =
      .value (some (utf8Len pre)) := by
  rw [positionOf_eq enc pre h]
  exact C08_offset bd enc pre post hsize

theorem noLoneCr_prefix (a b : List Char) (h : NoLoneCr (a ++ b)) (ho : ¬ InsideEol a b) :
    NoLoneCr a := by
  intro x y e
  obtain ⟨c, hc⟩ := h x (y ++ b) (by rw [e]; simp)
  cases y with
  | nil =>
    rw [List.nil_append] at hc
    exact absurd ⟨by rw [e]; simp, by rw [hc]; rfl⟩ ho
  | cons z zs =>
    rw [List.cons_append] at hc
    injection hc with h1 h2
    exact ⟨zs, by rw [h1]⟩

/-- **C115** (edits, partial). In a document whose lines end with `\n` or `\r\n`, the client takes every edit of
a quick fix or refactoring to be for the part of the text that the analyzer meant, provided that no edit
starts or ends between `\r` and `\n`; the edits are in the order of the analyzer and have its texts. (Missing:
other documents, where it is false.) -/
theorem C115_edits_partial (enc : Encoding) (text : List Char) (uri : String) (b : Bool) (a : RawAction)
    (hk : a.kind = .quickFix ∨ a.kind = .refactor) (hne : a.edits ≠ [])
    (hcr : NoLoneCr text)
    (hr : ∀ e ∈ a.edits, ∃ pre mid post, text = pre ++ mid ++ post ∧
      e.1 = (utf8Len pre, utf8Len (pre ++ mid)) ∧ ¬ InsideEol pre (mid ++ post) ∧
      ¬ InsideEol (pre ++ mid) post) :
    ∃ r es, lspAction (a.translate ⟨enc, text⟩) uri b = some r ∧ r.edit = some es ∧
      Each (fun e s => ∃ pre mid post, text = pre ++ mid ++ post ∧
        e.1 = (utf8Len pre, utf8Len (pre ++ mid)) ∧ part enc text s.1 = some (pre, mid, post) ∧
        s.2 = e.2.1) a.edits es := by
  have hon : ∀ e ∈ a.edits, OnChars text e.1 := by
    intro e he
    obtain ⟨pre, mid, post, h1, h2, -, -⟩ := hr e he
    exact ⟨pre, mid, post, h1, h2⟩
  obtain ⟨r, es, h1, -, h3, -, h5⟩ := C77_edits enc text uri b a hk hne hon
  refine ⟨r, es, h1, h3, ?_⟩
  clear h1 h3 hne hk hon
  have hr' : ∀ e ∈ a.edits, _ := hr
  revert hr'
  generalize a.edits = xs at h5
  intro hr'
  induction h5 with
  | nil => exact .nil
  | @cons e s xs ys hes _ ih =>
    refine .cons ?_ (ih fun e he => hr' e (by simp [he]))
    obtain ⟨pre, mid, post, g1, g2, g3, g4⟩ := hr' e (by simp)
    obtain ⟨⟨⟨p1, q1, e1, e2, e3⟩, p2, q2, f1, f2, f3⟩, hnew⟩ := hes
    refine ⟨pre, mid, post, g1, g2, ?_, hnew⟩
    have inj : ∀ (p q p' q' : List Char), p ++ q = p' ++ q' → utf8Len p = utf8Len p' → p = p' := by
      intro p
      induction p with
      | nil =>
        intro q p' q' _ hl
        cases p' with
        | nil => rfl
        | cons c cs => have := utf8Len_pos c cs; simp only [utf8Len] at hl this; omega
      | cons c cs ih =>
        intro q p' q' happ hl
        cases p' with
        | nil => have := utf8Len_pos c cs; simp only [utf8Len] at hl this; omega
        | cons d ds =>
          rw [List.cons_append, List.cons_append] at happ
          injection happ with h1 h2
          rw [h1] at hl ⊢
          simp only [utf8Len] at hl
          rw [ih q ds q' h2 (by omega)]
    have hp1 : pre = p1 := by
      apply inj pre (mid ++ post) p1 q1
      · rw [← e1, g1]; simp
      · rw [← e2, g2]
    have hp2 : pre ++ mid = p2 := by
      apply inj (pre ++ mid) post p2 q2
      · rw [← f1, g1]
      · rw [← f2, g2]
    have hcr1 : NoLoneCr pre := noLoneCr_prefix pre (mid ++ post) (by
      rw [← List.append_assoc, ← g1]; exact hcr) g3
    have hcr2 : NoLoneCr (pre ++ mid) := noLoneCr_prefix (pre ++ mid) post (by rw [← g1]; exact hcr) g4
    have w1 := (place_posOf enc pre (mid ++ post)).2 hcr1
    have w2 := (place_posOf enc (pre ++ mid) post).2 hcr2
    rw [← List.append_assoc, ← g1] at w1
    rw [← g1] at w2
    unfold part
    rw [e3, f3, ← hp1, ← hp2, w1, w2]
    simp

example : ∃ pre mid post : List Char, ['a', '\r', '\n', 'é'] = pre ++ mid ++ post ∧
    ((1, 3) : Nat × Nat) = (utf8Len pre, utf8Len (pre ++ mid)) ∧ ¬ InsideEol pre (mid ++ post) ∧
    ¬ InsideEol (pre ++ mid) post :=
  ⟨['a'], ['\r', '\n'], ['é'], rfl, by decide, by simp [InsideEol], by simp [InsideEol]⟩

/-- Finding: a line comment ends in front of the `\n`, so that in a document with `\r\n` the `\r` belongs to it.
An edit right behind the comment `//c` is made in front of the `\r` by the client. -/
theorem C115_negation_comment :
    ∃ p, toPosition .utf16 (LineIndex.new ['/', '/', 'c', '\r', '\n']) 4 = some p ∧
      place .utf16 ['/', '/', 'c', '\r', '\n'] p.line p.character =
        some (['/', '/', 'c'], ['\r', '\n']) :=
  ⟨⟨0, 4⟩, by decide, by decide⟩

/-- Finding: behind a lone `\r` the client and the server mean different places. In `a\rb`, an edit meant for the
place behind the `\r` is made in front of it, and the position the client sends for it is not found. -/
theorem C115_negation_cr :
    (∃ p, toPosition .utf16 (LineIndex.new ['a', '\r', 'b']) 2 = some p ∧
      place .utf16 ['a', '\r', 'b'] p.line p.character = some (['a'], ['\r', 'b'])) ∧
    positionOf .utf16 ['a', '\r'] = ⟨1, 0⟩ ∧
    fromPosition .release .utf16 (LineIndex.new ['a', '\r', 'b']) ⟨1, 0⟩ = .value none := by
  refine ⟨⟨⟨0, 2⟩, by decide, by decide⟩, by decide, by decide⟩

end Verif.Lsp.Client
