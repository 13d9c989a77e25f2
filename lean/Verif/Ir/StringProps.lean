import Verif.Ir.Value
import Verif.Analyzer.ArgCheckProps

/-!
# C121: string values are read as Rust reads them
-/

namespace Verif.Ir.Str

open Verif.Analyzer

/-! ## Specification: the string literals of Rust -/

/-- The escape sequences of one character behind the backslash, with what they stand for. -/
def escapes : List (Char × Char) :=
  [('n', '\n'), ('r', '\r'), ('t', '\t'), ('\\', '\\'), ('0', Char.ofNat 0), ('\'', '\''), ('"', '"')]

/-- The number written with hexadecimal digits. -/
def hexNumber (ds : List Nat) : Nat := ds.foldl (fun n d => 16 * n + d) 0

/-- A hexadecimal digit, and its value. -/
inductive Hex : Char → Nat → Prop
  | digit (d : Nat) (h : d < 10) : Hex (Char.ofNat (48 + d)) d
  | lower (d : Nat) (h1 : 10 ≤ d) (h2 : d < 16) : Hex (Char.ofNat (87 + d)) d
  | upper (d : Nat) (h1 : 10 ≤ d) (h2 : d < 16) : Hex (Char.ofNat (55 + d)) d

/-- The digits of `\u{…}`: hexadecimal digits and, not in front, underscores. -/
inductive UniDigits : List Char → List Nat → Prop
  | one {c d} : Hex c d → UniDigits [c] [d]
  | more {cs ds c d} : UniDigits cs ds → Hex c d → UniDigits (cs ++ [c]) (ds ++ [d])
  | score {cs ds} : UniDigits cs ds → UniDigits (cs ++ ['_']) ds

/-- A piece of a string literal: `Piece text value` says that `text` can stand between the quotes, and
`value` is what it stands for. -/
inductive Piece : List Char → List Char → Prop
  /-- A character that stands for itself. -/
  | plain (c : Char) : c ≠ '"' → c ≠ '\\' → c ≠ '\r' → Piece [c] [c]
  /-- The end of a line of a file with Windows line ends. -/
  | line : Piece ['\r', '\n'] ['\n']
  /-- `\n` and the like. -/
  | short (c v : Char) : (c, v) ∈ escapes → Piece ['\\', c] [v]
  /-- `\x41`. -/
  | byte (a b : Char) (x y : Nat) : Hex a x → Hex b y → x < 8 →
      Piece ['\\', 'x', a, b] [Char.ofNat (16 * x + y)]
  /-- `\u{1F600}`. -/
  | unicode (cs : List Char) (ds : List Nat) (v : Char) : UniDigits cs ds → ds.length ≤ 6 →
      v.toNat = hexNumber ds → Piece (['\\', 'u', '{'] ++ cs ++ ['}']) [v]
  /-- A backslash at the end of a line: the white space up to the next other character is left out. -/
  | joined (nl ws : List Char) : nl = ['\n'] ∨ nl = ['\r', '\n'] →
      (∀ c ∈ ws, c ∈ [' ', '\t', '\n', '\r']) → Piece ('\\' :: nl ++ ws) []

/-- A string literal between quotes, given by its pieces: what each is and what it stands for. -/
def Literal (pieces : List (List Char × List Char)) (text value : List Char) : Prop :=
  (∀ p ∈ pieces, Piece p.1 p.2) ∧ text = '"' :: pieces.flatMap (·.1) ++ ['"'] ∧
    value = pieces.flatMap (·.2)

/-- Every piece of the literal is a character that stands for itself. -/
def Plain (pieces : List (List Char × List Char)) : Prop := ∀ p ∈ pieces, ∃ c, p = ([c], [c])

/-- A raw string literal with `n` hashes. -/
def Raw (n : Nat) (text value : List Char) : Prop :=
  text = 'r' :: List.replicate n '#' ++ '"' :: value ++ '"' :: List.replicate n '#' ∧
    ¬ ∃ a b, value = a ++ '"' :: List.replicate n '#' ++ b

/-! ## Lemmas -/

theorem hex_ne {c : Char} {d : Nat} (h : Hex c d) : c ≠ '"' := by
  cases h with
  | digit d h =>
    have : ∀ d < 10, Char.ofNat (48 + d) ≠ '"' := by decide
    exact this d h
  | lower d h1 h2 =>
    have : ∀ d < 16, Char.ofNat (87 + d) ≠ '"' := by decide
    exact this d h2
  | upper d h1 h2 =>
    have : ∀ d < 16, Char.ofNat (55 + d) ≠ '"' := by decide
    exact this d h2

theorem uni_ne {cs : List Char} {ds : List Nat} (h : UniDigits cs ds) : '"' ∉ cs := by
  induction h with
  | one h => simpa using (hex_ne h).symm
  | more _ h ih => simp [ih, (hex_ne h).symm]
  | score _ ih => simp [ih]

/-- A piece with a quote stands for a quote. -/
theorem quote_value {t v : List Char} (h : Piece t v) (hq : '"' ∈ t) : '"' ∈ v := by
  cases h with
  | plain c h1 h2 h3 => simp at hq; exact absurd hq.symm h1
  | line => simp at hq
  | short c v hm =>
    have : ∀ e ∈ escapes, '"' ∈ ['\\', e.1] → '"' ∈ [e.2] := by decide
    exact this (c, v) hm hq
  | byte a b x y h1 h2 =>
    simp only [List.mem_cons, List.not_mem_nil, or_false] at hq
    rcases hq with h | h | h | h
    · exact absurd h (by decide)
    · exact absurd h (by decide)
    · exact absurd h.symm (hex_ne h1)
    · exact absurd h.symm (hex_ne h2)
  | unicode cs ds v h1 =>
    have := uni_ne h1
    simp [this] at hq
  | joined nl ws h1 h2 =>
    simp only [List.cons_append, List.mem_cons, List.mem_append] at hq
    rcases hq with h | h | h
    · exact absurd h (by decide)
    · rcases h1 with rfl | rfl <;> exact absurd h (by decide)
    · exact absurd (h2 _ h) (by decide)

/-- What stands for itself is as long as what it stands for; everything else is longer. -/
theorem length_piece {t v : List Char} (h : Piece t v) :
    v.length ≤ t.length ∧ (v.length = t.length → ∃ c, (t, v) = ([c], [c])) := by
  cases h with
  | plain c h1 h2 h3 => exact ⟨by simp, fun _ => ⟨c, rfl⟩⟩
  | line => simp
  | short c v hm => simp
  | byte a b x y h1 h2 => simp
  | unicode cs ds v h1 => simp
  | joined nl ws h1 h2 => simp

theorem length_pieces (pieces : List (List Char × List Char)) (h : ∀ p ∈ pieces, Piece p.1 p.2) :
    (pieces.flatMap (·.2)).length ≤ (pieces.flatMap (·.1)).length ∧
      ((pieces.flatMap (·.2)).length = (pieces.flatMap (·.1)).length → Plain pieces) := by
  induction pieces with
  | nil => exact ⟨by simp, fun _ p hp => nomatch hp⟩
  | cons p ps ih =>
    obtain ⟨h1, h2⟩ := ih fun q hq => h q (List.mem_cons_of_mem _ hq)
    obtain ⟨h3, h4⟩ := length_piece (h p List.mem_cons_self)
    simp only [List.flatMap_cons, List.length_append]
    refine ⟨by omega, fun he q hq => ?_⟩
    rcases List.mem_cons.1 hq with rfl | hq
    · exact h4 (by omega)
    · exact h2 (by omega) q hq

theorem plain_same (pieces : List (List Char × List Char)) (h : Plain pieces) :
    pieces.flatMap (·.1) = pieces.flatMap (·.2) := by
  induction pieces with
  | nil => rfl
  | cons p ps ih =>
    obtain ⟨c, rfl⟩ := h p List.mem_cons_self
    simp only [List.flatMap_cons]
    rw [ih fun q hq => h q (List.mem_cons_of_mem _ hq)]

/-- No piece starts with a quote. -/
theorem head_piece {t v : List Char} (h : Piece t v) : ∃ c cs, t = c :: cs ∧ c ≠ '"' := by
  cases h with
  | plain c h1 h2 h3 => exact ⟨c, [], rfl, h1⟩
  | line => exact ⟨_, _, rfl, by decide⟩
  | short c v hm => exact ⟨_, _, rfl, by decide⟩
  | byte a b x y h1 h2 => exact ⟨_, _, rfl, by decide⟩
  | unicode cs ds v h1 => exact ⟨_, _, rfl, by decide⟩
  | joined nl ws h1 h2 => exact ⟨_, _, rfl, by decide⟩

/-- What is read of a literal: the text between the quotes, up to a quote. -/
theorem read_literal (pieces : List (List Char × List Char)) (h : ∀ p ∈ pieces, Piece p.1 p.2) :
    (('"' :: pieces.flatMap (·.1) ++ ['"']).dropWhile (· == '"')).takeWhile (· != '"') =
      (pieces.flatMap (·.1) ++ ['"']).takeWhile (· != '"') := by
  rw [List.cons_append, List.dropWhile_cons_of_pos (by rfl)]
  cases pieces with
  | nil => rfl
  | cons p ps =>
    obtain ⟨c, cs, hp, hc⟩ := head_piece (h p List.mem_cons_self)
    simp only [List.flatMap_cons, hp, List.cons_append]
    rw [List.dropWhile_cons_of_neg (by simpa using hc)]

/-! ## C121 -/

/-- A string literal between quotes is read as Rust reads it exactly if every character stands for
itself: there are no escape sequences in it, and no line ends of Windows.
Missing for the full claim: the other literals, for which it is false. -/
theorem C121_read_partial (pieces : List (List Char × List Char)) (text value : List Char)
    (h : Literal pieces text value) (x : MetaValue) (hk : x.kind = .string)
    (ht : x.text = String.ofList text) :
    x.asString = some (String.ofList value) ↔ Plain pieces := by
  obtain ⟨h1, rfl, rfl⟩ := h
  unfold MetaValue.asString
  rw [if_pos hk, ht, String.toList_ofList, read_literal pieces h1, Option.some.injEq]
  have hinj (a b : List Char) : String.ofList a = String.ofList b ↔ a = b := by
    rw [← String.toList_inj, String.toList_ofList, String.toList_ofList]
  rw [hinj]
  by_cases hq : ∃ p ∈ pieces, '"' ∈ p.1
  · obtain ⟨p, hp, hq⟩ := hq
    refine iff_of_false ?_ ?_
    · intro e
      have : '"' ∈ pieces.flatMap (·.2) := List.mem_flatMap.2 ⟨p, hp, quote_value (h1 p hp) hq⟩
      rw [← e] at this
      have hall := List.all_takeWhile (l := pieces.flatMap (·.1) ++ ['"']) (p := fun c => c != '"')
      have := List.all_eq_true.1 hall _ this
      exact absurd this (by decide)
    · intro hpl
      obtain ⟨c, rfl⟩ := hpl p hp
      cases List.mem_singleton.1 hq
      obtain ⟨c, cs, he, hc⟩ := head_piece (h1 _ hp)
      cases he
      exact hc rfl
  · have : (pieces.flatMap (·.1) ++ ['"']).takeWhile (· != '"') = pieces.flatMap (·.1) := by
      rw [List.takeWhile_append_of_pos]
      · simp
      · intro c hc
        obtain ⟨p, hp, hc⟩ := List.mem_flatMap.1 hc
        have : c ≠ '"' := fun e => hq ⟨p, hp, e ▸ hc⟩
        simpa using this
    rw [this]
    exact ⟨fun e => (length_pieces pieces h1).2 (by rw [e]), plain_same pieces⟩

/-- A raw string literal is always read as the text in front of its first quote. -/
theorem C121_negation_raw (n : Nat) (text value : List Char) (h : Raw n text value) (x : MetaValue)
    (hk : x.kind = .string) (ht : x.text = String.ofList text) :
    x.asString = some (String.ofList ('r' :: List.replicate n '#')) := by
  obtain ⟨rfl, -⟩ := h
  unfold MetaValue.asString
  rw [if_pos hk, ht, String.toList_ofList]
  congr 2
  rw [List.cons_append, List.cons_append, List.dropWhile_cons_of_neg (by decide),
    List.takeWhile_cons_of_pos (by decide), List.append_assoc]
  congr 1
  rw [List.takeWhile_append_of_pos]
  · simp
  · intro c hc
    rw [(List.mem_replicate.1 hc).2]
    decide

/-- If every character stands for itself, a url is accepted exactly if it contains `://`, as Rust reads
it. Missing for the full claim: the other literals (`C121_negation_url`). -/
theorem C121_url_partial (fi : String → Option String) (v : Version) (attr : Option AttrKind)
    (pieces : List (List Char × List Char)) (text value : List Char) (h : Literal pieces text value)
    (hp : Plain pieces) (m : Meta) (x : MetaValue) (hm : m.value = .ok x) (hn : m.nested = none)
    (hk : x.kind = .string) (ht : x.text = String.ofList text) :
    validateArg fi v attr m .url = [] ↔ ∃ a b, value = a ++ [':', '/', '/'] ++ b := by
  have hs := (C121_read_partial pieces text value h x hk ht).2 hp
  constructor
  · intro hv
    have := C42_shape_partial fi v attr .url m (.flat rfl hn (fun e => nomatch e)) hv
    cases this with
    | alone hk _ _ _ => cases hk
    | value hv hf _ =>
      rw [hm] at hv
      cases hv
      obtain ⟨s, a, b, e1, e2⟩ := hf
      rw [hs] at e1
      cases e1
      rw [String.toList_ofList] at e2
      exact ⟨a, b, e2⟩
    | leaf hs _ _ _ => cases hs
    | nested hs _ _ _ _ _ => cases hs
  · rintro ⟨a, b, rfl⟩
    exact C42_accepted fi v attr .url m
      (.value hm ⟨_, a, b, hs, by rw [String.toList_ofList]; rfl⟩ hn)

/-- `url = r"ws://x"` is reported, `url = "ws:\u{2f}/x"` too, although the values contain `://`. -/
theorem C121_negation_url (fi : String → Option String) (v : Version) (attr : Option AttrKind) :
    (∃ n value, Raw n "r\"ws://x\"".toList value ∧ value = "ws://x".toList ∧
      validateArg fi v attr (exItem "url" true (some (.string, "r\"ws://x\"")) none) .url = [.badValue]) ∧
    ∃ pieces value, Literal pieces "\"ws:\\u{2f}/x\"".toList value ∧ value = "ws://x".toList ∧
      validateArg fi v attr (exItem "url" true (some (.string, "\"ws:\\u{2f}/x\"")) none) .url =
        [.badValue] := by
  have he : expectedValue v attr .url = .string .url := by cases v <;> rfl
  refine ⟨⟨0, _, ⟨rfl, ?_⟩, rfl, ?_⟩, ?_⟩
  · rintro ⟨a, b, h⟩
    have : '"' ∈ "ws://x".toList := by
      rw [h]
      simp
    exact absurd this (by decide)
  · rw [validateArg_eq, if_neg (by decide), he]
    rfl
  · refine ⟨[(['w'], ['w']), (['s'], ['s']), ([':'], [':']), (['\\', 'u', '{', '2', 'f', '}'], ['/']),
      (['/'], ['/']), (['x'], ['x'])], _, ⟨?_, rfl, rfl⟩, rfl, ?_⟩
    · intro p hp
      simp only [List.mem_cons, List.not_mem_nil, or_false] at hp
      rcases hp with rfl | rfl | rfl | rfl | rfl | rfl
      · exact .plain _ (by decide) (by decide) (by decide)
      · exact .plain _ (by decide) (by decide) (by decide)
      · exact .plain _ (by decide) (by decide) (by decide)
      · exact .unicode ['2', 'f'] [2, 15] '/' (.more (.one (.digit 2 (by decide)))
          (.lower 15 (by decide) (by decide))) (by decide) (by decide)
      · exact .plain _ (by decide) (by decide) (by decide)
      · exact .plain _ (by decide) (by decide) (by decide)
    · rw [validateArg_eq, if_neg (by decide), he]
      rfl

/-! ## Examples -/

/-- `"ab c"` has just characters that stand for themselves. -/
example : ∃ pieces, Literal pieces "\"ab c\"".toList "ab c".toList ∧ Plain pieces := by
  refine ⟨"ab c".toList.map fun c => ([c], [c]), ⟨?_, rfl, rfl⟩, ?_⟩
  · intro p hp
    obtain ⟨c, hc, rfl⟩ := List.mem_map.1 hp
    have : ∀ c ∈ "ab c".toList, c ≠ '"' ∧ c ≠ '\\' ∧ c ≠ '\r' := by decide
    exact .plain c (this c hc).1 (this c hc).2.1 (this c hc).2.2
  · intro p hp
    obtain ⟨c, hc, rfl⟩ := List.mem_map.1 hp
    exact ⟨c, rfl⟩

/-- `"a\"b"` is the text `a"b`, but `a\` is read. -/
example : (∃ pieces, Literal pieces "\"a\\\"b\"".toList "a\"b".toList) ∧
    (⟨[], .string, "\"a\\\"b\""⟩ : MetaValue).asString = some "a\\" := by
  refine ⟨⟨[(['a'], ['a']), (['\\', '"'], ['"']), (['b'], ['b'])], ?_, rfl, rfl⟩, by decide⟩
  intro p hp
  simp only [List.mem_cons, List.not_mem_nil, or_false] at hp
  rcases hp with rfl | rfl | rfl
  · exact .plain _ (by decide) (by decide) (by decide)
  · exact .short _ _ (by decide)
  · exact .plain _ (by decide) (by decide) (by decide)

end Verif.Ir.Str
