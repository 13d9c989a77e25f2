import Verif.Ir.Value

/-!
# C21: integer argument values are read as Rust reads them
-/

namespace Verif.Ir

/-! ## Specification: the value of a Rust integer literal

Written independently of the model: a radix prefix (`0x`, `0o`, `0b` or none), digits with
optional `_` separators, and an optional type suffix. -/

/-- Digit value of a character, any radix up to 16. -/
def digitVal (c : Char) : Option Nat :=
  if c.isDigit then some (c.toNat - 48)
  else if 'a' ≤ c ∧ c ≤ 'f' then some (c.toNat - 87)
  else if 'A' ≤ c ∧ c ≤ 'F' then some (c.toNat - 55)
  else none

/-- Is the character a digit of the radix? -/
def isDigitOf (radix : Nat) (c : Char) : Bool :=
  match digitVal c with
  | some d => d < radix
  | none => false

/-- Positional value of a digit string (separators skipped). -/
def positional (radix : Nat) (s : List Char) : Nat :=
  (s.filter (· != '_')).foldl (fun acc c => acc * radix + (digitVal c).getD 0) 0

/-- Rust's integer type suffixes. -/
def suffixes : List String :=
  ["", "u8", "u16", "u32", "u64", "u128", "usize", "i8", "i16", "i32", "i64", "i128", "isize"]

/-- Value of the digits-and-suffix part of a literal. -/
def rustDigits (radix : Nat) (s : List Char) : Option Nat :=
  let body := s.takeWhile fun c => isDigitOf radix c || c == '_'
  let suffix := s.dropWhile fun c => isDigitOf radix c || c == '_'
  if body.any (isDigitOf radix) ∧ String.ofList suffix ∈ suffixes then
    some (positional radix body)
  else none

/-- Value of a Rust integer literal. -/
def rustInt (s : List Char) : Option Nat :=
  match s with
  | '0' :: 'x' :: cs => rustDigits 16 cs
  | '0' :: 'o' :: cs => rustDigits 8 cs
  | '0' :: 'b' :: cs => rustDigits 2 cs
  | cs => rustDigits 10 cs

example : rustInt "0xDEAD_BEEFu32".toList = some 0xDEADBEEF ∧ rustInt "1_000".toList = some 1000 ∧
    rustInt "0b101".toList = some 5 := by decide

/-! ## Lemmas -/

theorem char_le_iff (a b : Char) : a ≤ b ↔ a.toNat ≤ b.toNat := Iff.rfl

theorem toDigit_eq (radix : Nat) (hr : radix ≤ 16) (c : Char) (d : Nat)
    (h : toDigit radix c = some d) : digitVal c = some d ∧ isDigitOf radix c = true := by
  have hd : digitVal c = some d := by
    unfold toDigit at h
    simp only [Option.bind_eq_some_iff] at h
    obtain ⟨d', h1, h2⟩ := h
    split at h2
    · simp at h2
      subst h2
      unfold digitVal
      simp only [Char.isDigit, char_le_iff] at *
      split at h1
      · rename_i hd
        simp at h1
        have : (decide (c.val ≥ '0'.val) && decide (c.val ≤ '9'.val)) = true := by
          simp only [Bool.and_eq_true, decide_eq_true_eq, ge_iff_le, UInt32.le_iff_toNat_le]
          exact hd
        rw [if_pos this, ← h1]
      · rename_i hnd
        have hnd' : (decide (c.val ≥ '0'.val) && decide (c.val ≤ '9'.val)) = false := by
          rw [Bool.eq_false_iff]
          intro hh
          simp only [Bool.and_eq_true, decide_eq_true_eq, ge_iff_le, UInt32.le_iff_toNat_le] at hh
          exact hnd hh
        rw [if_neg (by rw [hnd']; decide)]
        have e1 : 'a'.toNat = 97 := rfl
        have e2 : 'A'.toNat = 65 := rfl
        have e3 : 'f'.toNat = 102 := rfl
        have e4 : 'F'.toNat = 70 := rfl
        have e5 : 'z'.toNat = 122 := rfl
        have e6 : 'Z'.toNat = 90 := rfl
        rw [e1, e2, e5, e6] at h1
        rw [e1, e2, e3, e4]
        split at h1
        · simp at h1
          rw [if_pos (by omega)]
          congr 1
          omega
        · split at h1
          · simp at h1
            rw [if_neg (by omega), if_pos (by omega)]
            congr 1
            omega
          · simp at h1
    · simp at h2
  refine ⟨hd, ?_⟩
  unfold isDigitOf
  rw [hd]
  unfold toDigit at h
  simp only [Option.bind_eq_some_iff] at h
  obtain ⟨d', h1, h2⟩ := h
  split at h2
  · simp at h2; subst h2; simpa
  · simp at h2

theorem toDigit_of (radix : Nat) (c : Char) (h : isDigitOf radix c = true) :
    ∃ d, toDigit radix c = some d ∧ digitVal c = some d := by
  unfold isDigitOf at h
  split at h
  · rename_i d hd
    refine ⟨d, ?_, hd⟩
    unfold toDigit
    unfold digitVal at hd
    simp only [Char.isDigit, char_le_iff] at *
    have e1 : 'a'.toNat = 97 := rfl
    have e2 : 'A'.toNat = 65 := rfl
    have e3 : 'f'.toNat = 102 := rfl
    have e4 : 'F'.toNat = 70 := rfl
    have e5 : 'z'.toNat = 122 := rfl
    have e6 : 'Z'.toNat = 90 := rfl
    have e7 : '0'.toNat = 48 := rfl
    have e8 : '9'.toNat = 57 := rfl
    rw [e1, e2, e3, e4] at hd
    rw [e1, e2, e5, e6, e7, e8]
    split at hd
    · rename_i hc
      simp only [Bool.and_eq_true, decide_eq_true_eq, ge_iff_le, UInt32.le_iff_toNat_le] at hc
      have hc' : 48 ≤ c.toNat ∧ c.toNat ≤ 57 := hc
      rw [if_pos hc']
      simp at hd
      simp only [Option.bind_some]
      rw [hd]
      simp at h
      rw [if_pos h]
    · rename_i hc
      have hc' : ¬ (48 ≤ c.toNat ∧ c.toNat ≤ 57) := by
        intro hh
        apply hc
        simp only [Bool.and_eq_true, decide_eq_true_eq, ge_iff_le, UInt32.le_iff_toNat_le]
        exact hh
      rw [if_neg hc']
      simp at h
      split at hd
      · simp at hd
        rw [if_pos (by omega)]
        simp only [Option.bind_some]
        rw [show c.toNat - 97 + 10 = d by omega, if_pos h]
      · split at hd
        · simp at hd
          rw [if_neg (by omega), if_pos (by omega)]
          simp only [Option.bind_some]
          rw [show c.toNat - 65 + 10 = d by omega, if_pos h]
        · simp at hd
  · simp at h

theorem underscore_not_digit (radix : Nat) : isDigitOf radix '_' = false := by
  unfold isDigitOf
  rw [show digitVal '_' = none from by decide]

theorem plus_not_digit (radix : Nat) : isDigitOf radix '+' = false := by
  unfold isDigitOf
  rw [show digitVal '+' = none from by decide]

theorem filter_digits (radix : Nat) (s : List Char) (h : s.all (isDigitOf radix) = true) :
    s.filter (· != '_') = s := by
  rw [List.filter_eq_self]
  intro c hc
  have := List.all_eq_true.1 h c hc
  by_cases hcu : c = '_'
  · subst hcu; rw [underscore_not_digit] at this; simp at this
  · simp [hcu]

theorem foldl_ge (radix : Nat) (hr : 1 ≤ radix) (f : Char → Nat) (s : List Char) (acc : Nat) :
    acc ≤ s.foldl (fun acc c => acc * radix + f c) acc := by
  induction s generalizing acc with
  | nil => exact Nat.le_refl _
  | cons c cs ih =>
    simp only [List.foldl_cons]
    refine Nat.le_trans ?_ (ih _)
    have := Nat.mul_le_mul_left acc hr
    omega

theorem fromDigits_iff (radix max : Nat) (hr : 1 ≤ radix) (hr' : radix ≤ 16) (s : List Char)
    (acc v : Nat) (hacc : acc ≤ max) :
    fromDigits radix max acc s = some v ↔
      s.all (isDigitOf radix) = true ∧
      v = s.foldl (fun acc c => acc * radix + (digitVal c).getD 0) acc ∧ v ≤ max := by
  induction s generalizing acc with
  | nil =>
    simp only [fromDigits, Option.some.injEq, List.all_nil, List.foldl_nil, true_and]
    constructor
    · rintro rfl; exact ⟨rfl, hacc⟩
    · rintro ⟨rfl, _⟩; rfl
  | cons c cs ih =>
    simp only [fromDigits, List.all_cons, List.foldl_cons, Bool.and_eq_true,
      Option.bind_eq_some_iff]
    constructor
    · rintro ⟨d, hd, h⟩
      obtain ⟨h1, h2⟩ := toDigit_eq radix hr' c d hd
      split at h
      · split at h
        · rename_i hle
          rw [ih _ hle] at h
          rw [h1, Option.getD_some]
          exact ⟨⟨h2, h.1⟩, h.2⟩
        · simp at h
      · simp at h
    · rintro ⟨⟨h1, h2⟩, h3, h4⟩
      obtain ⟨d, hd, hdv⟩ := toDigit_of radix c h1
      rw [hdv, Option.getD_some] at h3
      have hle : acc * radix + d ≤ max := by
        have := foldl_ge radix hr (fun c => (digitVal c).getD 0) cs (acc * radix + d)
        rw [← h3] at this
        omega
      refine ⟨d, hd, ?_⟩
      rw [if_pos (by omega), if_pos hle, ih _ hle]
      exact ⟨h2, h3, h4⟩

theorem takeWhile_all {p : α → Bool} {l : List α} (h : ∀ x ∈ l, p x = true) :
    l.takeWhile p = l ∧ l.dropWhile p = [] := by
  induction l with
  | nil => exact ⟨rfl, rfl⟩
  | cons x xs ih =>
    obtain ⟨h1, h2⟩ := ih (fun y hy => h y (List.mem_cons_of_mem _ hy))
    have := h x (by simp)
    constructor
    · rw [List.takeWhile_cons, if_pos this, h1]
    · rw [List.dropWhile_cons, if_pos this, h2]

/-- A plain digit string denotes its positional value. -/
theorem rustDigits_plain (radix : Nat) (s : List Char) (hs : s ≠ [])
    (h : s.all (isDigitOf radix) = true) :
    rustDigits radix s =
      some (s.foldl (fun acc c => acc * radix + (digitVal c).getD 0) 0) := by
  have hall : ∀ c ∈ s, (isDigitOf radix c || c == '_') = true := by
    intro c hc
    simp [List.all_eq_true.1 h c hc]
  obtain ⟨h1, h2⟩ := takeWhile_all hall
  unfold rustDigits
  rw [h1, h2]
  have h3 : s.any (isDigitOf radix) = true := by
    cases s with
    | nil => exact absurd rfl hs
    | cons c cs => simp [(List.all_eq_true.1 h c (by simp))]
  have h4 : String.ofList ([] : List Char) ∈ suffixes := by decide
  simp only []
  rw [if_pos ⟨h3, h4⟩, positional, filter_digits radix s h]

theorem fromStrRadix_iff (radix max : Nat) (hr : 1 ≤ radix) (hr' : radix ≤ 16) (s : List Char)
    (hplus : '+' ∉ s) (v : Nat) :
    fromStrRadix radix max s = some v ↔
      s ≠ [] ∧ s.all (isDigitOf radix) = true ∧ rustDigits radix s = some v ∧ v ≤ max := by
  have key : ∀ s : List Char, s ≠ [] → (fromDigits radix max 0 s = some v ↔
      s ≠ [] ∧ s.all (isDigitOf radix) = true ∧ rustDigits radix s = some v ∧ v ≤ max) := by
    intro s hs
    rw [fromDigits_iff radix max hr hr' s 0 v (Nat.zero_le _)]
    constructor
    · rintro ⟨h1, h2, h3⟩
      exact ⟨hs, h1, by rw [rustDigits_plain radix s hs h1, h2], h3⟩
    · rintro ⟨_, h1, h2, h3⟩
      rw [rustDigits_plain radix s hs h1] at h2
      exact ⟨h1, (Option.some.inj h2).symm, h3⟩
  unfold fromStrRadix
  split
  · simp
  · simp at hplus
  · simp at hplus
  · exact key s (by assumption)

/-! ## Theorems -/

theorem asInt_le (max : Nat) (k : ValueTok) (t : String) (v : Nat) (h : asInt max k t = some v) :
    v ≤ max := by
  have key : ∀ (radix : Nat) (s : List Char) (acc v : Nat), acc ≤ max →
      fromDigits radix max acc s = some v → v ≤ max := by
    intro radix s
    induction s with
    | nil => intro acc v ha h; cases h; exact ha
    | cons c cs ih =>
      intro acc v ha h
      unfold fromDigits at h
      cases hd : toDigit radix c with
      | none => rw [hd] at h; simp at h
      | some d =>
        rw [hd, Option.bind_some] at h
        by_cases h1 : acc * radix ≤ max
        · rw [if_pos h1] at h
          by_cases h2 : acc * radix + d ≤ max
          · rw [if_pos h2] at h
            exact ih _ _ h2 h
          · rw [if_neg h2] at h; cases h
        · rw [if_neg h1] at h; cases h
  have key2 : ∀ (radix : Nat) (s : List Char), fromStrRadix radix max s = some v → v ≤ max := by
    intro radix s h
    unfold fromStrRadix at h
    split at h
    · cases h
    · cases h
    · exact key _ _ _ _ (Nat.zero_le _) h
    · exact key _ _ _ _ (Nat.zero_le _) h
  unfold asInt at h
  split at h
  · split at h
    · exact key2 _ _ h
    · exact key2 _ _ h
  · cases h

/-- Texts the lexer produces for integer tokens contain no sign. -/
def IntToken (text : String) : Prop := '+' ∉ text.toList

/-- Whatever integer is read from a literal is the number Rust reads, and it fits the
type. -/
theorem C21_sound (max v : Nat) (kind : ValueTok) (text : String) (ht : IntToken text)
    (h : asInt max kind text = some v) :
    kind = .intNumber ∧ rustInt text.toList = some v ∧ v ≤ max := by
  unfold asInt at h
  split at h
  · rename_i hk
    refine ⟨hk, ?_⟩
    unfold IntToken at ht
    split at h
    · rename_i cs hcs
      rw [hcs] at ht ⊢
      have hp : '+' ∉ cs := fun hm => ht (by simp [hm])
      have := (fromStrRadix_iff 16 max (by decide) (by decide) cs hp v).1 h
      exact ⟨this.2.2.1, this.2.2.2⟩
    · rename_i hnx
      obtain ⟨hne, hall, hv, hle⟩ :=
        (fromStrRadix_iff 10 max (by decide) (by decide) _ ht v).1 h
      refine ⟨?_, hle⟩
      unfold rustInt
      split
      · rename_i cs hcs; exact absurd hcs (hnx cs)
      · rename_i cs hcs
        rw [hcs] at hall
        have : isDigitOf 10 'o' = true := List.all_eq_true.1 hall _ (by simp)
        exact absurd this (by decide)
      · rename_i cs hcs
        rw [hcs] at hall
        have : isDigitOf 10 'b' = true := List.all_eq_true.1 hall _ (by simp)
        exact absurd this (by decide)
      · exact hv
  · simp at h

/-- Decimal literals made of digits only: read exactly, rejected exactly when too large. -/
theorem C21_decimal_partial (max : Nat) (text : String) (v : Nat) (hne : text.toList ≠ [])
    (hd : text.toList.all (isDigitOf 10) = true) (hv : rustInt text.toList = some v) :
    asInt max .intNumber text = if v ≤ max then some v else none := by
  have hplus : '+' ∉ text.toList := by
    intro hm
    have := List.all_eq_true.1 hd _ hm
    rw [plus_not_digit] at this
    simp at this
  have hnx : ∀ cs, text.toList ≠ '0' :: 'x' :: cs := by
    intro cs hcs
    rw [hcs] at hd
    have : isDigitOf 10 'x' = true := List.all_eq_true.1 hd _ (by simp)
    exact absurd this (by decide)
  have hno : rustInt text.toList = rustDigits 10 text.toList := by
    unfold rustInt
    split
    · rename_i cs hcs; exact absurd hcs (hnx cs)
    · rename_i cs hcs
      rw [hcs] at hd
      have : isDigitOf 10 'o' = true := List.all_eq_true.1 hd _ (by simp)
      exact absurd this (by decide)
    · rename_i cs hcs
      rw [hcs] at hd
      have : isDigitOf 10 'b' = true := List.all_eq_true.1 hd _ (by simp)
      exact absurd this (by decide)
    · rfl
  rw [hno] at hv
  have hasInt : asInt max .intNumber text = fromStrRadix 10 max text.toList := by
    unfold asInt
    rw [if_pos rfl]
    split
    · rename_i cs hcs; exact absurd hcs (hnx cs)
    · rfl
  rw [hasInt]
  by_cases hle : v ≤ max
  · rw [if_pos hle]
    exact (fromStrRadix_iff 10 max (by decide) (by decide) _ hplus v).2 ⟨hne, hd, hv, hle⟩
  · rw [if_neg hle, Option.eq_none_iff_forall_ne_some]
    intro w hw
    have := (fromStrRadix_iff 10 max (by decide) (by decide) _ hplus w).1 hw
    rw [hv] at this
    have := Option.some.inj this.2.2.1
    omega

/-- Hexadecimal literals `0x` followed by hex digits (either case): read exactly, rejected
exactly when too large. -/
theorem C21_hex_partial (max : Nat) (text : String) (cs : List Char) (v : Nat)
    (ht : text.toList = '0' :: 'x' :: cs) (hne : cs ≠ [])
    (hd : cs.all (isDigitOf 16) = true) (hv : rustInt text.toList = some v) :
    asInt max .intNumber text = if v ≤ max then some v else none := by
  have hplus : '+' ∉ cs := by
    intro hm
    have := List.all_eq_true.1 hd _ hm
    rw [plus_not_digit] at this
    simp at this
  rw [ht] at hv
  have hv : rustDigits 16 cs = some v := hv
  have hasInt : asInt max .intNumber text = fromStrRadix 16 max cs := by
    unfold asInt
    rw [if_pos rfl, ht]
    rfl
  rw [hasInt]
  by_cases hle : v ≤ max
  · rw [if_pos hle]
    exact (fromStrRadix_iff 16 max (by decide) (by decide) _ hplus v).2 ⟨hne, hd, hv, hle⟩
  · rw [if_neg hle, Option.eq_none_iff_forall_ne_some]
    intro w hw
    have := (fromStrRadix_iff 16 max (by decide) (by decide) _ hplus w).1 hw
    rw [hv] at this
    have := Option.some.inj this.2.2.1
    omega

/-- Values out of range are always rejected, whatever the literal's form. -/
theorem C21_range (max : Nat) (kind : ValueTok) (text : String) (ht : IntToken text)
    (v : Nat) (hv : rustInt text.toList = some v) (hbig : max < v) :
    asInt max kind text = none := by
  rw [Option.eq_none_iff_forall_ne_some]
  intro w hw
  obtain ⟨_, h1, h2⟩ := C21_sound max w kind text ht hw
  rw [hv] at h1
  have := Option.some.inj h1
  omega

/-- A decimal or hexadecimal literal is read as a `u16` iff its value is below `2 ^ 16`, and as a
`u32` iff its value is below `2 ^ 32`. Missing for the full claim: the other literals. -/
theorem C21_widths_partial (v : MetaValue) (n : Nat) (hk : v.kind = .intNumber)
    (hd : (v.text.toList ≠ [] ∧ v.text.toList.all (isDigitOf 10) = true) ∨
      ∃ cs, v.text.toList = '0' :: 'x' :: cs ∧ cs ≠ [] ∧ cs.all (isDigitOf 16) = true)
    (hv : rustInt v.text.toList = some n) :
    v.asU16 = (if n < 2 ^ 16 then some n else none) ∧
      v.asU32 = if n < 2 ^ 32 then some n else none := by
  have key : ∀ max, asInt max v.kind v.text = if n ≤ max then some n else none := by
    intro max
    rw [hk]
    rcases hd with ⟨h1, h2⟩ | ⟨cs, h1, h2, h3⟩
    · exact C21_decimal_partial max v.text n h1 h2 hv
    · exact C21_hex_partial max v.text cs n h1 h2 h3 hv
  have h16 : n < 2 ^ 16 ↔ n ≤ 65535 := by omega
  have h32 : n < 2 ^ 32 ↔ n ≤ 4294967295 := by omega
  simp only [h16, h32]
  exact ⟨key _, key _⟩

/-- The claim is false for literals with separators, suffixes or other radices: Rust reads
`1_000`, `1u32`, `0xFF_FF` and `0b1`, the analyzer rejects them. -/
theorem C21_negation :
    rustInt "1_000".toList = some 1000 ∧ asInt maxU32 .intNumber "1_000" = none ∧
    rustInt "1u32".toList = some 1 ∧ asInt maxU32 .intNumber "1u32" = none ∧
    rustInt "0xFF_FF".toList = some 65535 ∧ asInt maxU32 .intNumber "0xFF_FF" = none ∧
    rustInt "0b1".toList = some 1 ∧ asInt maxU32 .intNumber "0b1" = none := by decide

/-! Non-vacuity. -/

example : asInt maxU32 .intNumber "0xCAFEBABE" = some 0xCAFEBABE ∧
    IntToken "0xCAFEBABE" ∧ rustInt "0xCAFEBABE".toList = some 0xCAFEBABE := by
  unfold IntToken; decide

example : asInt maxU16 .intNumber "65535" = some 65535 ∧
    asInt maxU16 .intNumber "65536" = none := by decide

end Verif.Ir
