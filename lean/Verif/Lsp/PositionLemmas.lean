import Verif.Lsp.PositionSpec

/-! # Helper lemmas about position translation -/

namespace Verif.Lsp

open Spec

theorem utf8Len_append (a b : List Char) : utf8Len (a ++ b) = utf8Len a + utf8Len b := by
  induction a with
  | nil => simp [utf8Len]
  | cons c cs ih => simp [utf8Len, ih]; omega

theorem utf8Size_nl : ('\n' : Char).utf8Size = 1 := by decide

/-- Newline-free text: its non-ASCII characters, from column `col`. -/
def wideOf : List Char → Nat → List WideChar
  | [], _ => []
  | c :: cs, col =>
    if 1 < c.utf8Size then ⟨col, col + c.utf8Size⟩ :: wideOf cs (col + c.utf8Size)
    else wideOf cs (col + c.utf8Size)

theorem newlineTable_append (a b : List Char) (off : Nat) :
    newlineTable (a ++ b) off = newlineTable a off ++ newlineTable b (off + utf8Len a) := by
  induction a generalizing off with
  | nil => simp [newlineTable, utf8Len]
  | cons c cs ih =>
    simp only [List.cons_append, newlineTable, utf8Len]
    split
    · rename_i h
      subst h
      simp [ih, utf8Size_nl]
      congr 1; omega
    · rw [ih]
      congr 2; omega

theorem newlineTable_length (a : List Char) (off : Nat) :
    (newlineTable a off).length = a.count '\n' := by
  induction a generalizing off with
  | nil => simp [newlineTable]
  | cons c cs ih =>
    simp only [newlineTable]
    split
    · rename_i h; subst h; simp [ih]
    · rename_i h; rw [ih, List.count_cons_of_ne (by simpa using h)]

theorem newlineTable_bounds (a : List Char) (off : Nat) :
    ∀ x ∈ newlineTable a off, off < x ∧ x ≤ off + utf8Len a := by
  induction a generalizing off with
  | nil => simp [newlineTable]
  | cons c cs ih =>
    intro x hx
    simp only [newlineTable] at hx
    have hpos := Char.utf8Size_pos c
    split at hx
    · rename_i h
      subst h
      simp only [List.mem_cons] at hx
      simp only [utf8Len, utf8Size_nl]
      rcases hx with rfl | hx
      · omega
      · have := ih _ x hx; omega
    · have := ih _ x hx
      simp only [utf8Len]
      omega

theorem lastLine_snoc (a : List Char) (c : Char) :
    lastLine (a ++ [c]) = if c = '\n' then [] else lastLine a ++ [c] := by
  unfold lastLine
  simp only [List.reverse_append, List.reverse_cons, List.reverse_nil, List.nil_append,
    List.cons_append, List.takeWhile_cons]
  by_cases h : c = '\n' <;> simp [h]

theorem newlineTable_snoc (a : List Char) (c : Char) (off : Nat) :
    newlineTable (a ++ [c]) off =
      newlineTable a off ++ if c = '\n' then [off + utf8Len a + 1] else [] := by
  rw [newlineTable_append]
  congr 1

theorem rev_ind {α : Type} {P : List α → Prop} (h0 : P []) (h1 : ∀ l a, P l → P (l ++ [a])) :
    ∀ l, P l := by
  intro l
  have : ∀ r : List α, P r.reverse := by
    intro r
    induction r with
    | nil => exact h0
    | cons a r ih => rw [List.reverse_cons]; exact h1 _ _ ih
  have h := this l.reverse
  rwa [List.reverse_reverse] at h

/-- Start of the last line of `a`. -/
theorem lastLine_start (a : List Char) (off : Nat) :
    ((newlineTable a off).getLast?.getD off) + utf8Len (lastLine a) = off + utf8Len a := by
  induction a using rev_ind with
  | h0 => simp [newlineTable, lastLine, utf8Len]
  | h1 l c ih =>
    rw [newlineTable_snoc, lastLine_snoc, utf8Len_append]
    by_cases h : c = '\n'
    · subst h
      simp [utf8Len, utf8Size_nl]
      omega
    · simp only [h, if_false, List.append_nil, utf8Len_append]
      omega

theorem lastLine_cons (c : Char) (cs : List Char) :
    lastLine (c :: cs) = if '\n' ∈ cs ∨ c = '\n' then lastLine cs else c :: cs := by
  induction cs using rev_ind with
  | h0 =>
    simp only [lastLine]
    by_cases h : c = '\n' <;> simp [h]
  | h1 l d ih =>
    rw [← List.cons_append, lastLine_snoc, lastLine_snoc, ih]
    by_cases hd : d = '\n'
    · simp [hd]
    · by_cases hl : '\n' ∈ l ∨ c = '\n'
      · rcases hl with hl | hl
        · simp [hd, hl]
        · simp [hd, hl]
      · rw [not_or] at hl
        have hd' : ¬ '\n' = d := fun h => hd h.symm
        simp [hd, hd', hl.1, hl.2]

theorem startOffset_eq (a b : List Char) :
    (LineIndex.new (a ++ b)).startOffset (a.count '\n')
      = some (utf8Len a - utf8Len (lastLine a)) := by
  have h := lastLine_start a 0
  simp only [LineIndex.new]
  cases hk : a.count '\n' with
  | zero =>
    have hl := newlineTable_length a 0
    rw [hk, List.length_eq_zero_iff] at hl
    rw [hl] at h
    simp at h
    simp only [LineIndex.startOffset]
    congr 1; omega
  | succ k =>
    have hl := newlineTable_length a 0
    rw [hk] at hl
    simp only [LineIndex.startOffset]
    rw [newlineTable_append, List.getElem?_append_left (by omega)]
    rw [List.getLast?_eq_getElem?, hl] at h
    simp only [Nat.add_sub_cancel] at h
    rw [List.getElem?_eq_getElem (by omega)] at h ⊢
    simp only [Option.getD_some] at h
    congr 1
    omega

theorem takeWhile_all {α : Type} (p : α → Bool) (l r : List α) (h1 : ∀ x ∈ l, p x = true)
    (h2 : ∀ x ∈ r, p x = false) : (l ++ r).takeWhile p = l := by
  induction l with
  | nil =>
    cases r with
    | nil => rfl
    | cons x xs => simp [h2 x (by simp)]
  | cons x xs ih =>
    simp [h1 x (by simp), ih (fun y hy => h1 y (by simp [hy]))]

theorem tryLineCol_eq (a b : List Char) :
    (LineIndex.new (a ++ b)).tryLineCol (utf8Len a)
      = some (a.count '\n', utf8Len (lastLine a)) := by
  have hs := startOffset_eq a b
  unfold LineIndex.tryLineCol
  have hlen : ¬ utf8Len a > (LineIndex.new (a ++ b)).len := by
    simp [LineIndex.new, utf8Len_append]
  rw [if_neg hlen]
  have htw : ((LineIndex.new (a ++ b)).newlines.takeWhile fun it => decide (it ≤ utf8Len a))
      = newlineTable a 0 := by
    simp only [LineIndex.new]
    rw [newlineTable_append]
    apply takeWhile_all
    · intro x hx
      have := newlineTable_bounds a 0 x hx
      simpa using this.2
    · intro x hx
      have := newlineTable_bounds b _ x hx
      simp; omega
  simp only [htw, newlineTable_length, hs, Option.map_some]
  have h := lastLine_start a 0
  congr 2
  omega

theorem wideTable_later (l : Nat) (cs : List Char) (line col : Nat) (h : l < line) :
    wideTable l cs line col = [] := by
  induction cs generalizing line col with
  | nil => rfl
  | cons c cs ih =>
    simp only [wideTable]
    split
    · exact ih _ _ (by omega)
    · rw [if_neg (by omega)]
      exact ih _ _ h

theorem wideTable_here (cs : List Char) (line col : Nat) :
    wideTable line cs line col = wideOf (cs.takeWhile (· ≠ '\n')) col := by
  induction cs generalizing col with
  | nil => rfl
  | cons c cs ih =>
    simp only [wideTable]
    by_cases h : c = '\n'
    · simp [h, wideOf, wideTable_later]
    · simp only [h, if_false, true_and, List.takeWhile_cons, ne_eq, not_false_eq_true, decide_true,
        if_true, wideOf]
      split <;> simp [ih]

theorem wideTable_eq (a b : List Char) (line col : Nat) :
    wideTable (line + a.count '\n') (a ++ b) line col
      = wideOf (lastLine a ++ b.takeWhile (· ≠ '\n')) (if '\n' ∈ a then 0 else col) := by
  induction a generalizing line col with
  | nil => simp [wideTable_here, lastLine]
  | cons c cs ih =>
    simp only [List.cons_append, wideTable]
    by_cases h : c = '\n'
    · subst h
      have := ih (line + 1) 0
      rw [List.count_cons_self, show line + (List.count '\n' cs + 1) = line + 1 + List.count '\n' cs by omega]
      simp only [if_true, this, lastLine_cons]
      simp
    · have hc : List.count '\n' (c :: cs) = cs.count '\n' := List.count_cons_of_ne (by simpa using h)
      have h' : ¬ '\n' = c := fun e => h e.symm
      rw [hc]
      simp only [h, if_false]
      by_cases hm : '\n' ∈ cs
      · have hpos : 0 < cs.count '\n' := List.count_pos_iff.mpr hm
        rw [if_neg (by omega), ih, lastLine_cons]
        simp [hm]
      · have h0 : cs.count '\n' = 0 := List.count_eq_zero.mpr hm
        have ih' := ih line (col + c.utf8Size)
        rw [h0] at ih' ⊢
        have hl : lastLine cs = cs := by
          unfold lastLine
          have : (cs.reverse.takeWhile (· ≠ '\n')) = cs.reverse := by
            have := takeWhile_all (fun x => decide (x ≠ '\n')) cs.reverse []
              (by
                intro x hx
                simp only [List.mem_reverse] at hx
                simp
                intro e; subst e; exact hm hx) (by simp)
            simpa using this
          rw [this, List.reverse_reverse]
        rw [hl] at ih'
        simp only [hm, if_false] at ih'
        rw [lastLine_cons]
        have hnm : '\n' ∉ c :: cs := by simp [hm, h']
        simp only [hnm, hm, h, or_self, if_false, List.cons_append, wideOf]
        simp only [Nat.add_zero, true_and] at ih' ⊢
        split <;> simp [ih']

/-- Code units of a character given its UTF-8 length. -/
theorem wideLen_eq (enc : WideEncoding) (e : Encoding) (he : e.wide? = some enc) (c : Char)
    (col : Nat) : (WideChar.mk col (col + c.utf8Size)).wideLen enc = units e c := by
  cases e with
  | utf8 => simp [Encoding.wide?] at he
  | utf32 =>
    simp only [Encoding.wide?, Option.some.injEq] at he
    subst he; rfl
  | utf16 =>
    simp only [Encoding.wide?, Option.some.injEq] at he
    subst he
    simp only [WideChar.wideLen, WideChar.len, units, Char.utf8Size]
    simp only [UInt32.lt_iff_toNat_lt, UInt32.le_iff_toNat_le, UInt32.toNat_ofNat, UInt32.toNat_ofNatLT]
    repeat' split
    all_goals omega

theorem units_le (e : Encoding) (c : Char) : units e c ≤ c.utf8Size := by
  cases e with
  | utf8 => simp [units]
  | utf32 => simp [units]; have := Char.utf8Size_pos c; omega
  | utf16 =>
    simp only [units, Char.utf8Size, UInt32.lt_iff_toNat_lt, UInt32.le_iff_toNat_le, UInt32.toNat_ofNat, UInt32.toNat_ofNatLT]
    repeat' split
    all_goals omega

theorem units_pos (e : Encoding) (c : Char) : 0 < units e c := by
  cases e with
  | utf8 => exact Char.utf8Size_pos c
  | utf32 => simp [units]
  | utf16 => simp [units]; split <;> omega

theorem units_ascii (e : Encoding) (c : Char) (h : ¬ 1 < c.utf8Size) : units e c = c.utf8Size := by
  have h1 := units_le e c
  have h2 := units_pos e c
  have h3 := Char.utf8Size_pos c
  omega

theorem unitsOf_le (e : Encoding) (cs : List Char) : unitsOf e cs ≤ utf8Len cs := by
  induction cs with
  | nil => simp [unitsOf, utf8Len]
  | cons c cs ih =>
    have := units_le e c
    simp only [unitsOf, List.map_cons, List.sum_cons, utf8Len] at ih ⊢
    omega

theorem unitsOf_cons (e : Encoding) (c : Char) (cs : List Char) :
    unitsOf e (c :: cs) = units e c + unitsOf e cs := by
  simp [unitsOf]

theorem unitsOf_utf8 (cs : List Char) : unitsOf .utf8 cs = utf8Len cs := by
  induction cs with
  | nil => rfl
  | cons c cs ih => rw [unitsOf_cons, ih]; rfl

theorem toWideLoop_past (enc : WideEncoding) (cs : List Char) (limit col c0 : Nat)
    (h : limit ≤ c0) : toWideLoop enc limit (wideOf cs c0) col = some col := by
  induction cs generalizing c0 with
  | nil => rfl
  | cons c cs ih =>
    simp only [wideOf]
    have := Char.utf8Size_pos c
    split
    · simp only [toWideLoop]
      rw [if_neg (by omega)]
    · exact ih _ (by omega)

theorem toWideLoop_eq (enc : WideEncoding) (e : Encoding) (he : e.wide? = some enc)
    (tail rest : List Char) (c0 k : Nat) :
    toWideLoop enc (c0 + utf8Len tail) (wideOf (tail ++ rest) c0) (k + utf8Len tail)
      = some (k + unitsOf e tail) := by
  induction tail generalizing c0 k with
  | nil => simp [utf8Len, unitsOf, toWideLoop_past]
  | cons c cs ih =>
    simp only [List.cons_append, wideOf, utf8Len, unitsOf_cons]
    have hle := units_le e c
    split
    · simp only [toWideLoop]
      rw [if_pos (by omega), wideLen_eq enc e he]
      simp only [WideChar.len, Nat.add_sub_cancel_left]
      rw [if_pos (by omega)]
      have := ih (c0 + c.utf8Size) (k + units e c)
      rw [show c0 + c.utf8Size + utf8Len cs = c0 + (c.utf8Size + utf8Len cs) by omega] at this
      rw [show k + (c.utf8Size + utf8Len cs) - (c.utf8Size - units e c)
        = k + units e c + utf8Len cs by omega, this]
      congr 1; omega
    · rename_i h
      have hu := units_ascii e c h
      have := ih (c0 + c.utf8Size) (k + units e c)
      rw [show c0 + c.utf8Size + utf8Len cs = c0 + (c.utf8Size + utf8Len cs) by omega] at this
      rw [show k + (c.utf8Size + utf8Len cs) = k + units e c + utf8Len cs by omega, this]
      congr 1; omega

theorem toUtf8Loop_past (enc : WideEncoding) (cs : List Char) (col c0 : Nat) (h : col ≤ c0) :
    toUtf8Loop enc (wideOf cs c0) col = some col := by
  induction cs generalizing c0 with
  | nil => rfl
  | cons c cs ih =>
    simp only [wideOf]
    split
    · simp only [toUtf8Loop]
      rw [if_neg (by omega)]
    · exact ih _ (by omega)

theorem toUtf8Loop_eq (enc : WideEncoding) (e : Encoding) (he : e.wide? = some enc)
    (tail rest : List Char) (c0 : Nat) (hb : c0 + utf8Len tail < 2 ^ 32) :
    toUtf8Loop enc (wideOf (tail ++ rest) c0) (c0 + unitsOf e tail)
      = some (c0 + utf8Len tail) := by
  induction tail generalizing c0 with
  | nil => simp [utf8Len, unitsOf, toUtf8Loop_past]
  | cons c cs ih =>
    simp only [List.cons_append, wideOf, utf8Len, unitsOf_cons] at hb ⊢
    have hle := units_le e c
    have hpos := units_pos e c
    have hcs := unitsOf_le e cs
    split
    · simp only [toUtf8Loop]
      rw [if_pos (by omega), wideLen_eq enc e he]
      simp only [WideChar.len, Nat.add_sub_cancel_left]
      rw [if_pos (by omega)]
      have := ih (c0 + c.utf8Size) (by omega)
      rw [show c0 + (units e c + unitsOf e cs) + (c.utf8Size - units e c)
        = c0 + c.utf8Size + unitsOf e cs by omega, this]
      congr 1; omega
    · rename_i h
      have hu := units_ascii e c h
      have := ih (c0 + c.utf8Size) (by omega)
      rw [show c0 + (units e c + unitsOf e cs) = c0 + c.utf8Size + unitsOf e cs by omega, this]
      congr 1; omega

theorem lastLine_le (a : List Char) : utf8Len (lastLine a) ≤ utf8Len a := by
  have := lastLine_start a 0
  omega

theorem toPosition_eq (e : Encoding) (a b : List Char) :
    toPosition e (LineIndex.new (a ++ b)) (utf8Len a) = some (posOf e a) := by
  unfold toPosition
  rw [tryLineCol_eq]
  simp only [Option.bind_some]
  cases hw : e.wide? with
  | none =>
    have : e = .utf8 := by cases e <;> simp [Encoding.wide?] at hw ⊢
    subst this
    simp [posOf, unitsOf_utf8]
  | some w =>
    have hwt : (LineIndex.new (a ++ b)).wide (a.count '\n')
        = wideOf (lastLine a ++ b.takeWhile (· ≠ '\n')) 0 := by
      have := wideTable_eq a b 0 0
      simp only [Nat.zero_add, ite_self] at this
      simpa [LineIndex.new] using this
    have := toWideLoop_eq w e hw (lastLine a) (b.takeWhile (· ≠ '\n')) 0 0
    simp only [Nat.zero_add] at this
    simp only [hwt, this, Option.map_some]
    rfl

theorem fromPosition_eq (bd : Build) (e : Encoding) (a b : List Char)
    (hb : utf8Len (a ++ b) < 2 ^ 32) :
    fromPosition bd e (LineIndex.new (a ++ b)) (posOf e a) = .value (some (utf8Len a)) := by
  have hla := lastLine_le a
  rw [utf8Len_append] at hb
  have hstart := startOffset_eq a b
  unfold fromPosition
  have hcol : clientColumn e (LineIndex.new (a ++ b)) (posOf e a)
      = some (utf8Len (lastLine a)) := by
    unfold clientColumn
    cases hw : e.wide? with
    | none =>
      have : e = .utf8 := by cases e <;> simp [Encoding.wide?] at hw ⊢
      subst this
      simp [posOf, unitsOf_utf8]
    | some w =>
      have hwt : (LineIndex.new (a ++ b)).wide (a.count '\n')
          = wideOf (lastLine a ++ b.takeWhile (· ≠ '\n')) 0 := by
        have := wideTable_eq a b 0 0
        simp only [Nat.zero_add, ite_self] at this
        simpa [LineIndex.new] using this
      have := toUtf8Loop_eq w e hw (lastLine a) (b.takeWhile (· ≠ '\n')) 0 (by omega)
      simp only [Nat.zero_add] at this
      simp only [posOf, hwt, this]
  simp only [hcol]
  have hl : (posOf e a).line = a.count '\n' := rfl
  rw [hl, hstart]
  simp only [addSize]
  rw [if_pos (by omega), show utf8Len a - utf8Len (lastLine a) + utf8Len (lastLine a) = utf8Len a by omega]

end Verif.Lsp
