import Verif.Lsp.Package

/-!
# Properties of package naming (C13, C17)
-/

namespace Verif.Lsp

namespace Spec

/-- What the Rust standard library guarantees about its character data, for all of Unicode, as far
as the shape of package names is concerned. -/
structure UnicodeLaws (d : CharData) : Prop where
  alphabetic : ∀ c, d.isAlphabetic c = true → d.isAlphanumeric c = true
  uppercase : ∀ c, d.isUppercase c = true → d.isAlphanumeric c = true
  hyphen : d.isAlphanumeric '-' = false
  lowerHyphen : ∀ pre post, d.lower pre '-' post = ['-']
  lowerNonempty : ∀ pre c post, d.lower pre c post ≠ []
  lowerNoHyphen : ∀ pre c post, d.isAlphanumeric c = true → '-' ∉ d.lower pre c post

/-- The character data restricted to ASCII. -/
structure AsciiLaws (d : CharData) : Prop where
  alphabetic : ∀ c, c.toNat < 128 → d.isAlphabetic c = c.isAlpha
  alphanumeric : ∀ c, c.toNat < 128 → d.isAlphanumeric c = c.isAlphanum
  uppercase : ∀ c, c.toNat < 128 → d.isUppercase c = c.isUpper
  lower : ∀ pre c post, c.toNat < 128 → d.lower pre c post = [c.toLower]

/-- Hyphens occur only between other characters, one at a time. -/
def HyphenSeparated (cs : List Char) : Prop :=
  cs ≠ [] ∧ cs.head? ≠ some '-' ∧ cs.getLast? ≠ some '-' ∧
    ∀ a b, cs ≠ a ++ ['-', '-'] ++ b

/-- A package name as the command promises it. -/
def ValidPackage (cs : List Char) : Prop :=
  HyphenSeparated cs ∧ (∃ c, cs.head? = some c ∧ c.isLower = true) ∧
    ∀ c ∈ cs, c.isLower = true ∨ c.isDigit = true ∨ c = '-'

end Spec

open Spec CharData

/-! ### Helper lemmas -/

/-- No two hyphens in a row, and none at the start when `hy`. -/
def NoDouble : Bool → List Char → Prop
  | _, [] => True
  | hy, c :: cs => (c = '-' → hy = false) ∧ NoDouble (c == '-') cs

theorem noDouble_split (cs : List Char) (hy : Bool) (h : NoDouble hy cs) (a b : List Char) :
    cs ≠ a ++ ['-', '-'] ++ b := by
  induction a generalizing cs hy with
  | nil =>
    intro e; subst e
    simp [NoDouble] at h
  | cons x xs ih =>
    intro e; subst e
    simp only [List.cons_append, NoDouble] at h
    exact ih _ _ h.2 rfl

theorem noDouble_weaken (cs : List Char) (h : NoDouble true cs) (b : Bool) : NoDouble b cs := by
  cases cs with
  | nil => trivial
  | cons c cs =>
    refine ⟨fun e => ?_, h.2⟩
    have := h.1 e
    simp at this

theorem noDouble_of_no_hyphen (l rest : List Char) (hy : Bool) (hl : '-' ∉ l) (hne : l ≠ [])
    (h : NoDouble false rest) : NoDouble hy (l ++ rest) := by
  induction l generalizing hy with
  | nil => exact absurd rfl hne
  | cons c cs ih =>
    have hc : c ≠ '-' := fun e => hl (by simp [e])
    refine ⟨fun e => absurd e hc, ?_⟩
    have hb : (c == '-') = false := by simpa using hc
    rw [hb]
    by_cases hcs : cs = []
    · subst hcs; exact h
    · exact ih _ (fun h' => hl (by simp [h'])) hcs

/-- The loop's output consists of alphanumerics and single hyphens. -/
theorem loop_noDouble (d : CharData) (u : UnicodeLaws d) (cs : List Char) (first up hy : Bool) :
    NoDouble hy (d.packageLoop cs first up hy) ∧
      ∀ c ∈ d.packageLoop cs first up hy, d.isAlphanumeric c = true ∨ c = '-' := by
  induction cs generalizing first up hy with
  | nil => simp [packageLoop, NoDouble]
  | cons c cs ih =>
    simp only [packageLoop]
    have hne : d.isAlphanumeric c = true → c ≠ '-' := by
      intro h e; subst e; rw [u.hyphen] at h; simp at h
    by_cases ha : d.isAlphanumeric c = true
    · have hc := hne ha
      have hcb : (c == '-') = false := by simpa using hc
      rw [if_pos ha]
      obtain ⟨i1, i2⟩ := ih false (d.isUppercase c) false
      by_cases hs : (!first && d.isUppercase c && !up && !hy) = true
      · rw [if_pos hs]
        simp only [Bool.and_eq_true, Bool.not_eq_true'] at hs
        constructor
        · simp [NoDouble, hs.2, hc, hcb, i1]
        · intro x hx
          simp only [List.cons_append, List.nil_append, List.mem_cons] at hx
          rcases hx with rfl | rfl | hx
          · exact Or.inr rfl
          · exact Or.inl ha
          · exact i2 x hx
      · rw [if_neg hs]
        constructor
        · simp [NoDouble, hc, hcb, i1]
        · intro x hx
          simp only [List.nil_append, List.mem_cons] at hx
          rcases hx with rfl | hx
          · exact Or.inl ha
          · exact i2 x hx
    · have hup : d.isUppercase c = false := by
        cases hu : d.isUppercase c with
        | false => rfl
        | true => exact absurd (u.uppercase c hu) ha
      rw [if_neg ha]
      obtain ⟨i1, i2⟩ := ih false (d.isUppercase c) true
      simp only [hup, Bool.and_false, Bool.false_and, Bool.false_eq_true, if_false,
        List.nil_append] at *
      cases hy with
      | false =>
        simp only [Bool.not_false, if_true]
        constructor
        · simp [NoDouble, i1]
        · intro x hx
          simp only [List.mem_cons] at hx
          rcases hx with rfl | hx
          · exact Or.inr rfl
          · exact i2 x hx
      | true =>
        simp only [Bool.not_true, Bool.false_eq_true, if_false]
        exact ⟨i1, i2⟩

theorem lowercase_noDouble (d : CharData) (u : UnicodeLaws d) (cs pre : List Char) (hy : Bool)
    (h : NoDouble hy cs) (ha : ∀ c ∈ cs, d.isAlphanumeric c = true ∨ c = '-') :
    NoDouble hy (d.lowercase pre cs) := by
  induction cs generalizing pre hy with
  | nil => simp [lowercase, NoDouble]
  | cons c cs ih =>
    simp only [lowercase]
    have hrest := ih (pre ++ [c]) _ h.2 (fun x hx => ha x (by simp [hx]))
    by_cases hc : c = '-'
    · subst hc
      rw [u.lowerHyphen]
      exact ⟨fun _ => h.1 rfl, hrest⟩
    · have hcb : (c == '-') = false := by simpa using hc
      rw [hcb] at hrest
      have hal := (ha c (by simp)).resolve_right hc
      exact noDouble_of_no_hyphen _ _ _ (u.lowerNoHyphen pre c cs hal) (u.lowerNonempty pre c cs) hrest

theorem trim_prefix (cs : List Char) : ∃ t, cs = trimEndHyphens cs ++ t ∧ ∀ c ∈ t, c = '-' := by
  unfold trimEndHyphens
  refine ⟨(cs.reverse.takeWhile (· == '-')).reverse, ?_, ?_⟩
  · rw [← List.reverse_append, List.takeWhile_append_dropWhile, List.reverse_reverse]
  · intro c hc
    rw [List.mem_reverse] at hc
    have := List.all_takeWhile (p := (· == '-')) (l := cs.reverse)
    rw [List.all_eq_true] at this
    simpa using this c hc

theorem trim_last (cs : List Char) : (trimEndHyphens cs).getLast? ≠ some '-' := by
  unfold trimEndHyphens
  rw [List.getLast?_reverse]
  intro h
  have := List.head?_dropWhile_not (· == '-') cs.reverse
  rw [h] at this
  simp at this

theorem noDouble_prefix (a b : List Char) (hy : Bool) (h : NoDouble hy (a ++ b)) : NoDouble hy a := by
  induction a generalizing hy with
  | nil => trivial
  | cons c cs ih => exact ⟨h.1, ih _ h.2⟩

/-- The first character of the output comes from the first character of the name. -/
theorem loop_head (d : CharData) (c : Char) (cs : List Char) (up hy : Bool)
    (ha : d.isAlphanumeric c = true) :
    d.packageLoop (c :: cs) true up hy = c :: d.packageLoop cs false (d.isUppercase c) false := by
  simp [packageLoop, ha]

theorem packageName_some (d : CharData) (name p k : List Char) (h : d.packageName name = some (p, k)) :
    ∃ c cs, name = c :: cs ∧ d.isAlphabetic c = true ∧
      p = trimEndHyphens (d.lowercase [] (d.packageLoop name true false false)) ∧
      k = p.map fun c => if c = '-' then '_' else c := by
  unfold packageName at h
  split at h
  · simp at h
  · split at h
    · simp at h
    · rename_i h2
      cases name with
      | nil => simp at h2
      | cons c cs =>
        simp at h2
        simp only [Option.some.injEq, Prod.mk.injEq] at h
        refine ⟨c, cs, rfl, h2, h.1.symm, ?_⟩
        rw [← h.2, ← h.1]

/-! ## C13 -/

/-- For every name, in all of Unicode: the hyphens of the package name are single and inside, and
the crate name has underscores in their place. Missing for the full claim: the alphabet of the name
and idempotence, which hold for ASCII names only (`C13_valid_ascii_partial`, `C13_negation`). -/
theorem C13_hyphens_partial (d : CharData) (u : UnicodeLaws d) (name p k : List Char)
    (h : d.packageName name = some (p, k)) :
    HyphenSeparated p ∧ k.length = p.length ∧ '-' ∉ k ∧
      ∀ (i : Nat) (c : Char), p[i]? = some c → k[i]? = some (if c = '-' then '_' else c) := by
  obtain ⟨c, cs, rfl, hal, hp, hk⟩ := packageName_some d name p k h
  have han := u.alphabetic c hal
  have hloop := loop_noDouble d u (c :: cs) true false false
  have hlow := lowercase_noDouble d u _ [] _ hloop.1 hloop.2
  obtain ⟨t, ht, htall⟩ := trim_prefix (d.lowercase [] (d.packageLoop (c :: cs) true false false))
  rw [← hp] at ht
  have hnd : NoDouble false p := by rw [ht] at hlow; exact noDouble_prefix _ _ _ hlow
  -- the head of the lowered text is not a hyphen
  have hhead : ∃ x xs, d.lowercase [] (d.packageLoop (c :: cs) true false false) = x :: xs ∧
      x ≠ '-' := by
    rw [loop_head d c cs _ _ han]
    simp only [lowercase]
    cases hl : d.lower [] c (d.packageLoop cs false (d.isUppercase c) false) with
    | nil => exact absurd hl (u.lowerNonempty _ _ _)
    | cons x xs =>
      refine ⟨x, _, rfl, ?_⟩
      intro e
      subst e
      exact u.lowerNoHyphen [] c _ han (by rw [hl]; simp)
  obtain ⟨x, xs, hx, hxne⟩ := hhead
  have hpx : ∃ ys, p = x :: ys := by
    cases p with
    | nil =>
      simp only [List.nil_append] at ht
      exact absurd (htall x (by rw [← ht, hx]; simp)) hxne
    | cons y ys =>
      rw [hx] at ht
      simp only [List.cons_append, List.cons.injEq] at ht
      exact ⟨ys, by rw [ht.1]⟩
  obtain ⟨ys, hys⟩ := hpx
  refine ⟨⟨by simp [hys], ?_, by rw [hp]; exact trim_last _, noDouble_split _ _ hnd⟩, ?_, ?_, ?_⟩
  · simpa [hys] using hxne
  · simp [hk]
  · rw [hk]
    simp only [List.mem_map, not_exists, not_and]
    intro y _ e
    split at e
    · simp at e
    · rename_i hne; exact hne e
  · intro i y hy
    rw [hk, List.getElem?_map, hy]
    rfl

theorem toLower_ascii (c : Char) (hc : c.toNat < 128) (ha : c.isAlphanum = true) :
    (c.toLower.isLower = true ∨ c.toLower.isDigit = true) ∧
      (c.isAlpha = true → c.toLower.isLower = true) := by
  have : ∀ n : Fin 128, (Char.ofNat n).isAlphanum = true →
      ((Char.ofNat n).toLower.isLower = true ∨ (Char.ofNat n).toLower.isDigit = true) ∧
      ((Char.ofNat n).isAlpha = true → (Char.ofNat n).toLower.isLower = true) := by decide +kernel
  have h := this ⟨c.toNat, hc⟩
  simp only [Char.ofNat_toNat] at h
  exact h ha

theorem lowerDigit_facts (c : Char) (h : c.isLower = true ∨ c.isDigit = true) :
    c.toNat < 128 ∧ c.isAlphanum = true ∧ c.isUpper = false ∧ c.toLower = c ∧ c ≠ '-' := by
  have hlt : c.toNat < 128 := by
    rcases h with h | h
    · simp only [Char.isLower, Bool.and_eq_true, decide_eq_true_eq] at h
      have := UInt32.le_iff_toNat_le.mp h.2
      simp at this
      omega
    · simp only [Char.isDigit, Bool.and_eq_true, decide_eq_true_eq] at h
      have := UInt32.le_iff_toNat_le.mp h.2
      simp at this
      omega
  have : ∀ n : Fin 128, ((Char.ofNat n).isLower = true ∨ (Char.ofNat n).isDigit = true) →
      (Char.ofNat n).isAlphanum = true ∧ (Char.ofNat n).isUpper = false ∧
      (Char.ofNat n).toLower = Char.ofNat n ∧ Char.ofNat n ≠ '-' := by decide +kernel
  have h' := this ⟨c.toNat, hlt⟩
  simp only [Char.ofNat_toNat] at h'
  exact ⟨hlt, h' h⟩

/-- The loop's output only has characters of the name and hyphens. -/
theorem loop_mem (d : CharData) (cs : List Char) (first up hy : Bool) :
    ∀ c ∈ d.packageLoop cs first up hy, (c ∈ cs ∧ d.isAlphanumeric c = true) ∨ c = '-' := by
  induction cs generalizing first up hy with
  | nil => simp [packageLoop]
  | cons c cs ih =>
    intro x hx
    have hsep : ∀ b : Bool, x ∈ (if b = true then ['-'] else []) → x = '-' := by
      intro b; cases b <;> simp
    simp only [packageLoop] at hx
    split at hx
    · rename_i ha
      simp only [List.mem_append, List.mem_cons] at hx
      rcases hx with hx | rfl | hx
      · exact Or.inr (hsep _ hx)
      · exact Or.inl ⟨by simp, ha⟩
      · rcases ih _ _ _ x hx with h | h
        · exact Or.inl ⟨by simp [h.1], h.2⟩
        · exact Or.inr h
    · split at hx
      · simp only [List.mem_append, List.mem_cons] at hx
        rcases hx with hx | rfl | hx
        · exact Or.inr (hsep _ hx)
        · exact Or.inr rfl
        · rcases ih _ _ _ x hx with h | h
          · exact Or.inl ⟨by simp [h.1], h.2⟩
          · exact Or.inr h
      · simp only [List.mem_append] at hx
        rcases hx with hx | hx
        · exact Or.inr (hsep _ hx)
        · rcases ih _ _ _ x hx with h | h
          · exact Or.inl ⟨by simp [h.1], h.2⟩
          · exact Or.inr h

theorem lowercase_ascii (d : CharData) (a : AsciiLaws d) (cs pre : List Char)
    (h : ∀ c ∈ cs, c.toNat < 128) : d.lowercase pre cs = cs.map Char.toLower := by
  induction cs generalizing pre with
  | nil => rfl
  | cons c cs ih =>
    simp only [lowercase, List.map_cons]
    rw [a.lower _ _ _ (h c (by simp)), ih _ (fun x hx => h x (by simp [hx]))]
    rfl

theorem loop_id (d : CharData) (a : AsciiLaws d) (cs : List Char) (first up hy : Bool)
    (hnd : NoDouble hy cs) (hc : ∀ c ∈ cs, c.isLower = true ∨ c.isDigit = true ∨ c = '-') :
    d.packageLoop cs first up hy = cs := by
  induction cs generalizing first up hy with
  | nil => rfl
  | cons c cs ih =>
    have hrest := fun x hx => hc x (List.mem_cons_of_mem c hx)
    simp only [packageLoop]
    by_cases hh : c = '-'
    · subst hh
      have e1 : d.isUppercase '-' = false := by rw [a.uppercase _ (by decide)]; decide
      have e2 : d.isAlphanumeric '-' = false := by rw [a.alphanumeric _ (by decide)]; decide
      have hy' := hnd.1 rfl
      subst hy'
      simp only [e1, e2, Bool.and_false, Bool.false_and, Bool.false_eq_true, if_false,
        Bool.not_false, if_true, List.nil_append]
      have h2 : NoDouble true cs := hnd.2
      rw [ih _ _ _ h2 hrest]
    · have hcl : c.isLower = true ∨ c.isDigit = true := by
        rcases hc c (by simp) with h | h | h
        · exact Or.inl h
        · exact Or.inr h
        · exact absurd h hh
      obtain ⟨f1, f2, f3, f4, _⟩ := lowerDigit_facts c hcl
      have e1 : d.isUppercase c = false := by rw [a.uppercase _ f1, f3]
      have e2 : d.isAlphanumeric c = true := by rw [a.alphanumeric _ f1, f2]
      have hcb : (c == '-') = false := by simpa using hh
      have h2 := hnd.2
      rw [hcb] at h2
      simp only [e1, e2, Bool.and_false, Bool.false_and, Bool.false_eq_true, if_false, if_true,
        List.nil_append]
      rw [ih _ _ _ h2 hrest]

theorem trim_id (cs : List Char) (h : cs.getLast? ≠ some '-') : trimEndHyphens cs = cs := by
  unfold trimEndHyphens
  have : cs.reverse.dropWhile (· == '-') = cs.reverse := by
    cases hr : cs.reverse with
    | nil => rfl
    | cons x xs =>
      have hx : x ≠ '-' := by
        intro e
        apply h
        rw [← List.head?_reverse, hr, e]
        rfl
      have : (x == '-') = false := by simpa using hx
      simp [this]
  rw [this, List.reverse_reverse]

/-- The laws hold of the actual Unicode data and imply, for an ASCII name, that a package name is a
valid package name starting with a letter. Missing for the full claim: names with non-ASCII
characters, for which it is false (`C13_negation`). -/
theorem C13_valid_ascii_partial (d : CharData) (u : UnicodeLaws d) (a : AsciiLaws d)
    (name p k : List Char) (hascii : ∀ c ∈ name, c.toNat < 128)
    (h : d.packageName name = some (p, k)) : ValidPackage p := by
  refine ⟨(C13_hyphens_partial d u name p k h).1, ?_⟩
  have hsep := (C13_hyphens_partial d u name p k h).1
  obtain ⟨c, cs, rfl, hal, hp, hk⟩ := packageName_some d name p k h
  have hmem : ∀ x ∈ d.packageLoop (c :: cs) true false false, x.toNat < 128 := by
    intro x hx
    rcases loop_mem d _ _ _ _ x hx with h | h
    · exact hascii x h.1
    · subst h; decide
  rw [lowercase_ascii d a _ _ hmem] at hp
  obtain ⟨t, ht, htall⟩ := trim_prefix ((d.packageLoop (c :: cs) true false false).map Char.toLower)
  rw [← hp] at ht
  have hcasc := hascii c (by simp)
  have han := u.alphabetic c hal
  rw [loop_head d c cs _ _ han] at ht hmem
  simp only [List.map_cons] at ht
  constructor
  · cases p with
    | nil => exact absurd rfl hsep.1
    | cons y ys =>
      simp only [List.cons_append, List.cons.injEq] at ht
      refine ⟨y, rfl, ?_⟩
      rw [← ht.1]
      rw [a.alphabetic c hcasc] at hal
      rw [a.alphanumeric c hcasc] at han
      exact (toLower_ascii c hcasc han).2 hal
  · intro x hx
    have hx' : x ∈ p ++ t := by simp [hx]
    rw [← ht, ← List.map_cons, List.mem_map] at hx'
    obtain ⟨y, hy, rfl⟩ := hx'
    rw [← loop_head d c cs false false han] at hy hmem
    rcases loop_mem d _ _ _ _ y hy with h | h
    · have hya := hmem y hy
      have := h.2
      rw [a.alphanumeric y hya] at this
      rcases (toLower_ascii y hya this).1 with h | h
      · exact Or.inl h
      · exact Or.inr (Or.inl h)
    · subst h
      exact Or.inr (Or.inr (by decide))

/-- For an ASCII name the derivation is idempotent. Missing for the full claim: as above. -/
theorem C13_idempotent_ascii_partial (d : CharData) (u : UnicodeLaws d) (a : AsciiLaws d)
    (name p k : List Char) (hascii : ∀ c ∈ name, c.toNat < 128)
    (h : d.packageName name = some (p, k)) : d.packageName p = some (p, k) := by
  obtain ⟨⟨hne, hh, hl, hd⟩, ⟨c, hc, hcl⟩, hall⟩ := C13_valid_ascii_partial d u a name p k hascii h
  obtain ⟨_, _, _, _, _, hk⟩ := packageName_some d name p k h
  have hnd : NoDouble false p := by
    have : ∀ (q : List Char) (hy : Bool), (∀ a b, q ≠ a ++ ['-', '-'] ++ b) →
        (hy = true → q.head? ≠ some '-') → NoDouble hy q := by
      intro q
      induction q with
      | nil => intros; trivial
      | cons x xs ih =>
        intro hy hdbl hhd
        refine ⟨fun e => ?_, ih _ ?_ ?_⟩
        · cases hy with
          | false => rfl
          | true => exact absurd (by simp [e]) (hhd rfl)
        · intro a b e
          exact hdbl (x :: a) b (by rw [e]; rfl)
        · intro hx hx2
          simp at hx
          cases xs with
          | nil => simp at hx2
          | cons z zs =>
            simp at hx2
            exact hdbl [] zs (by rw [hx, hx2]; rfl)
    exact this p false hd (by simp)
  have hpasc : ∀ x ∈ p, x.toNat < 128 := by
    intro x hx
    rcases hall x hx with h | h | h
    · exact (lowerDigit_facts x (Or.inl h)).1
    · exact (lowerDigit_facts x (Or.inr h)).1
    · subst h; decide
  have hlowid : p.map Char.toLower = p := by
    conv => rhs; rw [← List.map_id p]
    apply List.map_congr_left
    intro x hx
    rcases hall x hx with h | h | h
    · exact (lowerDigit_facts x (Or.inl h)).2.2.2.1
    · exact (lowerDigit_facts x (Or.inr h)).2.2.2.1
    · subst h; decide
  cases p with
  | nil => exact absurd rfl hne
  | cons x xs =>
    simp only [List.head?_cons, Option.some.injEq] at hc
    subst hc
    obtain ⟨f1, f2, f3, f4, _⟩ := lowerDigit_facts x (Or.inl hcl)
    have e1 : d.isAlphanumeric x = true := by rw [a.alphanumeric x f1, f2]
    have e2 : d.isAlphabetic x = true := by
      rw [a.alphabetic x f1]; simp [Char.isAlpha, hcl]
    unfold packageName
    rw [if_neg (by simp [e1]), if_neg (by simp [e2])]
    simp only
    rw [loop_id d a _ _ _ _ hnd hall, lowercase_ascii d a _ _ hpasc, hlowid, trim_id _ hl, hk]

/-- Character data given by ASCII, except for capital I with a dot, which Unicode maps to `i`
followed by a combining dot. -/
def dotData : CharData where
  isAlphabetic c := c.isAlpha || c == 'İ'
  isAlphanumeric c := c.isAlphanum || c == 'İ'
  isUppercase c := c.isUpper || c == 'İ'
  lower _ c _ := if c = 'İ' then ['i', Char.ofNat 0x307] else [c.toLower]

theorem dotData_unicode : UnicodeLaws dotData := by
  constructor
  · intro c; simp only [dotData, Bool.or_eq_true]; rintro (h | h)
    · left; simp [Char.isAlphanum, h]
    · exact Or.inr h
  · intro c; simp only [dotData, Bool.or_eq_true]; rintro (h | h)
    · left; simp [Char.isAlphanum, Char.isAlpha, h]
    · exact Or.inr h
  · decide
  · intro _ _; rfl
  · intro _ c _; simp only [dotData]; split <;> simp
  · intro _ c _ hc
    simp only [dotData] at *
    split
    · decide
    · rename_i hne
      simp only [Bool.or_eq_true, beq_iff_eq] at hc
      have hc := hc.resolve_right hne
      simp only [List.mem_singleton]
      have hlt : c.toNat < 128 := by
        simp only [Char.isAlphanum, Char.isAlpha, Char.isUpper, Char.isLower, Char.isDigit,
          Bool.or_eq_true, Bool.and_eq_true, decide_eq_true_eq, UInt32.le_iff_toNat_le] at hc
        simp at hc
        simp only [Char.toNat] at *
        omega
      intro e
      rcases (toLower_ascii c hlt hc).1 with h | h
      · rw [← e] at h; revert h; decide
      · rw [← e] at h; revert h; decide

theorem dotData_ascii : AsciiLaws dotData := by
  have hne : ∀ c : Char, c.toNat < 128 → (c == 'İ') = false := by
    intro c hc
    simp only [beq_eq_false_iff_ne]
    intro e; subst e; revert hc; decide
  constructor
  · intro c hc; simp [dotData, hne c hc]
  · intro c hc; simp [dotData, hne c hc]
  · intro c hc; simp [dotData, hne c hc]
  · intro _ c _ hc; simp only [dotData]; rw [if_neg (by simpa using hne c hc)]

/-- With a name which has a character whose lowercase is not a single letter, the package name has
a character which is neither a lowercase letter, nor a digit, nor a hyphen. -/
theorem C13_negation :
    ¬ ∀ (d : CharData) (name p k : List Char), UnicodeLaws d → AsciiLaws d →
      d.packageName name = some (p, k) → ∀ c ∈ p, d.isAlphanumeric c = true ∨ c = '-' := by
  intro h
  have := h dotData ['a', 'İ'] ['a', '-', 'i', Char.ofNat 0x307] ['a', '_', 'i', Char.ofNat 0x307]
    dotData_unicode dotData_ascii (by decide) (Char.ofNat 0x307) (by decide)
  revert this
  decide

/-- ASCII character data, for the examples. -/
def asciiData : CharData where
  isAlphabetic := Char.isAlpha
  isAlphanumeric := Char.isAlphanum
  isUppercase := Char.isUpper
  lower _ c _ := [c.toLower]

example : AsciiLaws dotData ∧ UnicodeLaws dotData ∧
    dotData.packageName "MyEvent2".toList = some ("my-event2".toList, "my_event2".toList) :=
  ⟨dotData_ascii, dotData_unicode, by decide⟩

example : asciiData.packageName "My__ERCEvent_".toList
    = some ("my-ercevent".toList, "my_ercevent".toList) := by decide

/-- Names without an alphabetic first character are rejected. -/
theorem C13_rejected (d : CharData) (name : List Char)
    (h : ∀ c, name.head? = some c → d.isAlphabetic c = false) : d.packageName name = none := by
  unfold packageName
  split
  · rfl
  · rw [if_pos]
    cases name with
    | nil => simp
    | cons c cs => simpa using h c rfl

/-- Names with an alphabetic first character are accepted. -/
theorem C13_accepted (d : CharData) (u : UnicodeLaws d) (c : Char) (cs : List Char)
    (h : d.isAlphabetic c = true) : ∃ p k, d.packageName (c :: cs) = some (p, k) := by
  unfold packageName
  rw [if_neg (by simp [u.alphabetic c h]), if_neg (by simp [h])]
  exact ⟨_, _, rfl⟩

/-! ## C17 -/

/-- The names tried for the directory, in order. -/
def Spec.candidates (pkg : String) : List String :=
  pkg :: (List.range 10).map fun i => pkg ++ toString (i + 1)

theorem extractDirLoop_spec (taken : String → Bool) (pkg : String) (fuel count : Nat) (dir : String)
    (hf : fuel = 11 - count) (hc : count ≤ 10) :
    extractDirLoop taken pkg fuel count dir =
      (((dir :: (List.range' (count + 1) (10 - count)).map fun i => pkg ++ toString i).find?
        fun d => !taken d).getD (if count = 10 then dir else pkg ++ toString 10)) := by
  induction fuel generalizing count dir with
  | zero => omega
  | succ fuel ih =>
    simp only [extractDirLoop]
    by_cases ht : taken dir = true
    · by_cases hlt : count < 10
      · rw [if_pos (by simp [ht, hlt]), ih (count + 1) _ (by omega) (by omega)]
        rw [show 10 - count = (10 - (count + 1)) + 1 by omega, List.range'_succ]
        simp only [List.map_cons, List.find?_cons, ht, Bool.not_true]
        have h1 : (if count + 1 = 10 then pkg ++ toString (count + 1) else pkg ++ toString 10)
            = pkg ++ toString 10 := by
          split
          · rename_i h; rw [h]
          · rfl
        have h2 : ¬ count = 10 := by omega
        simp only [h1, h2, if_false]
      · have : count = 10 := by omega
        subst this
        simp [ht]
    · simp only [Bool.not_eq_true] at ht
      simp [ht]

theorem extractDir_spec (taken : String → Bool) (pkg : String) :
    extractDir taken pkg = (candidates pkg).find? fun d => !taken d := by
  unfold extractDir
  rw [extractDirLoop_spec taken pkg 11 0 pkg rfl (by omega)]
  have hc : (pkg :: (List.range' (0 + 1) (10 - 0)).map fun i => pkg ++ toString i)
      = candidates pkg := by
    rfl
  rw [hc]
  cases hf : (candidates pkg).find? fun d => !taken d with
  | none =>
    simp only [Option.getD_none]
    have := List.find?_eq_none.mp hf (pkg ++ toString 10) (by
      unfold candidates
      simp only [List.mem_cons, List.mem_map, List.mem_range]
      exact Or.inr ⟨9, by omega, rfl⟩)
    simp only [Bool.not_eq_true, Bool.not_eq_false'] at this
    simp only [show ¬ (0 = 10) by omega, if_false]
    rw [if_pos this]
  | some dir =>
    have := List.find?_some hf
    simp only [Bool.not_eq_true'] at this
    simp [this]

/-- The directory chosen for the event is free, and it is the first free one of the package name
and its ten numbered alternatives. -/
theorem C17_free (taken : String → Bool) (pkg dir : String) (h : extractDir taken pkg = some dir) :
    taken dir = false ∧ ∃ pre post, candidates pkg = pre ++ dir :: post ∧
      ∀ d ∈ pre, taken d = true := by
  rw [extractDir_spec] at h
  have h' := List.find?_eq_some_iff_append.mp h
  obtain ⟨h1, as, bs, h2, h3⟩ := h'
  refine ⟨by simpa using h1, as, bs, h2, ?_⟩
  intro d hd
  simpa using h3 d hd

/-- An error is reported exactly when the package name and all of its alternatives are taken. -/
theorem C17_error (taken : String → Bool) (pkg : String) :
    extractDir taken pkg = none ↔
      taken pkg = true ∧ ∀ n, 1 ≤ n → n ≤ 10 → taken (pkg ++ toString n) = true := by
  rw [extractDir_spec, List.find?_eq_none]
  unfold candidates
  constructor
  · intro h
    refine ⟨by simpa using h pkg (by simp), ?_⟩
    intro n h1 h2
    have := h (pkg ++ toString n) (by
      simp only [List.mem_cons, List.mem_map, List.mem_range]
      refine Or.inr ⟨n - 1, by omega, ?_⟩
      rw [show n - 1 + 1 = n by omega])
    simpa using this
  · rintro ⟨h1, h2⟩ x hx
    simp only [List.mem_cons, List.mem_map, List.mem_range] at hx
    rcases hx with rfl | ⟨i, hi, rfl⟩
    · simpa using h1
    · simpa using h2 (i + 1) (by omega) (by omega)

/-- Everything the command creates lies in the free directory, and the dependency it adds points
there. -/
theorem C17_plan (d : CharData) (taken : String → Bool) (event : List Char) (plan : ExtractPlan)
    (h : extractPlan d taken event = some plan) :
    taken plan.dependencyPath = false ∧
      plan.libFile = [plan.dependencyPath, "src", "lib.rs"] ∧
      plan.cargoFile = [plan.dependencyPath, "Cargo.toml"] ∧
      plan.dependencyPath ∈ candidates plan.package := by
  unfold extractPlan at h
  cases hp : d.packageName event with
  | none => rw [hp] at h; simp at h
  | some pk =>
    obtain ⟨p, k⟩ := pk
    rw [hp] at h
    simp only at h
    cases he : extractDir taken (String.ofList p) with
    | none => rw [he] at h; simp at h
    | some dir =>
      rw [he] at h
      simp only [Option.some.injEq] at h
      subst h
      obtain ⟨h1, pre, post, h2, _⟩ := C17_free _ _ _ he
      exact ⟨h1, rfl, rfl, by rw [h2]; simp⟩

example : extractDir (fun d => d == "event" || d == "event1") "event" = some "event2" := by decide

example : extractDir (fun _ => true) "event" = none := by decide

example : (extractPlan asciiData (fun d => d == "my-event") "MyEvent".toList).map (·.cargoFile)
    = some ["my-event1", "Cargo.toml"] := by decide

end Verif.Lsp
