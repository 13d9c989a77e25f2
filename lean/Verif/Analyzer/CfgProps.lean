import Verif.Analyzer.Cfg

/-!
# C94: test attributes are suggested in scopes that are compiled for tests

The two regular expressions recognise exactly the `cfg` predicates that mention the option `test` (and the
feature `e2e-tests`). For conjunctions this means that the scope is compiled for tests only.
-/

namespace Verif.Analyzer.Cfg

open Verif.Ir (MacroKind)

/-! ## Specification: predicates of `cfg` -/

/-- An option: `test`, or `feature = "e2e-tests"` (the value as written). -/
inductive Option_ where
  | flag (name : List Char)
  | value (key lit : List Char)
deriving DecidableEq, Repr

/-- The operators of predicates. -/
inductive Op where
  | all | any | not
deriving DecidableEq, Repr

/-- The name of an operator. -/
def Op.name : Op → List Char
  | .all => chars! "all"
  | .any => chars! "any"
  | .not => chars! "not"

mutual
/-- Predicates with the white space between their tokens. -/
inductive Pred where
  | flag (name : List Char)
  | value (key gap1 gap2 lit : List Char)
  | call (op : Op) (gap : List Char) (args : Preds)
/-- Predicates separated by commas; one may follow the last. -/
inductive Preds where
  | nil (gap : List Char)
  | last (before : List Char) (p : Pred) (after : List Char)
  | cons (before : List Char) (p : Pred) (after : List Char) (rest : Preds)
end

mutual
/-- The text of a predicate. -/
def Pred.render : Pred → List Char
  | .flag name => name
  | .value key gap1 gap2 lit => key ++ gap1 ++ chars! "=" ++ gap2 ++ lit
  | .call op gap args => op.name ++ gap ++ chars! "(" ++ args.render ++ chars! ")"
/-- The text of predicates. -/
def Preds.render : Preds → List Char
  | .nil gap => gap
  | .last before p after => before ++ p.render ++ after
  | .cons before p after rest => before ++ p.render ++ after ++ chars! "," ++ rest.render
end

mutual
/-- The options a predicate mentions. -/
def Pred.options : Pred → List Option_
  | .flag name => [.flag name]
  | .value key _ _ lit => [.value key lit]
  | .call _ _ args => args.options
/-- The options that predicates mention. -/
def Preds.options : Preds → List Option_
  | .nil _ => []
  | .last _ p _ => p.options
  | .cons _ p _ rest => p.options ++ rest.options
end

/-- White space only. -/
def Blank (t : List Char) : Prop := ∀ c ∈ t, isWs c = true

/-- An identifier. -/
def IsName (t : List Char) : Prop := t ≠ [] ∧ ∀ c ∈ t, c.isAlphanum = true ∨ c = '_'

/-- A string without parentheses and commas. -/
def IsString (t : List Char) : Prop :=
  ∃ b, t = chars! "\"" ++ b ++ chars! "\"" ∧ ∀ c ∈ b, c ≠ '(' ∧ c ≠ ')' ∧ c ≠ ','

mutual
/-- The tokens are names, strings and white space. -/
def Pred.Lexed : Pred → Prop
  | .flag name => IsName name
  | .value key gap1 gap2 lit => IsName key ∧ Blank gap1 ∧ Blank gap2 ∧ IsString lit
  | .call _ gap args => Blank gap ∧ args.Lexed
/-- The tokens are names, strings and white space. -/
def Preds.Lexed : Preds → Prop
  | .nil gap => Blank gap
  | .last before p after => Blank before ∧ p.Lexed ∧ Blank after
  | .cons before p after rest => Blank before ∧ p.Lexed ∧ Blank after ∧ rest.Lexed
end

mutual
/-- The predicate holds for the options that are set. -/
def Pred.holds (set : Option_ → Bool) : Pred → Bool
  | .flag name => set (.flag name)
  | .value key _ _ lit => set (.value key lit)
  | .call .all _ args => args.allHold set
  | .call .any _ args => args.anyHolds set
  | .call .not _ args => !args.allHold set
/-- All predicates hold. -/
def Preds.allHold (set : Option_ → Bool) : Preds → Bool
  | .nil _ => true
  | .last _ p _ => p.holds set
  | .cons _ p _ rest => p.holds set && rest.allHold set
/-- Some predicate holds. -/
def Preds.anyHolds (set : Option_ → Bool) : Preds → Bool
  | .nil _ => false
  | .last _ p _ => p.holds set
  | .cons _ p _ rest => p.holds set || rest.anyHolds set
end

mutual
/-- Only options and `all`. -/
def Pred.AllOnly : Pred → Prop
  | .call op _ args => op = .all ∧ args.AllOnly
  | _ => True
/-- Only options and `all`. -/
def Preds.AllOnly : Preds → Prop
  | .nil _ => True
  | .last _ p _ => p.AllOnly
  | .cons _ p _ rest => p.AllOnly ∧ rest.AllOnly
end

/-- The option that is set for tests. -/
def testOption : Option_ := .flag (chars! "test")

/-- The option that is set for e2e tests. -/
def e2eOption : Option_ := .value (chars! "feature") (chars! "\"e2e-tests\"")

/-- Whatever options are set, what the predicate guards is compiled only if the option is. -/
def OnlyWith (o : Option_) (p : Preds) : Prop := ∀ set, p.allHold set = true → set o = true

/-- An attribute as written: `cfg`, or another one. -/
inductive Written where
  | cfg (args : Preds)
  | other (path : Option (List Char)) (tree : Option (List Char))

/-- The attribute as the model sees it. -/
def Written.attr : Written → Attr
  | .cfg args => ⟨some (chars! "cfg"), some (chars! "(" ++ args.render ++ chars! ")")⟩
  | .other path tree => ⟨path, tree⟩

/-- Tokens are as they should be, and other attributes are not `cfg`. -/
def Written.Valid : Written → Prop
  | .cfg args => args.Lexed
  | .other path _ => ∀ p, path = some p → trim p ≠ chars! "cfg"

/-- A `cfg` attribute that mentions the options. -/
def Written.Mentions (w : Written) (os : List Option_) : Prop :=
  ∃ args, w = .cfg args ∧ ∀ o ∈ os, o ∈ args.options

/-! ## Lemmas: the expressions -/

/-- Delimiters. -/
def isDelim (c : Char) : Bool := c == '(' || c == ',' || c == ')'

theorem dropWhile_split (t : List Char) : ∃ w, t = w ++ t.dropWhile isWs ∧ Blank w := by
  induction t with
  | nil => exact ⟨[], rfl, by intro c h; simp at h⟩
  | cons c t ih =>
    cases h : isWs c with
    | true =>
      obtain ⟨w, h1, h2⟩ := ih
      refine ⟨c :: w, ?_, ?_⟩
      · rw [List.dropWhile_cons, if_pos h, List.cons_append, ← h1]
      · intro x hx
        rcases List.mem_cons.1 hx with rfl | hx
        · exact h
        · exact h2 x hx
    | false =>
      refine ⟨[], ?_, by intro c h; simp at h⟩
      rw [List.dropWhile_cons, if_neg (by simp [h])]
      rfl

theorem dropWhile_blank {w t : List Char} (h : Blank w) :
    (w ++ t).dropWhile isWs = t.dropWhile isWs := by
  induction w with
  | nil => rfl
  | cons c w ih =>
    rw [List.cons_append, List.dropWhile_cons, if_pos (h c (by simp)),
      ih fun x hx => h x (List.mem_cons_of_mem _ hx)]

/-- What follows does not match at white space. -/
def Sharp (r : List Part) : Prop := ∀ c t, isWs c = true → eat r (c :: t) = false

theorem eat_spaces {r : List Part} (hr : Sharp r) (t : List Char) :
    eat (.spaces :: r) t = true ↔ ∃ w t', t = w ++ t' ∧ Blank w ∧ eat r t' = true := by
  rw [eat]
  constructor
  · intro h
    obtain ⟨w, h1, h2⟩ := dropWhile_split t
    exact ⟨w, _, h1, h2, h⟩
  · rintro ⟨w, t', rfl, hw, h⟩
    rw [dropWhile_blank hw]
    cases t' with
    | nil => exact h
    | cons c t' =>
      cases hc : isWs c with
      | true =>
        rw [hr c t' hc] at h
        cases h
      | false =>
        rw [List.dropWhile_cons, if_neg (by simp [hc])]
        exact h

theorem eat_lit (w : List Char) (r : List Part) (t : List Char) :
    eat (.lit w :: r) t = true ↔ ∃ t', t = w ++ t' ∧ eat r t' = true := by
  rw [eat, Bool.and_eq_true, List.isPrefixOf_iff_prefix]
  constructor
  · rintro ⟨⟨t', rfl⟩, h⟩
    exact ⟨t', rfl, by simpa using h⟩
  · rintro ⟨t', rfl, h⟩
    exact ⟨⟨t', rfl⟩, by simpa using h⟩

theorem eat_oneOf (cs : List Char) (r : List Part) (t : List Char) :
    eat (.oneOf cs :: r) t = true ↔ ∃ c t', t = c :: t' ∧ c ∈ cs ∧ eat r t' = true := by
  cases t with
  | nil => simp [eat]
  | cons c t =>
    rw [eat, Bool.and_eq_true, List.contains_iff_mem]
    constructor
    · rintro ⟨h1, h2⟩
      exact ⟨c, t, rfl, h1, h2⟩
    · rintro ⟨c', t', h, h1, h2⟩
      cases h
      exact ⟨h1, h2⟩

theorem eat_nil (t : List Char) : eat [] t = true := by rw [eat]

theorem isMatch_iff (r : List Part) (t : List Char) :
    isMatch r t = true ↔ ∃ a b, t = a ++ b ∧ eat r b = true := by
  induction t with
  | nil =>
    rw [isMatch]
    constructor
    · intro h
      exact ⟨[], [], rfl, h⟩
    · rintro ⟨a, b, h, he⟩
      have := List.append_eq_nil_iff.1 h.symm
      rw [this.2] at he
      exact he
  | cons c t ih =>
    rw [isMatch, Bool.or_eq_true, ih]
    constructor
    · rintro (h | ⟨a, b, rfl, h⟩)
      · exact ⟨[], _, rfl, h⟩
      · exact ⟨c :: a, b, rfl, h⟩
    · rintro ⟨a, b, h, he⟩
      cases a with
      | nil =>
        simp only [List.nil_append] at h
        exact Or.inl (h ▸ he)
      | cons x a =>
        simp only [List.cons_append, List.cons.injEq] at h
        exact Or.inr ⟨a, b, h.2, he⟩

theorem sharp_lit {c : Char} {w : List Char} {r : List Part} (h : isWs c = false) :
    Sharp (.lit (c :: w) :: r) := by
  intro x t hx
  rw [eat]
  have : (c :: w).isPrefixOf (x :: t) = false := by
    rw [List.isPrefixOf]
    have : (c == x) = false := by
      rw [beq_eq_false_iff_ne]
      rintro rfl
      rw [h] at hx
      cases hx
    rw [this]
    rfl
  rw [this]
  rfl

theorem sharp_oneOf {cs : List Char} {r : List Part} (h : ∀ c ∈ cs, isWs c = false) :
    Sharp (.oneOf cs :: r) := by
  intro x t hx
  rw [eat]
  cases hc : cs.contains x with
  | false => rfl
  | true =>
    rw [h x (by simpa using hc)] at hx
    cases hx

/-- A segment that is the option `test` with white space around. -/
def TestSeg (s : List Char) : Prop := ∃ w1 w2, s = w1 ++ chars! "test" ++ w2 ∧ Blank w1 ∧ Blank w2

/-- A segment that is the feature `e2e-tests` with white space around and in it. -/
def E2eSeg (s : List Char) : Prop := ∃ w1 w2 w3 w4, s = w1 ++ chars! "feature" ++ w2 ++ chars! "=" ++ w3 ++
  chars! "\"e2e-tests\"" ++ w4 ∧ Blank w1 ∧ Blank w2 ∧ Blank w3 ∧ Blank w4

/-- A segment between two delimiters of a text. -/
def Between (body : List Char → Prop) (t : List Char) : Prop :=
  ∃ a d s e b, t = a ++ d :: (s ++ e :: b) ∧ d ∈ chars! "(," ∧ e ∈ chars! ",)" ∧ body s

theorem test_match (t : List Char) : isMatch testRe t = true ↔ Between TestSeg t := by
  rw [isMatch_iff]
  unfold testRe Between TestSeg
  simp only [eat_oneOf, eat_spaces (sharp_lit (by decide : isWs 't' = false)), eat_lit,
    eat_spaces (sharp_oneOf (by decide : ∀ c ∈ chars! ",)", isWs c = false)), eat_nil]
  constructor
  · rintro ⟨a, b, rfl, d, t1, rfl, hd, w1, t2, rfl, h1, t3, rfl, w2, t4, rfl, h2, e, t5, rfl, he, -⟩
    exact ⟨a, d, _, e, t5, by simp, hd, he, w1, w2, rfl, h1, h2⟩
  · rintro ⟨a, d, s, e, b, rfl, hd, he, w1, w2, rfl, h1, h2⟩
    exact ⟨a, _, rfl, d, _, rfl, hd, w1, _, by simp only [List.append_assoc], h1, _, rfl, w2, _, rfl, h2, e, b, rfl, he, trivial⟩

theorem e2e_match (t : List Char) : isMatch e2eRe t = true ↔ Between E2eSeg t := by
  rw [isMatch_iff]
  unfold e2eRe Between E2eSeg
  simp only [eat_oneOf, eat_spaces (sharp_lit (by decide : isWs 'f' = false)), eat_lit,
    eat_spaces (sharp_lit (by decide : isWs '=' = false)),
    eat_spaces (sharp_lit (by decide : isWs '"' = false)),
    eat_spaces (sharp_oneOf (by decide : ∀ c ∈ chars! ",)", isWs c = false)), eat_nil]
  constructor
  · rintro ⟨a, b, rfl, d, t1, rfl, hd, w1, t2, rfl, h1, t3, rfl, w2, t4, rfl, h2, t5, rfl, w3, t6, rfl, h3,
      t7, rfl, w4, t8, rfl, h4, e, t9, rfl, he, -⟩
    exact ⟨a, d, _, e, t9, by simp, hd, he, w1, w2, w3, w4, rfl, h1, h2, h3, h4⟩
  · rintro ⟨a, d, s, e, b, rfl, hd, he, w1, w2, w3, w4, rfl, h1, h2, h3, h4⟩
    exact ⟨a, _, rfl, d, _, rfl, hd, w1, _, by simp only [List.append_assoc], h1, _, rfl, w2, _, rfl, h2,
      _, rfl, w3, _, rfl, h3, _, rfl, w4, _, rfl, h4, e, b, rfl, he, trivial⟩

/-! ## Lemmas: segments -/

/-- The segments of a text after a delimiter, each with the delimiters around it. -/
def segs (d : Char) (acc : List Char) : List Char → List (Char × List Char × Char)
  | [] => []
  | c :: t => if isDelim c then (d, acc, c) :: segs c [] t else segs d (acc ++ [c]) t

/-- No delimiters. -/
def Free (t : List Char) : Prop := ∀ c ∈ t, isDelim c = false

theorem segs_free (d : Char) (acc s t : List Char) (h : Free s) :
    segs d acc (s ++ t) = segs d (acc ++ s) t := by
  induction s generalizing acc with
  | nil => simp
  | cons c s ih =>
    rw [List.cons_append, segs, h c (by simp), ih _ fun x hx => h x (List.mem_cons_of_mem _ hx)]
    simp

theorem segs_next (d : Char) (s : List Char) (e : Char) (t : List Char) (h : Free s) (he : isDelim e = true) :
    segs d [] (s ++ e :: t) = (d, s, e) :: segs e [] t := by
  rw [segs_free d [] s _ h, segs, he]
  simp

theorem split_unique {acc s cs b : List Char} {c e : Char} (ha : Free acc) (hs : Free s)
    (hc : isDelim c = true) (he : isDelim e = true) (h : acc ++ c :: cs = s ++ e :: b) :
    acc = s ∧ c = e ∧ cs = b := by
  induction acc generalizing s with
  | nil =>
    cases s with
    | nil =>
      simp only [List.nil_append, List.cons.injEq] at h
      exact ⟨rfl, h.1, h.2⟩
    | cons x s =>
      simp only [List.nil_append, List.cons_append, List.cons.injEq] at h
      rw [h.1, hs x (by simp)] at hc
      cases hc
  | cons y acc ih =>
    cases s with
    | nil =>
      simp only [List.nil_append, List.cons_append, List.cons.injEq] at h
      rw [← h.1, ha y (by simp)] at he
      cases he
    | cons x s =>
      simp only [List.cons_append, List.cons.injEq] at h
      obtain ⟨h1, h2, h3⟩ := ih (fun x hx => ha x (List.mem_cons_of_mem _ hx))
        (fun x hx => hs x (List.mem_cons_of_mem _ hx)) h.2
      exact ⟨by rw [h.1, h1], h2, h3⟩

theorem split_skip {acc cs a rest : List Char} {c x : Char} (ha : Free acc) (hx : isDelim x = true)
    (h : acc ++ c :: cs = a ++ x :: rest) : ∃ a', a = acc ++ a' ∧ c :: cs = a' ++ x :: rest := by
  induction acc generalizing a with
  | nil => exact ⟨a, rfl, h⟩
  | cons y acc ih =>
    cases a with
    | nil =>
      simp only [List.nil_append, List.cons_append, List.cons.injEq] at h
      rw [← h.1, ha y (by simp)] at hx
      cases hx
    | cons z a =>
      simp only [List.cons_append, List.cons.injEq] at h
      obtain ⟨a', h1, h2⟩ := ih (fun x hx => ha x (List.mem_cons_of_mem _ hx)) h.2
      exact ⟨a', by rw [h.1, h1]; rfl, h2⟩

theorem mem_segs (d : Char) (acc t : List Char) (hd : isDelim d = true) (ha : Free acc) (x : Char)
    (s : List Char) (e : Char) (hx : isDelim x = true) (hs : Free s) (he : isDelim e = true) :
    (x, s, e) ∈ segs d acc t ↔ ∃ a b, d :: (acc ++ t) = a ++ x :: (s ++ e :: b) := by
  induction t generalizing d acc with
  | nil =>
    simp only [segs, List.not_mem_nil, List.append_nil, false_iff]
    rintro ⟨a, b, h⟩
    have hmem : e ∈ acc := by
      cases a with
      | nil =>
        simp only [List.nil_append, List.cons.injEq] at h
        rw [h.2]
        simp
      | cons y a =>
        simp only [List.cons_append, List.cons.injEq] at h
        rw [h.2]
        simp
    rw [ha e hmem] at he
    cases he
  | cons c t ih =>
    rw [segs]
    cases hc : isDelim c with
    | false =>
      simp only [Bool.false_eq_true, if_false]
      rw [ih d (acc ++ [c]) hd (by
        intro y hy
        rcases List.mem_append.1 hy with hy | hy
        · exact ha y hy
        · simp only [List.mem_singleton] at hy
          rw [hy, hc])]
      simp
    | true =>
      simp only [if_true, List.mem_cons]
      rw [ih c [] hc (by intro y hy; simp at hy)]
      constructor
      · rintro (h | ⟨a, b, h⟩)
        · simp only [Prod.mk.injEq] at h
          obtain ⟨rfl, rfl, rfl⟩ := h
          exact ⟨[], t, rfl⟩
        · simp only [List.nil_append] at h
          exact ⟨d :: (acc ++ a), b, by rw [h]; simp⟩
      · rintro ⟨a, b, h⟩
        cases a with
        | nil =>
          simp only [List.nil_append, List.cons.injEq] at h
          obtain ⟨h1, h2, _⟩ := split_unique ha hs hc he h.2
          exact Or.inl (by rw [h.1, h1, h2])
        | cons y a =>
          simp only [List.cons_append, List.cons.injEq] at h
          obtain ⟨a', _, h2⟩ := split_skip ha hx h.2
          exact Or.inr ⟨a', b, by simpa using h2⟩

theorem between_iff (body : List Char → Prop) (hb : ∀ s, body s → Free s) (d : Char) (t : List Char)
    (hd : isDelim d = true) :
    Between body (d :: t) ↔
      ∃ y ∈ segs d [] t, y.1 ∈ chars! "(," ∧ y.2.2 ∈ chars! ",)" ∧ body y.2.1 := by
  have hopen : ∀ c ∈ chars! "(,", isDelim c = true := by decide
  have hclose : ∀ c ∈ chars! ",)", isDelim c = true := by decide
  constructor
  · rintro ⟨a, x, s, e, b, h, hx, he, hs⟩
    refine ⟨(x, s, e), ?_, hx, he, hs⟩
    rw [mem_segs d [] t hd (by intro y hy; simp at hy) x s e (hopen x hx) (hb s hs) (hclose e he)]
    exact ⟨a, b, h⟩
  · rintro ⟨⟨x, s, e⟩, hm, hx, he, hs⟩
    rw [mem_segs d [] t hd (by intro y hy; simp at hy) x s e (hopen x hx) (hb s hs) (hclose e he)] at hm
    obtain ⟨a, b, h⟩ := hm
    exact ⟨a, x, s, e, b, h, hx, he, hs⟩

/-! ## Lemmas: options -/

theorem split_at {c : Char} {x y s t : List Char} (hx : c ∉ x) (hy : c ∉ y) (h : x ++ c :: s = y ++ c :: t) :
    x = y ∧ s = t := by
  induction x generalizing y with
  | nil =>
    cases y with
    | nil =>
      simp only [List.nil_append, List.cons.injEq, true_and] at h
      exact ⟨rfl, h⟩
    | cons z y =>
      simp only [List.nil_append, List.cons_append, List.cons.injEq] at h
      exact absurd (by simp [h.1]) hy
  | cons w x ih =>
    cases y with
    | nil =>
      simp only [List.nil_append, List.cons_append, List.cons.injEq] at h
      exact absurd (by simp [h.1]) hx
    | cons z y =>
      simp only [List.cons_append, List.cons.injEq] at h
      simp only [List.mem_cons, not_or] at hx hy
      obtain ⟨h1, h2⟩ := ih hx.2 hy.2 h.2
      exact ⟨by rw [h.1, h1], h2⟩

theorem blank_not {w : List Char} {c : Char} (h : Blank w) (hc : isWs c = false) : c ∉ w := by
  intro hm
  rw [h c hm] at hc
  cases hc

theorem name_not {w : List Char} {c : Char} (h : IsName w) (hc : c.isAlphanum = false) (hu : c ≠ '_') :
    c ∉ w := by
  intro hm
  rcases h.2 c hm with h | h
  · rw [h] at hc
    cases hc
  · exact hu h

theorem name_white {w : List Char} (h : IsName w) : ∀ c ∈ w, isWs c = false := by
  intro c hm
  cases hc : isWs c with
  | false => rfl
  | true =>
    have hn : 48 ≤ c.toNat ∧ c.toNat ≤ 122 := by
      rcases h.2 c hm with ha | rfl
      · simp only [Char.isAlphanum, Char.isAlpha, Char.isUpper, Char.isLower, Char.isDigit, Bool.or_eq_true,
          Bool.and_eq_true, decide_eq_true_eq, ge_iff_le, UInt32.le_iff_toNat_le] at ha
        change ((65 ≤ c.toNat ∧ c.toNat ≤ 90) ∨ (97 ≤ c.toNat ∧ c.toNat ≤ 122)) ∨
          (48 ≤ c.toNat ∧ c.toNat ≤ 57) at ha
        omega
      · decide
    simp only [isWs, Bool.or_eq_true, Bool.and_eq_true, decide_eq_true_eq, beq_iff_eq] at hc
    omega

theorem filter_blank {w : List Char} (h : Blank w) : w.filter (fun c => !isWs c) = [] := by
  rw [List.filter_eq_nil_iff]
  intro c hc
  simp [h c hc]

theorem filter_name {w : List Char} (h : IsName w) : w.filter (fun c => !isWs c) = w := by
  rw [List.filter_eq_self]
  intro c hc
  simp [name_white h c hc]

theorem blank_free {w : List Char} (h : Blank w) : Free w := by
  intro c hc
  cases hd : isDelim c with
  | false => rfl
  | true =>
    have : c = '(' ∨ c = ',' ∨ c = ')' := by simpa [isDelim, or_assoc] using hd
    rcases this with rfl | rfl | rfl <;> exact absurd hc (blank_not h (by decide))

theorem name_free {w : List Char} (h : IsName w) : Free w := by
  intro c hc
  cases hd : isDelim c with
  | false => rfl
  | true =>
    have : c = '(' ∨ c = ',' ∨ c = ')' := by simpa [isDelim, or_assoc] using hd
    rcases this with rfl | rfl | rfl <;> exact absurd hc (name_not h (by decide) (by decide))

theorem string_free {w : List Char} (h : IsString w) : Free w := by
  obtain ⟨b, rfl, hb⟩ := h
  intro c hc
  rcases List.mem_append.1 hc with hc | hc
  · rcases List.mem_append.1 hc with hc | hc
    · simp only [List.mem_singleton] at hc
      subst hc
      decide
    · obtain ⟨h1, h2, h3⟩ := hb c hc
      simp [isDelim, h1, h2, h3]
  · simp only [List.mem_singleton] at hc
    subst hc
    decide

theorem free_append {a b : List Char} (ha : Free a) (hb : Free b) : Free (a ++ b) := by
  intro c hc
  rcases List.mem_append.1 hc with hc | hc
  · exact ha c hc
  · exact hb c hc

/-- The options that segments can be, whatever the white space. -/
structure Recognises (body : List Char → Prop) (o : Option_) : Prop where
  free : ∀ s, body s → Free s
  blank : ∀ s, Blank s → ¬ body s
  flag : ∀ b name a, Blank b → IsName name → Blank a → (body (b ++ name ++ a) ↔ Option_.flag name = o)
  value : ∀ b key g1 g2 lit a, Blank b → IsName key → Blank g1 → Blank g2 → IsString lit → Blank a →
    (body (b ++ (key ++ g1 ++ chars! "=" ++ g2 ++ lit) ++ a) ↔ Option_.value key lit = o)

theorem isName_test : IsName (chars! "test") := ⟨by decide, by decide⟩

theorem isName_feature : IsName (chars! "feature") := ⟨by decide, by decide⟩

theorem isString_e2e : IsString (chars! "\"e2e-tests\"") := ⟨chars! "e2e-tests", by decide, by decide⟩

theorem recognises_test : Recognises TestSeg testOption where
  free := by
    rintro s ⟨w1, w2, rfl, h1, h2⟩
    exact free_append (free_append (blank_free h1) (name_free isName_test)) (blank_free h2)
  blank := by
    rintro s hs ⟨w1, w2, rfl, h1, h2⟩
    have := hs 't' (by simp)
    revert this
    decide
  flag := by
    intro b name a hb hn ha
    unfold testOption TestSeg
    constructor
    · rintro ⟨w1, w2, h, h1, h2⟩
      have := congrArg (List.filter fun c => !isWs c) h
      simp only [List.filter_append, filter_blank hb, filter_blank ha, filter_blank h1, filter_blank h2,
        filter_name hn, filter_name isName_test, List.nil_append, List.append_nil] at this
      rw [this]
    · intro h
      cases h
      exact ⟨b, a, rfl, hb, ha⟩
  value := by
    intro b key g1 g2 lit a hb hk hg1 hg2 hl ha
    unfold testOption
    simp only [reduceCtorEq, iff_false]
    rintro ⟨w1, w2, h, h1, h2⟩
    have : '=' ∈ w1 ++ chars! "test" ++ w2 := by
      rw [← h]
      simp
    rcases List.mem_append.1 this with this | this
    · rcases List.mem_append.1 this with this | this
      · exact blank_not h1 (by decide) this
      · revert this
        decide
    · exact blank_not h2 (by decide) this

theorem recognises_e2e : Recognises E2eSeg e2eOption where
  free := by
    rintro s ⟨w1, w2, w3, w4, rfl, h1, h2, h3, h4⟩
    refine free_append (free_append (free_append (free_append (free_append (free_append (blank_free h1)
      (name_free isName_feature)) (blank_free h2)) ?_) (blank_free h3)) (string_free isString_e2e))
      (blank_free h4)
    unfold Free
    decide
  blank := by
    rintro s hs ⟨w1, w2, w3, w4, rfl, _⟩
    have := hs 'f' (by simp)
    revert this
    decide
  flag := by
    intro b name a hb hn ha
    unfold e2eOption
    simp only [reduceCtorEq, iff_false]
    rintro ⟨w1, w2, w3, w4, h, _⟩
    have : '=' ∈ b ++ name ++ a := by
      rw [h]
      simp
    rcases List.mem_append.1 this with this | this
    · rcases List.mem_append.1 this with this | this
      · exact blank_not hb (by decide) this
      · exact name_not hn (by decide) (by decide) this
    · exact blank_not ha (by decide) this
  value := by
    intro b key g1 g2 lit a hb hk hg1 hg2 hl ha
    unfold e2eOption E2eSeg
    constructor
    · rintro ⟨w1, w2, w3, w4, h, h1, h2, h3, h4⟩
      have h' : (b ++ key ++ g1) ++ '=' :: (g2 ++ lit ++ a) =
          (w1 ++ chars! "feature" ++ w2) ++ '=' :: (w3 ++ chars! "\"e2e-tests\"" ++ w4) := by
        simpa using h
      have hne : ∀ {x y z : List Char}, Blank x → IsName y → Blank z → '=' ∉ x ++ y ++ z := by
        intro x y z hx hy hz hm
        rcases List.mem_append.1 hm with hm | hm
        · rcases List.mem_append.1 hm with hm | hm
          · exact blank_not hx (by decide) hm
          · exact name_not hy (by decide) (by decide) hm
        · exact blank_not hz (by decide) hm
      obtain ⟨hleft, hright⟩ := split_at (hne hb hk hg1) (hne h1 isName_feature h2) h'
      have hkey := congrArg (List.filter fun c => !isWs c) hleft
      simp only [List.filter_append, filter_blank hb, filter_blank hg1, filter_blank h1, filter_blank h2,
        filter_name hk, filter_name isName_feature, List.nil_append, List.append_nil] at hkey
      obtain ⟨body, rfl, _⟩ := hl
      have hright' : g2 ++ '"' :: (body ++ '"' :: a) = w3 ++ '"' :: (chars! "e2e-tests" ++ '"' :: w4) := by
        simpa using hright
      obtain ⟨_, hlit⟩ := split_at (blank_not hg2 (by decide)) (blank_not h3 (by decide)) hright'
      have hbody : body = chars! "e2e-tests" := by
        by_cases hq : '"' ∈ body
        · obtain ⟨x, y, rfl, hx⟩ := List.eq_append_cons_of_mem hq
          rw [List.append_assoc, List.cons_append] at hlit
          have hw := (split_at hx (by decide) hlit).2
          exact absurd (by rw [← hw]; simp) (blank_not h4 (by decide : isWs '"' = false))
        · exact (split_at hq (by decide) hlit).1
      rw [hkey, hbody]
      rfl
    · intro h
      cases h
      exact ⟨b, g1, g2, a, by simp, hb, hg1, hg2, ha⟩

/-! ## Lemmas: predicates -/

/-- A segment that the expression recognises. -/
def Hit (body : List Char → Prop) (y : Char × List Char × Char) : Prop :=
  y.1 ∈ chars! "(," ∧ y.2.2 ∈ chars! ",)" ∧ body y.2.1

theorem hit_cons (body : List Char → Prop) (y : Char × List Char × Char) (l : List (Char × List Char × Char)) :
    (∃ z ∈ y :: l, Hit body z) ↔ Hit body y ∨ ∃ z ∈ l, Hit body z := by
  simp

theorem opName_isName (op : Op) : IsName op.name := by
  cases op <;> exact ⟨by decide, by decide⟩

mutual
theorem Pred.hits {body : List Char → Prop} {o : Option_} (hr : Recognises body o) (p : Pred) (hp : p.Lexed)
    (d e : Char) (hd : d ∈ chars! "(,") (he : e ∈ chars! ",)") (b a t : List Char) (hb : Blank b)
    (ha : Blank a) :
    (∃ y ∈ segs d [] (b ++ p.render ++ a ++ e :: t), Hit body y) ↔
      o ∈ p.options ∨ ∃ y ∈ segs e [] t, Hit body y := by
  have hde : isDelim e = true := (by decide : ∀ c ∈ chars! ",)", isDelim c = true) e he
  cases p with
  | flag name =>
    rw [Pred.Lexed] at hp
    rw [Pred.render, Pred.options,
      segs_next _ _ _ _ (free_append (free_append (blank_free hb) (name_free hp)) (blank_free ha)) hde,
      hit_cons]
    unfold Hit
    simp only [hd, he, true_and, hr.flag b name a hb hp ha, List.mem_singleton, eq_comm]
  | value key g1 g2 lit =>
    rw [Pred.Lexed] at hp
    obtain ⟨hk, hg1, hg2, hl⟩ := hp
    have hf : Free (key ++ g1 ++ chars! "=" ++ g2 ++ lit) := by
      refine free_append (free_append (free_append (free_append (name_free hk) (blank_free hg1)) ?_)
        (blank_free hg2)) (string_free hl)
      unfold Free
      decide
    rw [Pred.render, Pred.options,
      segs_next _ _ _ _ (free_append (free_append (blank_free hb) hf) (blank_free ha)) hde, hit_cons]
    unfold Hit
    simp only [hd, he, true_and, hr.value b key g1 g2 lit a hb hk hg1 hg2 hl ha, List.mem_singleton, eq_comm]
  | call op g args =>
    rw [Pred.Lexed] at hp
    have hf : Free (b ++ op.name ++ g) :=
      free_append (free_append (blank_free hb) (name_free (opName_isName op))) (blank_free hp.1)
    have heq : b ++ (Pred.call op g args).render ++ a ++ e :: t =
        (b ++ op.name ++ g) ++ '(' :: (args.render ++ ')' :: (a ++ e :: t)) := by
      rw [Pred.render]
      simp
    rw [heq, segs_next _ _ _ _ hf (by decide), hit_cons, Preds.hits hr args hp.2 '(' (by decide),
      segs_next _ _ _ _ (blank_free ha) hde, hit_cons, Pred.options]
    unfold Hit
    simp
theorem Preds.hits {body : List Char → Prop} {o : Option_} (hr : Recognises body o) (ps : Preds)
    (hp : ps.Lexed) (d : Char) (hd : d ∈ chars! "(,") (t : List Char) :
    (∃ y ∈ segs d [] (ps.render ++ ')' :: t), Hit body y) ↔
      o ∈ ps.options ∨ ∃ y ∈ segs ')' [] t, Hit body y := by
  cases ps with
  | nil gap =>
    rw [Preds.Lexed] at hp
    rw [Preds.render, segs_next _ _ _ _ (blank_free hp) (by decide), hit_cons, Preds.options]
    unfold Hit
    simp [hr.blank gap hp]
  | last b p a =>
    rw [Preds.Lexed] at hp
    rw [Preds.render, Preds.options]
    exact Pred.hits hr p hp.2.1 d ')' hd (by decide) b a t hp.1 hp.2.2
  | cons b p a rest =>
    rw [Preds.Lexed] at hp
    have heq : (Preds.cons b p a rest).render ++ ')' :: t =
        b ++ p.render ++ a ++ ',' :: (rest.render ++ ')' :: t) := by
      rw [Preds.render]
      simp
    rw [heq, Pred.hits hr p hp.2.1 d ',' hd (by decide) b a _ hp.1 hp.2.2.1,
      Preds.hits hr rest hp.2.2.2 ',' (by decide) t, Preds.options, List.mem_append, or_assoc]
end

theorem tree_match {body : List Char → Prop} {o : Option_} (hr : Recognises body o) (ps : Preds)
    (hp : ps.Lexed) : Between body (chars! "(" ++ ps.render ++ chars! ")") ↔ o ∈ ps.options := by
  have : chars! "(" ++ ps.render ++ chars! ")" = '(' :: (ps.render ++ ')' :: []) := by simp
  rw [this, between_iff body hr.free _ _ (by decide)]
  refine (Preds.hits hr ps hp '(' (by decide) []).trans ?_
  simp [segs]

theorem trim_cfg : trim (chars! "cfg") = chars! "cfg" := by decide

theorem isCfgTest_iff (w : Written) (h : w.Valid) : isCfgTest w.attr = true ↔ w.Mentions [testOption] := by
  unfold isCfgTest Written.Mentions
  cases w with
  | cfg args =>
    simp only [Written.attr, Option.any_some, trim_cfg, beq_self_eq_true, Bool.true_and, test_match,
      tree_match recognises_test args h]
    simp
  | other path tree =>
    have : (path.any fun p => trim p == chars! "cfg") = false := by
      cases path with
      | none => rfl
      | some p => simpa using h p rfl
    simp [Written.attr, this]

theorem isCfgE2e_iff (w : Written) (h : w.Valid) :
    isCfgE2e w.attr = true ↔ w.Mentions [testOption, e2eOption] := by
  unfold isCfgE2e
  rw [Bool.and_eq_true, isCfgTest_iff w h]
  unfold Written.Mentions
  cases w with
  | cfg args =>
    simp only [Written.attr, Option.any_some, e2e_match, tree_match recognises_e2e args h]
    simp
  | other path tree => simp

mutual
theorem Pred.holds_iff (set : Option_ → Bool) (p : Pred) (hp : p.AllOnly) :
    p.holds set = true ↔ ∀ o ∈ p.options, set o = true := by
  cases p with
  | flag name => simp [Pred.holds, Pred.options]
  | value key g1 g2 lit => simp [Pred.holds, Pred.options]
  | call op g args =>
    rw [Pred.AllOnly] at hp
    obtain ⟨rfl, hp⟩ := hp
    rw [Pred.holds, Pred.options]
    exact Preds.allHold_iff set args hp
theorem Preds.allHold_iff (set : Option_ → Bool) (ps : Preds) (hp : ps.AllOnly) :
    ps.allHold set = true ↔ ∀ o ∈ ps.options, set o = true := by
  cases ps with
  | nil gap => simp [Preds.allHold, Preds.options]
  | last b p a =>
    rw [Preds.AllOnly] at hp
    rw [Preds.allHold, Preds.options]
    exact Pred.holds_iff set p hp
  | cons b p a rest =>
    rw [Preds.AllOnly] at hp
    rw [Preds.allHold, Preds.options, Bool.and_eq_true, Pred.holds_iff set p hp.1,
      Preds.allHold_iff set rest hp.2]
    constructor
    · rintro ⟨h1, h2⟩ o ho
      rcases List.mem_append.1 ho with ho | ho
      · exact h1 o ho
      · exact h2 o ho
    · intro h
      exact ⟨fun o ho => h o (List.mem_append_left _ ho), fun o ho => h o (List.mem_append_right _ ho)⟩
end

/-! ## Theorems -/

/-- Whatever the predicate and its layout: a `cfg` attribute counts as one for tests exactly if it
mentions `test`, and as one for e2e tests exactly if it mentions the feature `e2e-tests` as well. No other
attribute counts. -/
theorem C94_recognised (w : Written) (h : w.Valid) :
    (isCfgTest w.attr = true ↔ w.Mentions [testOption]) ∧
    (isCfgE2e w.attr = true ↔ w.Mentions [testOption, e2eOption]) :=
  ⟨isCfgTest_iff w h, isCfgE2e_iff w h⟩

/-- `#[cfg(all(test , feature = "e2e-tests"))]`. -/
def e2eExample : Preds :=
  .last [] (.call .all [] (.cons [] (.flag (chars! "test")) (chars! " ")
    (.last (chars! " ") (.value (chars! "feature") (chars! " ") (chars! " ") (chars! "\"e2e-tests\"")) []))) []

example : (Written.cfg e2eExample).Valid ∧ (Written.cfg e2eExample).Mentions [testOption, e2eOption] := by
  refine ⟨?_, e2eExample, rfl, by decide⟩
  refine ⟨?_, ⟨?_, ?_, ⟨by decide, by decide⟩, ?_, ?_, ⟨⟨by decide, by decide⟩, ?_, ?_, isString_e2e⟩, ?_⟩, ?_⟩
  all_goals (unfold Blank; decide)

/-- The suggested macros: all that were suggested, but `ink::test` only if some ancestor has an attribute
that mentions `test`, and `ink_e2e::test` only if some ancestor has one that mentions `test` and
`e2e-tests`. The order is kept. -/
theorem C94_suggested (ancestors : List (List Written)) (h : ∀ ws ∈ ancestors, ∀ w ∈ ws, w.Valid)
    (s : List MacroKind) :
    (suggestions (ancestors.map fun ws => ws.map Written.attr) s).Sublist s ∧
    ∀ m, m ∈ suggestions (ancestors.map fun ws => ws.map Written.attr) s ↔
      m ∈ s ∧ (m = .test → ∃ ws ∈ ancestors, ∃ w ∈ ws, w.Mentions [testOption]) ∧
        (m = .e2eTest → ∃ ws ∈ ancestors, ∃ w ∈ ws, w.Mentions [testOption, e2eOption]) := by
  have h1 : ((ancestors.map fun ws => ws.map Written.attr).any fun as => as.any isCfgTest) = true ↔
      ∃ ws ∈ ancestors, ∃ w ∈ ws, w.Mentions [testOption] := by
    simp only [List.any_map, List.any_eq_true, Function.comp_apply]
    constructor
    · rintro ⟨ws, hws, w, hw, hm⟩
      exact ⟨ws, hws, w, hw, (isCfgTest_iff w (h ws hws w hw)).1 hm⟩
    · rintro ⟨ws, hws, w, hw, hm⟩
      exact ⟨ws, hws, w, hw, (isCfgTest_iff w (h ws hws w hw)).2 hm⟩
  have h2 : ((ancestors.map fun ws => ws.map Written.attr).any fun as => as.any isCfgE2e) = true ↔
      ∃ ws ∈ ancestors, ∃ w ∈ ws, w.Mentions [testOption, e2eOption] := by
    simp only [List.any_map, List.any_eq_true, Function.comp_apply]
    constructor
    · rintro ⟨ws, hws, w, hw, hm⟩
      exact ⟨ws, hws, w, hw, (isCfgE2e_iff w (h ws hws w hw)).1 hm⟩
    · rintro ⟨ws, hws, w, hw, hm⟩
      exact ⟨ws, hws, w, hw, (isCfgE2e_iff w (h ws hws w hw)).2 hm⟩
  have h3 : (∃ ws ∈ ancestors, ∃ w ∈ ws, w.Mentions [testOption, e2eOption]) →
      ∃ ws ∈ ancestors, ∃ w ∈ ws, w.Mentions [testOption] := by
    rintro ⟨ws, hws, w, hw, args, hargs, hm⟩
    exact ⟨ws, hws, w, hw, args, hargs, fun o ho => hm o (by
      simp only [List.mem_singleton] at ho
      simp [ho])⟩
  rw [← h1, ← h2] at h3
  simp only [← h1, ← h2]
  unfold suggestions
  generalize ((ancestors.map fun ws => ws.map Written.attr).any fun as => as.any isCfgTest) = t at *
  generalize ((ancestors.map fun ws => ws.map Written.attr).any fun as => as.any isCfgE2e) = e at *
  unfold Verif.Analyzer.removeMacrosForCfg
  by_cases hany : (s.any fun m => m == .test || m == .e2eTest) = true
  · rw [if_pos hany]
    refine ⟨List.filter_sublist, fun m => ?_⟩
    rw [List.mem_filter]
    cases m <;> cases t <;> cases e <;> simp_all
  · rw [if_neg hany]
    refine ⟨List.Sublist.refl _, fun m => ?_⟩
    simp only [List.any_eq_true, not_exists, not_and] at hany
    constructor
    · intro hm
      have := hany m hm
      refine ⟨hm, ?_, ?_⟩
      · rintro rfl
        simp at this
      · rintro rfl
        simp at this
    · exact fun hm => hm.1

/-- A predicate of options and `all` counts as one for tests exactly if it guards code that is compiled for
tests only, and as one for e2e tests exactly if that code is compiled with the feature only. Missing: other
operators (`C94_negation_not`, `C94_negation_any`, `C94_negation_without`), conditions spread over several
attributes (`C94_negation_split`), parentheses in strings (`C94_negation_string`) and comments between the
tokens (`C94_negation_comment`). -/
theorem C94_only_partial (ps : Preds) (hl : ps.Lexed) (ha : ps.AllOnly) :
    (isCfgTest (Written.cfg ps).attr = true ↔ OnlyWith testOption ps) ∧
    (isCfgE2e (Written.cfg ps).attr = true ↔ OnlyWith testOption ps ∧ OnlyWith e2eOption ps) := by
  have honly : ∀ o, o ∈ ps.options ↔ OnlyWith o ps := by
    intro o
    unfold OnlyWith
    simp only [Preds.allHold_iff _ ps ha]
    constructor
    · intro h set hs
      exact hs o h
    · intro h
      refine Classical.byContradiction fun hno => ?_
      have := h (fun x => x != o) (by
        intro x hx
        simp only [bne_iff_ne]
        rintro rfl
        exact hno hx)
      simp at this
  have h := C94_recognised (.cfg ps) hl
  rw [h.1, h.2, ← honly, ← honly]
  unfold Written.Mentions
  simp

example : e2eExample.AllOnly := ⟨rfl, trivial, trivial⟩

/-- `#[cfg(not(test))]`: counts as one for tests, but guards code that is compiled for everything else. -/
theorem C94_negation_not :
    let ps : Preds := .last [] (.call .not [] (.last [] (.flag (chars! "test")) [])) []
    isCfgTest (Written.cfg ps).attr = true ∧ ∀ set, ps.allHold set = true → set testOption = false := by
  refine ⟨by decide, fun set h => ?_⟩
  simpa [Preds.allHold, Pred.holds, testOption] using h

/-- `#[cfg(any(test, std))]`: counts as one for tests, but the code it guards is compiled without as well. -/
theorem C94_negation_any :
    let ps : Preds := .last [] (.call .any [] (.cons [] (.flag (chars! "test")) []
      (.last (chars! " ") (.flag (chars! "std")) []))) []
    isCfgTest (Written.cfg ps).attr = true ∧ ¬ OnlyWith testOption ps := by
  refine ⟨by decide, fun h => ?_⟩
  have := h (fun o => o == .flag (chars! "std")) (by decide)
  revert this
  decide

/-- `#[cfg(all(test, not(feature = "e2e-tests")))]`: counts as one for e2e tests, but the code it guards is
never compiled with that feature. -/
theorem C94_negation_without :
    let ps : Preds := .last [] (.call .all [] (.cons [] (.flag (chars! "test")) [] (.last (chars! " ")
      (.call .not [] (.last [] (.value (chars! "feature") (chars! " ") (chars! " ")
        (chars! "\"e2e-tests\"")) [])) []))) []
    isCfgE2e (Written.cfg ps).attr = true ∧ ∀ set, ps.allHold set = true → set e2eOption = false := by
  refine ⟨by decide, fun set h => ?_⟩
  have h' : set (.flag (chars! "test")) = true ∧
      set (.value (chars! "feature") (chars! "\"e2e-tests\"")) = false := by
    simpa [Preds.allHold, Pred.holds] using h
  exact h'.2

/-- A module with `#[cfg(feature = "e2e-tests")]` in a module with `#[cfg(test)]` is compiled for e2e tests
only, but `ink_e2e::test` is not suggested there. -/
theorem C94_negation_split :
    let ps : Preds := .last [] (.flag (chars! "test")) []
    let qs : Preds := .last [] (.value (chars! "feature") (chars! " ") (chars! " ")
      (chars! "\"e2e-tests\"")) []
    OnlyWith testOption ps ∧ OnlyWith e2eOption qs ∧
      MacroKind.e2eTest ∉ suggestions [[(Written.cfg qs).attr], [(Written.cfg ps).attr]]
        [.test, .e2eTest] := by
  refine ⟨fun set h => ?_, fun set h => ?_, by decide⟩
  · simpa [Preds.allHold, Pred.holds, testOption] using h
  · simpa [Preds.allHold, Pred.holds, e2eOption] using h

/-- `#[cfg(feature = "(test)")]`: counts as one for tests because of the text of the string. -/
theorem C94_negation_string :
    let ps : Preds := .last [] (.value (chars! "feature") (chars! " ") (chars! " ")
      (chars! "\"(test)\"")) []
    isCfgTest (Written.cfg ps).attr = true ∧ testOption ∉ ps.options := by
  decide

/-- `#[cfg(test /* unit */)]`: does not count as one for tests, although a comment changes nothing. -/
theorem C94_negation_comment :
    let ps : Preds := .last [] (.flag (chars! "test")) (chars! " /* unit */")
    isCfgTest (Written.cfg ps).attr = false ∧ OnlyWith testOption ps := by
  refine ⟨by decide, fun set h => ?_⟩
  simpa [Preds.allHold, Pred.holds, testOption] using h

end Verif.Analyzer.Cfg
