import Verif.Ir.Token

/-!
# C27: the token under the cursor
-/

namespace Verif.Ir.Token

/-! ## Specification -/

/-- Text of a file. -/
def textOf (file : List Tok) : List Char := file.flatMap Tok.text

/-- Tokens are not empty. -/
def NonEmpty (file : List Tok) : Prop := ∀ t ∈ file, t.text ≠ []

/-- Token number `i` of the file touches the offset: its range, ends included, contains it. -/
def Touches (file : List Tok) (i offset : Nat) : Prop :=
  ∃ t, file[i]? = some t ∧ bytes (textOf (file.take i)) ≤ offset ∧
    offset ≤ bytes (textOf (file.take i)) + bytes t.text

/-- `t` is token number `t.index` of the file, at its place. -/
def Placed (file : List Tok) (t : At) : Prop :=
  file[t.index]? = some t.tok ∧ t.start = bytes (textOf (file.take t.index))

/-! ## Lemmas -/

theorem bytes_append (a b : List Char) : bytes (a ++ b) = bytes a + bytes b := by
  induction a with
  | nil => simp [bytes]
  | cons c a ih => simp [bytes, ih]; omega

theorem bytes_pos (a : List Char) (h : a ≠ []) : 0 < bytes a := by
  cases a with
  | nil => exact absurd rfl h
  | cons c a =>
    rw [bytes]
    have := Char.utf8Size_pos c
    omega

theorem place_getElem? (file : List Tok) (s k i : Nat) :
    (place s k file)[i]? = (file[i]?).map fun t => ⟨t, s + bytes (textOf (file.take i)), k + i⟩ := by
  induction file generalizing s k i with
  | nil => simp [place]
  | cons t ts ih =>
    rw [place]
    cases i with
    | zero => simp [textOf, bytes]
    | succ i =>
      simp only [List.getElem?_cons_succ, ih, List.take_succ_cons, textOf, List.flatMap_cons,
        bytes_append]
      congr 1
      funext x
      congr 1 <;> omega

theorem mem_place (file : List Tok) (t : At) : t ∈ place 0 0 file ↔ Placed file t := by
  constructor
  · intro h
    obtain ⟨i, hi⟩ := List.getElem?_of_mem h
    rw [place_getElem?, Option.map_eq_some_iff] at hi
    obtain ⟨x, hx, rfl⟩ := hi
    simp only [Nat.zero_add, Placed]
    exact ⟨hx, trivial⟩
  · rintro ⟨h1, h2⟩
    apply List.mem_of_getElem? (i := t.index)
    rw [place_getElem?, h1, Option.map_some]
    congr 1
    cases t
    simp_all

theorem touches_iff (file : List Tok) (t : At) (h : Placed file t) (off : Nat) :
    Touches file t.index off ↔ (t.start ≤ off ∧ off ≤ t.stop) := by
  obtain ⟨h1, h2⟩ := h
  unfold Touches At.stop
  rw [h1, h2]
  constructor
  · rintro ⟨x, hx, h⟩
    have := Option.some.inj hx
    subst this
    exact h
  · intro h
    exact ⟨_, rfl, h⟩

/-- Two tokens, the second later: the first ends before the second starts. -/
theorem place_ordered (file : List Tok) (s k : Nat) :
    (place s k file).Pairwise fun a b => a.stop ≤ b.start := by
  induction file generalizing s k with
  | nil => exact List.Pairwise.nil
  | cons t ts ih =>
    rw [place, List.pairwise_cons]
    refine ⟨?_, ih _ _⟩
    intro b hb
    obtain ⟨i, hi⟩ := List.getElem?_of_mem hb
    rw [place_getElem?, Option.map_eq_some_iff] at hi
    obtain ⟨x, hx, rfl⟩ := hi
    simp only [At.stop]
    omega

/-- Tokens touching the offset. -/
def touching (file : List Tok) (off : Nat) : List At :=
  (place 0 0 file).filter fun t => t.start ≤ off && off ≤ t.stop

theorem mem_touching (file : List Tok) (off : Nat) (t : At) :
    t ∈ touching file off ↔ Placed file t ∧ Touches file t.index off := by
  unfold touching
  rw [List.mem_filter, mem_place]
  constructor
  · rintro ⟨h1, h2⟩
    refine ⟨h1, ?_⟩
    rw [touches_iff file t h1]
    simpa using h2
  · rintro ⟨h1, h2⟩
    rw [touches_iff file t h1] at h2
    exact ⟨h1, by simpa using h2⟩

theorem touching_length (file : List Tok) (off : Nat) (hne : NonEmpty file) :
    (touching file off).length ≤ 2 := by
  have hp : (touching file off).Pairwise fun a b => a.stop ≤ b.start :=
    (place_ordered file 0 0).sublist List.filter_sublist
  have hm : ∀ t ∈ touching file off, t.start ≤ off ∧ off ≤ t.stop ∧ t.start < t.stop := by
    intro t ht
    obtain ⟨h1, h2⟩ := (mem_touching file off t).1 ht
    rw [touches_iff file t h1] at h2
    refine ⟨h2.1, h2.2, ?_⟩
    have := bytes_pos t.tok.text (hne t.tok (List.mem_of_getElem? h1.1))
    unfold At.stop
    omega
  match h : touching file off with
  | [] => simp
  | [_] => simp
  | [_, _] => simp
  | a :: b :: c :: rest =>
    exfalso
    rw [h] at hp hm
    have h1 := hm a (by simp)
    have h2 := hm b (by simp)
    have h3 := hm c (by simp)
    simp only [List.pairwise_cons, List.mem_cons, forall_eq_or_imp] at hp
    have h4 := hp.1.1
    have h5 := hp.2.1.1
    omega

theorem touching_exists (file : List Tok) (off : Nat) (hf : file ≠ [])
    (hoff : off ≤ bytes (textOf file)) : ∃ t, t ∈ touching file off := by
  have key : ∀ (file : List Tok) (s k : Nat), file ≠ [] → s ≤ off →
      off ≤ s + bytes (textOf file) →
      ∃ t ∈ place s k file, t.start ≤ off ∧ off ≤ t.stop := by
    intro file
    induction file with
    | nil => intro s k h; exact absurd rfl h
    | cons t ts ih =>
      intro s k _ hs ho
      rw [place]
      by_cases hle : off ≤ s + bytes t.text
      · exact ⟨⟨t, s, k⟩, by simp, hs, hle⟩
      · have hts : ts ≠ [] := by
          rintro rfl
          simp [textOf] at ho
          omega
        simp only [textOf, List.flatMap_cons, bytes_append] at ho
        obtain ⟨x, hx, h⟩ := ih (s + bytes t.text) (k + 1) hts (by omega)
          (by simp only [textOf]; omega)
        exact ⟨x, List.mem_cons_of_mem _ hx, h⟩
  obtain ⟨t, ht, h⟩ := key file 0 0 hf (Nat.zero_le _) (by omega)
  exact ⟨t, List.mem_filter.2 ⟨ht, by simpa using h⟩⟩

theorem splitAt_spec (cs pre post : List Char) (h : cs = pre ++ post) :
    splitAt cs (bytes pre) = some (pre, post) := by
  induction pre generalizing cs with
  | nil => subst h; simp [splitAt, bytes]
  | cons c pre ih =>
    subst h
    have hpos := Char.utf8Size_pos c
    obtain ⟨n, hn⟩ : ∃ n, bytes (c :: pre) = n + 1 := ⟨bytes (c :: pre) - 1, by rw [bytes]; omega⟩
    rw [hn, List.cons_append, splitAt]
    rw [bytes] at hn
    rw [if_pos (by omega), show n + 1 - c.utf8Size = bytes pre by omega, ih _ rfl]
    rfl

theorem splitAt_some (cs a b : List Char) (n : Nat) (h : splitAt cs n = some (a, b)) :
    cs = a ++ b ∧ bytes a = n := by
  induction cs generalizing n a with
  | nil =>
    cases n with
    | zero => simp [splitAt] at h; simp [h, bytes]
    | succ n => simp [splitAt] at h
  | cons c cs ih =>
    cases n with
    | zero => simp [splitAt] at h; simp [h.1, h.2, bytes]
    | succ n =>
      rw [splitAt] at h
      split at h
      · rename_i hle
        rw [Option.map_eq_some_iff] at h
        obtain ⟨⟨x, y⟩, hxy, he⟩ := h
        simp only [Prod.mk.injEq] at he
        obtain ⟨rfl, rfl⟩ := he
        obtain ⟨h1, h2⟩ := ih x _ hxy
        exact ⟨by rw [h1]; rfl, by rw [bytes, h2]; omega⟩
      · simp at h

theorem append_split {a b c d : List Char} (h : a ++ b = c ++ d) (hl : bytes a ≤ bytes c) :
    ∃ x, c = a ++ x ∧ b = x ++ d := by
  rcases List.append_eq_append_iff.1 h with ⟨x, h1, h2⟩ | ⟨x, h1, h2⟩
  · exact ⟨x, h1, h2⟩
  · rw [h1, bytes_append] at hl
    have hx : x = [] := by
      cases x with
      | nil => rfl
      | cons y ys => have := bytes_pos (y :: ys) (by simp); omega
    subst hx
    exact ⟨[], by simpa using h1.symm, by simpa using h2.symm⟩

theorem text_split (file : List Tok) (i : Nat) (t : Tok) (h : file[i]? = some t) :
    textOf file = textOf (file.take i) ++ (t.text ++ textOf (file.drop (i + 1))) := by
  obtain ⟨hi, rfl⟩ := List.getElem?_eq_some_iff.1 h
  have h2 : file = file.take i ++ file[i] :: file.drop (i + 1) := by
    rw [← List.drop_eq_getElem_cons hi, List.take_append_drop]
  have h3 := congrArg textOf h2
  rw [h3]
  unfold textOf
  rw [List.flatMap_append, List.flatMap_cons]

/-! ## Theorems -/

/-- Inside the file the lookup never fails, and there is a focused token unless the file is
empty. -/
theorem C27_total (file : List Tok) (off : Nat) (hoff : off ≤ bytes (textOf file)) :
    ∃ a, tokenAt file off = some a ∧ (a.focused.isSome = true ↔ file ≠ []) := by
  have hto : tokenAt file off = some (.ofTouching (touching file off)) := if_pos hoff
  rw [hto]
  have hnil : (touching file off) = [] ↔ file = [] := by
    constructor
    · intro h
      false_or_by_contra
      rename_i hf
      obtain ⟨t, ht⟩ := touching_exists file off hf hoff
      rw [h] at ht
      simp at ht
    · rintro rfl
      rfl
  match h : touching file off with
  | [] =>
    rw [h] at hnil
    exact ⟨_, rfl, by simp [AtOffset.ofTouching, AtOffset.focused, hnil.1 rfl]⟩
  | [t] =>
    rw [h] at hnil
    exact ⟨_, rfl, by simp [AtOffset.ofTouching, AtOffset.focused]; intro hh; simpa using hnil.2 hh⟩
  | l :: r :: _ =>
    rw [h] at hnil
    refine ⟨_, rfl, ?_⟩
    constructor
    · intro _ hh
      simpa using hnil.2 hh
    · intro _
      simp only [AtOffset.ofTouching, AtOffset.focused]
      split <;> rfl

theorem focused_cases (file : List Tok) (off : Nat) (a : AtOffset) (t : At)
    (ha : tokenAt file off = some a) (ht : a.focused = some t) :
    (touching file off = [t]) ∨
    (∃ l r rest, touching file off = l :: r :: rest ∧
      ((t = r ∧ l.tok.trivia = true ∧ r.tok.trivia = false) ∨
       (t = l ∧ ¬ (l.tok.trivia = true ∧ r.tok.trivia = false)))) := by
  unfold tokenAt at ha
  split at ha
  · change some (AtOffset.ofTouching (touching file off)) = some a at ha
    match h : touching file off with
    | [] =>
      rw [h] at ha
      have := Option.some.inj ha
      subst this
      simp [AtOffset.ofTouching, AtOffset.focused] at ht
    | [x] =>
      rw [h] at ha
      have := Option.some.inj ha
      subst this
      have := Option.some.inj ht
      subst this
      exact Or.inl rfl
    | l :: r :: rest =>
      rw [h] at ha
      have := Option.some.inj ha
      subst this
      simp only [AtOffset.ofTouching, AtOffset.focused] at ht
      refine Or.inr ⟨l, r, rest, rfl, ?_⟩
      split at ht
      · rename_i hc
        have := Option.some.inj ht
        subst this
        simp at hc
        exact Or.inl ⟨rfl, hc⟩
      · rename_i hc
        have := Option.some.inj ht
        subst this
        refine Or.inr ⟨rfl, ?_⟩
        simpa using hc
  · simp at ha

/-- The focused token is a token of the file that touches the cursor. -/
theorem C27_touches (file : List Tok) (off : Nat) (a : AtOffset) (t : At)
    (ha : tokenAt file off = some a) (ht : a.focused = some t) :
    Placed file t ∧ Touches file t.index off := by
  rw [← mem_touching]
  rcases focused_cases file off a t ha ht with h | ⟨l, r, rest, h, h' | h'⟩
  · rw [h]; simp
  · rw [h, h'.1]; simp
  · rw [h, h'.1]; simp

/-- A non-trivia token is preferred: the focused token is trivia only if every token that
touches the cursor is. -/
theorem C27_prefer (file : List Tok) (off : Nat) (hne : NonEmpty file) (a : AtOffset) (t : At)
    (ha : tokenAt file off = some a) (ht : a.focused = some t) (htr : t.tok.trivia = true)
    (i : Nat) (x : Tok) (hx : file[i]? = some x) (hi : Touches file i off) : x.trivia = true := by
  have hmem : (⟨x, bytes (textOf (file.take i)), i⟩ : At) ∈ touching file off :=
    (mem_touching _ _ _).2 ⟨⟨hx, rfl⟩, hi⟩
  have hlen := touching_length file off hne
  rcases focused_cases file off a t ha ht with h | ⟨l, r, rest, h, h' | h'⟩
  · rw [h, List.mem_singleton] at hmem
    rw [← hmem] at htr
    exact htr
  · rw [h'.1] at htr
    rw [h'.2.2] at htr
    simp at htr
  · obtain ⟨rfl, h''⟩ := h'
    rw [h] at hmem hlen
    have hrest : rest = [] := by
      cases rest with
      | nil => rfl
      | cons _ _ => simp at hlen
    subst hrest
    simp only [List.mem_cons, List.not_mem_nil, or_false] at hmem
    rcases hmem with hmem | hmem
    · rw [← hmem] at htr
      exact htr
    · rw [← hmem] at h''
      simp only [not_and, Bool.not_eq_false] at h''
      exact h'' htr

/-- Left bias: if the focused token is not the leftmost token touching the cursor, that one
is trivia. -/
theorem C27_left (file : List Tok) (off : Nat) (a : AtOffset) (t : At)
    (ha : tokenAt file off = some a) (ht : a.focused = some t) (i : Nat) (x : Tok)
    (hx : file[i]? = some x) (hi : Touches file i off) (hlt : i < t.index) :
    x.trivia = true ∧ t.tok.trivia = false := by
  have hmem : (⟨x, bytes (textOf (file.take i)), i⟩ : At) ∈ touching file off :=
    (mem_touching _ _ _).2 ⟨⟨hx, rfl⟩, hi⟩
  have hidx : (touching file off).Pairwise fun a b => a.index < b.index := by
    have : ∀ (ts : List Tok) (s k : Nat), (place s k ts).Pairwise fun a b => a.index < b.index := by
      intro ts
      induction ts with
      | nil => intro s k; exact List.Pairwise.nil
      | cons t ts ih =>
        intro s k
        rw [place, List.pairwise_cons]
        refine ⟨?_, ih _ _⟩
        intro b hb
        obtain ⟨i, hi⟩ := List.getElem?_of_mem hb
        rw [place_getElem?, Option.map_eq_some_iff] at hi
        obtain ⟨x, hx, rfl⟩ := hi
        simp only []
        omega
    exact (this file 0 0).sublist List.filter_sublist
  rcases focused_cases file off a t ha ht with h | ⟨l, r, rest, h, h' | h'⟩
  · rw [h, List.mem_singleton] at hmem
    rw [← hmem] at hlt
    simp at hlt
  · rw [h] at hmem hidx
    simp only [List.pairwise_cons, List.mem_cons, forall_eq_or_imp] at hidx
    rcases List.mem_cons.1 hmem with hm | hm
    · rw [h'.1]
      refine ⟨?_, h'.2.2⟩
      rw [← hm] at h'
      exact h'.2.1
    · exfalso
      rw [h'.1] at hlt
      rcases List.mem_cons.1 hm with hm | hm
      · rw [← hm] at hlt
        simp at hlt
      · have := hidx.2.1 _ hm
        simp only [] at this
        omega
  · exfalso
    rw [h] at hmem hidx
    simp only [List.pairwise_cons, List.mem_cons, forall_eq_or_imp] at hidx
    rw [h'.1] at hlt
    rcases List.mem_cons.1 hmem with hm | hm
    · rw [← hm] at hlt
      simp at hlt
    · rcases List.mem_cons.1 hm with hm | hm
      · have := hidx.1.1
        rw [← hm] at this
        simp only [] at this
        omega
      · have := hidx.1.2 _ hm
        simp only [] at this
        omega

/-- When the cursor is on a character boundary, prefix and suffix exist, concatenate to the
focused token's text, and meet at the cursor. -/
theorem C27_affixes (file : List Tok) (off : Nat) (before after : List Char)
    (hb : textOf file = before ++ after) (hoff : bytes before = off) (a : AtOffset) (t : At)
    (ha : tokenAt file off = some a) (ht : a.focused = some t) :
    ∃ p s, affixes a off = some (some (p, s)) ∧ p ++ s = t.tok.text ∧
      t.start + bytes p = off ∧ prefixOf (some (p, s)) = (if p = [] then none else some p) ∧
      suffixOf (some (p, s)) = (if s = [] then none else some s) := by
  obtain ⟨hpl, hto⟩ := C27_touches file off a t ha ht
  have hr := (touches_iff file t hpl off).1 hto
  obtain ⟨h1, h2⟩ := hpl
  have hs := text_split file t.index t.tok h1
  rw [hb] at hs
  obtain ⟨x, hx1, hx2⟩ := append_split hs.symm (by omega)
  obtain ⟨y, hy1, hy2⟩ := append_split (a := x) (b := after) (c := t.tok.text)
    (d := textOf (file.drop (t.index + 1))) hx2.symm (by
      have hxb := congrArg bytes hx1
      rw [bytes_append] at hxb
      unfold At.stop at hr
      omega)
  refine ⟨x, y, ?_, hy1.symm, ?_, ?_, ?_⟩
  · unfold affixes
    rw [ht]
    simp only []
    rw [if_pos hr.1]
    have : off - t.start = bytes x := by
      have hxb := congrArg bytes hx1
      rw [bytes_append] at hxb
      omega
    rw [this, splitAt_spec _ _ _ hy1]
    rfl
  · have hxb := congrArg bytes hx1
    rw [bytes_append] at hxb
    omega
  · simp only [prefixOf, Option.bind_some]
    split <;> simp_all
  · simp only [suffixOf, Option.bind_some]
    split <;> simp_all

/-- Whenever affixes are produced they concatenate to the token's text. -/
theorem C27_concat (a : AtOffset) (off : Nat) (p s : List Char)
    (h : affixes a off = some (some (p, s))) :
    ∃ t, a.focused = some t ∧ p ++ s = t.tok.text := by
  unfold affixes at h
  split at h
  · rename_i t ht
    split at h
    · rw [Option.map_eq_some_iff] at h
      obtain ⟨x, hx, he⟩ := h
      have := Option.some.inj he
      subst this
      exact ⟨t, ht, (splitAt_some _ _ _ _ hx).1.symm⟩
    · simp at h
  · simp at h

theorem closestWhich_find (p : α → Bool) (l : List α) : closestWhich p p l = l.find? p := by
  induction l with
  | nil => rfl
  | cons x xs ih =>
    rw [closestWhich, List.find?_cons]
    cases h : p x <;> simp [ih]

/-- The next non-trivia token: the nearest one to the right, if there is any. -/
theorem C27_next (file : List Tok) (t u : At) :
    nextNonTrivia file t = some u ↔
      Placed file u ∧ t.index < u.index ∧ u.tok.trivia = false ∧
      ∀ j x, t.index < j → j < u.index → file[j]? = some x → x.trivia = true := by
  unfold nextNonTrivia
  rw [closestWhich_find, List.find?_eq_some_iff_getElem]
  constructor
  · rintro ⟨h1, i, hi, hu, hall⟩
    have hu' : (place 0 0 file)[t.index + 1 + i]? = some u := by
      rw [← List.getElem?_drop]
      exact List.getElem?_eq_some_iff.2 ⟨hi, hu⟩
    have hpl := (mem_place file u).1 (List.mem_of_getElem? hu')
    rw [place_getElem?, Option.map_eq_some_iff] at hu'
    obtain ⟨x, hx, rfl⟩ := hu'
    refine ⟨hpl, by simp; omega, by simpa using h1, ?_⟩
    intro j y hj1 hj2 hy
    simp only [Nat.zero_add] at hj2
    have hj : j - (t.index + 1) < i := by omega
    have := hall _ hj
    have hj' : (place 0 0 file)[j]? = some ⟨y, 0 + bytes (textOf (file.take j)), 0 + j⟩ := by
      rw [place_getElem?, hy]; rfl
    rw [List.getElem_drop] at this
    have he : t.index + 1 + (j - (t.index + 1)) = j := by omega
    obtain ⟨hlt, hval⟩ := List.getElem?_eq_some_iff.1 hj'
    simp only [he, hval] at this
    simpa using this
  · rintro ⟨hpl, hlt, htr, hall⟩
    refine ⟨by simpa using htr, u.index - (t.index + 1), ?_⟩
    have hu : (place 0 0 file)[u.index]? = some u := by
      rw [place_getElem?, hpl.1, Option.map_some]
      congr 1
      cases u
      simp_all [Placed]
    obtain ⟨hl, hv⟩ := List.getElem?_eq_some_iff.1 hu
    refine ⟨by rw [List.length_drop]; omega, ?_, ?_⟩
    · rw [List.getElem_drop]
      have he : t.index + 1 + (u.index - (t.index + 1)) = u.index := by omega
      simp only [he, hv]
    · intro j hj
      rw [List.getElem_drop]
      have hjl : t.index + 1 + j < (place 0 0 file).length := by omega
      have hj' := List.getElem?_eq_getElem hjl
      rw [place_getElem?, Option.map_eq_some_iff] at hj'
      obtain ⟨x, hx, hxe⟩ := hj'
      rw [← hxe]
      simpa using hall _ x (by omega) (by omega) hx

/-- The previous non-trivia token: the nearest one to the left, if there is any. -/
theorem C27_prev (file : List Tok) (t u : At) :
    prevNonTrivia file t = some u ↔
      Placed file u ∧ u.index < t.index ∧ u.tok.trivia = false ∧
      ∀ j x, u.index < j → j < t.index → file[j]? = some x → x.trivia = true := by
  unfold prevNonTrivia
  rw [closestWhich_find, List.find?_eq_some_iff_append]
  constructor
  · rintro ⟨h1, as, bs, hsplit, hall⟩
    have htake : (place 0 0 file).take t.index = bs.reverse ++ u :: as.reverse := by
      have := congrArg List.reverse hsplit
      simpa using this
    have hu : ((place 0 0 file).take t.index)[bs.length]? = some u := by
      rw [htake, List.getElem?_append_right (by simp)]
      simp
    obtain ⟨hlt, hu⟩ : bs.length < t.index ∧ (place 0 0 file)[bs.length]? = some u := by
      rw [List.getElem?_take] at hu
      split at hu
      · rename_i hlt; exact ⟨hlt, hu⟩
      · simp at hu
    have hpl := (mem_place file u).1 (List.mem_of_getElem? hu)
    have hidx : u.index = bs.length := by
      rw [place_getElem?, Option.map_eq_some_iff] at hu
      obtain ⟨x, hx, rfl⟩ := hu
      simp
    refine ⟨hpl, by omega, by simpa using h1, ?_⟩
    intro j y hj1 hj2 hy
    have hj' : (place 0 0 file)[j]? = some ⟨y, 0 + bytes (textOf (file.take j)), 0 + j⟩ := by
      rw [place_getElem?, hy]; rfl
    have hjt : ((place 0 0 file).take t.index)[j]? =
        some ⟨y, 0 + bytes (textOf (file.take j)), 0 + j⟩ := by
      rw [List.getElem?_take, if_pos hj2, hj']
    rw [htake, List.getElem?_append_right (by simp; omega), List.length_reverse] at hjt
    obtain ⟨k, hk⟩ : ∃ k, j - bs.length = k + 1 := ⟨j - bs.length - 1, by omega⟩
    rw [hk, List.getElem?_cons_succ] at hjt
    have hmem : _ ∈ as := List.mem_reverse.1 (List.mem_of_getElem? hjt)
    have := hall _ hmem
    simpa using this
  · rintro ⟨hpl, hlt, htr, hall⟩
    have hu : (place 0 0 file)[u.index]? = some u := by
      rw [place_getElem?, hpl.1, Option.map_some]
      congr 1
      cases u
      simp_all [Placed]
    obtain ⟨hl, hv⟩ := List.getElem?_eq_some_iff.1 hu
    refine ⟨by simpa using htr, (((place 0 0 file).take t.index).drop (u.index + 1)).reverse,
      ((place 0 0 file).take u.index).reverse, ?_, ?_⟩
    · have hl' : u.index < ((place 0 0 file).take t.index).length := by
        rw [List.length_take]; omega
      have h2 : (place 0 0 file).take t.index = ((place 0 0 file).take t.index).take u.index ++
          ((place 0 0 file).take t.index)[u.index] :: ((place 0 0 file).take t.index).drop (u.index + 1) := by
        rw [← List.drop_eq_getElem_cons hl', List.take_append_drop]
      rw [List.getElem_take, hv, List.take_take, Nat.min_eq_left (by omega)] at h2
      conv => lhs; rw [h2]
      simp
    · intro a ha
      rw [List.mem_reverse] at ha
      obtain ⟨k, hk⟩ := List.getElem?_of_mem ha
      rw [List.getElem?_drop, List.getElem?_take] at hk
      split at hk
      · rename_i hkt
        rw [place_getElem?, Option.map_eq_some_iff] at hk
        obtain ⟨x, hx, rfl⟩ := hk
        simpa using hall _ x (by omega) hkt hx
      · simp at hk

/-! Non-vacuity: `a |b` with the cursor before `b`. -/

/-- Sample file. -/
def sampleFile : List Tok := [⟨false, ['a']⟩, ⟨true, [' ']⟩, ⟨false, ['é', 'b']⟩]

example : ∃ a t, tokenAt sampleFile 2 = some a ∧ a.focused = some t ∧ t.index = 2 ∧
    NonEmpty sampleFile ∧ tokenAt sampleFile 1 ≠ none := by
  refine ⟨.between ⟨⟨true, [' ']⟩, 1, 1⟩ ⟨⟨false, ['é', 'b']⟩, 2, 2⟩, _, by decide, rfl, rfl, ?_,
    by decide⟩
  intro t ht
  simp [sampleFile] at ht
  rcases ht with rfl | rfl | rfl <;> simp

example : textOf sampleFile = ['a', ' ', 'é'] ++ ['b'] ∧ bytes ['a', ' ', 'é'] = 4 ∧
    (tokenAt sampleFile 4).bind (affixes · 4) = some (some (['é'], ['b'])) := by decide

example : nextNonTrivia sampleFile ⟨⟨false, ['a']⟩, 0, 0⟩ =
    some ⟨⟨false, ['é', 'b']⟩, 2, 2⟩ := by decide

example : prevNonTrivia sampleFile ⟨⟨false, ['é', 'b']⟩, 2, 2⟩ =
    some ⟨⟨false, ['a']⟩, 0, 0⟩ := by decide

end Verif.Ir.Token
