import Verif.Analyzer.Scale

/-!
# C48: SCALE codec traits
-/

namespace Verif.Analyzer

open Verif.Ir

/-! ## Specification -/

/-- A text is one of the comma separated entries of a list (spaces are ignored). -/
def Entry (text p : List Char) : Prop :=
  ∃ entries : List (List Char), (∀ e ∈ entries, ',' ∉ e) ∧ entries ≠ [] ∧
    text.filter (· ≠ ' ') = [','].intercalate entries ∧ p ∈ entries

/-- The documented path of a trait. -/
def ScaleTrait.documentedPath : ScaleTrait → List Char
  | .encode => ['s', 'c', 'a', 'l', 'e', ':', ':', 'E', 'n', 'c', 'o', 'd', 'e']
  | .decode => ['s', 'c', 'a', 'l', 'e', ':', ':', 'D', 'e', 'c', 'o', 'd', 'e']
  | .typeInfo => ['s', 'c', 'a', 'l', 'e', '_', 'i', 'n', 'f', 'o', ':', ':',
      'T', 'y', 'p', 'e', 'I', 'n', 'f', 'o']

/-- The argument of `ink::scale_derive` that derives a trait. -/
def ScaleTrait.keyword : ScaleTrait → ArgKind
  | .encode => .encode
  | .decode => .decode
  | .typeInfo => .typeInfo

/-- An attribute provides a trait. The attribute `ink::scale_derive` exists in version 5. -/
def DAttr.Provides (E : ScaleEnv) (v : Version) (t : ScaleTrait) : DAttr → Prop
  | .scaleDerive args => v = .v5 ∧ t.keyword ∈ args
  | .derive (some text) => ∃ p, Entry text p ∧ E.isTrait t p = true
  | .cfgAttr (some texts) => ∃ text ∈ texts, ∃ p, Entry text p ∧ E.isTrait t p = true
  | _ => False

/-- A type has a trait: by an implementation or by one of its attributes. -/
def HasTrait (E : ScaleEnv) (v : Version) (attrs : List DAttr) (impl : ScaleTrait → Bool)
    (t : ScaleTrait) : Prop :=
  impl t = true ∨ ∃ a ∈ attrs, a.Provides E v t

/-- The documented paths name the traits, the empty text does not, white space in front of a path does not matter, and a
comma is not white space. -/
structure ScaleEnv.Lawful (E : ScaleEnv) : Prop where
  path : ∀ t : ScaleTrait, E.isTrait t t.documentedPath = true
  empty : ∀ t : ScaleTrait, E.isTrait t [] = false
  lead : ∀ t w p, (∀ c ∈ w, E.isWs c = true) → E.isTrait t (w ++ p) = E.isTrait t p
  comma : E.isWs ',' = false

/-! ## Splitting -/

theorem path_eq (t : ScaleTrait) : t.path = t.documentedPath := by cases t <;> decide +kernel

theorem argKind_eq (t : ScaleTrait) : t.argKind = t.keyword := by cases t <;> rfl

theorem splitComma_ne (t : List Char) : splitComma t ≠ [] := by
  cases t with
  | nil => simp [splitComma]
  | cons c cs =>
    unfold splitComma
    split
    · simp
    · split <;> simp

theorem splitComma_append (a b : List Char) :
    splitComma (a ++ ',' :: b) = splitComma a ++ splitComma b := by
  induction a with
  | nil => simp [splitComma]
  | cons c a ih =>
    by_cases hc : c = ','
    · simp [splitComma, hc, ih]
    · rw [List.cons_append, splitComma, if_neg hc, ih, splitComma, if_neg hc]
      cases h : splitComma a with
      | nil => exact absurd h (splitComma_ne a)
      | cons w ws => rfl

theorem splitComma_word (w : List Char) (h : ',' ∉ w) : splitComma w = [w] := by
  induction w with
  | nil => rfl
  | cons c w ih =>
    simp only [List.mem_cons, not_or] at h
    unfold splitComma
    rw [if_neg (fun hc => h.1 hc.symm), ih h.2]

theorem splitComma_lead (w b : List Char) (h : ',' ∉ w) :
    ∃ x xs, splitComma b = x :: xs ∧ splitComma (w ++ b) = (w ++ x) :: xs := by
  induction w with
  | nil =>
    cases hb : splitComma b with
    | nil => exact absurd hb (splitComma_ne b)
    | cons x xs => exact ⟨x, xs, rfl, by simpa using hb⟩
  | cons c w ih =>
    simp only [List.mem_cons, not_or] at h
    obtain ⟨x, xs, h1, h2⟩ := ih h.2
    refine ⟨x, xs, h1, ?_⟩
    rw [List.cons_append, splitComma, if_neg (fun hc => h.1 hc.symm), h2]
    rfl

theorem splitComma_intercalate (l : List (List Char)) (h : ∀ e ∈ l, ',' ∉ e) (hl : l ≠ []) :
    splitComma ([','].intercalate l) = l := by
  induction l with
  | nil => exact absurd rfl hl
  | cons a l ih =>
    cases l with
    | nil =>
      have : [','].intercalate [a] = a := by simp [List.intercalate, List.intersperse]
      rw [this, splitComma_word a (h a (by simp))]
    | cons b l =>
      have : [','].intercalate (a :: b :: l) = a ++ ',' :: [','].intercalate (b :: l) := by
        simp [List.intercalate, List.intersperse]
      rw [this, splitComma_append, splitComma_word a (h a (by simp)),
        ih (fun e he => h e (by simp [he])) (by simp)]
      rfl

theorem splitComma_words (t : List Char) :
    (∀ e ∈ splitComma t, ',' ∉ e) ∧ t = [','].intercalate (splitComma t) := by
  induction t with
  | nil => exact ⟨by simp [splitComma], rfl⟩
  | cons c t ih =>
    obtain ⟨h1, h2⟩ := ih
    by_cases hc : c = ','
    · subst hc
      rw [show splitComma (',' :: t) = [] :: splitComma t by simp [splitComma]]
      refine ⟨?_, ?_⟩
      · intro e he
        rcases List.mem_cons.1 he with rfl | he
        · simp
        · exact h1 e he
      · cases hs : splitComma t with
        | nil => exact absurd hs (splitComma_ne t)
        | cons w ws =>
          rw [hs] at h2
          simp only [List.intercalate, List.intersperse, List.flatten_cons, List.nil_append,
            List.singleton_append] at h2 ⊢
          rw [← h2]
    · cases hs : splitComma t with
      | nil => exact absurd hs (splitComma_ne t)
      | cons w ws =>
        have : splitComma (c :: t) = (c :: w) :: ws := by
          rw [splitComma, if_neg hc, hs]
        rw [this]
        rw [hs] at h1 h2
        refine ⟨?_, ?_⟩
        · intro e he
          rcases List.mem_cons.1 he with rfl | he
          · simp only [List.mem_cons, not_or]
            exact ⟨fun h => hc h.symm, h1 w (by simp)⟩
          · exact h1 e (by simp [he])
        · rw [h2]
          cases ws <;> simp [List.intercalate, List.intersperse]

theorem mem_metaPaths (text p : List Char) : p ∈ metaPaths text ↔ Entry text p := by
  unfold metaPaths Entry
  constructor
  · intro h
    obtain ⟨h1, h2⟩ := splitComma_words (text.filter (· ≠ ' '))
    exact ⟨_, h1, splitComma_ne _, h2, h⟩
  · rintro ⟨l, h1, h2, h3, h4⟩
    rw [h3, splitComma_intercalate l h1 h2]
    exact h4

/-! ## The new text -/

theorem path_clean (t : ScaleTrait) : ',' ∉ t.path ∧ ' ' ∉ t.path := by
  cases t <;> decide

theorem filter_plain (l : List ScaleTrait) :
    (traitPathsPlain l).filter (· ≠ ' ') = [','].intercalate (l.map (·.path)) := by
  have hpath : ∀ t : ScaleTrait, t.path.filter (· ≠ ' ') = t.path := by
    intro t
    rw [List.filter_eq_self]
    intro c hc
    have := (path_clean t).2
    simp only [ne_eq, decide_eq_true_eq]
    rintro rfl
    exact this hc
  unfold traitPathsPlain
  induction l with
  | nil => rfl
  | cons t l ih =>
    cases l with
    | nil =>
      have h := hpath t
      simpa [List.intercalate, List.intersperse] using h
    | cons t2 l =>
      have h1 : ∀ (s : List Char) (a b : List Char) (r : List (List Char)),
          s.intercalate (a :: b :: r) = a ++ (s ++ s.intercalate (b :: r)) := by
        intro s a b r
        simp [List.intercalate, List.intersperse]
      simp only [List.map_cons] at ih ⊢
      rw [h1, h1, List.filter_append, List.filter_append, ih, hpath t]
      rfl

theorem metaPaths_plain (l : List ScaleTrait) (hl : l ≠ []) :
    metaPaths (traitPathsPlain l) = l.map (·.path) := by
  unfold metaPaths
  rw [filter_plain, splitComma_intercalate]
  · intro e he
    obtain ⟨t, _, rfl⟩ := List.mem_map.1 he
    exact (path_clean t).1
  · simpa using hl

theorem trimEnd_split (isWs : Char → Bool) (t : List Char) :
    ∃ w, t = trimEnd isWs t ++ w ∧ ∀ c ∈ w, isWs c = true := by
  refine ⟨(t.reverse.takeWhile isWs).reverse, ?_, ?_⟩
  · unfold trimEnd
    rw [← List.reverse_append, List.takeWhile_append_dropWhile, List.reverse_reverse]
  · intro c hc
    rw [List.mem_reverse] at hc
    have : ∀ (l : List Char), c ∈ l.takeWhile isWs → isWs c = true := by
      intro l
      induction l with
      | nil => simp
      | cons d l ih =>
        rw [List.takeWhile_cons]
        split
        · rename_i hd
          intro h
          rcases List.mem_cons.1 h with rfl | h
          · exact hd
          · exact ih h
        · simp
    exact this _ hc

/-- The entries of the old text stay entries (up to the position of white space), and the missing
paths are added. -/
theorem metaPaths_prefix (E : ScaleEnv) (hE : E.Lawful) (text : List Char) (l : List ScaleTrait)
    (hl : l ≠ []) (t : ScaleTrait) :
    (metaPaths (metaPrefix E text ++ traitPathsPlain l)).any (E.isTrait t) =
      ((metaPaths text).any (E.isTrait t) || (l.map (·.path)).any (E.isTrait t)) := by
  unfold metaPrefix
  by_cases hlast : (trimEnd E.isWs text).getLast? = some ','
  · rw [if_pos hlast, List.append_nil]
    obtain ⟨w, hw1, hw2⟩ := trimEnd_split E.isWs text
    rcases List.eq_nil_or_concat (trimEnd E.isWs text) with hn | ⟨m, c, hm⟩
    · rw [hn] at hlast
      cases hlast
    · rw [hm, List.concat_eq_append, List.getLast?_concat] at hlast
      obtain rfl := Option.some.inj hlast
      rw [List.concat_eq_append] at hm
      rw [hm] at hw1
      have hwf : ∀ c ∈ w.filter (· ≠ ' '), E.isWs c = true := fun c hc =>
        hw2 c (List.mem_filter.1 hc).1
      have hwc : ',' ∉ w.filter (· ≠ ' ') := by
        intro h
        have := hwf _ h
        rw [hE.comma] at this
        cases this
      have e1 : metaPaths text = splitComma (m.filter (· ≠ ' ')) ++ [w.filter (· ≠ ' ')] := by
        unfold metaPaths
        rw [hw1, List.append_assoc, List.filter_append, List.filter_append]
        have : [','].filter (fun c : Char => decide (c ≠ ' ')) = [','] := by decide
        rw [this, List.singleton_append, splitComma_append, splitComma_word _ hwc]
      have e2 : ∃ x xs, l.map (·.path) = x :: xs ∧
          metaPaths (text ++ traitPathsPlain l) =
            splitComma (m.filter (· ≠ ' ')) ++ (w.filter (· ≠ ' ') ++ x) :: xs := by
        obtain ⟨x, xs, h1, h2⟩ := splitComma_lead (w.filter (· ≠ ' '))
          ((traitPathsPlain l).filter (· ≠ ' ')) hwc
        refine ⟨x, xs, ?_, ?_⟩
        · rw [← metaPaths_plain l hl]
          exact h1
        · unfold metaPaths
          rw [hw1, List.append_assoc, List.append_assoc, List.filter_append, List.filter_append,
            List.filter_append]
          have : [','].filter (fun c : Char => decide (c ≠ ' ')) = [','] := by decide
          rw [this, List.singleton_append, splitComma_append, h2]
      obtain ⟨x, xs, h1, h2⟩ := e2
      rw [h2, h1, e1]
      simp only [List.any_append, List.any_cons, List.any_nil, Bool.or_false,
        hE.lead t _ x hwf]
      have hnil : E.isTrait t (w.filter (· ≠ ' ')) = E.isTrait t [] := by
        have := hE.lead t _ [] hwf
        rwa [List.append_nil] at this
      rw [hnil, hE.empty t]
      simp
  · rw [if_neg hlast]
    unfold metaPaths
    rw [List.append_assoc, List.filter_append, List.filter_append]
    have : [',', ' '].filter (fun c : Char => decide (c ≠ ' ')) = [','] := by decide
    rw [this, List.singleton_append, splitComma_append, List.any_append]
    congr 1
    have := metaPaths_plain l hl
    unfold metaPaths at this
    rw [this]

/-! ## The check -/

theorem derive_provides (E : ScaleEnv) (v : Version) (t : ScaleTrait) (text : List Char) :
    (DAttr.derive (some text)).Provides E v t ↔ (metaPaths text).any (E.isTrait t) = true := by
  simp only [DAttr.Provides, List.any_eq_true, mem_metaPaths]

theorem cfg_provides (E : ScaleEnv) (v : Version) (t : ScaleTrait) (texts : List (List Char)) :
    (DAttr.cfgAttr (some texts)).Provides E v t ↔
      (texts.flatMap metaPaths).any (E.isTrait t) = true := by
  simp only [DAttr.Provides, List.any_eq_true, List.mem_flatMap, mem_metaPaths]
  constructor
  · rintro ⟨x, hx, p, hp, h⟩
    exact ⟨p, ⟨x, hx, hp⟩, h⟩
  · rintro ⟨p, ⟨x, hx, hp⟩, h⟩
    exact ⟨x, hx, p, hp, h⟩

theorem has_of_not_missing (E : ScaleEnv) (v : Version) (attrs : List DAttr)
    (impl : ScaleTrait → Bool) (t : ScaleTrait) (h : scaleMissing E v attrs impl t = false) :
    HasTrait E v attrs impl t := by
  unfold scaleMissing at h
  simp only [Bool.and_eq_false_iff, Bool.not_eq_false'] at h
  rcases h with (h | h) | h
  · right
    unfold scaleDeriveArgs at h
    split at h
    · rename_i hv
      cases hf : attrs.findSome? (·.scaleArgs?) with
      | none => rw [hf] at h; cases h
      | some args =>
        rw [hf] at h
        obtain ⟨a, ha, h2⟩ := List.exists_of_findSome?_eq_some hf
        refine ⟨a, ha, ?_⟩
        cases a with
        | scaleDerive args' =>
          obtain rfl : args' = args := Option.some.inj h2
          exact ⟨hv, by simpa [argKind_eq] using h⟩
        | derive _ => cases h2
        | cfgAttr _ => cases h2
        | other => cases h2
    · cases h
  · right
    unfold derivedItems at h
    rw [List.any_append, Bool.or_eq_true] at h
    rcases h with h | h
    · unfold standaloneMeta at h
      cases hf : attrs.findSome? (·.deriveText?) with
      | none => rw [hf] at h; cases h
      | some text =>
        rw [hf] at h
        cases text with
        | none => cases h
        | some text =>
          obtain ⟨a, ha, h2⟩ := List.exists_of_findSome?_eq_some hf
          refine ⟨a, ha, ?_⟩
          cases a with
          | derive x =>
            obtain rfl : x = some text := Option.some.inj h2
            exact (derive_provides E v t text).2 h
          | scaleDerive _ => cases h2
          | cfgAttr _ => cases h2
          | other => cases h2
    · cases hf : attrs.findSome? (·.conditional?) with
      | none => rw [hf] at h; cases h
      | some l =>
        rw [hf] at h
        obtain ⟨a, ha, h2⟩ := List.exists_of_findSome?_eq_some hf
        refine ⟨a, ha, ?_⟩
        cases a with
        | cfgAttr x =>
          cases x with
          | none => cases h2
          | some texts =>
            obtain rfl : texts.flatMap metaPaths = l := Option.some.inj h2
            exact (cfg_provides E v t texts).2 h
        | scaleDerive _ => cases h2
        | derive _ => cases h2
        | other => cases h2
  · exact .inl h

theorem mem_unimplemented (E : ScaleEnv) (v : Version) (attrs : List DAttr)
    (impl : ScaleTrait → Bool) (t : ScaleTrait) :
    t ∈ scaleUnimplemented E v attrs impl ↔ scaleMissing E v attrs impl t = true := by
  unfold scaleUnimplemented
  rw [List.mem_filter]
  exact ⟨fun h => h.2, fun h => ⟨by cases t <;> decide, h⟩⟩

/-- A trait is named by an attribute of the list other than the one at the given position. -/
def ProvidedBeside (E : ScaleEnv) (v : Version) (attrs : List DAttr) (i : Nat) (t : ScaleTrait) :
    Prop := ∃ j a, j ≠ i ∧ attrs[j]? = some a ∧ a.Provides E v t

theorem has_set (E : ScaleEnv) (v : Version) (attrs : List DAttr) (impl : ScaleTrait → Bool)
    (i : Nat) (hi : i < attrs.length) (a : DAttr) (t : ScaleTrait) :
    HasTrait E v (attrs.set i a) impl t ↔
      impl t = true ∨ a.Provides E v t ∨ ProvidedBeside E v attrs i t := by
  unfold HasTrait ProvidedBeside
  constructor
  · rintro (h | ⟨b, hb, h⟩)
    · exact .inl h
    · obtain ⟨j, hj⟩ := List.mem_iff_getElem?.1 hb
      rw [List.getElem?_set] at hj
      by_cases hij : i = j
      · rw [if_pos hij, if_pos (hij ▸ hi)] at hj
        obtain rfl := Option.some.inj hj
        exact .inr (.inl h)
      · rw [if_neg hij] at hj
        exact .inr (.inr ⟨j, b, fun h => hij h.symm, hj, h⟩)
  · rintro (h | h | ⟨j, b, hji, hj, h⟩)
    · exact .inl h
    · exact .inr ⟨a, List.mem_iff_getElem?.2 ⟨i, by simp [hi]⟩, h⟩
    · refine .inr ⟨b, List.mem_iff_getElem?.2 ⟨j, ?_⟩, h⟩
      rw [List.getElem?_set, if_neg (fun h => hji h.symm)]
      exact hj

theorem has_split (E : ScaleEnv) (v : Version) (attrs : List DAttr) (impl : ScaleTrait → Bool)
    (i : Nat) (a : DAttr) (hi : attrs[i]? = some a) (t : ScaleTrait) :
    HasTrait E v attrs impl t ↔
      impl t = true ∨ a.Provides E v t ∨ ProvidedBeside E v attrs i t := by
  obtain ⟨hlt, he⟩ := List.getElem?_eq_some_iff.1 hi
  have := has_set E v attrs impl i hlt a t
  rw [← he, List.set_getElem_self] at this
  rw [← he]
  exact this

/-- The attribute that is replaced in version 4. -/
theorem target_v4 (attrs : List DAttr) (i : Nat) (h : targetAttr .v4 attrs = some i) :
    ∃ text, attrs[i]? = some (.derive text) ∧ standaloneMeta attrs = text ∧
      ∀ a, (attrs.set i (.derive a)).findSome? (·.deriveText?) = some a := by
  unfold targetAttr at h
  rw [if_neg (by decide)] at h
  induction attrs generalizing i with
  | nil => simp at h
  | cons b attrs ih =>
    rw [List.findIdx?_cons] at h
    cases b with
    | derive text =>
      simp only [DAttr.deriveText?, Option.isSome_some, if_true, Option.some.injEq] at h
      subst h
      refine ⟨text, rfl, ?_, fun a => ?_⟩
      · simp [standaloneMeta, DAttr.deriveText?]
      · simp [DAttr.deriveText?]
    | scaleDerive _ | cfgAttr _ | other =>
      simp only [DAttr.deriveText?, Option.isSome_none, Bool.false_eq_true, if_false,
        Option.map_eq_some_iff] at h
      obtain ⟨j, hj, rfl⟩ := h
      obtain ⟨text, h1, h2, h3⟩ := ih j hj
      refine ⟨text, by simpa using h1, ?_, fun a => ?_⟩
      · simpa [standaloneMeta, DAttr.deriveText?] using h2
      · simpa [DAttr.deriveText?] using h3 a

theorem target_v4_none (attrs : List DAttr) (h : targetAttr .v4 attrs = none) :
    standaloneMeta attrs = none ∧ attrs.findSome? (·.deriveText?) = none := by
  unfold targetAttr at h
  rw [if_neg (by decide), List.findIdx?_eq_none_iff] at h
  have : attrs.findSome? (·.deriveText?) = none := by
    rw [List.findSome?_eq_none_iff]
    intro a ha
    have := h a ha
    cases hd : a.deriveText? with
    | none => rfl
    | some _ => rw [hd] at this; cases this
  exact ⟨by unfold standaloneMeta; rw [this]; rfl, this⟩

/-- The new `derive` attribute of version 4 names what the old one named and what was missing. -/
theorem fixed_v4 (E : ScaleEnv) (hE : E.Lawful) (attrs : List DAttr) (l : List ScaleTrait)
    (hl : l ≠ []) (t : ScaleTrait) :
    ∃ text, fixedAttr E .v4 attrs l = .derive (some text) ∧
      (metaPaths text).any (E.isTrait t) =
        ((((standaloneMeta attrs).map metaPaths).getD []).any (E.isTrait t) ||
          (l.map (·.path)).any (E.isTrait t)) := by
  unfold fixedAttr
  rw [if_neg (by decide)]
  refine ⟨_, rfl, ?_⟩
  cases standaloneMeta attrs with
  | none =>
    simp only [Option.map_none, Option.getD_none, List.nil_append, List.any_nil, Bool.false_or]
    rw [metaPaths_plain l hl]
  | some text => exact metaPaths_prefix E hE text l hl t

theorem paths_any (E : ScaleEnv) (hE : E.Lawful) (l : List ScaleTrait) (t : ScaleTrait)
    (h : t ∈ l) : (l.map (·.path)).any (E.isTrait t) = true := by
  rw [List.any_eq_true]
  exact ⟨t.path, List.mem_map_of_mem h, path_eq t ▸ hE.path t⟩

/-! ## Theorems -/

/-- If nothing is reported, the type has all three traits. -/
theorem C48_silent (E : ScaleEnv) (v : Version) (attrs : List DAttr) (impl : ScaleTrait → Bool)
    (h : scaleFix E v attrs impl = none) : ∀ t, HasTrait E v attrs impl t := by
  intro t
  apply has_of_not_missing
  unfold scaleFix at h
  simp only at h
  split at h
  · rename_i he
    rw [Bool.eq_false_iff]
    intro hm
    have := (mem_unimplemented E v attrs impl t).2 hm
    rw [List.isEmpty_iff.1 he] at this
    cases this
  · split at h <;> cases h

/-- In version 4 the type has all three traits after the quickfix, and keeps every trait it had. -/
theorem C48_v4 (E : ScaleEnv) (hE : E.Lawful) (attrs : List DAttr) (impl : ScaleTrait → Bool)
    (attrs' : List DAttr) (h : scaleFix E .v4 attrs impl = some attrs') :
    ∀ t, HasTrait E .v4 attrs' impl t := by
  intro t
  unfold scaleFix at h
  simp only at h
  split at h
  · cases h
  · rename_i hne
    have hl : scaleUnimplemented E .v4 attrs impl ≠ [] := fun h' => hne (by rw [h']; rfl)
    obtain ⟨text, hf, hany⟩ := fixed_v4 E hE attrs _ hl t
    have hprov : t ∈ scaleUnimplemented E .v4 attrs impl →
        (fixedAttr E .v4 attrs (scaleUnimplemented E .v4 attrs impl)).Provides E .v4 t := by
      intro ht
      rw [hf, derive_provides, hany, paths_any E hE _ t ht, Bool.or_true]
    cases hm : scaleMissing E .v4 attrs impl t with
    | true =>
      have hp := hprov ((mem_unimplemented E .v4 attrs impl t).2 hm)
      cases ht : targetAttr .v4 attrs with
      | some i =>
        rw [ht] at h
        obtain rfl := Option.some.inj h
        obtain ⟨old, h1, _⟩ := target_v4 attrs i ht
        exact (has_set E .v4 attrs impl i (List.getElem?_eq_some_iff.1 h1).1 _ t).2 (.inr (.inl hp))
      | none =>
        rw [ht] at h
        obtain rfl := Option.some.inj h
        exact .inr ⟨_, by simp, hp⟩
    | false =>
      have hhas := has_of_not_missing E .v4 attrs impl t hm
      cases ht : targetAttr .v4 attrs with
      | some i =>
        rw [ht] at h
        obtain rfl := Option.some.inj h
        obtain ⟨old, h1, h2, _⟩ := target_v4 attrs i ht
        rw [has_set E .v4 attrs impl i (List.getElem?_eq_some_iff.1 h1).1 _ t]
        rcases (has_split E .v4 attrs impl i _ h1 t).1 hhas with g | g | g
        · exact .inl g
        · refine .inr (.inl ?_)
          cases old with
          | none => exact absurd g (by simp [DAttr.Provides])
          | some old =>
            rw [derive_provides] at g
            rw [hf, derive_provides, hany, h2]
            simp [g]
        · exact .inr (.inr g)
      | none =>
        rw [ht] at h
        obtain rfl := Option.some.inj h
        rcases hhas with g | ⟨a, ha, g⟩
        · exact .inl g
        · exact .inr ⟨a, by simp [ha], g⟩

/-- In version 4 the quickfix keeps every other attribute, and only adds text to a `derive`
attribute. -/
theorem C48_v4_kept (E : ScaleEnv) (attrs : List DAttr) (impl : ScaleTrait → Bool)
    (attrs' : List DAttr) (h : scaleFix E .v4 attrs impl = some attrs') :
    (∀ (i : Nat) (a : DAttr), attrs[i]? = some a → (∀ text, a ≠ .derive text) → attrs'[i]? = some a) ∧
    (∀ (i : Nat) (text : List Char), attrs[i]? = some (.derive (some text)) →
      ∃ new, attrs'[i]? = some (.derive (some (text ++ new)))) := by
  unfold scaleFix at h
  simp only at h
  split at h
  · cases h
  · cases ht : targetAttr .v4 attrs with
    | some k =>
      rw [ht] at h
      obtain rfl := Option.some.inj h
      obtain ⟨old, h1, h2, _⟩ := target_v4 attrs k ht
      refine ⟨fun i a hi hd => ?_, fun i text hi => ?_⟩
      · have hk : k ≠ i := by
          rintro rfl
          rw [h1] at hi
          exact hd old (Option.some.inj hi).symm
        rw [List.getElem?_set, if_neg hk]
        exact hi
      · by_cases hk : k = i
        · subst hk
          rw [h1] at hi
          obtain rfl : old = some text := by simpa using hi
          refine ⟨(if (trimEnd E.isWs text).getLast? = some ',' then [] else [',', ' ']) ++
            traitPathsPlain (scaleUnimplemented E .v4 attrs impl), ?_⟩
          rw [List.getElem?_set, if_pos rfl, if_pos (List.getElem?_eq_some_iff.1 h1).1]
          unfold fixedAttr metaPrefix
          rw [if_neg (by decide), h2]
          simp only [Option.map_some, Option.getD_some, List.append_assoc]
        · exact ⟨[], by rw [List.getElem?_set, if_neg hk, hi, List.append_nil]⟩
    | none =>
      rw [ht] at h
      obtain rfl := Option.some.inj h
      have key : ∀ (i : Nat) (a : DAttr) (x : List DAttr), attrs[i]? = some a →
          (attrs ++ x)[i]? = some a := by
        intro i a x hi
        rw [List.getElem?_append_left (List.getElem?_eq_some_iff.1 hi).1]
        exact hi
      exact ⟨fun i a hi _ => key i a _ hi,
        fun i text hi => ⟨[], by rw [key i _ _ hi, List.append_nil]⟩⟩

/-- In version 4 the check finds nothing to report after the quickfix. -/
theorem C48_v4_settled (E : ScaleEnv) (hE : E.Lawful) (attrs : List DAttr)
    (impl : ScaleTrait → Bool) (attrs' : List DAttr)
    (h : scaleFix E .v4 attrs impl = some attrs') : scaleFix E .v4 attrs' impl = none := by
  have hall : ∀ t, scaleMissing E .v4 attrs' impl t = false := by
    intro t
    unfold scaleFix at h
    simp only at h
    split at h
    · cases h
    · rename_i hne
      have hl : scaleUnimplemented E .v4 attrs impl ≠ [] := fun h' => hne (by rw [h']; rfl)
      obtain ⟨text, hf, hany⟩ := fixed_v4 E hE attrs _ hl t
      have hstand : standaloneMeta attrs' = some text ∧
          attrs'.findSome? (·.conditional?) = attrs.findSome? (·.conditional?) := by
        cases ht : targetAttr .v4 attrs with
        | some i =>
          rw [ht] at h
          obtain rfl := Option.some.inj h
          obtain ⟨old, h1, h2, h3⟩ := target_v4 attrs i ht
          rw [hf]
          refine ⟨by unfold standaloneMeta; rw [h3]; rfl, ?_⟩
          clear hf hany h h3 h2 ht hl hne
          induction attrs generalizing i with
          | nil => rfl
          | cons b attrs ih =>
            cases i with
            | zero =>
              obtain rfl : b = .derive old := by simpa using h1
              simp [DAttr.conditional?]
            | succ i =>
              simp only [List.set_cons_succ, List.findSome?_cons]
              rw [ih i (by simpa using h1)]
        | none =>
          rw [ht] at h
          obtain rfl := Option.some.inj h
          obtain ⟨_, h2⟩ := target_v4_none attrs ht
          rw [hf]
          refine ⟨?_, ?_⟩
          · unfold standaloneMeta
            rw [List.findSome?_append, h2]
            rfl
          · rw [List.findSome?_append]
            simp [DAttr.conditional?]
      unfold scaleMissing derivedItems
      rw [hstand.1, hstand.2]
      simp only [Option.map_some, Option.getD_some, List.any_append, hany]
      cases hm : scaleMissing E .v4 attrs impl t with
      | true =>
        rw [paths_any E hE _ t ((mem_unimplemented E .v4 attrs impl t).2 hm)]
        simp
      | false =>
        unfold scaleMissing derivedItems scaleDeriveArgs at hm
        rw [if_neg (by decide)] at hm
        rw [List.any_append] at hm
        simp only [Bool.and_eq_false_iff, Bool.not_eq_false', Bool.or_eq_true] at hm
        rcases hm with (hm | hm | hm) | hm
        · cases hm
        · simp [hm]
        · simp [hm]
        · simp [hm]
  unfold scaleFix
  simp only
  rw [if_pos]
  rw [List.isEmpty_iff, List.eq_nil_iff_forall_not_mem]
  intro t ht
  rw [mem_unimplemented, hall t] at ht
  cases ht

/-- In version 5 the type has a trait after the quickfix iff the trait was missing, or is provided
by something else than the `ink::scale_derive` attribute that is replaced. In particular it has
all traits if there is no `ink::scale_derive` attribute.

Missing for the full claim: the traits of a replaced `ink::scale_derive` attribute are dropped
(`C48_negation`). -/
theorem C48_v5_partial (E : ScaleEnv) (attrs : List DAttr) (impl : ScaleTrait → Bool)
    (attrs' : List DAttr) (h : scaleFix E .v5 attrs impl = some attrs') :
    (∀ i, attrs.findIdx? (fun a => a.scaleArgs?.isSome) = some i → ∀ t,
      HasTrait E .v5 attrs' impl t ↔ scaleMissing E .v5 attrs impl t = true ∨ impl t = true ∨
        ProvidedBeside E .v5 attrs i t) ∧
    ((∀ a ∈ attrs, a.scaleArgs? = none) → ∀ t, HasTrait E .v5 attrs' impl t) := by
  have hfix : ∀ l : List ScaleTrait, ∀ t,
      (fixedAttr E .v5 attrs l).Provides E .v5 t ↔ t ∈ l := by
    intro l t
    unfold fixedAttr
    rw [if_pos rfl]
    simp only [DAttr.Provides, true_and, List.mem_map]
    constructor
    · rintro ⟨x, hx, he⟩
      have : x = t := by
        cases x <;> cases t <;> simp [ScaleTrait.argKind, ScaleTrait.keyword] at he <;> rfl
      exact this ▸ hx
    · exact fun h => ⟨t, h, argKind_eq t⟩
  unfold scaleFix at h
  simp only at h
  split at h
  · cases h
  · refine ⟨fun i hi t => ?_, fun hnone t => ?_⟩
    · have ht : targetAttr .v5 attrs = some i := by
        unfold targetAttr
        rw [if_pos rfl]
        exact hi
      rw [ht] at h
      obtain rfl := Option.some.inj h
      have hlt : i < attrs.length := (List.findIdx?_eq_some_iff_getElem.1 hi).1
      rw [has_set E .v5 attrs impl i hlt _ t, hfix, mem_unimplemented]
      constructor
      · rintro (g | g | g)
        · exact .inr (.inl g)
        · exact .inl g
        · exact .inr (.inr g)
      · rintro (g | g | g)
        · exact .inr (.inl g)
        · exact .inl g
        · exact .inr (.inr g)
    · have ht : targetAttr .v5 attrs = none := by
        unfold targetAttr
        rw [if_pos rfl, List.findIdx?_eq_none_iff]
        intro a ha
        rw [hnone a ha]
        rfl
      rw [ht] at h
      obtain rfl := Option.some.inj h
      cases hm : scaleMissing E .v5 attrs impl t with
      | true =>
        exact .inr ⟨_, by simp, (hfix _ t).2 ((mem_unimplemented E .v5 attrs impl t).2 hm)⟩
      | false =>
        rcases has_of_not_missing E .v5 attrs impl t hm with g | ⟨a, ha, g⟩
        · exact .inl g
        · exact .inr ⟨a, by simp [ha], g⟩

/-- A resolver for examples: the documented paths, after white space. -/
def sampleScaleEnv : ScaleEnv where
  isTrait t p := p.dropWhile Char.isWhitespace = t.documentedPath
  isWs := Char.isWhitespace

/-- The full claim fails: in version 5 the quickfix for `#[ink::scale_derive(Encode)]` replaces it
by `#[ink::scale_derive(Decode, TypeInfo)]`, and `Encode` is no longer derived. -/
theorem C48_negation :
    scaleFix sampleScaleEnv .v5 [.scaleDerive [.encode]] (fun _ => false) =
      some [.scaleDerive [.decode, .typeInfo]] ∧
    HasTrait sampleScaleEnv .v5 [.scaleDerive [.encode]] (fun _ => false) .encode ∧
    ¬ HasTrait sampleScaleEnv .v5 [.scaleDerive [.decode, .typeInfo]] (fun _ => false)
      .encode := by
  refine ⟨by decide, .inr ⟨.scaleDerive [.encode], by simp, rfl, by decide⟩, ?_⟩
  rintro (h | ⟨a, ha, h⟩)
  · cases h
  · obtain rfl := List.mem_singleton.1 ha
    exact absurd h.2 (by decide)

/-- Moreover a type may be reported although it has all traits, if it derives them by a second
`derive` attribute, and an empty `derive` attribute gets a list that starts with a comma. -/
theorem C48_negation_report :
    (scaleFix sampleScaleEnv .v4
      [.derive (some "Debug".toList),
       .derive (some "scale::Encode, scale::Decode, scale_info::TypeInfo".toList)]
      (fun _ => false)).isSome = true ∧
    scaleFix sampleScaleEnv .v4 [.derive (some [])] (fun _ => false) =
      some [.derive (some ", scale::Encode, scale::Decode, scale_info::TypeInfo".toList)] := by
  decide +kernel

/-! Non-vacuity. -/

theorem sampleScaleEnv_lawful : sampleScaleEnv.Lawful where
  path t := by cases t <;> decide
  empty t := by cases t <;> decide
  lead t w p hw := by
    have : (w ++ p).dropWhile Char.isWhitespace = p.dropWhile Char.isWhitespace := by
      induction w with
      | nil => rfl
      | cons c w ih =>
        have hc : Char.isWhitespace c = true := hw c (by simp)
        rw [List.cons_append, List.dropWhile_cons, if_pos hc, ih (fun d hd => hw d (by simp [hd]))]
    simp only [sampleScaleEnv, this]
  comma := by decide

example : scaleFix sampleScaleEnv .v4
    [.other, .derive (some "Debug, scale::Encode,\n".toList), .cfgAttr (some ["scale_info::TypeInfo".toList])]
    (fun _ => false) =
    some [.other, .derive (some "Debug, scale::Encode,\nscale::Decode".toList),
      .cfgAttr (some ["scale_info::TypeInfo".toList])] := by decide +kernel

example : scaleFix sampleScaleEnv .v5 [.derive (some "scale::Encode".toList)] (· == .decode) =
    some [.derive (some "scale::Encode".toList), .scaleDerive [.typeInfo]] := by decide +kernel

end Verif.Analyzer
