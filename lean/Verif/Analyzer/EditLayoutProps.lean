import Verif.Analyzer.EditProps

/-!
# C72: formatted insertions keep the layout

Code inserted after a brace, a statement or a comment starts on a line of its own, blank lines
around it are kept or made, and the code that follows keeps its indent.
-/

namespace Verif.Analyzer

open Verif.Ir.Token (bytes splitAt bytes_append bytes_pos splitAt_spec splitAt_some)

/-! ## Specification -/

/-- The text starts with white space that holds at least two line ends. -/
def TwoLines (t : List Char) : Prop :=
  ∃ a b rest, t = a ++ '\n' :: (b ++ '\n' :: rest) ∧ ∀ c ∈ a ++ b, isWs c = true

/-- Formatting gives the edit with `p` in front of its text and `s` after it (and likewise for
its snippet). -/
def FormatsTo (file : List FTok) (parent : Nat → Option (Option (List Char))) (e : Edit)
    (p s : List Char) : Prop :=
  formatEdit file parent e = some { e with
    text := p ++ e.text ++ s, snippet := e.snippet.map fun x => p ++ x ++ s }

/-- The edit inserts code in place of the tokens `M` of the file `A ++ M ++ C` (between two
tokens, if `M` is empty). -/
structure Replaces (A M C : List FTok) (e : Edit) : Prop where
  wf : FileWf (A ++ (M ++ C))
  text : e.text ≠ []
  start : e.start = bytes (fileText A)
  stop : e.stop = bytes (fileText (A ++ M))

/-! ## Lemmas -/

theorem fileText_append (f g : List FTok) : fileText (f ++ g) = fileText f ++ fileText g := by
  simp [fileText]

theorem skipNewline_some (t r : List Char) (h : skipNewline t = some r) :
    ∃ a, t = a ++ '\n' :: r ∧ ∀ c ∈ a, isWs c = true := by
  induction t with
  | nil => exact (nomatch h)
  | cons c cs ih =>
    rw [skipNewline] at h
    split at h
    · rename_i hc
      exact ⟨[], by rw [hc, Option.some.inj h]; rfl, by simp⟩
    · split at h
      · rename_i hw
        obtain ⟨a, h1, h2⟩ := ih h
        exact ⟨c :: a, by rw [h1]; rfl, fun d hd => by
          rcases List.mem_cons.1 hd with rfl | hd
          · exact hw
          · exact h2 d hd⟩
      · exact (nomatch h)

theorem skipNewline_isSome (a r : List Char) (ha : ∀ c ∈ a, isWs c = true) :
    ∃ x, skipNewline (a ++ '\n' :: r) = some (x ++ r) ∧
      (x = [] ∨ ∃ y, x = y ++ ['\n']) ∧ ∀ c ∈ x, isWs c = true := by
  induction a with
  | nil => exact ⟨[], by simp [skipNewline], .inl rfl, by simp⟩
  | cons c cs ih =>
    rw [List.cons_append, skipNewline]
    split
    · exact ⟨cs ++ ['\n'], by simp, .inr ⟨cs, rfl⟩, fun d hd => by
        rcases List.mem_append.1 hd with hd | hd
        · exact ha d (List.mem_cons_of_mem _ hd)
        · rw [List.mem_singleton.1 hd]; decide⟩
    · rw [if_pos (ha c (by simp))]
      exact ih fun d hd => ha d (List.mem_cons_of_mem _ hd)

theorem twoLines_iff (t : List Char) : startsWithTwoNewlines t = true ↔ TwoLines t := by
  unfold startsWithTwoNewlines TwoLines
  constructor
  · intro h
    cases h1 : skipNewline t with
    | none => rw [h1] at h; exact (nomatch h)
    | some r =>
      rw [h1] at h
      simp only at h
      obtain ⟨r', h2⟩ := Option.isSome_iff_exists.1 h
      obtain ⟨a, rfl, ha⟩ := skipNewline_some t r h1
      obtain ⟨b, rfl, hb⟩ := skipNewline_some r r' h2
      refine ⟨a, b, r', rfl, fun c hc => ?_⟩
      rcases List.mem_append.1 hc with hc | hc
      · exact ha c hc
      · exact hb c hc
  · rintro ⟨a, b, rest, rfl, hw⟩
    obtain ⟨x, hx, hx2, hx3⟩ := skipNewline_isSome a (b ++ '\n' :: rest)
      (fun c hc => hw c (List.mem_append_left _ hc))
    rw [hx]
    simp only
    rw [← List.append_assoc]
    obtain ⟨y, hy, -, -⟩ := skipNewline_isSome (x ++ b) rest (fun c hc => by
      rcases List.mem_append.1 hc with hc | hc
      · exact hx3 c hc
      · exact hw c (List.mem_append_right _ hc))
    rw [hy]; rfl

instance (t : List Char) : Decidable (TwoLines t) :=
  decidable_of_iff _ (twoLines_iff t)

theorem tokBefore_boundary (f g : List FTok) (hw : FileWf (f ++ g)) :
    tokBefore (f ++ g) (bytes (fileText f)) =
      (f.getLast?).map fun t => ⟨t, bytes (fileText f.dropLast), f.length - 1⟩ := by
  unfold tokBefore touchingToks
  rcases List.eq_nil_or_concat f with rfl | ⟨f', t, rfl⟩
  · simp only [List.nil_append, List.getLast?_nil, Option.map_none]
    cases hl : ((placeToks 0 0 g).filter fun t =>
        decide (t.start ≤ bytes (fileText [])) &&
          decide (bytes (fileText []) ≤ t.stop)).head? with
    | none => rfl
    | some t =>
      simp only
      have hm := List.mem_filter.1 (List.mem_of_head? hl)
      obtain ⟨f', g', h1, h2, h3⟩ := mem_placeToks g t hm.1
      have hpos := bytes_pos t.tok.text (hw.nonempty t.tok (by simp [h1]))
      have h0 : bytes (fileText []) = 0 := rfl
      have hs : t.start = 0 := by
        have := hm.2
        simp only [Bool.and_eq_true, decide_eq_true_eq, h0] at this
        omega
      rw [if_neg (by unfold FAt.stop; omega)]
      unfold prevTok
      have : f' = [] := by
        cases f' with
        | nil => rfl
        | cons x xs =>
          have := bytes_pos x.text (hw.nonempty x (by simp [h1]))
          rw [h2] at hs
          simp only [fileText, List.flatMap_cons, bytes_append] at hs
          omega
      rw [if_pos (by rw [h3, this]; rfl)]
  · rw [List.concat_eq_append, List.append_assoc, placeToks_append, List.filter_append]
    have hpos := bytes_pos t.text (hw.nonempty t (by simp))
    have hb : bytes (fileText (f' ++ [t])) = bytes (fileText f') + bytes t.text := by
      rw [fileText_append, bytes_append]; simp [fileText]
    have hnil : ((placeToks 0 0 f').filter fun x =>
        decide (x.start ≤ bytes (fileText (f' ++ [t]))) &&
          decide (bytes (fileText (f' ++ [t])) ≤ x.stop)) = [] := by
      rw [List.filter_eq_nil_iff]
      intro a ha
      obtain ⟨f1, g1, h1, h2, -⟩ := mem_placeToks f' a ha
      have : bytes (fileText f') = a.start + (bytes a.tok.text + bytes (fileText g1)) := by
        rw [h1, fileText, List.flatMap_append, List.flatMap_cons, bytes_append, bytes_append, h2]
        rfl
      intro hcon
      simp only [Bool.and_eq_true, decide_eq_true_eq] at hcon
      have h3 := hcon.2
      unfold FAt.stop at h3
      omega
    rw [hnil, List.nil_append, List.singleton_append, placeToks,
      List.filter_cons_of_pos (by simp only [FAt.stop, hb]; simp)]
    simp only [List.head?_cons]
    rw [if_pos (by simp only [FAt.stop, hb]; omega)]
    simp

theorem coveringWs_boundary (A M C : List FTok) (e : Edit)
    (h1 : e.start = bytes (fileText A)) (h2 : e.stop = bytes (fileText (A ++ M))) :
    coveringWs (A ++ (M ++ C)) e = none := by
  unfold coveringWs
  rw [List.find?_eq_none]
  intro t ht
  obtain ⟨f, g, hf, hs, -⟩ := mem_placeToks _ t ht
  have hM : bytes (fileText A) ≤ bytes (fileText (A ++ M)) := by
    rw [fileText_append, bytes_append]; omega
  simp only [Bool.and_eq_true, decide_eq_true_eq, not_and, beq_iff_eq]
  rintro ⟨-, hlt⟩ hgt
  rw [h1, hs] at hlt
  -- the token starts before the end of `A`, so it lies in `A`
  have : ∃ g', A = f ++ t.tok :: g' := by
    rcases List.append_eq_append_iff.1 hf with ⟨x, hx1, hx2⟩ | ⟨x, hx1, hx2⟩
    · rw [hx1, fileText_append, bytes_append] at hlt
      omega
    · cases x with
      | nil => rw [hx1] at hlt; simp at hlt
      | cons y ys =>
        rw [List.cons_append] at hx2
        obtain ⟨hy, -⟩ := List.cons.inj hx2
        exact ⟨ys, by rw [hx1, hy]⟩
  obtain ⟨g', hA⟩ := this
  have : bytes (fileText A) = t.start + (bytes t.tok.text + bytes (fileText g')) := by
    rw [hA, fileText, List.flatMap_append, List.flatMap_cons, bytes_append, bytes_append, hs]
    rfl
  unfold FAt.stop at hgt
  omega

theorem formatEdit_boundary (A M C : List FTok) (parent : Nat → Option (Option (List Char)))
    (e : Edit) (h : Replaces A M C e) :
    formatEdit (A ++ (M ++ C)) parent e = some (addAffixes e (editAffixes e.text
      ((A.getLast?).map fun t => ⟨t, bytes (fileText A.dropLast), A.length - 1⟩)
      ((C.head?).map fun t => ⟨t, bytes (fileText (A ++ M)), (A ++ M).length⟩)
      ((A.getLast?).bind fun _ => parent (A.length - 1)))) := by
  unfold formatEdit
  have hlen : ¬ bytes ((A ++ (M ++ C)).flatMap FTok.text) < e.stop := by
    have : bytes ((A ++ (M ++ C)).flatMap FTok.text) = e.stop + bytes (fileText C) := by
      rw [h.stop, ← bytes_append, ← fileText_append, List.append_assoc]; rfl
    omega
  rw [if_neg hlen, coveringWs_boundary A M C e h.start h.stop]
  simp only
  rw [if_neg h.text, h.start, tokBefore_boundary A (M ++ C) h.wf]
  have : tokAfter (A ++ (M ++ C)) e.stop =
      (C.head?).map fun t => ⟨t, bytes (fileText (A ++ M)), (A ++ M).length⟩ := by
    rw [h.stop, ← List.append_assoc]
    exact tokAfter_boundary (A ++ M) C (by rw [List.append_assoc]; exact h.wf)
  rw [this]
  cases A.getLast? <;> rfl

theorem formatsTo_of (A M C : List FTok) (parent : Nat → Option (Option (List Char)))
    (e : Edit) (h : Replaces A M C e) :
    FormatsTo (A ++ (M ++ C)) parent e
      ((editAffixes e.text
        ((A.getLast?).map fun t => ⟨t, bytes (fileText A.dropLast), A.length - 1⟩)
        ((C.head?).map fun t => ⟨t, bytes (fileText (A ++ M)), (A ++ M).length⟩)
        ((A.getLast?).bind fun _ => parent (A.length - 1))).1.getD [])
      ((editAffixes e.text
        ((A.getLast?).map fun t => ⟨t, bytes (fileText A.dropLast), A.length - 1⟩)
        ((C.head?).map fun t => ⟨t, bytes (fileText (A ++ M)), (A ++ M).length⟩)
        ((A.getLast?).bind fun _ => parent (A.length - 1))).2.getD []) := by
  unfold FormatsTo
  rw [formatEdit_boundary A M C parent e h, addAffixes_eq]

/-! ## C72 -/

/-- The text brings its own line start: a line end, or an indent. -/
def OwnIndent (t : List Char) : Prop := t.head? = some ' ' ∨ t.head? = some '\t'

instance (t : List Char) : Decidable (OwnIndent t) := by unfold OwnIndent; infer_instance

theorem startsBlank_iff (t : List Char) : startsBlank t = true ↔ OwnIndent t := by
  unfold startsBlank OwnIndent; simp

/-- Code put right after an opening brace starts on a new line, with the indent computed for the
block's items, unless it brings its own; and it is followed by a blank line, unless it ends with
one.

Missing for the full claim: the computed indent is that of the block's items only at the outer
levels, see `C72_negation_depth`. -/
theorem C72_block_partial (A M C : List FTok) (t : FTok) (parent : Nat → Option (Option (List Char)))
    (e : Edit) (h : Replaces (A ++ [t]) M C e) (ht : t.kind = .lCurly) :
    ∃ p s, FormatsTo (A ++ [t] ++ (M ++ C)) parent e p s ∧
      (e.text.head? = some '\n' → p = []) ∧
      (OwnIndent e.text → p = ['\n']) ∧
      (e.text.head? ≠ some '\n' → ¬ OwnIndent e.text →
        (parent A.length = none → p = ['\n']) ∧
        ∀ prev, parent A.length = some prev → p = '\n' :: itemChildrenIndenting prev) ∧
      (C = [] → s = []) ∧
      (∀ n C', C = n :: C' →
        (['\n', '\n'] <:+ e.text ∨ (n.kind = .whitespace ∧ TwoLines n.text) → s = []) ∧
        (¬ ['\n', '\n'] <:+ e.text → ¬ (n.kind = .whitespace ∧ TwoLines n.text) →
          (n.text.head? = some '\n' → s = ['\n']) ∧
          (n.text.head? ≠ some '\n' → s = ['\n', '\n']))) := by
  refine ⟨_, _, formatsTo_of (A ++ [t]) M C parent e h, ?_⟩
  simp only [List.getLast?_append, List.getLast?_singleton, Option.some_or, Option.map_some,
    Option.bind_some, List.length_append, List.length_singleton, Nat.add_sub_cancel, editAffixes,
    ht, blockPrefix, beq_iff_eq]
  refine ⟨fun h1 => by rw [if_pos h1]; rfl, fun h1 => ?_, fun h1 h2 => ⟨fun h3 => ?_,
    fun prev h3 => ?_⟩, fun h1 => ?_, fun n C' h1 => ⟨fun h2 => ?_, fun h2 h3 => ⟨fun h4 => ?_,
    fun h4 => ?_⟩⟩⟩
  · rw [if_neg (by rcases h1 with h1 | h1 <;> rw [h1] <;> decide),
      if_pos ((startsBlank_iff _).2 h1)]
    rfl
  · rw [if_neg h1, if_neg (fun x => h2 ((startsBlank_iff _).1 x)), h3]; rfl
  · rw [if_neg h1, if_neg (fun x => h2 ((startsBlank_iff _).1 x)), h3]; rfl
  · subst h1; rfl
  · subst h1
    simp only [List.head?_cons, Option.map_some, blockSuffix]
    rw [if_neg]
    · rfl
    · simp only [Bool.and_eq_true, Bool.or_eq_true, bne_iff_ne, ne_eq, Bool.not_eq_true',
        List.isSuffixOf_iff_suffix, ← Bool.not_eq_true, twoLines_iff]
      rintro ⟨h3, h4⟩
      rcases h2 with h2 | ⟨h2, h5⟩
      · exact h4 h2
      · rcases h3 with h3 | h3
        · exact h3 h2
        · exact h3 h5
  all_goals
    subst h1
    simp only [List.head?_cons, Option.map_some, blockSuffix]
    rw [if_pos]
    · simp [h4]
    · simp only [Bool.and_eq_true, Bool.or_eq_true, bne_iff_ne, ne_eq, Bool.not_eq_true',
        List.isSuffixOf_iff_suffix, ← Bool.not_eq_true, twoLines_iff]
      refine ⟨?_, h2⟩
      by_cases hk : n.kind = .whitespace
      · exact .inr fun h5 => h3 ⟨hk, h5⟩
      · exact .inl hk

/-- Code put right after a statement, a closing brace or a comment starts on a new line (after
a blank one, unless it follows a comment), with the indent of the item there, unless it brings
its own; nothing is added after it. -/
theorem C72_after (A M C : List FTok) (t : FTok) (parent : Nat → Option (Option (List Char)))
    (e : Edit) (h : Replaces (A ++ [t]) M C e)
    (ht : t.kind = .semicolon ∨ t.kind = .rCurly ∨ t.kind = .comment) :
    ∃ p, FormatsTo (A ++ [t] ++ (M ++ C)) parent e p [] ∧
      (e.text.head? = some '\n' → p = []) ∧
      (e.text.head? ≠ some '\n' → ∃ ind,
        p = (if t.kind = .comment then ['\n'] else ['\n', '\n']) ++ ind ∧
        (OwnIndent e.text → ind = []) ∧
        (¬ OwnIndent e.text →
          ((parent A.length = none ∨ parent A.length = some none) → ind = []) ∧
          ∀ ws x c, parent A.length = some (some ws) → (∀ c ∈ ws, isWs c = true) →
            IsIndent ws x → (∀ d ∈ x, d = c) → ind = x)) := by
  have key : ∀ b : Bool, (t.kind = .comment ↔ b = true) →
      editAffixes e.text
        (((A ++ [t]).getLast?).map fun x =>
          ⟨x, bytes (fileText (A ++ [t]).dropLast), (A ++ [t]).length - 1⟩)
        ((C.head?).map fun x => ⟨x, bytes (fileText (A ++ [t] ++ M)), (A ++ [t] ++ M).length⟩)
        (((A ++ [t]).getLast?).bind fun _ => parent ((A ++ [t]).length - 1)) =
      (endPrefix e.text b (parent A.length), none) := by
    intro b hb
    simp only [List.getLast?_append, List.getLast?_singleton, Option.some_or, Option.map_some,
      Option.bind_some, List.length_append, List.length_singleton, Nat.add_sub_cancel,
      editAffixes]
    rcases ht with ht | ht | ht <;> rw [ht] at hb ⊢ <;> cases b <;> simp at hb <;> rfl
  have hf := formatsTo_of (A ++ [t]) M C parent e h
  rw [key (decide (t.kind = .comment)) (by simp)] at hf
  refine ⟨_, hf, fun h1 => ?_, fun h1 => ?_⟩
  · simp [endPrefix, h1]
  · have h1' : (e.text.head? == some '\n') = false := by simpa using h1
    refine ⟨if startsBlank e.text = true then []
      else ((parent A.length).bind itemIndenting).getD [], ?_, fun h2 => ?_, fun h2 => ?_⟩
    · unfold endPrefix
      rw [if_neg (by rw [h1']; decide)]
      by_cases hc : t.kind = .comment <;> simp [hc]
    · rw [if_pos ((startsBlank_iff _).2 h2)]
    · rw [if_neg (fun x => h2 ((startsBlank_iff _).1 x))]
      refine ⟨fun h3 => ?_, fun ws x c h3 hw hi hu => ?_⟩
      · rcases h3 with h3 | h3 <;> rw [h3] <;> rfl
      · rw [h3, Option.bind_some, C33_uniform_partial ws x hw hi c hu]; rfl

/-- Code put between white space (or file ends) on both sides gets a line end on each side that
has a line end but no blank line, provided every side that is not a file end has a line end. -/
theorem C72_between (A M C : List FTok) (parent : Nat → Option (Option (List Char)))
    (e : Edit) (h : Replaces A M C e)
    (hA : ∀ t, A.getLast? = some t → t.kind = .whitespace)
    (hC : ∀ t, C.head? = some t → t.kind = .whitespace) :
    ∃ p s, FormatsTo (A ++ (M ++ C)) parent e p s ∧
      (((∀ t, A.getLast? = some t → '\n' ∈ t.text) ∧ (∀ t, C.head? = some t → '\n' ∈ t.text)) →
        (∀ t, A.getLast? = some t → p = if TwoLines t.text then [] else ['\n']) ∧
        (∀ t, C.head? = some t → s = if TwoLines t.text then [] else ['\n'])) ∧
      (¬ ((∀ t, A.getLast? = some t → '\n' ∈ t.text) ∧
          (∀ t, C.head? = some t → '\n' ∈ t.text)) → p = [] ∧ s = []) ∧
      (A = [] → p = []) ∧ (C = [] → s = []) := by
  refine ⟨_, _, formatsTo_of A M C parent e h, ?_⟩
  have hb : ∀ ws, (buildAffix ws).getD [] = if TwoLines ws then [] else ['\n'] := by
    intro ws
    unfold buildAffix
    by_cases hs : startsWithTwoNewlines ws = true
    · rw [if_pos hs, if_pos ((twoLines_iff ws).1 hs)]; rfl
    · rw [if_neg hs, if_neg (fun x => hs ((twoLines_iff ws).2 x))]; rfl
  have key : editAffixes e.text
      ((A.getLast?).map fun t => ⟨t, bytes (fileText A.dropLast), A.length - 1⟩)
      ((C.head?).map fun t => ⟨t, bytes (fileText (A ++ M)), (A ++ M).length⟩)
      ((A.getLast?).bind fun _ => parent (A.length - 1)) =
      affixBetween ((A.getLast?).map FTok.text) ((C.head?).map FTok.text) := by
    cases hl : A.getLast? with
    | none =>
      cases hc : C.head? with
      | none => rfl
      | some c => simp [editAffixes, affixAfterWs, wsOrEnd, hC c hc]
    | some a =>
      cases hc : C.head? with
      | none => simp [editAffixes, affixAfterWs, wsOrEnd, hA a hl]
      | some c => simp [editAffixes, affixAfterWs, wsOrEnd, hA a hl, hC c hc]
  rw [key]
  have hAn : A = [] ↔ A.getLast? = none := by simp
  have hCn : C = [] ↔ C.head? = none := by simp
  rw [hAn, hCn]
  cases hl : A.getLast? with
  | none =>
    cases hc : C.head? with
    | none => simp [affixBetween]
    | some c =>
      by_cases h2 : '\n' ∈ c.text <;> simp [affixBetween, h2, hb]
  | some a =>
    cases hc : C.head? with
    | none =>
      by_cases h2 : '\n' ∈ a.text <;> simp [affixBetween, h2, hb]
    | some c =>
      by_cases h1 : '\n' ∈ a.text <;> by_cases h2 : '\n' ∈ c.text <;>
        simp [affixBetween, h1, h2, hb]

/-- Code put right in front of other code, after white space, pushes that code to a line of its
own with the same blank line and the same indent as before; at the start of the file it is
followed by a line end; in the middle of a line nothing is added. -/
theorem C72_next (A M C : List FTok) (n : FTok) (parent : Nat → Option (Option (List Char)))
    (e : Edit) (h : Replaces A M (n :: C) e) (hn : n.kind ≠ .whitespace) :
    (A = [] → FormatsTo (A ++ (M ++ n :: C)) parent e [] ['\n']) ∧
    (∀ A' t, A = A' ++ [t] → t.kind = .whitespace →
      ('\n' ∉ t.text → FormatsTo (A ++ (M ++ n :: C)) parent e [] []) ∧
      ('\n' ∈ t.text → ∀ x c, (∀ c ∈ t.text, isWs c = true) → IsIndent t.text x →
        (∀ d ∈ x, d = c) →
        FormatsTo (A ++ (M ++ n :: C)) parent e []
          ((if TwoLines t.text then ['\n', '\n'] else ['\n']) ++ x))) := by
  have hf := formatsTo_of A M (n :: C) parent e h
  constructor
  · rintro rfl
    simpa [editAffixes, affixAfterWs, wsOrEnd, hn, keepNextSuffix] using hf
  · rintro A' t rfl ht
    simp only [List.getLast?_append, List.getLast?_singleton, Option.some_or, Option.map_some,
      List.head?_cons, editAffixes, ht, affixAfterWs, wsOrEnd, beq_self_eq_true,
      Bool.true_and, beq_iff_eq, hn, if_false, if_true, keepNextSuffix] at hf
    refine ⟨fun h1 => ?_, fun h1 x c hw hi hu => ?_⟩
    · rw [if_neg (by simpa using h1)] at hf
      exact hf
    · have he : endIndenting t.text = x :=
        Option.some.inj (C33_uniform_partial t.text x hw hi c hu)
      rw [if_pos (by simpa using h1), he] at hf
      by_cases h2 : TwoLines t.text
      · rw [if_pos ((twoLines_iff _).2 h2)] at hf
        rw [if_pos h2]; exact hf
      · rw [if_neg (fun z => h2 ((twoLines_iff _).1 z))] at hf
        rw [if_neg h2]; exact hf

/-- After any other token the code is put in as it is. -/
theorem C72_plain (A M C : List FTok) (t : FTok) (parent : Nat → Option (Option (List Char)))
    (e : Edit) (h : Replaces (A ++ [t]) M C e) (ht : t.kind = .other) :
    FormatsTo (A ++ [t] ++ (M ++ C)) parent e [] [] := by
  have hf := formatsTo_of (A ++ [t]) M C parent e h
  simpa [editAffixes, ht] using hf

/-- Code put inside white space, with a line end on both sides, gets a line end on each side
that has no blank line; otherwise nothing is added. -/
theorem C72_inside (A C : List FTok) (b a : List Char)
    (parent : Nat → Option (Option (List Char))) (e : Edit) (hb : b ≠ []) (ha : a ≠ [])
    (h1 : e.start = bytes (fileText A ++ b)) (h2 : e.stop = e.start) (ht : e.text ≠ []) :
    ('\n' ∈ b ∧ '\n' ∈ a → FormatsTo (A ++ ⟨.whitespace, b ++ a⟩ :: C) parent e
      (if TwoLines b then [] else ['\n']) (if TwoLines a then [] else ['\n'])) ∧
    (¬ ('\n' ∈ b ∧ '\n' ∈ a) → FormatsTo (A ++ ⟨.whitespace, b ++ a⟩ :: C) parent e [] []) := by
  have hbp := bytes_pos b hb
  have hap := bytes_pos a ha
  rw [bytes_append] at h1
  have hm : (⟨⟨.whitespace, b ++ a⟩, bytes (fileText A), A.length⟩ : FAt) ∈
      placeToks 0 0 (A ++ ⟨.whitespace, b ++ a⟩ :: C) := by
    rw [placeToks_append]
    simp [placeToks]
  have hc : coveringWs (A ++ ⟨.whitespace, b ++ a⟩ :: C) e =
      some ⟨⟨.whitespace, b ++ a⟩, bytes (fileText A), A.length⟩ := by
    unfold coveringWs
    rw [placeToks_append, List.find?_append]
    have hnone : (placeToks 0 0 A).find? (fun t => t.tok.kind == .whitespace &&
        decide (t.start < e.start) && decide (e.stop < t.stop)) = none := by
      rw [List.find?_eq_none]
      intro t hmem
      obtain ⟨f, g, hf, hs, -⟩ := mem_placeToks _ t hmem
      have : bytes (fileText A) = t.start + (bytes t.tok.text + bytes (fileText g)) := by
        rw [hf, fileText, List.flatMap_append, List.flatMap_cons, bytes_append, bytes_append, hs]
        rfl
      simp only [Bool.and_eq_true, decide_eq_true_eq, not_and]
      intro _ hgt
      unfold FAt.stop at hgt
      omega
    rw [hnone, placeToks]
    simp only [Option.none_or, Nat.zero_add]
    rw [List.find?_cons_of_pos]
    simp only [beq_self_eq_true, Bool.true_and, Bool.and_eq_true, decide_eq_true_eq, FAt.stop,
      bytes_append]
    omega
  have hlen : ¬ bytes ((A ++ ⟨.whitespace, b ++ a⟩ :: C).flatMap FTok.text) < e.stop := by
    have : (A ++ ⟨.whitespace, b ++ a⟩ :: C).flatMap FTok.text =
        fileText A ++ (b ++ a ++ fileText C) := by simp [fileText]
    rw [this, bytes_append, bytes_append, bytes_append]
    omega
  have hsp : splitAt (b ++ a) (e.start - bytes (fileText A)) = some (b, a) := by
    have : e.start - bytes (fileText A) = bytes b := by omega
    rw [this]
    exact splitAt_spec (b ++ a) b a rfl
  have hbuild : ∀ ws, (buildAffix ws).getD [] = if TwoLines ws then [] else ['\n'] := by
    intro ws
    unfold buildAffix
    by_cases hs : startsWithTwoNewlines ws = true
    · rw [if_pos hs, if_pos ((twoLines_iff ws).1 hs)]; rfl
    · rw [if_neg hs, if_neg (fun x => hs ((twoLines_iff ws).2 x))]; rfl
  unfold FormatsTo formatEdit
  rw [if_neg hlen, hc]
  simp only [formatInside, if_neg ht, hsp, h2, if_true, addAffixes_eq]
  constructor
  · intro h
    simp [affixBetween, h.1, h.2, hbuild]
  · intro h
    have : (b.contains '\n' && a.contains '\n') = false := by
      simpa [Bool.and_eq_false_iff] using h
    simp only [affixBetween, this, Bool.false_eq_true, if_false]
    simp

/-- A function put at the start of an implementation block, at the start of a file, after a
comment and before another item. -/
example :
    Replaces ([⟨.other, "impl A ".toList⟩] ++ [⟨.lCurly, ['{']⟩]) [] [⟨.rCurly, ['}']⟩]
      ⟨"fn f();".toList, 8, 8, none⟩ ∧
    Replaces ([⟨.other, "x".toList⟩] ++ [⟨.comment, "// c".toList⟩]) [] []
      ⟨"fn f();".toList, 5, 5, none⟩ ∧
    formatEdit [⟨.other, "x".toList⟩, ⟨.comment, "// c".toList⟩] (fun _ => none)
      ⟨"fn f();".toList, 5, 5, none⟩ = some ⟨"\nfn f();".toList, 5, 5, none⟩ ∧
    Replaces [⟨.semicolon, [';']⟩, ⟨.whitespace, "\n  ".toList⟩] [] [⟨.other, ['x']⟩]
      ⟨"fn f();".toList, 4, 4, none⟩ ∧
    formatEdit [⟨.semicolon, [';']⟩, ⟨.whitespace, "\n  ".toList⟩, ⟨.other, ['x']⟩] (fun _ => none)
      ⟨"fn f();".toList, 4, 4, none⟩ = some ⟨"fn f();\n  ".toList, 4, 4, none⟩ :=
  ⟨⟨⟨by decide, by decide⟩, by decide, by decide, by decide⟩,
    ⟨⟨by decide, by decide⟩, by decide, by decide, by decide⟩, by decide,
    ⟨⟨by decide, by decide⟩, by decide, by decide, by decide⟩, by decide⟩

/-- The indent of the items of a block is computed by doubling the indent of the block's item:
from the second level on, the new item is not lined up with its neighbours. Here a function is
put into an implementation block that is indented by 8 and whose items are indented by 12. -/
theorem C72_negation_depth :
    ∃ (A C : List FTok) (prev : List Char) (e : Edit) (p s : List Char),
      Replaces (A ++ [⟨.lCurly, ['{']⟩]) [] C e ∧
      IsIndent prev (List.replicate 8 ' ') ∧
      C.head?.map FTok.text = some ('\n' :: List.replicate 12 ' ') ∧
      FormatsTo (A ++ [⟨.lCurly, ['{']⟩] ++ C) (fun _ => some (some prev)) e p s ∧
      p = '\n' :: List.replicate 16 ' ' := by
  refine ⟨[⟨.whitespace, '\n' :: List.replicate 8 ' '⟩, ⟨.other, "impl A ".toList⟩],
    [⟨.whitespace, '\n' :: List.replicate 12 ' '⟩, ⟨.other, "fn g();".toList⟩],
    '\n' :: List.replicate 8 ' ', ⟨"fn f();".toList, 17, 17, none⟩,
    '\n' :: List.replicate 16 ' ', ['\n'],
    ⟨⟨by decide, by decide⟩, by decide, by decide, by decide⟩,
    ⟨⟨['\n'], rfl⟩, by decide, ?_⟩, by decide, by unfold FormatsTo; decide, rfl⟩
  intro pre c h
  cases pre with
  | nil => exact (List.cons.inj h).1.symm
  | cons a pre =>
    have := congrArg List.length h
    simp at this

/-- Deleting whole tokens also deletes the white space that follows exactly when there is white
space (or the start of the file) in front and no closing brace behind; nothing else changes. -/
theorem C72_delete (A M C : List FTok) (parent : Nat → Option (Option (List Char))) (e : Edit)
    (hw : FileWf (A ++ (M ++ C))) (ht : e.text = []) (h1 : e.start = bytes (fileText A))
    (h2 : e.stop = bytes (fileText (A ++ M))) :
    (∀ w C', C = w :: C' → w.kind = .whitespace →
      (∀ t, A.getLast? = some t → t.kind = .whitespace) →
      (∀ t, C'.head? = some t → t.kind ≠ .rCurly) →
      formatEdit (A ++ (M ++ C)) parent e = some { e with stop := e.stop + bytes w.text }) ∧
    (¬ (∃ w C', C = w :: C' ∧ w.kind = .whitespace ∧
        (∀ t, A.getLast? = some t → t.kind = .whitespace) ∧
        (∀ t, C'.head? = some t → t.kind ≠ .rCurly)) →
      formatEdit (A ++ (M ++ C)) parent e = some e) := by
  have hlen : ¬ bytes ((A ++ (M ++ C)).flatMap FTok.text) < e.stop := by
    have : bytes ((A ++ (M ++ C)).flatMap FTok.text) = e.stop + bytes (fileText C) := by
      rw [h2, ← bytes_append, ← fileText_append, List.append_assoc]; rfl
    omega
  have hta : tokAfter (A ++ (M ++ C)) e.stop =
      (C.head?).map fun t => ⟨t, bytes (fileText (A ++ M)), (A ++ M).length⟩ := by
    rw [h2, ← List.append_assoc]
    exact tokAfter_boundary (A ++ M) C (by rw [List.append_assoc]; exact hw)
  have hbe : wsOrEnd (tokBefore (A ++ (M ++ C)) e.start) = true ↔
      ∀ t, A.getLast? = some t → t.kind = .whitespace := by
    rw [h1, tokBefore_boundary A (M ++ C) hw]
    cases A.getLast? <;> simp [wsOrEnd]
  have hform : formatEdit (A ++ (M ++ C)) parent e = some (formatDelete (A ++ (M ++ C)) e) := by
    unfold formatEdit
    rw [if_neg hlen, coveringWs_boundary A M C e h1 h2]
    simp only
    rw [if_pos ht]
  have hnext : ∀ w C', C = w :: C' →
      (nextTok (A ++ (M ++ C)) ⟨w, bytes (fileText (A ++ M)), (A ++ M).length⟩).map
        (fun n => n.tok.kind) = C'.head?.map FTok.kind := by
    rintro w C' rfl
    unfold nextTok
    rw [placeToks_getElem?, ← List.append_assoc, List.getElem?_append_right (by simp)]
    have : (A ++ M).length + 1 - (A ++ M).length = 1 := by omega
    rw [this, List.getElem?_cons_succ]
    cases C' <;> simp
  have hdel : ∀ w C', C = w :: C' →
      (deletesAfter (A ++ (M ++ C)) (tokBefore (A ++ (M ++ C)) e.start)
        ⟨w, bytes (fileText (A ++ M)), (A ++ M).length⟩ = true ↔
      w.kind = .whitespace ∧ (∀ t, A.getLast? = some t → t.kind = .whitespace) ∧
        (∀ t, C'.head? = some t → t.kind ≠ .rCurly)) := by
    intro w C' hC
    unfold deletesAfter
    rw [Bool.and_eq_true, Bool.and_eq_true, hbe, Bool.not_eq_true', ← Bool.not_eq_true]
    have := hnext w C' hC
    constructor
    · rintro ⟨⟨h3, h4⟩, h5⟩
      refine ⟨by simpa using h4, h3, fun t h6 h7 => h5 ?_⟩
      rw [h6] at this
      obtain ⟨n, hn, hk⟩ := Option.map_eq_some_iff.1 this
      rw [hn]
      simp [hk, h7]
    · rintro ⟨h4, h3, h5⟩
      refine ⟨⟨h3, by simpa using h4⟩, fun h6 => ?_⟩
      cases hn : nextTok (A ++ (M ++ C)) ⟨w, bytes (fileText (A ++ M)), (A ++ M).length⟩ with
      | none => rw [hn] at h6; exact (nomatch h6)
      | some n =>
        rw [hn] at h6 this
        obtain ⟨t, h7, h8⟩ := Option.map_eq_some_iff.1 this.symm
        exact h5 t h7 (h8.trans (by simpa using h6))
  rw [hform]
  unfold formatDelete
  rw [hta]
  constructor
  · intro w C' hC h3 h4 h5
    have := (hdel w C' hC).2 ⟨h3, h4, h5⟩
    subst hC
    simp only [List.head?_cons, Option.map_some]
    rw [if_pos this, FAt.stop, h2]
  · intro h
    cases hC : C with
    | nil => rfl
    | cons w C' =>
      subst hC
      simp only [List.head?_cons, Option.map_some]
      rw [if_neg]
      intro h3
      exact h ⟨w, C', rfl, (hdel w C' rfl).1 h3⟩

/-- Deleting an item between two others takes the white space behind it along. -/
example :
    FileWf ([⟨.other, ['a']⟩, ⟨.whitespace, [' ']⟩] ++ ([⟨.other, ['b']⟩] ++
      [⟨.whitespace, ['\n']⟩, ⟨.other, ['c']⟩])) ∧
    formatEdit [⟨.other, ['a']⟩, ⟨.whitespace, [' ']⟩, ⟨.other, ['b']⟩, ⟨.whitespace, ['\n']⟩,
      ⟨.other, ['c']⟩] (fun _ => none) ⟨[], 2, 3, none⟩ = some ⟨[], 2, 4, none⟩ :=
  ⟨⟨by decide, by decide⟩, by decide⟩

end Verif.Analyzer
