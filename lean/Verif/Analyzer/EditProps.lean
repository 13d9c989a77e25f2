import Verif.Analyzer.Edit
import Verif.Analyzer.IndentProps
import Verif.Ir.TokenProps

/-!
# C34: formatting an edit never changes its code
-/

namespace Verif.Analyzer

open Verif.Ir.Token (bytes splitAt bytes_append bytes_pos splitAt_spec splitAt_some)

/-! ## Specification -/

/-- Whitespace: Unicode `White_Space`, or one of the two marks that Rust's lexer also takes
for whitespace. -/
def isBlank (c : Char) : Bool := isWs c || c.toNat == 0x200E || c.toNat == 0x200F

/-- A text of whitespace only. -/
def Blank (t : List Char) : Prop := ∀ c ∈ t, isBlank c = true

instance (t : List Char) : Decidable (Blank t) := by unfold Blank; infer_instance

/-- The text of a file. -/
def fileText (file : List FTok) : List Char := file.flatMap FTok.text

/-- A file as the lexer makes it: tokens are not empty and whitespace tokens consist of
whitespace. -/
structure FileWf (file : List FTok) : Prop where
  nonempty : ∀ t ∈ file, t.text ≠ []
  blank : ∀ t ∈ file, t.kind = .whitespace → Blank t.text

/-- The offset is between two tokens (or at an end of the file). -/
def TokBoundary (file : List FTok) (off : Nat) : Prop :=
  ∃ f g, file = f ++ g ∧ off = bytes (fileText f)

/-! ## Lemmas -/

theorem blank_nl (t : List Char) (h : Blank t) : Blank ('\n' :: t) := by
  intro c hc
  rcases List.mem_cons.1 hc with rfl | hc
  · decide
  · exact h c hc

theorem blank_append (a b : List Char) (ha : Blank a) (hb : Blank b) : Blank (a ++ b) := by
  intro c hc
  rcases List.mem_append.1 hc with h | h
  · exact ha c h
  · exact hb c h

theorem blank_nil : Blank [] := fun _ h => absurd h (by simp)

theorem takeWhile_all' (p : Char → Bool) (l : List Char) : ∀ c ∈ l.takeWhile p, p c = true := by
  induction l with
  | nil => simp
  | cons a l ih =>
    intro c hc
    rw [List.takeWhile_cons] at hc
    split at hc
    · rcases List.mem_cons.1 hc with rfl | hc
      · assumption
      · exact ih c hc
    · simp at hc

theorem blank_endIndenting (ws : List Char) : Blank (endIndenting ws) := by
  intro c hc
  have := takeWhile_all' _ _ c hc
  simp only [Bool.and_eq_true] at this
  simp [isBlank, this.2]

theorem blank_itemIndenting (p : Option (List Char)) : Blank ((itemIndenting p).getD []) := by
  cases p with
  | none => exact blank_nil
  | some ws => exact blank_endIndenting ws

theorem blank_children (p : Option (List Char)) : Blank (itemChildrenIndenting p) := by
  intro c hc
  simp [isBlank, ((C33_children p).1 c hc).1]

theorem blank_buildAffix (ws : List Char) : Blank ((buildAffix ws).getD []) := by
  unfold buildAffix
  split
  · exact blank_nil
  · exact blank_nl _ blank_nil

theorem blank_affixBetween (b a : Option (List Char)) :
    Blank ((affixBetween b a).1.getD []) ∧ Blank ((affixBetween b a).2.getD []) := by
  cases b <;> cases a <;> simp only [affixBetween]
  · exact ⟨blank_nil, blank_nil⟩
  · split
    · exact ⟨blank_nil, blank_buildAffix _⟩
    · exact ⟨blank_nil, blank_nil⟩
  · split
    · exact ⟨blank_buildAffix _, blank_nil⟩
    · exact ⟨blank_nil, blank_nil⟩
  · split
    · exact ⟨blank_buildAffix _, blank_buildAffix _⟩
    · exact ⟨blank_nil, blank_nil⟩

theorem blank_keepNextSuffix (t : Option FAt) : Blank ((keepNextSuffix t).getD []) := by
  cases t with
  | none => exact blank_nl _ blank_nil
  | some t =>
    unfold keepNextSuffix
    simp only
    split
    · apply blank_nl
      apply blank_append
      · split
        · exact blank_nl _ blank_nil
        · exact blank_nil
      · exact blank_endIndenting _
    · exact blank_nil

theorem blank_affixAfterWs (b a : Option FAt) :
    Blank ((affixAfterWs b a).1.getD []) ∧ Blank ((affixAfterWs b a).2.getD []) := by
  unfold affixAfterWs
  split
  · exact blank_affixBetween _ _
  · split
    · exact ⟨blank_nil, blank_keepNextSuffix _⟩
    · exact ⟨blank_nil, blank_nil⟩

theorem blank_endPrefix (t : List Char) (c : Bool) (p : Option (Option (List Char))) :
    Blank ((endPrefix t c p).getD []) := by
  unfold endPrefix
  split
  · exact blank_nil
  · apply blank_nl
    apply blank_append
    · split
      · exact blank_nil
      · exact blank_nl _ blank_nil
    · split
      · exact blank_nil
      · cases p with
        | none => exact blank_nil
        | some p => exact blank_itemIndenting p

theorem blank_editAffixes (t : List Char) (b a : Option FAt) (p : Option (Option (List Char))) :
    Blank ((editAffixes t b a p).1.getD []) ∧ Blank ((editAffixes t b a p).2.getD []) := by
  unfold editAffixes
  cases b with
  | none => exact blank_affixAfterWs _ _
  | some b =>
    simp only
    cases b.tok.kind with
    | whitespace => exact blank_affixAfterWs _ _
    | lCurly =>
      constructor
      · simp only [blockPrefix]
        split
        · exact blank_nil
        · apply blank_nl
          split
          · exact blank_nil
          · cases p with
            | none => exact blank_nil
            | some p => exact blank_children p
      · simp only [blockSuffix]
        split
        · exact blank_nil
        · split
          · apply blank_nl
            split
            · exact blank_nil
            · exact blank_nl _ blank_nil
          · exact blank_nil
    | rCurly => exact ⟨blank_endPrefix _ _ _, blank_nil⟩
    | semicolon => exact ⟨blank_endPrefix _ _ _, blank_nil⟩
    | comment => exact ⟨blank_endPrefix _ _ _, blank_nil⟩
    | other => exact ⟨blank_nil, blank_nil⟩

theorem addAffixes_eq (e : Edit) (a : Option (List Char) × Option (List Char)) :
    addAffixes e a =
      { e with
        text := a.1.getD [] ++ e.text ++ a.2.getD []
        snippet := e.snippet.map fun s => a.1.getD [] ++ s ++ a.2.getD [] } := by
  unfold addAffixes
  split
  · rfl
  · rename_i h
    obtain ⟨p, s⟩ := a
    cases p <;> cases s <;> simp at h ⊢

theorem placeToks_append (s k : Nat) (f g : List FTok) :
    placeToks s k (f ++ g) =
      placeToks s k f ++ placeToks (s + bytes (fileText f)) (k + f.length) g := by
  induction f generalizing s k with
  | nil => simp [placeToks, fileText, bytes]
  | cons t f ih =>
    simp only [List.cons_append, placeToks, ih, List.length_cons, fileText, List.flatMap_cons,
      bytes_append]
    rw [Nat.add_assoc, Nat.add_assoc k, Nat.add_comm 1]

theorem placeToks_start (s k : Nat) (f : List FTok) : ∀ t ∈ placeToks s k f, s ≤ t.start := by
  induction f generalizing s k with
  | nil => simp [placeToks]
  | cons a f ih =>
    intro t ht
    rw [placeToks] at ht
    rcases List.mem_cons.1 ht with rfl | ht
    · exact Nat.le_refl _
    · have := ih _ _ t ht
      omega

theorem placeToks_getElem? (f : List FTok) (s k i : Nat) :
    (placeToks s k f)[i]? =
      (f[i]?).map fun t => ⟨t, s + bytes (fileText (f.take i)), k + i⟩ := by
  induction f generalizing s k i with
  | nil => simp [placeToks]
  | cons t f ih =>
    rw [placeToks]
    cases i with
    | zero => simp [fileText, bytes]
    | succ i =>
      simp only [List.getElem?_cons_succ, ih, List.take_succ_cons, fileText, List.flatMap_cons,
        bytes_append]
      congr 1
      funext x
      simp only [FAt.mk.injEq, true_and]
      omega

theorem mem_placeToks (file : List FTok) (t : FAt) (h : t ∈ placeToks 0 0 file) :
    ∃ f g, file = f ++ t.tok :: g ∧ t.start = bytes (fileText f) ∧ t.index = f.length := by
  obtain ⟨i, hi⟩ := List.getElem?_of_mem h
  rw [placeToks_getElem?, Option.map_eq_some_iff] at hi
  obtain ⟨x, hx, rfl⟩ := hi
  obtain ⟨hlt, hx⟩ := List.getElem?_eq_some_iff.1 hx
  refine ⟨file.take i, file.drop (i + 1), ?_, by simp, by simp; omega⟩
  subst hx
  simp

theorem tokAfter_boundary (f g : List FTok) (hw : FileWf (f ++ g)) :
    tokAfter (f ++ g) (bytes (fileText f)) =
      (g.head?).map fun t => ⟨t, bytes (fileText f), f.length⟩ := by
  unfold tokAfter touchingToks
  cases g with
  | nil =>
    rw [List.append_nil]
    cases hl : ((placeToks 0 0 f).filter fun t =>
        decide (t.start ≤ bytes (fileText f)) && decide (bytes (fileText f) ≤ t.stop)).getLast? with
    | none => rfl
    | some t =>
      simp only [List.head?_nil, Option.map_none]
      have ht : t ∈ placeToks 0 0 f := (List.mem_filter.1 (List.mem_of_getLast? hl)).1
      obtain ⟨f', g', h1, h2, h3⟩ := mem_placeToks f t ht
      have hpos := bytes_pos t.tok.text (hw.nonempty t.tok (by simp [h1]))
      have hb : bytes (fileText f) = t.start + (bytes t.tok.text + bytes (fileText g')) := by
        rw [h1, fileText, List.flatMap_append, List.flatMap_cons, bytes_append, bytes_append, h2]
        rfl
      have hstop : bytes (fileText f) ≤ t.stop := by
        have := (List.mem_filter.1 (List.mem_of_getLast? hl)).2
        simp only [Bool.and_eq_true, decide_eq_true_eq] at this
        exact this.2
      have hg : g' = [] := by
        unfold FAt.stop at hstop
        cases g' with
        | nil => rfl
        | cons x xs =>
          have := bytes_pos x.text (hw.nonempty x (by simp [h1]))
          simp only [fileText, List.flatMap_cons, bytes_append] at hb
          simp only [fileText] at hstop
          omega
      rw [if_neg (by omega)]
      unfold nextTok
      rw [placeToks_getElem?, h3, h1, hg]
      simp
  | cons t g =>
    rw [placeToks_append, List.filter_append, placeToks]
    have hpos := bytes_pos t.text (hw.nonempty t (by simp))
    simp only [Nat.zero_add]
    rw [List.filter_cons_of_pos (by simp [FAt.stop])]
    have hnil : ((placeToks (bytes (fileText f) + bytes t.text) (f.length + 1) g).filter fun t =>
        decide (t.start ≤ bytes (fileText f)) && decide (bytes (fileText f) ≤ t.stop)) = [] := by
      rw [List.filter_eq_nil_iff]
      intro a ha
      have := placeToks_start _ _ _ a ha
      simp
      omega
    rw [hnil, List.getLast?_append]
    simp

/-! ## C34 -/

/-- Inserts and replacements: formatting leaves the range alone and only puts whitespace
around the text (and, likewise, around the snippet). -/
theorem C34_replace (file : List FTok) (parent : Nat → Option (Option (List Char)))
    (e e' : Edit) (ht : e.text ≠ []) (h : formatEdit file parent e = some e') :
    ∃ p s, Blank p ∧ Blank s ∧ e' = { e with
      text := p ++ e.text ++ s, snippet := e.snippet.map fun x => p ++ x ++ s } := by
  have fin : ∀ a : Option (List Char) × Option (List Char),
      Blank (a.1.getD []) ∧ Blank (a.2.getD []) → e' = addAffixes e a →
      ∃ p s, Blank p ∧ Blank s ∧ e' = { e with
        text := p ++ e.text ++ s, snippet := e.snippet.map fun x => p ++ x ++ s } := by
    intro a ha he
    exact ⟨_, _, ha.1, ha.2, by rw [he, addAffixes_eq]⟩
  unfold formatEdit at h
  split at h
  · cases h
  · cases hc : coveringWs file e with
    | some t =>
      rw [hc] at h
      simp only [formatInside, if_neg ht] at h
      split at h
      · cases h
      · split at h
        · exact fin _ (blank_affixBetween _ _) (Option.some.inj h).symm
        · split at h
          · cases h
          · exact fin _ (blank_affixBetween _ _) (Option.some.inj h).symm
    | none =>
      rw [hc] at h
      simp only at h
      exact fin _ (blank_editAffixes _ _ _ _) (Option.some.inj h).symm

/-- Deletes: formatting may extend the range over the whitespace that follows it, but only if
whitespace (or nothing) is left in front of it.

Missing for the full claim: ranges that end inside a token, see `C34_negation_unaligned`. -/
theorem C34_delete_partial (file : List FTok) (parent : Nat → Option (Option (List Char)))
    (hw : FileWf file) (e e' : Edit) (ht : e.text = []) (hb : TokBoundary file e.stop)
    (h : formatEdit file parent e = some e') :
    e' = e ∨
    ∃ pre w post, fileText file = pre ++ w ++ post ∧ bytes pre = e.stop ∧ Blank w ∧
      e' = { e with stop := e.stop + bytes w } ∧
      (∀ t, tokBefore file e.start = some t → t.tok.kind = .whitespace) := by
  unfold formatEdit at h
  split at h
  · cases h
  · cases hc : coveringWs file e with
    | some t =>
      rw [hc] at h
      simp only [formatInside, if_pos ht] at h
      exact .inl (Option.some.inj h).symm
    | none =>
      rw [hc] at h
      simp only at h
      have he := (Option.some.inj h).symm
      unfold formatDelete at he
      obtain ⟨f, g, rfl, ho⟩ := hb
      rw [ho, tokAfter_boundary f g hw] at he
      cases g with
      | nil => exact .inl he
      | cons t g =>
        simp only [List.head?_cons, Option.map_some] at he
        split at he
        · rename_i hd
          unfold deletesAfter at hd
          simp only [Bool.and_eq_true, beq_iff_eq] at hd
          refine .inr ⟨fileText f, t.text, fileText g, by simp [fileText], ho.symm,
            hw.blank t (by simp) hd.1.2, ?_, ?_⟩
          · rw [he, ho]
            rfl
          · intro b hb
            have := hd.1.1
            rw [hb] at this
            simpa [wsOrEnd] using this
        · exact .inl he

/-- The characters of a text that are not whitespace. -/
def solid (t : List Char) : List Char := t.filter fun c => !isBlank c

theorem solid_append (a b : List Char) : solid (a ++ b) = solid a ++ solid b :=
  List.filter_append ..

theorem solid_blank (a : List Char) (h : Blank a) : solid a = [] := by
  simpa [solid, Blank] using h

/-- Applying the formatted edit gives the same text as applying the edit itself, up to
whitespace. -/
theorem C34_apply_partial (file : List FTok) (parent : Nat → Option (Option (List Char)))
    (hw : FileWf file) (e e' : Edit) (hb : e.text = [] → TokBoundary file e.stop)
    (h : formatEdit file parent e = some e') (r : List Char)
    (hr : applyEdit (fileText file) e = some r) :
    ∃ r', applyEdit (fileText file) e' = some r' ∧ solid r' = solid r := by
  unfold applyEdit at hr
  split at hr
  · rename_i a a' b' b h1 h2
    split at hr
    · rename_i hle
      have hr := Option.some.inj hr
      subst hr
      by_cases ht : e.text = []
      · rcases C34_delete_partial file parent hw e e' ht (hb ht) h with rfl |
          ⟨pre, w, post, hf, hp, hbl, rfl, -⟩
        · refine ⟨a ++ e'.text ++ b, ?_, rfl⟩
          unfold applyEdit
          rw [h1, h2]
          simp [hle]
        · refine ⟨a ++ e.text ++ post, ?_, ?_⟩
          · have h3 : splitAt (fileText file) (e.stop + bytes w) = some (pre ++ w, post) := by
              rw [← hp, ← bytes_append]
              exact splitAt_spec _ _ _ hf
            unfold applyEdit
            simp only [h1, h3]
            rw [if_pos (by omega)]
          · have h4 : b = w ++ post := by
              rw [← hp, splitAt_spec _ pre (w ++ post) (by rw [hf]; simp)] at h2
              simpa using (congrArg (fun x => x.map Prod.snd) h2).symm
            rw [h4, solid_append, solid_append, solid_append _ (w ++ post), solid_append w,
              solid_blank w hbl, List.nil_append, solid_append]
      · obtain ⟨p, s, hp, hs, rfl⟩ := C34_replace file parent e e' ht h
        refine ⟨a ++ (p ++ e.text ++ s) ++ b, ?_, ?_⟩
        · unfold applyEdit
          simp only [h1, h2]
          rw [if_pos hle]
        · simp only [solid_append, solid_blank p hp, solid_blank s hs, List.nil_append,
            List.append_nil]
    · cases hr
  · cases hr

/-- A delete that ends inside a token takes the rest of the token along. -/
theorem C34_negation_unaligned :
    ∃ (file : List FTok) (e e' : Edit), FileWf file ∧ formatEdit file (fun _ => none) e = some e' ∧
      (applyEdit (fileText file) e).map solid = some ['b'] ∧
      (applyEdit (fileText file) e').map solid = some [] :=
  ⟨[⟨.other, ['a', 'b']⟩, ⟨.whitespace, [' ']⟩], ⟨[], 0, 1, none⟩, ⟨[], 0, 3, none⟩,
    ⟨by decide, by decide⟩, by decide, by decide, by decide⟩

/-- Formatting an insert at a character boundary never panics. -/
theorem C34_total_insert (file : List FTok) (parent : Nat → Option (Option (List Char)))
    (e : Edit) (he : e.start = e.stop) (a b : List Char) (hf : fileText file = a ++ b)
    (ha : bytes a = e.start) : ∃ e', formatEdit file parent e = some e' := by
  unfold formatEdit
  have hlen : ¬ bytes (file.flatMap FTok.text) < e.stop := by
    have : file.flatMap FTok.text = a ++ b := hf
    rw [this, bytes_append]
    omega
  rw [if_neg hlen]
  cases hc : coveringWs file e with
  | none => simp only; split <;> exact ⟨_, rfl⟩
  | some t =>
    simp only
    unfold formatInside
    split
    · exact ⟨_, rfl⟩
    · have hm := List.mem_of_find?_eq_some hc
      have hp := List.find?_some hc
      simp only [Bool.and_eq_true, decide_eq_true_eq, beq_iff_eq] at hp
      obtain ⟨f, g, h1, h2, -⟩ := mem_placeToks file t hm
      have hft : fileText f ++ (t.tok.text ++ fileText g) = a ++ b := by
        rw [← hf, h1]
        simp [fileText]
      rcases List.append_eq_append_iff.1 hft with ⟨c, hc1, hc2⟩ | ⟨c, hc1, hc2⟩
      · rcases List.append_eq_append_iff.1 hc2 with ⟨d, hd1, hd2⟩ | ⟨d, hd1, hd2⟩
        · exfalso
          have := congrArg bytes hc1
          rw [bytes_append, hd1, bytes_append] at this
          unfold FAt.stop at hp
          omega
        · have hs : splitAt t.tok.text (e.start - t.start) = some (c, d) := by
            have hb := congrArg bytes hc1
            rw [bytes_append] at hb
            have : e.start - t.start = bytes c := by omega
            rw [this]
            exact splitAt_spec _ _ _ hd1
          rw [hs]
          simp only
          exact ⟨_, rfl⟩
      · exfalso
        have := congrArg bytes hc1
        rw [bytes_append] at this
        omega

/-- Replacing part of a whitespace token can panic, if the token contains a wide character:
the whitespace is split at the distance of the edit from the end of the token. -/
theorem C34_negation_panic :
    ∃ (file : List FTok) (e : Edit) (a o b : List Char), FileWf file ∧
      fileText file = a ++ o ++ b ∧ bytes a = e.start ∧ bytes (a ++ o) = e.stop ∧
      formatEdit file (fun _ => none) e = none :=
  ⟨[⟨.other, ['a']⟩, ⟨.whitespace, ['\u2028', ' ', ' ', ' ']⟩], ⟨['b'], 4, 5, none⟩,
    ['a', '\u2028'], [' '], [' ', ' '], ⟨by decide, by decide⟩, by decide, by decide, by decide,
    by decide⟩

/-- A function inserted at the start of a block. -/
example : formatEdit [⟨.other, "impl A ".toList⟩, ⟨.lCurly, ['{']⟩, ⟨.rCurly, ['}']⟩]
      (fun _ => some none) ⟨"fn f();".toList, 8, 8, none⟩ =
    some ⟨"\n    fn f();\n\n".toList, 8, 8, none⟩ := by decide

example : formatEdit [⟨.semicolon, [';']⟩, ⟨.whitespace, ['\n', ' ']⟩, ⟨.other, ['a']⟩,
      ⟨.whitespace, ['\n', ' ']⟩, ⟨.other, ['b']⟩] (fun _ => none) ⟨[], 3, 4, none⟩ =
    some ⟨[], 3, 6, none⟩ ∧
    TokBoundary [⟨.semicolon, [';']⟩, ⟨.whitespace, ['\n', ' ']⟩, ⟨.other, ['a']⟩,
      ⟨.whitespace, ['\n', ' ']⟩, ⟨.other, ['b']⟩] 4 :=
  ⟨by decide, ⟨[⟨.semicolon, [';']⟩, ⟨.whitespace, ['\n', ' ']⟩, ⟨.other, ['a']⟩], _, rfl,
    by decide⟩⟩

end Verif.Analyzer
