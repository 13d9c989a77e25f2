import Verif.Analyzer.Complete
import Verif.Analyzer.SuggestProps
import Verif.Analyzer.HeaderFixProps
import Verif.Ir.TokenProps

/-!
# C81: completions of attribute macros
-/

namespace Verif.Analyzer.Complete

open Verif.Ir
open Verif.Ir.Token (bytes splitAt bytes_append splitAt_spec splitAt_some)

/-! ## Specification -/

/-- Only whitespace and comments. -/
def AllTrivia (ts : List CTok) : Prop := ∀ t ∈ ts, t.kind.isTrivia = true

/-- The tokens end with the opening bracket of an attribute: `#[` or `#![`. -/
def Opens (ts : List CTok) : Prop :=
  ∃ before h gap, ts = before ++ h :: (gap ++ [⟨.lBrack, ['[']⟩]) ∧
    (h.text = ['#'] ∨ h.text = ['!']) ∧ AllTrivia gap

/-- Nothing follows that would continue a path: the next token is neither a name nor a colon. -/
def PathEnds (ts : List CTok) : Prop :=
  ∀ t, (solid ts).head? = some t → t.kind ≠ .ident ∧ t.kind ≠ .colon

/-- In this text the attribute that is opened by `A` has the path of the macro `m`. -/
def Names (A : List CTok) (m : MacroKind) (doc : List Char) : Prop :=
  ∃ w₁ w₂ w₃ after, AllTrivia w₁ ∧ AllTrivia w₂ ∧ AllTrivia w₃ ∧ PathEnds after ∧
    doc = textOf A ++ (textOf w₁ ++ (m.crateName.toList ++ (textOf w₂ ++ ("::".toList ++
      (textOf w₃ ++ (m.macroName.toList ++ textOf after))))))

/-- Where a macro path can be completed in the attribute opened by `A`: on the bracket, on the first
word, on the colons after the crate, or on the word after them. -/
inductive Spot (A : List CTok) (c : Cursor) : Option (List Char) → Prop where
  | bracket (h : A = c.left.reverse ++ [c.focus]) (hk : c.kind = .lBrack) : Spot A c none
  | first (w : List CTok) (hw : AllTrivia w) (h : c.left.reverse = A ++ w)
      (hk : c.kind = .ident ∨ c.kind = .colon ∨ c.kind = .whitespace) : Spot A c none
  | colons (w₁ w₂ : List CTok) (x : List Char) (hw₁ : AllTrivia w₁) (hw₂ : AllTrivia w₂)
      (hx : x = "ink".toList ∨ x = "ink_e2e".toList)
      (h : c.left.reverse = A ++ (w₁ ++ (⟨.ident, x⟩ :: w₂))) (hk : c.kind = .colon)
      (ht : c.text = "::".toList ∨ c.text = ":".toList) : Spot A c (some x)
  | last (w₁ w₂ w₃ : List CTok) (x : List Char) (hw₁ : AllTrivia w₁) (hw₂ : AllTrivia w₂)
      (hw₃ : AllTrivia w₃) (hx : x = "ink".toList ∨ x = "ink_e2e".toList)
      (h : c.left.reverse =
        A ++ (w₁ ++ (⟨.ident, x⟩ :: (w₂ ++ (⟨.colon, "::".toList⟩ :: w₃)))))
      (hk : c.kind = .ident ∨ c.kind = .whitespace)
      (ht : c.text ≠ "ink".toList ∧ c.text ≠ "ink_e2e".toList ∧ c.text ≠ "::".toList ∧
        c.text ≠ ":".toList) : Spot A c (some x)

/-- The cursor is on or right after an opening bracket. -/
def AtStart (c : Cursor) : Prop :=
  c.kind = .lBrack ∨ ∃ b r, solid c.left = b :: r ∧ b.kind = .lBrack

/-- The cursor is on the name of an ink! crate after a bracket, on colons after such a name, or after
such colons. -/
def InPath (c : Cursor) : Prop :=
  ((c.text = "ink".toList ∨ c.text = "ink_e2e".toList) ∧
    ∃ b r, solid c.left = b :: r ∧ b.kind = .lBrack) ∨
  ((c.text = "::".toList ∨ c.text = ":".toList) ∧
    ∃ b r, solid c.left = b :: r ∧ (b.text = "ink".toList ∨ b.text = "ink_e2e".toList)) ∨
  (∃ b b' r, solid c.left = b :: b' :: r ∧ b.text = "::".toList ∧
    (b'.text = "ink".toList ∨ b'.text = "ink_e2e".toList))

/-- The macro exists in this version of ink!. -/
def Exists (v : Version) (m : MacroKind) : Prop :=
  m ≠ .unknown ∧ (v = .v4 → m ≠ .event ∧ m ≠ .scaleDerive)

/-! ## Lemmas -/

theorem textOf_append (a b : List CTok) : textOf (a ++ b) = textOf a ++ textOf b := by
  simp [textOf]

theorem textOf_cons (a : CTok) (b : List CTok) : textOf (a :: b) = a.text ++ textOf b := by
  simp [textOf]

theorem textOf_nil : textOf [] = [] := rfl

theorem isCrate_iff (t : List Char) :
    isCrate t = true ↔ t = "ink".toList ∨ t = "ink_e2e".toList := by
  simp [isCrate]

theorem isColon_iff (t : List Char) : isColon t = true ↔ t = "::".toList ∨ t = ":".toList := by
  simp [isColon]

theorem solid_trivia (w : List CTok) (hw : AllTrivia w) : solid w = [] := by
  unfold solid
  rw [List.filter_eq_nil_iff]
  intro t ht
  simp [hw t ht]

theorem solid_append (a b : List CTok) : solid (a ++ b) = solid a ++ solid b := by
  simp [solid]

theorem solid_reverse (a : List CTok) : solid a.reverse = (solid a).reverse := by
  simp [solid]

theorem afterBracket_iff (c : Cursor) :
    c.afterBracket = true ↔ ∃ b r, solid c.left = b :: r ∧ b.kind = .lBrack := by
  unfold Cursor.afterBracket Cursor.prev
  cases solid c.left with
  | nil => simp
  | cons b r => simp

theorem onBracket_iff (c : Cursor) : c.onBracket = true ↔ c.kind = .lBrack := by
  simp [Cursor.onBracket]

theorem inPath_iff (c : Cursor) : c.inPath = true ↔ InPath c := by
  unfold Cursor.inPath InPath
  rw [Bool.or_eq_true, Bool.or_eq_true, Bool.and_eq_true, Bool.and_eq_true, Bool.and_eq_true,
    isCrate_iff, isColon_iff, afterBracket_iff, or_assoc]
  refine or_congr Iff.rfl (or_congr (and_congr Iff.rfl ?_) ?_)
  · unfold Cursor.prev
    cases solid c.left with
    | nil => simp
    | cons b r => simp [isCrate_iff]
  · unfold Cursor.prev Cursor.prevPrev
    cases solid c.left with
    | nil => simp
    | cons b r =>
      cases r with
      | nil => simp
      | cons b' r => simp [isCrate_iff]

theorem atStart_iff (c : Cursor) : (c.onBracket || c.afterBracket) = true ↔ AtStart c := by
  rw [Bool.or_eq_true, onBracket_iff, afterBracket_iff]
  rfl

theorem mem_allMacros (v : Version) (m : MacroKind) : m ∈ allMacros v ↔ Exists v m := by
  unfold Exists
  cases v <;> cases m <;> simp [allMacros]

theorem mem_scope (v : Version) (scope : List AttrKind) (s : List MacroKind) (m : MacroKind) :
    m ∈ removeMacrosForScope v scope s ↔
      m ∈ s ∧ (scope ≠ [] → ∃ s ∈ scope, m ∈ validDescendantMacros s v) := by
  unfold removeMacrosForScope
  split
  · rename_i h
    rw [List.isEmpty_iff] at h
    simp [h]
  · rename_i h
    rw [List.isEmpty_iff] at h
    simp [h, List.mem_filter, List.mem_flatMap]

theorem mem_keepCrate (c : Cursor) (s : MacroSite) (ms : List MacroKind) (m : MacroKind) :
    m ∈ keepCrate c s ms ↔ m ∈ ms ∧ (InPath c ∧ ¬ (c.text = "ink".toList ∨ c.text = "ink_e2e".toList) →
      ∀ x, s.segment = some x → m.crateName.toList = x) := by
  unfold keepCrate
  rw [← inPath_iff, ← isCrate_iff]
  by_cases h : (c.inPath && !isCrate c.text) = true
  · rw [if_pos h]
    rw [Bool.and_eq_true, Bool.not_eq_true'] at h
    cases s.segment with
    | none => simp
    | some x => simp [h]
  · rw [if_neg h]
    rw [Bool.and_eq_true, Bool.not_eq_true', ← Bool.not_eq_true] at h
    exact ⟨fun hm => ⟨hm, fun hh => absurd hh h⟩, fun hm => hm.1⟩

theorem mem_keepPrefix (c : Cursor) (ms : List MacroKind) (m : MacroKind) :
    m ∈ keepPrefix c ms ↔ m ∈ ms ∧ (¬ AtStart c ∧ ¬ (c.text = "ink".toList ∨ c.text = "ink_e2e".toList) ∧
      ¬ (c.text = "::".toList ∨ c.text = ":".toList) → c.pre <+: m.macroName.toList) := by
  unfold keepPrefix
  rw [← atStart_iff, ← isCrate_iff, ← isColon_iff]
  unfold Cursor.onCrateOrColon
  cases h1 : c.onBracket <;> cases h2 : c.afterBracket <;> cases h3 : isCrate c.text <;>
    cases h4 : isColon c.text <;> simp
  unfold Cursor.typed
  cases h5 : c.pre <;> simp

theorem mem_byItem (v : Version) (c : Cursor) (s : MacroSite) (m : MacroKind) :
    m ∈ byItem v c s ↔ (∃ i, s.item = some i ∧ m ∈ macrosBySyntax i v) ∨
      (s.item = none ∧ InPath c ∧ Exists v m) := by
  unfold byItem
  rw [← inPath_iff, ← mem_allMacros]
  cases s.item with
  | some i => simp
  | none => cases c.inPath <;> simp

theorem mem_macroSuggestions (v : Version) (c : Cursor) (s : MacroSite) (m : MacroKind) :
    m ∈ macroSuggestions v c s ↔ s.otherInk = false ∧
      ((∃ i, s.item = some i ∧ m ∈ macrosBySyntax i v) ∨ (s.item = none ∧ InPath c ∧ Exists v m)) ∧
      (InPath c ∧ ¬ (c.text = "ink".toList ∨ c.text = "ink_e2e".toList) →
        ∀ x, s.segment = some x → m.crateName.toList = x) ∧
      (¬ AtStart c ∧ ¬ (c.text = "ink".toList ∨ c.text = "ink_e2e".toList) ∧
        ¬ (c.text = "::".toList ∨ c.text = ":".toList) → c.pre <+: m.macroName.toList) ∧
      (s.scope ≠ [] → ∃ a ∈ s.scope, m ∈ validDescendantMacros a v) := by
  unfold macroSuggestions
  cases s.otherInk with
  | true => simp
  | false =>
    simp only [Bool.false_eq_true, if_false, mem_scope, mem_keepPrefix, mem_keepCrate, mem_byItem,
      and_assoc, true_and]

theorem detail_inj (m m' : MacroKind)
    (h : "ink! " ++ m.display ++ " attribute macro." = "ink! " ++ m'.display ++ " attribute macro.") :
    m = m' := by
  revert h
  cases m <;> cases m' <;> decide

theorem detail_ne (m : MacroKind) :
    "ink! " ++ m.display ++ " attribute macro." ≠ "ink! attribute" ∧
    "ink! " ++ m.display ++ " attribute macro." ≠ "ink! attribute macro" ∧
    "ink! " ++ m.display ++ " attribute macro." ≠ "ink! e2e attribute macro" := by
  cases m <;> decide

theorem prefix_isPrefixOf (p l : List Char) : p.isPrefixOf l = true ↔ p <+: l := by
  simp

theorem crateItems_detail (c : Cursor) (s : MacroSite) (i : Item) (h : i ∈ crateItems c s) :
    i.detail = "ink! attribute" ∨ i.detail = "ink! attribute macro" ∨
      i.detail = "ink! e2e attribute macro" := by
  unfold crateItems at h
  cases ht : c.typed with
  | none => simp [ht] at h
  | some p =>
    rw [ht] at h
    simp only [List.mem_map, List.mem_filter] at h
    obtain ⟨x, ⟨hx, -⟩, rfl⟩ := h
    unfold crateSuggestions at hx
    split at hx
    · simp only [List.mem_singleton] at hx
      subst hx
      exact Or.inl rfl
    · simp only [List.mem_cons, List.not_mem_nil, or_false] at hx
      rcases hx with rfl | rfl
      · exact Or.inr (Or.inl rfl)
      · exact Or.inr (Or.inr rfl)

theorem mem_macroItem (v : Version) (c : Cursor) (s : MacroSite) (m : MacroKind) :
    macroItem c m ∈ macroCompletions v c (some s) ↔
      (AtStart c ∨ InPath c) ∧ m ∈ macroSuggestions v c s := by
  unfold macroCompletions
  rw [← atStart_iff, ← inPath_iff, ← Bool.or_eq_true]
  simp only
  by_cases h : (c.onBracket || c.afterBracket || c.inPath) = true
  · rw [if_pos h]
    simp only [h, true_and]
    by_cases he : (macroSuggestions v c s).isEmpty = true
    · have he' := List.isEmpty_iff.1 he
      rw [he, he']
      simp only [Bool.not_true, Bool.false_eq_true, if_false, List.not_mem_nil, iff_false]
      intro hm
      split at hm
      · have := crateItems_detail c s _ hm
        have hn := detail_ne m
        rcases this with h' | h' | h'
        · exact hn.1 h'
        · exact hn.2.1 h'
        · exact hn.2.2 h'
      · simp at hm
    · rw [Bool.not_eq_true] at he
      rw [he]
      simp only [Bool.not_false, if_true, List.mem_map]
      constructor
      · rintro ⟨m', hm', he⟩
        have := detail_inj m' m (congrArg Item.detail he)
        exact this ▸ hm'
      · intro hm
        exact ⟨m, hm, rfl⟩
  · rw [if_neg h]
    simp [h]

theorem edit_bracket (c : Cursor) (n : List Char) :
    applyEdit c.doc ⟨n, c.stop, c.stop, none⟩ =
      some (textOf (c.left.reverse ++ [c.focus]) ++ (n ++ textOf c.right)) := by
  have := Header.apply_cut (textOf c.left.reverse ++ c.text) [] (textOf c.right)
    ⟨n, c.stop, c.stop, none⟩ (by simp [Cursor.stop, Cursor.start, bytes_append])
    (by simp [Cursor.stop, Cursor.start, bytes_append, bytes])
  rw [textOf_append, textOf_cons, textOf_nil]
  unfold Cursor.doc
  simpa [Cursor.focus, List.append_assoc] using this

theorem edit_focus (c : Cursor) (n : List Char) :
    applyEdit c.doc ⟨n, c.start, c.stop, none⟩ =
      some (textOf c.left.reverse ++ (n ++ textOf c.right)) := by
  have := Header.apply_cut (textOf c.left.reverse) c.text (textOf c.right)
    ⟨n, c.start, c.stop, none⟩ rfl rfl
  unfold Cursor.doc
  simpa [List.append_assoc] using this

theorem solid_left (c : Cursor) (ts : List CTok) (h : c.left.reverse = ts) :
    solid c.left = (solid ts).reverse := by
  rw [← h, solid_reverse, List.reverse_reverse]

theorem solid_opens (A : List CTok) (hA : Opens A) :
    ∃ l, solid A = l ++ [⟨.lBrack, ['[']⟩] := by
  obtain ⟨b, h, g, rfl, -, -⟩ := hA
  refine ⟨solid (b ++ h :: g), ?_⟩
  rw [← List.cons_append, ← List.append_assoc, solid_append]
  rfl

/-! ## Theorems -/

/-- The cursor at an offset of a file stands for that file and that offset. -/
theorem C81_cursor (file : List CTok) (off : Nat) (c : Cursor) (h : cursorAt file off = some c) :
    c.left.reverse ++ c.focus :: c.right = file ∧ c.doc = textOf file ∧ c.offset = off := by
  unfold cursorAt at h
  rw [Option.bind_eq_some_iff] at h
  obtain ⟨a, ha, h⟩ := h
  rw [Option.bind_eq_some_iff] at h
  obtain ⟨t, ht, h⟩ := h
  rw [Option.bind_eq_some_iff] at h
  obtain ⟨x, hx, h⟩ := h
  rw [Option.map_eq_some_iff] at h
  obtain ⟨⟨p, q⟩, hs, rfl⟩ := h
  obtain ⟨h1, h2⟩ := splitAt_some _ _ _ _ hs
  have hf := Token.focused_cases _ _ _ _ ha ht
  have hmem : t ∈ Token.touching (file.map fun t => ⟨t.kind.isTrivia, t.text⟩) off := by
    rcases hf with hf | ⟨l, r, rest, hf, h' | h'⟩
    · rw [hf]; simp
    · rw [hf, h'.1]; simp
    · rw [hf, h'.1]; simp
  obtain ⟨hp, htou⟩ := (Token.mem_touching _ _ _).1 hmem
  rw [Token.touches_iff _ _ hp] at htou
  have hstart : t.start = bytes (textOf (file.take t.index)) := by
    rw [hp.2, ← List.map_take]
    unfold Token.textOf textOf
    rw [List.flatMap_map]
  obtain ⟨hi, hxe⟩ := List.getElem?_eq_some_iff.1 hx
  have hfile : (file.take t.index).reverse.reverse ++ x :: file.drop (t.index + 1) = file := by
    rw [List.reverse_reverse, ← hxe, ← List.drop_eq_getElem_cons hi, List.take_append_drop]
  have hfocus : Cursor.focus ⟨(file.take t.index).reverse, x.kind, p, q, file.drop (t.index + 1)⟩ = x := by
    unfold Cursor.focus Cursor.text
    simp only
    rw [← h1]
  refine ⟨?_, ?_, ?_⟩
  · rw [hfocus]
    exact hfile
  · have := congrArg textOf hfile
    rw [textOf_append, textOf_cons] at this
    unfold Cursor.doc Cursor.text
    simp only
    rw [← h1]
    exact this
  · unfold Cursor.offset Cursor.start
    simp only [List.reverse_reverse]
    rw [h2, ← hstart]
    omega

/-- A macro is completed iff the cursor is at the start of an attribute or in the path of an ink!
macro, the item has no other ink! attribute, the macro fits the item (an item that is not known yet:
it exists in the version of ink!), belongs to the crate whose name is there, starts with what was
typed after the crate, and is allowed in the enclosing scope. -/
theorem C81_offered (v : Version) (c : Cursor) (s : MacroSite) (m : MacroKind) :
    macroItem c m ∈ macroCompletions v c (some s) ↔
      (AtStart c ∨ InPath c) ∧ s.otherInk = false ∧
      ((∃ i, s.item = some i ∧ m ∈ macrosBySyntax i v) ∨ (s.item = none ∧ InPath c ∧ Exists v m)) ∧
      (InPath c ∧ ¬ (c.text = "ink".toList ∨ c.text = "ink_e2e".toList) →
        ∀ x, s.segment = some x → m.crateName.toList = x) ∧
      (¬ AtStart c ∧ ¬ (c.text = "ink".toList ∨ c.text = "ink_e2e".toList) ∧
        ¬ (c.text = "::".toList ∨ c.text = ":".toList) → c.pre <+: m.macroName.toList) ∧
      (s.scope ≠ [] → ∃ a ∈ s.scope, m ∈ validDescendantMacros a v) := by
  rw [mem_macroItem, mem_macroSuggestions]

/-- Every completion is for a macro or for a crate; there is one for a crate only if there is none for
a macro, and then exactly for the crate names (with another ink! argument on the item: for
`ink()`) that start with what was typed at the start of the attribute, on an item without ink! macro. -/
theorem C81_crates (v : Version) (c : Cursor) (s : MacroSite) (i : Item)
    (hm : ∀ m, macroItem c m ∉ macroCompletions v c (some s)) :
    i ∈ macroCompletions v c (some s) ↔
      (∃ b r, solid c.left = b :: r ∧ b.kind = .lBrack) ∧ s.otherMacro = false ∧ c.pre ≠ [] ∧
      c.pre <+: i.label ∧ i.edit.text = i.label ∧
      i.edit.start = (if c.kind = .lBrack then c.stop else c.start) ∧ i.edit.stop = c.stop ∧
      ((s.otherInk = true ∧ i.label = "ink()".toList ∧ i.edit.snippet = some "ink($1)".toList ∧
          i.detail = "ink! attribute") ∨
       (s.otherInk = false ∧ i.edit.snippet = none ∧
          ((i.label = "ink".toList ∧ i.detail = "ink! attribute macro") ∨
           (i.label = "ink_e2e".toList ∧ i.detail = "ink! e2e attribute macro")))) := by
  have hr1 : (macroRange c).1 = if c.kind = .lBrack then c.stop else c.start := by
    unfold macroRange Cursor.onBracket
    by_cases h : c.kind = .lBrack <;> simp [h]
  have hr2 : (macroRange c).2 = c.stop := by
    unfold macroRange
    split <;> rfl
  have hempty : (AtStart c ∨ InPath c) → macroSuggestions v c s = [] := by
    intro h
    rw [List.eq_nil_iff_forall_not_mem]
    intro m hh
    exact hm m ((mem_macroItem v c s m).2 ⟨h, hh⟩)
  have hc : i ∈ macroCompletions v c (some s) ↔
      c.afterBracket = true ∧ s.otherMacro = false ∧ i ∈ crateItems c s := by
    unfold macroCompletions
    simp only
    by_cases h : (c.onBracket || c.afterBracket || c.inPath) = true
    · rw [if_pos h]
      rw [hempty (by rwa [← atStart_iff, ← inPath_iff, ← Bool.or_eq_true])]
      cases c.afterBracket <;> cases s.otherMacro <;> simp
    · rw [if_neg h]
      have : c.afterBracket = false := by
        revert h
        cases c.afterBracket <;> simp
      simp [this]
  rw [hc, afterBracket_iff]
  refine and_congr Iff.rfl (and_congr Iff.rfl ?_)
  unfold crateItems Cursor.typed
  cases hp : c.pre with
  | nil => simp
  | cons x p =>
    simp only [List.isEmpty_cons, Bool.false_eq_true, if_false, List.mem_map, List.mem_filter,
      prefix_isPrefixOf]
    constructor
    · rintro ⟨y, ⟨hy, hpre⟩, rfl⟩
      refine ⟨by simp, hpre, rfl, hr1, hr2, ?_⟩
      unfold crateSuggestions at hy
      cases ho : s.otherInk with
      | true =>
        simp only [ho, if_true, List.mem_singleton] at hy
        subst hy
        exact Or.inl ⟨rfl, rfl, rfl, rfl⟩
      | false =>
        simp only [ho, Bool.false_eq_true, if_false, List.mem_cons, List.not_mem_nil, or_false] at hy
        rcases hy with rfl | rfl
        · exact Or.inr ⟨rfl, rfl, Or.inl ⟨rfl, rfl⟩⟩
        · exact Or.inr ⟨rfl, rfl, Or.inr ⟨rfl, rfl⟩⟩
    · rintro ⟨-, hpre, htext, hst, hsp, h⟩
      obtain ⟨label, ⟨text, start, stop, snippet⟩, detail⟩ := i
      simp only at *
      subst htext
      rw [← hr1] at hst
      rw [← hr2] at hsp
      subst hst
      subst hsp
      rcases h with ⟨ho, rfl, rfl, rfl⟩ | ⟨ho, rfl, ⟨rfl, rfl⟩ | ⟨rfl, rfl⟩⟩
      · exact ⟨("ink()".toList, some "ink($1)".toList, "ink! attribute"),
          ⟨by simp [crateSuggestions, ho], hpre⟩, rfl⟩
      · exact ⟨("ink".toList, none, "ink! attribute macro"),
          ⟨by simp [crateSuggestions, ho], hpre⟩, rfl⟩
      · exact ⟨("ink_e2e".toList, none, "ink! e2e attribute macro"),
          ⟨by simp [crateSuggestions, ho], hpre⟩, rfl⟩

theorem apply_macro (c : Cursor) (m : MacroKind) :
    applyEdit c.doc (macroItem c m).edit =
      some (if c.kind = .lBrack then textOf (c.left.reverse ++ [c.focus]) ++ (macroText c m ++ textOf c.right)
        else textOf c.left.reverse ++ (macroText c m ++ textOf c.right)) := by
  unfold macroItem macroRange Cursor.onBracket
  by_cases h : c.kind = .lBrack
  · simp only [h, beq_self_eq_true, if_true]
    exact edit_bracket c _
  · have : (c.kind == Kind.lBrack) = false := by simpa using h
    simp only [this, Bool.false_eq_true, if_false, h]
    exact edit_focus c _

/-- **Accepting a macro gives the attribute the path of that macro**, and keeps everything before
and after: when the cursor is on the bracket, on the first word, on the colons or on the word after
them, and nothing of a path follows the token in focus. -/
theorem C81_accept_partial (v : Version) (A : List CTok) (c : Cursor) (s : MacroSite) (m : MacroKind)
    (x : Option (List Char)) (hA : Opens A) (hs : Spot A c x)
    (hseg : ∀ t, x = some t → s.segment = some t) (hr : PathEnds c.right)
    (h : macroItem c m ∈ macroCompletions v c (some s)) :
    ∃ doc, applyEdit c.doc (macroItem c m).edit = some doc ∧ Names A m doc ∧
      textOf A <+: doc ∧ textOf c.right <:+ doc := by
  obtain ⟨lA, hlA⟩ := solid_opens A hA
  have hm := (C81_offered v c s m).1 h
  rw [apply_macro]
  refine ⟨_, rfl, ?_⟩
  have fin : ∀ (w₁ w₂ w₃ : List CTok) (doc : List Char), AllTrivia w₁ → AllTrivia w₂ → AllTrivia w₃ →
      doc = textOf A ++ (textOf w₁ ++ (m.crateName.toList ++ (textOf w₂ ++ ("::".toList ++
        (textOf w₃ ++ (m.macroName.toList ++ textOf c.right)))))) →
      Names A m doc ∧ textOf A <+: doc ∧ textOf c.right <:+ doc := by
    intro w₁ w₂ w₃ doc h1 h2 h3 hd
    refine ⟨⟨w₁, w₂, w₃, c.right, h1, h2, h3, hr, hd⟩, ⟨_, hd.symm⟩, ?_⟩
    refine ⟨textOf A ++ (textOf w₁ ++ (m.crateName.toList ++ (textOf w₂ ++ ("::".toList ++
        (textOf w₃ ++ m.macroName.toList))))), ?_⟩
    rw [hd]
    simp only [List.append_assoc]
  have hnil : AllTrivia [] := fun _ h => nomatch h
  cases hs with
  | bracket h hk =>
    rw [if_pos hk]
    refine fin [] [] [] _ hnil hnil hnil ?_
    rw [h]
    have : c.onBracket = true := (onBracket_iff c).2 hk
    simp [macroText, this, textOf_nil, List.append_assoc]
  | first w hw h hk =>
    have hk' : c.kind ≠ .lBrack := by rcases hk with h | h | h <;> rw [h] <;> decide
    rw [if_neg hk']
    refine fin w [] [] _ hw hnil hnil ?_
    have hb : c.afterBracket = true := by
      rw [afterBracket_iff, solid_left c _ h, solid_append, solid_trivia w hw, hlA]
      exact ⟨⟨.lBrack, ['[']⟩, lA.reverse, by simp, rfl⟩
    rw [h]
    simp [macroText, hb, textOf_nil, textOf_append, List.append_assoc]
  | colons w₁ w₂ x hw₁ hw₂ hx h hk ht =>
    have hk' : c.kind ≠ .lBrack := by rw [hk]; decide
    rw [if_neg hk']
    have hsol : solid c.left = ⟨.ident, x⟩ :: (solid A).reverse := by
      rw [solid_left c _ h, solid_append, solid_append, solid_trivia w₁ hw₁, List.nil_append]
      have : solid (⟨.ident, x⟩ :: w₂) = [⟨.ident, x⟩] := by
        rw [← List.singleton_append, solid_append, solid_trivia w₂ hw₂]
        rfl
      rw [this]
      simp
    have hp : InPath c := Or.inr (Or.inl ⟨ht, _, _, hsol, hx⟩)
    have hc : ¬ (c.text = "ink".toList ∨ c.text = "ink_e2e".toList) := by
      rcases ht with ht | ht <;> rw [ht] <;> decide
    have hcr := hm.2.2.2.1 ⟨hp, hc⟩ x (hseg x rfl)
    have hb : c.afterBracket = false := by
      rw [← Bool.not_eq_true, afterBracket_iff, hsol]
      rintro ⟨b, r, hh, hkb⟩
      injection hh with hh _
      rw [← hh] at hkb
      exact absurd hkb (by simp)
    have hob : c.onBracket = false := by
      rw [← Bool.not_eq_true, onBracket_iff]
      exact hk'
    have hcr' : isCrate c.text = false := by
      rw [← Bool.not_eq_true, isCrate_iff]
      exact hc
    have hcol : isColon c.text = true := (isColon_iff _).2 ht
    refine fin w₁ w₂ [] _ hw₁ hw₂ hnil ?_
    rw [h, hcr]
    simp [macroText, hb, hob, hcr', Cursor.onCrateOrColon, hcol, textOf_nil, textOf_append, textOf_cons,
      List.append_assoc]
  | last w₁ w₂ w₃ x hw₁ hw₂ hw₃ hx h hk ht =>
    have hk' : c.kind ≠ .lBrack := by rcases hk with h | h <;> rw [h] <;> decide
    rw [if_neg hk']
    have hsol : solid c.left = ⟨.colon, "::".toList⟩ :: ⟨.ident, x⟩ :: (solid A).reverse := by
      rw [solid_left c _ h, solid_append, solid_append, solid_trivia w₁ hw₁, List.nil_append]
      have : solid (⟨.ident, x⟩ :: (w₂ ++ (⟨.colon, "::".toList⟩ :: w₃))) =
          [⟨.ident, x⟩, ⟨.colon, "::".toList⟩] := by
        rw [← List.singleton_append, solid_append, solid_append, solid_trivia w₂ hw₂, List.nil_append,
          ← List.singleton_append (l := w₃), solid_append, solid_trivia w₃ hw₃]
        rfl
      rw [this]
      simp
    have hp : InPath c := Or.inr (Or.inr ⟨_, _, _, hsol, rfl, hx⟩)
    have hc : ¬ (c.text = "ink".toList ∨ c.text = "ink_e2e".toList) := fun h =>
      h.elim ht.1 ht.2.1
    have hcr := hm.2.2.2.1 ⟨hp, hc⟩ x (hseg x rfl)
    have hb : c.afterBracket = false := by
      rw [← Bool.not_eq_true, afterBracket_iff, hsol]
      rintro ⟨b, r, hh, hkb⟩
      injection hh with hh _
      rw [← hh] at hkb
      exact absurd hkb (by simp)
    have hob : c.onBracket = false := by
      rw [← Bool.not_eq_true, onBracket_iff]
      exact hk'
    have hcr' : isCrate c.text = false := by
      rw [← Bool.not_eq_true, isCrate_iff]
      exact hc
    have hcol : isColon c.text = false := by
      rw [← Bool.not_eq_true, isColon_iff]
      exact fun h => h.elim ht.2.2.1 ht.2.2.2
    refine fin w₁ w₂ w₃ _ hw₁ hw₂ hw₃ ?_
    rw [h, hcr]
    simp [macroText, hb, hob, hcr', Cursor.onCrateOrColon, hcol, textOf_append, textOf_cons,
      List.append_assoc]

/-! ### The claim at other places -/

/-- A cursor in a file, what is known of the attribute, and the text after accepting a completion. -/
def Gives (v : Version) (file : List CTok) (off : Nat) (s : MacroSite) (m : MacroKind)
    (before after : List Char) : Prop :=
  ∃ c, cursorAt file off = some c ∧ textOf file = before ∧
    macroItem c m ∈ macroCompletions v c (some s) ∧
    applyEdit before (macroItem c m).edit = some after

instance (v : Version) (file : List CTok) (off : Nat) (s : MacroSite) (m : MacroKind)
    (before after : List Char) : Decidable (Gives v file off s m before after) := by
  unfold Gives
  cases h : cursorAt file off with
  | none => exact isFalse (fun ⟨_, h, _⟩ => nomatch h)
  | some c =>
    exact decidable_of_iff (textOf file = before ∧
        macroItem c m ∈ macroCompletions v c (some s) ∧
        applyEdit before (macroItem c m).edit = some after)
      ⟨fun h => ⟨c, rfl, h⟩, fun ⟨_, h1, h2⟩ => Option.some.inj h1 ▸ h2⟩

/-- `mod m;` after an attribute. -/
def tailToks : List CTok :=
  [⟨.whitespace, [' ']⟩, ⟨.other, "mod".toList⟩, ⟨.whitespace, [' ']⟩, ⟨.ident, ['m']⟩, ⟨.other, [';']⟩]

/-- An attribute on a module. -/
def onModule (segment : Option String) : MacroSite := ⟨segment.map String.toList, false, false, some .module, []⟩

/-- With a space in front of the closing bracket, the bracket is in focus and is replaced: `#[ ]`
becomes `#[ ink::contract` and the attribute is not closed any more. -/
theorem C81_negation_bracket :
    Gives .v5 ([⟨.other, ['#']⟩, ⟨.lBrack, ['[']⟩, ⟨.whitespace, [' ']⟩, ⟨.other, [']']⟩] ++ tailToks) 3
      (onModule none) .contract "#[ ] mod m;".toList "#[ ink::contract mod m;".toList := by
  decide +kernel

/-- In front of a word that is already there, the macro is glued to it. -/
theorem C81_negation_word :
    Gives .v5 ([⟨.other, ['#']⟩, ⟨.lBrack, ['[']⟩, ⟨.ident, "ink".toList⟩, ⟨.other, [']']⟩] ++ tailToks) 2
      (onModule (some "ink")) .contract "#[ink] mod m;".toList "#[ink::contractink] mod m;".toList := by
  decide +kernel

/-- Between the colons and the name of a macro, the name is written twice. -/
theorem C81_negation_name :
    Gives .v5 ([⟨.other, ['#']⟩, ⟨.lBrack, ['[']⟩, ⟨.ident, "ink".toList⟩, ⟨.colon, "::".toList⟩,
        ⟨.ident, "contract".toList⟩, ⟨.other, [']']⟩] ++ tailToks) 7
      (onModule (some "ink")) .contract "#[ink::contract] mod m;".toList
      "#[ink::contractcontract] mod m;".toList := by
  decide +kernel

/-- On the name of the crate in a complete path, the macro is written twice. -/
theorem C81_negation_crate :
    Gives .v5 ([⟨.other, ['#']⟩, ⟨.lBrack, ['[']⟩, ⟨.ident, "ink".toList⟩, ⟨.colon, "::".toList⟩,
        ⟨.ident, "contract".toList⟩, ⟨.other, [']']⟩] ++ tailToks) 5
      (onModule (some "ink")) .contract "#[ink::contract] mod m;".toList
      "#[ink::contract::contract] mod m;".toList := by
  decide +kernel

/-- Any opening bracket counts, also one among the arguments of another attribute. -/
theorem C81_negation_nested :
    Gives .v5 ([⟨.other, ['#']⟩, ⟨.lBrack, ['[']⟩, ⟨.ident, ['a']⟩, ⟨.lParen, ['(']⟩, ⟨.lBrack, ['[']⟩,
        ⟨.other, [']']⟩, ⟨.other, [')']⟩, ⟨.other, [']']⟩] ++ tailToks) 5
      (onModule (some "a")) .contract "#[a([])] mod m;".toList "#[a([ink::contract])] mod m;".toList := by
  decide +kernel

/-! ### The hypotheses can be met -/

/-- `#[ink::co]`, the cursor behind `co`. -/
def sampleCo : Cursor :=
  ⟨[⟨.colon, "::".toList⟩, ⟨.ident, "ink".toList⟩, ⟨.lBrack, ['[']⟩, ⟨.other, ['#']⟩], .ident, "co".toList, [],
    ⟨.other, [']']⟩ :: tailToks⟩

example : Opens [⟨.other, ['#']⟩, ⟨.lBrack, ['[']⟩] ∧
    Spot [⟨.other, ['#']⟩, ⟨.lBrack, ['[']⟩] sampleCo (some "ink".toList) ∧ PathEnds sampleCo.right ∧
    macroItem sampleCo .contract ∈ macroCompletions .v5 sampleCo (some (onModule (some "ink"))) ∧
    cursorAt ([⟨.other, ['#']⟩, ⟨.lBrack, ['[']⟩, ⟨.ident, "ink".toList⟩, ⟨.colon, "::".toList⟩,
      ⟨.ident, "co".toList⟩, ⟨.other, [']']⟩] ++ tailToks) 9 = some sampleCo := by
  refine ⟨⟨[], ⟨.other, ['#']⟩, [], rfl, Or.inl rfl, by simp [AllTrivia]⟩, ?_, ?_, by decide +kernel,
    by decide +kernel⟩
  · exact .last [] [] [] _ (by simp [AllTrivia]) (by simp [AllTrivia]) (by simp [AllTrivia]) (Or.inl rfl)
      rfl (Or.inl rfl) (by decide)
  · intro t ht
    have : t = ⟨.other, [']']⟩ := (Option.some.inj ht).symm
    subst this
    decide

/-- Crates are offered where no macro fits. -/
example : (macroCompletions .v5 ⟨[⟨.lBrack, ['[']⟩, ⟨.other, ['#']⟩], .ident, "in".toList, [], []⟩
    (some ⟨some "in".toList, false, false, none, []⟩)).map Item.label =
      ["ink".toList, "ink_e2e".toList] := by decide +kernel

end Verif.Analyzer.Complete
