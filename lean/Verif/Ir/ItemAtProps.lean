import Verif.Ir.ItemAt

/-!
# Property C97: suggestions inside an attribute are for what the attribute annotates
-/

namespace Verif.Ir.ItemAt

/-! ## Specification -/

/-- The child which leads to the token in focus, seen from behind the ancestors `g` (nearest first). -/
def within (s : Syn) : List Frame → Syn
  | [] => s
  | f :: fs => within (f.fill s) fs

/-- A node has a token of a kind as a child. -/
def Has (f : Frame) (s : Syn) (k : TokKind) : Prop := .tok k ∈ f.before ∨ s = .tok k ∨ .tok k ∈ f.behind

/-- The cursor is inside an attribute: `g` are the ancestors inside of it, `a` is the attribute, `rest`
its ancestors. -/
def InAttr (p : Place) (g : List Frame) (a : Frame) (rest : List Frame) : Prop :=
  p.up = g ++ a :: rest ∧ (∀ f ∈ g, ∀ i, f.kind ≠ .attr i) ∧ ∃ i, a.kind = .attr i

/-- The attribute has its closing bracket. -/
def Closed (p : Place) (g : List Frame) (a : Frame) : Prop := Has a (within p.self g) .rBrack

/-- The cursor is not inside an attribute. -/
def NotInAttr (p : Place) : Prop := ∀ f ∈ p.up, ∀ i, f.kind ≠ .attr i

/-- Tokens which may stand between an attribute that is not closed and the keyword of the item: white
space, comments, punctuation and `pub`. -/
def Light (t : TokKind) : Prop :=
  t = .whitespace ∨ t = .comment ∨ t = .punct ∨ t = .rBrack ∨ t = .pub

mutual

/-- The tokens of a tree, in the order of the text. -/
def toks : Syn → List TokKind
  | .tok t => [t]
  | .node _ cs => toksList cs

/-- The tokens of a list of trees. -/
def toksList : List Syn → List TokKind
  | [] => []
  | c :: cs => toks c ++ toksList cs

end

/-- The next word behind the cursor is the keyword `w`: behind, first come the tokens of the siblings
behind in the parent, then of those behind in its parent, and so on. -/
def NextWord (p : Place) (w : Word) : Prop :=
  ∃ gap rest, p.up.flatMap (fun f => toksList f.behind) = gap ++ .word w :: rest ∧ ∀ t ∈ gap, Light t

/-- The first item among the ancestors is a struct. -/
def FirstItemStruct (up : List Frame) : Prop :=
  ∃ g f rest, up = g ++ f :: rest ∧ (∀ x ∈ g, ∀ w, x.kind ≠ .item w) ∧ f.kind = .item (some .struct)

mutual

/-- A tree has no attribute in it. -/
def NoAttr : Syn → Prop
  | .tok _ => True
  | .node k cs => (∀ i, k ≠ .attr i) ∧ NoAttrs cs

/-- A list of trees has no attribute in it. -/
def NoAttrs : List Syn → Prop
  | [] => True
  | c :: cs => NoAttr c ∧ NoAttrs cs

end

/-- The cursor is behind an attribute without closing bracket: only white space and comments are between
the attribute, whose parts are `cs`, and the token in focus. -/
def Behind (p : Place) (ink : Bool) (cs : List Syn) (f : Frame) (rest : List Frame) : Prop :=
  p.up = f :: rest ∧
  (∃ gap more, f.before = gap ++ .node (.attr ink) cs :: more ∧
    ∀ x ∈ gap, x = .tok .whitespace ∨ x = .tok .comment) ∧
  NoAttrs cs ∧ .tok .rBrack ∉ cs ∧ ∃ t ∈ toksList cs, t ≠ .whitespace ∧ t ≠ .comment

/-! ## Lemmas -/

theorem hasTok_iff (f : Frame) (s : Syn) (k : TokKind) : hasTok k (f.children s) = true ↔ Has f s k := by
  have h1 : ∀ cs : List Syn, hasTok k cs = true ↔ .tok k ∈ cs := by
    intro cs
    unfold hasTok
    rw [List.any_eq_true]
    constructor
    · rintro ⟨c, hc, h⟩
      cases c with
      | tok t => simp only [beq_iff_eq] at h; exact h ▸ hc
      | node k cs => simp at h
    · intro h
      exact ⟨_, h, by simp⟩
  rw [h1, Frame.children, Has, List.mem_append, List.mem_reverse, List.mem_cons]
  constructor
  · rintro (h | h | h)
    · exact Or.inl h
    · exact Or.inr (Or.inl h.symm)
    · exact Or.inr (Or.inr h)
  · rintro (h | h | h)
    · exact Or.inl h
    · exact Or.inr (Or.inl h.symm)
    · exact Or.inr (Or.inr h)

theorem climb_at (p : NodeKind → Bool) (g : List Frame) (f : Frame) (rest : List Frame)
    (hg : ∀ x ∈ g, p x.kind = false) (hf : p f.kind = true) (s : Syn) :
    climb p s (g ++ f :: rest) = some (within s g, f, rest) := by
  induction g generalizing s with
  | nil => simp [climb, hf, within]
  | cons x xs ih =>
    have hx := hg x (by simp)
    simp only [List.cons_append, climb, hx, Bool.false_eq_true, if_false, within]
    exact ih (fun y hy => hg y (by simp [hy])) _

theorem climb_none (p : NodeKind → Bool) (g : List Frame) (hg : ∀ x ∈ g, p x.kind = false) (s : Syn) :
    climb p s g = none := by
  induction g generalizing s with
  | nil => rfl
  | cons x xs ih =>
    have hx := hg x (by simp)
    simp only [climb, hx, Bool.false_eq_true, if_false]
    exact ih (fun y hy => hg y (by simp [hy])) _

theorem isAttr_false (k : NodeKind) (h : ∀ i, k ≠ .attr i) : k.isAttr = false := by
  cases k <;> simp_all [NodeKind.isAttr]

theorem isItem_false (k : NodeKind) (h : ∀ w, k ≠ .item w) : k.isItem = false := by
  cases k <;> simp_all [NodeKind.isItem]

theorem parentAttr_in (p : Place) (g : List Frame) (a : Frame) (rest : List Frame)
    (h : InAttr p g a rest) : parentAttr p = some (within p.self g, a, rest) := by
  obtain ⟨h1, h2, i, h3⟩ := h
  unfold parentAttr
  rw [h1]
  exact climb_at _ g a rest (fun x hx => isAttr_false _ (h2 x hx)) (by rw [h3]; rfl) _

theorem parentAttr_none (p : Place) (h : NotInAttr p) : parentAttr p = none :=
  climb_none _ _ (fun x hx => isAttr_false _ (h x hx)) _

theorem search_iff (ts : List TokKind) (w : Word) :
    searchWord ts = some w ↔ ∃ gap rest, ts = gap ++ .word w :: rest ∧ ∀ t ∈ gap, Light t := by
  induction ts with
  | nil => simp [searchWord]
  | cons t ts ih =>
    have hl : Light t → (searchWord (t :: ts) = searchWord ts ∧ ∀ v, t ≠ .word v) := by
      rintro (rfl | rfl | rfl | rfl | rfl) <;>
        exact ⟨by simp [searchWord, TokKind.isTrivia, TokKind.isPunct], by simp⟩
    by_cases hlt : Light t
    · obtain ⟨e, hne⟩ := hl hlt
      rw [e]
      refine ih.trans ⟨?_, ?_⟩
      · rintro ⟨gap, rest, rfl, hg⟩
        refine ⟨t :: gap, rest, rfl, ?_⟩
        intro x hx
        simp only [List.mem_cons] at hx
        rcases hx with rfl | hx
        · exact hlt
        · exact hg x hx
      · rintro ⟨gap, rest, h, hg⟩
        cases gap with
        | nil =>
          simp only [List.nil_append, List.cons.injEq] at h
          exact absurd h.1 (hne w)
        | cons x xs =>
          simp only [List.cons_append, List.cons.injEq] at h
          exact ⟨xs, rest, h.2, fun y hy => hg y (by simp [hy])⟩
    · have hgap : ∀ gap rest : List TokKind, t :: ts = gap ++ .word w :: rest → (∀ x ∈ gap, Light x) →
          t = .word w := by
        intro gap rest h hg
        cases gap with
        | nil =>
          simp only [List.nil_append, List.cons.injEq] at h
          exact h.1
        | cons x xs =>
          simp only [List.cons_append, List.cons.injEq] at h
          exact absurd (h.1 ▸ hg x (by simp)) hlt
      cases t with
      | word v =>
        simp only [searchWord, Option.some.injEq]
        constructor
        · rintro rfl
          exact ⟨[], ts, rfl, by simp⟩
        · rintro ⟨gap, rest, h, hg⟩
          have := hgap gap rest h hg
          simpa using this
      | other =>
        simp only [searchWord, TokKind.isTrivia, TokKind.isPunct, Bool.not_false, Bool.and_self]
        constructor
        · intro h
          simp at h
        · rintro ⟨gap, rest, h, hg⟩
          have := hgap gap rest h hg
          simp at this
      | _ => exact absurd (by simp [Light]) hlt

theorem closed_iff (p : Place) (g : List Frame) (a : Frame) (rest : List Frame) :
    closed (within p.self g, a, rest) = true ↔ Closed p g a := hasTok_iff _ _ _

theorem inStruct_iff (s : Syn) (up : List Frame) : inStruct s up = true ↔ FirstItemStruct up := by
  unfold inStruct
  constructor
  · intro h
    induction up generalizing s with
    | nil => simp [climb] at h
    | cons f fs ih =>
      by_cases hf : f.kind.isItem = true
      · simp only [climb, hf, if_true, beq_iff_eq] at h
        exact ⟨[], f, fs, rfl, by simp, h⟩
      · simp only [climb, hf] at h
        obtain ⟨g, x, rest, rfl, hg, hx⟩ := ih _ h
        refine ⟨f :: g, x, rest, rfl, ?_, hx⟩
        intro y hy
        simp only [List.mem_cons] at hy
        rcases hy with rfl | hy
        · intro w hw; rw [hw] at hf; simp [NodeKind.isItem] at hf
        · exact hg y hy
  · rintro ⟨g, f, rest, rfl, hg, hf⟩
    rw [climb_at _ g f rest (fun x hx => isItem_false _ (hg x hx)) (by rw [hf]; rfl)]
    simp [hf]

mutual

theorem leaves_eq (s : Syn) : leaves s = toks s := by
  cases s with
  | tok t => rfl
  | node k cs => simp only [leaves, toks]; exact leavesList_eq cs

theorem leavesList_eq (cs : List Syn) : leavesList cs = toksList cs := by
  cases cs with
  | nil => rfl
  | cons c cs => simp only [leavesList, toksList, leaves_eq c, leavesList_eq cs]

end

theorem following_eq (up : List Frame) : following up = up.flatMap (fun f => toksList f.behind) := by
  induction up with
  | nil => rfl
  | cons f fs ih => simp only [following, List.flatMap_cons, leavesList_eq, ih]


theorem normalized_unclosed (p : Place) (g : List Frame) (a : Frame) (rest : List Frame)
    (h : InAttr p g a rest) (hc : ¬ Closed p g a) : normalizedWord p = searchWord (following p.up) := by
  have h1 := parentAttr_in p g a rest h
  have h2 : closed (within p.self g, a, rest) = false := by
    rw [Bool.eq_false_iff]; exact fun e => hc ((closed_iff p g a rest).mp e)
  simp [normalizedWord, parentItem, h1, h2, probableWord, probableAttr]

theorem normalized_closed (p : Place) (g : List Frame) (a : Frame) (rest : List Frame)
    (h : InAttr p g a rest) (hc : Closed p g a) :
    normalizedWord p = match itemOfAttr (within p.self g, a, rest) with
      | some i => wordOf i
      | none => none := by
  have h1 := parentAttr_in p g a rest h
  have h2 := (closed_iff p g a rest).mpr hc
  simp only [normalizedWord, parentItem, h1, h2, probableWord, probableAttr, if_true, Option.bind_none]
  cases itemOfAttr (within p.self g, a, rest) <;> rfl

theorem normalizedInk_in (p : Place) (g : List Frame) (a : Frame) (rest : List Frame)
    (h : InAttr p g a rest) (hi : a.kind = .attr true) :
    normalizedInk p = some (within p.self g, a, rest) := by
  simp [normalizedInk, parentAttr_in p g a rest h, inkOf, hi]

theorem within_append (s : Syn) (g h : List Frame) : within s (g ++ h) = within (within s g) h := by
  induction g generalizing s with
  | nil => rfl
  | cons x xs ih => simp [within, ih]

mutual

theorem places_in (s : Syn) (up : List Frame) (h : NoAttr s) :
    ∀ x ∈ places s up, ∃ g, x.2 = g ++ up ∧ (∀ f ∈ g, ∀ i, f.kind ≠ .attr i) ∧
      within (.tok x.1) g = s := by
  cases s with
  | tok t =>
    intro x hx
    simp only [places, List.mem_singleton] at hx
    subst hx
    exact ⟨[], rfl, by simp, rfl⟩
  | node k cs =>
    obtain ⟨hk, hcs⟩ := h
    intro x hx
    simp only [places] at hx
    obtain ⟨g, b, c, d, h1, h2, h3, h4⟩ := placesList_in k [] cs up hcs x hx
    refine ⟨g ++ [⟨k, b, d⟩], by simp [h1], ?_, ?_⟩
    · intro f hf
      simp only [List.mem_append, List.mem_singleton] at hf
      rcases hf with hf | rfl
      · exact h2 f hf
      · exact hk
    · rw [within_append, h3]
      simp only [List.reverse_nil, List.nil_append] at h4
      simp [within, Frame.fill, Frame.children, ← h4]

theorem placesList_in (k : NodeKind) (before : List Syn) (cs : List Syn) (up : List Frame)
    (h : NoAttrs cs) :
    ∀ x ∈ placesList k before cs up, ∃ g b c d, x.2 = g ++ ⟨k, b, d⟩ :: up ∧
      (∀ f ∈ g, ∀ i, f.kind ≠ .attr i) ∧ within (.tok x.1) g = c ∧
      before.reverse ++ cs = b.reverse ++ c :: d := by
  cases cs with
  | nil => simp [placesList]
  | cons c cs =>
    obtain ⟨hc, hcs⟩ := h
    intro x hx
    simp only [placesList, List.mem_append] at hx
    rcases hx with hx | hx
    · obtain ⟨g, h1, h2, h3⟩ := places_in c _ hc x hx
      exact ⟨g, before, c, cs, h1, h2, h3, rfl⟩
    · obtain ⟨g, b, c', d, h1, h2, h3, h4⟩ := placesList_in k (c :: before) cs up hcs x hx
      exact ⟨g, b, c', d, h1, h2, h3, by rw [← h4]; simp⟩

end

mutual

theorem places_leaves (s : Syn) (up : List Frame) : (places s up).map Prod.fst = leaves s := by
  cases s with
  | tok t => rfl
  | node k cs => simp only [places, leaves]; exact placesList_leaves k [] cs up

theorem placesList_leaves (k : NodeKind) (before cs : List Syn) (up : List Frame) :
    (placesList k before cs up).map Prod.fst = leavesList cs := by
  cases cs with
  | nil => rfl
  | cons c cs =>
    simp only [placesList, leavesList, List.map_append]
    rw [places_leaves c, placesList_leaves k _ cs]

end

theorem precedingIn_gap (k : NodeKind) (gap more : List Syn) (passed : List Syn) (up : List Frame)
    (hgap : ∀ x ∈ gap, x = .tok .whitespace ∨ x = .tok .comment) (q : List (TokKind × List Frame)) :
    ∃ passed', (precedingIn k (gap ++ more) passed up ++ q).find? (fun t => !t.1.isTrivia) =
      (precedingIn k more passed' up ++ q).find? (fun t => !t.1.isTrivia) := by
  induction gap generalizing passed with
  | nil => exact ⟨passed, rfl⟩
  | cons x xs ih =>
    obtain ⟨passed', h⟩ := ih (x :: passed) (fun y hy => hgap y (by simp [hy]))
    refine ⟨passed', ?_⟩
    rw [← h]
    rcases hgap x (by simp) with rfl | rfl <;>
      simp [precedingIn, places, TokKind.isTrivia]

theorem prevSolid_behind (p : Place) (ink : Bool) (cs : List Syn) (f : Frame) (rest : List Frame)
    (h : Behind p ink cs f rest) :
    ∃ t g b c d up, prevSolid p = some (t, g ++ ⟨.attr ink, b, d⟩ :: up) ∧
      (∀ f ∈ g, ∀ i, f.kind ≠ .attr i) ∧ within (.tok t) g = c ∧ cs = b.reverse ++ c :: d := by
  obtain ⟨hup, ⟨gap, more, hb, hgap⟩, hno, _, t, ht, ht1, ht2⟩ := h
  obtain ⟨passed', e⟩ := precedingIn_gap f.kind gap (.node (.attr ink) cs :: more) (p.self :: f.behind) rest
    hgap (preceding (f.fill p.self) rest)
  have e' : prevSolid p = (precedingIn f.kind (.node (.attr ink) cs :: more) passed' rest ++
      preceding (f.fill p.self) rest).find? (fun t => !t.1.isTrivia) := by
    rw [← e, prevSolid, hup, preceding, hb]
  simp only [precedingIn, places, List.append_assoc] at e'
  rw [List.find?_append] at e'
  have hmem : ∃ x ∈ placesList (.attr ink) [] cs (⟨f.kind, more, passed'⟩ :: rest), x.1 = t := by
    have := placesList_leaves (.attr ink) [] cs (⟨f.kind, more, passed'⟩ :: rest)
    rw [leavesList_eq] at this
    rw [← this] at ht
    obtain ⟨x, hx, hxt⟩ := List.mem_map.mp ht
    exact ⟨x, hx, hxt⟩
  cases hf : (placesList (.attr ink) [] cs (⟨f.kind, more, passed'⟩ :: rest)).reverse.find?
      (fun t => !t.1.isTrivia) with
  | none =>
    rw [List.find?_eq_none] at hf
    obtain ⟨x, hx, hxt⟩ := hmem
    have := hf x (List.mem_reverse.mpr hx)
    rw [hxt] at this
    cases t <;> simp_all [TokKind.isTrivia]
  | some y =>
    rw [hf] at e'
    have hy := List.mem_reverse.mp (List.mem_of_find?_eq_some hf)
    obtain ⟨g, b, c, d, h1, h2, h3, h4⟩ := placesList_in _ _ _ _ hno y hy
    refine ⟨y.1, g, b, c, d, ⟨f.kind, more, passed'⟩ :: rest, ?_, h2, h3, by simpa using h4⟩
    rw [e', ← h1]
    rfl

theorem target_item_iff (p : Place) (w : Word) : target p = some (.item w) ↔ normalizedWord p = some w := by
  rw [target]
  constructor
  · intro ht
    split at ht
    · rename_i v hv
      simp only [Option.some.injEq, Target.item.injEq] at ht
      rw [hv, ht]
    · obtain ⟨b, _, hb⟩ := Option.bind_eq_some_iff.mp ht
      split at hb
      · simp at hb
      · split at hb
        · simp only [Option.some.injEq] at hb
          split at hb
          · split at hb <;> simp at hb
          · simp at hb
        · simp at hb
  · intro hn
    rw [hn]

/-! ## C97 -/

/-- **C97** (closed). Inside a closed attribute which is attached to an item, suggestions are for that
item. -/
theorem C97_closed (p : Place) (g : List Frame) (a i : Frame) (rest : List Frame) (w : Word)
    (h : InAttr p g a (i :: rest)) (hc : Closed p g a) (hi : i.kind = .item (some w))
    (hw : .tok (.word w) ∈ i.before ∨ .tok (.word w) ∈ i.behind) :
    target p = some (.item w) := by
  have hitem : itemOfAttr (within p.self g, a, i :: rest) = some (a.fill (within p.self g), i, rest) := by
    simp [itemOfAttr, climb, hi, NodeKind.isItem]
  have hn := normalized_closed p g a (i :: rest) h hc
  have hhas : hasTok (.word w) (i.children (a.fill (within p.self g))) = true := by
    rw [hasTok_iff]
    rcases hw with hw | hw
    · exact Or.inl hw
    · exact Or.inr (Or.inr hw)
  rw [hitem] at hn
  simp only [wordOf, hi, hhas, if_true] at hn
  rw [target, hn]

/-- **C97** (fields). Inside a closed ink! attribute of a field of a struct, suggestions are for fields. -/
theorem C97_field (p : Place) (g : List Frame) (a f : Frame) (rest : List Frame)
    (h : InAttr p g a (f :: rest)) (hc : Closed p g a) (hink : a.kind = .attr true)
    (hf : f.kind = .recordField) (hs : FirstItemStruct rest) : target p = some .field := by
  have hitem : itemOfAttr (within p.self g, a, f :: rest) = none := by
    simp [itemOfAttr, hf, NodeKind.isItem]
  have hn := normalized_closed p g a (f :: rest) h hc
  rw [hitem] at hn
  have hst := (inStruct_iff (f.fill (a.fill (within p.self g))) rest).mpr hs
  have hcl := (closed_iff p g a (f :: rest)).mpr hc
  rw [target, hn]
  simp only [normalizedInk_in p g a _ h hink, Option.bind_some, hst, hf, true_or, and_self, if_true, hcl]

/-- **C97** (neither). Inside a closed attribute which is attached to neither an item nor a part of a
struct's fields, nothing is known, whatever follows. -/
theorem C97_unknown (p : Place) (g : List Frame) (a : Frame) (rest : List Frame)
    (h : InAttr p g a rest) (hc : Closed p g a)
    (hno : ∀ f, rest.head? = some f → f.kind ≠ .recordField ∧ f.kind ≠ .recordFieldList ∧
      ∀ w, f.kind ≠ .item w) : target p = none := by
  have hitem : itemOfAttr (within p.self g, a, rest) = none := by
    cases rest with
    | nil => simp [itemOfAttr, climb]
    | cons f fs =>
      have := isItem_false _ (hno f rfl).2.2
      simp [itemOfAttr, this]
  have hn := normalized_closed p g a rest h hc
  rw [hitem] at hn
  rw [target, hn]
  have hinkor : normalizedInk p = none ∨ normalizedInk p = some (within p.self g, a, rest) := by
    have h2 := (closed_iff p g a rest).mpr hc
    unfold normalizedInk
    rw [parentAttr_in p g a rest h, probableAttr, parentAttr_in p g a rest h]
    simp only [h2, if_true, Option.bind_none, Option.or_none, Option.bind_some, inkOf]
    by_cases hk : a.kind = .attr true
    · simp [hk]
    · simp [hk]
  rcases hinkor with e | e
  · rw [e]; rfl
  · rw [e]
    cases rest with
    | nil => rfl
    | cons f fs =>
      obtain ⟨h1, h2, _⟩ := hno f rfl
      simp [h1, h2]

/-- **C97** (not closed, partial). Inside an attribute without closing bracket, suggestions are for the
item whose keyword follows the cursor with only white space, comments, punctuation and `pub` between, and
for no other item.

Missing: other visibilities and qualifiers before the keyword (`C97_negation_crate`), and a keyword which
belongs to something else because a closing brace is between (`C97_negation_brace`). -/
theorem C97_unclosed_partial (p : Place) (g : List Frame) (a : Frame) (rest : List Frame) (w : Word)
    (h : InAttr p g a rest) (hc : ¬ Closed p g a) :
    target p = some (.item w) ↔ NextWord p w := by
  unfold NextWord
  rw [← following_eq, ← search_iff, ← normalized_unclosed p g a rest h hc, target_item_iff]

/-- **C97** (fields, not closed). Inside an ink! attribute without closing bracket in the fields of a
struct, suggestions are for fields unless the keyword of an item follows. -/
theorem C97_field_unclosed (p : Place) (g : List Frame) (a f : Frame) (rest : List Frame)
    (h : InAttr p g a (f :: rest)) (hc : ¬ Closed p g a) (hink : a.kind = .attr true)
    (hf : f.kind = .recordField ∨ f.kind = .recordFieldList) (hs : FirstItemStruct rest)
    (hno : ∀ w, ¬ NextWord p w) : target p = some .field := by
  have hn : normalizedWord p = none := by
    rw [normalized_unclosed p g a (f :: rest) h hc]
    cases e : searchWord (following p.up) with
    | none => rfl
    | some w => exact absurd ((search_iff _ _).mp (following_eq _ ▸ e)) (hno w)
  have hst := (inStruct_iff (f.fill (a.fill (within p.self g))) rest).mpr hs
  have hcl : closed (within p.self g, a, f :: rest) = false := by
    rw [Bool.eq_false_iff]; exact fun e => hc ((closed_iff p g a _).mp e)
  rw [target, hn]
  simp [normalizedInk_in p g a _ h hink, hst, hf, hcl]

/-- **C97** (outside). Outside of attributes, suggestions are for the item around the cursor. -/
theorem C97_outside (p : Place) (g : List Frame) (i : Frame) (rest : List Frame) (w : Word)
    (hup : p.up = g ++ i :: rest) (hg : ∀ f ∈ g, ∀ w, f.kind ≠ .item w) (hno : NotInAttr p)
    (hi : i.kind = .item (some w)) (hw : Has i (within p.self g) (.word w)) :
    target p = some (.item w) := by
  have h1 := parentAttr_none p hno
  have h2 : climb NodeKind.isItem p.self p.up = some (within p.self g, i, rest) := by
    rw [hup]
    exact climb_at _ g i rest (fun x hx => isItem_false _ (hg x hx)) (by rw [hi]; rfl) _
  have h3 : normalizedWord p = some w := by
    simp only [normalizedWord, parentItem, h1, h2, wordOf, hi]
    rw [if_pos ((hasTok_iff _ _ _).mpr hw)]
  rw [target, h3]

/-- **C97** (behind). With the cursor behind an attribute without closing bracket and in no item, as at
the top level of a file, suggestions are likewise for the item whose keyword follows. -/
theorem C97_behind_partial (p : Place) (ink : Bool) (cs : List Syn) (f : Frame) (rest : List Frame)
    (w : Word) (h : Behind p ink cs f rest) (hno : NotInAttr p)
    (hitem : ∀ f ∈ p.up, ∀ w, f.kind ≠ .item w) :
    target p = some (.item w) ↔ NextWord p w := by
  obtain ⟨t, g, b, c, d, up, hp, hg, hc, hcs⟩ := prevSolid_behind p ink cs f rest h
  have hcl : climb NodeKind.isAttr (.tok t) (g ++ ⟨.attr ink, b, d⟩ :: up) =
      some (c, ⟨.attr ink, b, d⟩, up) := by
    rw [← hc]
    exact climb_at _ g _ up (fun x hx => isAttr_false _ (hg x hx)) rfl _
  have hopen : closed (c, ⟨.attr ink, b, d⟩, up) = false := by
    rw [Bool.eq_false_iff]
    intro e
    have := (hasTok_iff _ _ _).mp e
    apply h.2.2.2.1
    rw [hcs]
    rcases this with e | e | e
    · exact List.mem_append_left _ (List.mem_reverse.mpr e)
    · have e' : c = .tok .rBrack := e
      rw [e']; simp
    · exact List.mem_append_right _ (List.mem_cons_of_mem _ e)
  have hi : climb NodeKind.isItem p.self p.up = none :=
    climb_none _ _ (fun x hx => isItem_false _ (hitem x hx)) _
  have hn : normalizedWord p = searchWord (following p.up) := by
    simp [normalizedWord, parentItem, parentAttr_none p hno, hi, probableWord, probableAttr, hp, hcl, hopen]
  unfold NextWord
  rw [← following_eq, ← search_iff, ← hn, target_item_iff]

/-! ## Examples and findings -/

/-- `#[ink]` with the cursor in the word, in `#[ink] pub mod m {}`. -/
def closedDemo : Place :=
  ⟨.tok .other, [⟨.other, [], []⟩, ⟨.attr true, [.tok .punct, .tok .punct], [.tok .rBrack]⟩,
    ⟨.item (some .mod), [], [.tok .whitespace, .node .other [.tok .pub], .tok .whitespace,
      .tok (.word .mod), .tok .whitespace, .tok .other, .node .other [.tok .punct, .tok .punct]]⟩,
    ⟨.other, [], []⟩]⟩

example : target closedDemo = some (.item .mod) := by decide

example : InAttr closedDemo [⟨.other, [], []⟩] ⟨.attr true, [.tok .punct, .tok .punct], [.tok .rBrack]⟩
    [⟨.item (some .mod), [], [.tok .whitespace, .node .other [.tok .pub], .tok .whitespace,
      .tok (.word .mod), .tok .whitespace, .tok .other, .node .other [.tok .punct, .tok .punct]]⟩,
    ⟨.other, [], []⟩] := ⟨rfl, by simp, true, rfl⟩

/-- `#[ink(` with the cursor in the word, followed by the tokens `after`, which belong to no node of
their own. -/
def openDemo (after : List TokKind) : Place :=
  ⟨.tok .other, [⟨.other, [], []⟩, ⟨.attr true, [.tok .punct, .tok .punct],
      [.node .other (.tok .punct :: after.map .tok)]⟩, ⟨.other, [], []⟩]⟩

example : target (openDemo [.whitespace, .pub, .whitespace, .word .fn]) = some (.item .fn) := by decide

example (after : List TokKind) : ∃ g a rest, InAttr (openDemo after) g a rest ∧
    ¬ Closed (openDemo after) g a :=
  ⟨[⟨.other, [], []⟩], _, [⟨.other, [], []⟩], ⟨rfl, by simp, true, rfl⟩, by
    simp [Closed, Has, within, openDemo, Frame.fill]⟩

/-- The name of a function, `fn f`, in a module. -/
def outsideDemo : Place :=
  ⟨.tok .other, [⟨.other, [], []⟩, ⟨.item (some .fn), [.tok .whitespace, .tok (.word .fn)], []⟩,
    ⟨.item (some .mod), [.tok (.word .mod)], []⟩]⟩

example : target outsideDemo = some (.item .fn) ∧ NotInAttr outsideDemo :=
  ⟨by decide, by simp [NotInAttr, outsideDemo]⟩

/-- `#[ink(` at the top level of a file, then a blank with the cursor on it, then `pub mod`. -/
def behindDemo : Place :=
  ⟨.tok .whitespace, [⟨.other, [.node (.attr true) [.tok .punct, .tok .punct, .node .other [.tok .other]]],
    [.node (.item (some .mod)) [.tok .pub, .tok .whitespace, .tok (.word .mod)]]⟩]⟩

example : target behindDemo = some (.item .mod) := by decide

example : Behind behindDemo true [.tok .punct, .tok .punct, .node .other [.tok .other]]
    ⟨.other, [.node (.attr true) [.tok .punct, .tok .punct, .node .other [.tok .other]]],
      [.node (.item (some .mod)) [.tok .pub, .tok .whitespace, .tok (.word .mod)]]⟩ [] :=
  ⟨rfl, ⟨[], [], rfl, by simp⟩, by simp [NoAttrs, NoAttr], by simp, .punct, by simp [toksList, toks],
    by simp⟩

/-- `#[ink(topic)]` on a field of a struct. -/
def fieldDemo : Place :=
  ⟨.tok .other, [⟨.other, [], []⟩, ⟨.attr true, [.tok .punct, .tok .punct], [.tok .rBrack]⟩,
    ⟨.recordField, [], [.tok .whitespace, .tok .other]⟩, ⟨.recordFieldList, [.tok .punct], [.tok .punct]⟩,
    ⟨.item (some .struct), [.tok .other, .tok (.word .struct)], []⟩, ⟨.other, [], []⟩]⟩

example : target fieldDemo = some .field := by decide

example : FirstItemStruct [⟨.recordFieldList, [.tok .punct], [.tok .punct]⟩,
    ⟨.item (some .struct), [.tok .other, .tok (.word .struct)], []⟩, ⟨.other, [], []⟩] :=
  ⟨[⟨.recordFieldList, [.tok .punct], [.tok .punct]⟩], _, _, rfl, by simp, rfl⟩

/-- Finding: before `pub(crate) mod`, `async fn` and `unsafe impl`, whose first words are neither `pub`
nor the keyword, nothing is known of the item. -/
theorem C97_negation_crate (w : Word) (rest : List TokKind) :
    target (openDemo ([.whitespace, .pub, .punct, .other, .punct, .whitespace, .word w] ++ rest)) = none ∧
    target (openDemo ([.whitespace, .other, .whitespace, .word w] ++ rest)) = none := by
  constructor <;> rfl

/-- Finding: an attribute being typed at the end of a module is taken for an attribute of the item behind
the module: here `mod m { #[ink( } fn f`. -/
theorem C97_negation_brace : target ⟨.tok .other, [⟨.other, [], []⟩,
      ⟨.attr true, [.tok .punct, .tok .punct], [.tok .punct]⟩,
      ⟨.other, [.tok .punct], [.tok .whitespace, .tok .punct]⟩,
      ⟨.item (some .mod), [.tok .whitespace, .tok .other, .tok .whitespace, .tok (.word .mod)], []⟩,
      ⟨.other, [], [.tok .whitespace, .node (.item (some .fn)) [.tok (.word .fn), .tok .whitespace,
        .tok .other]]⟩]⟩ = some (.item .fn) := by decide

end Verif.Ir.ItemAt
