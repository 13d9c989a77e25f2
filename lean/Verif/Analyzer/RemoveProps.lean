import Verif.Analyzer.RemoveLemmas

/-!
# C51: removing an argument removes one comma with it

The file is any list of elements with the attribute's token tree somewhere in it.
-/

namespace Verif.Analyzer
open Verif.Ir

/-! ## Specification -/

/-- Deleting the byte range `r` of the text removes `gone` and keeps `left` and `right`. -/
def Deletes (text : String) (r : Nat × Nat) (left gone right : String) : Prop :=
  text = left ++ gone ++ right ∧
    r = (left.utf8ByteSize, left.utf8ByteSize + gone.utf8ByteSize)

/-- Only whitespace and comments. -/
def AllTrivia (es : List Elem) : Prop := ∀ e ∈ es, e.isTrivia = true

/-- A name: an identifier or `impl`. -/
def IsName (e : Elem) : Prop := ∃ s, e = .tok .ident s ∨ e = .tok .implKw s

/-- A lone name (`message`). -/
def Flag (core : List Elem) : Prop := ∃ nm, core = [nm] ∧ IsName nm

/-- A name and `=` (`selector = 1`), with any value that does not end in trivia, or none. -/
def Keyed (core : List Elem) : Prop :=
  ∃ nm gap eq value, core = nm :: (gap ++ .tok .eq eq :: value) ∧ IsName nm ∧ AllTrivia gap ∧
    (value = [] ∨ ∃ v z, value = v ++ [z] ∧ z.isTrivia = false)

/-- The source of the attribute in its file. -/
def inFile (A mid B : List Elem) : List Elem := A ++ parenthesised mid :: B

/-- `m` is the item of the argument that follows `pre` in the argument list `mid`. -/
def ItemAfter (pe : ExprParser) (o : Nat) (mid pre : List Elem) (items : List Meta) (m : Meta) :
    Prop :=
  (parenthesised mid).parse pe o = some items ∧ items[runStarts Elem.isComma true pre]? = some m

/-! ## Lemmas -/

theorem textList_append (a b : List Elem) :
    Elem.textList (a ++ b) = Elem.textList a ++ Elem.textList b := by
  induction a with
  | nil => simp [Elem.textList]
  | cons x a ih => simp [Elem.textList, ih, String.append_assoc]

mutual

theorem text_size : ∀ e : Elem, e.text.utf8ByteSize = e.len
  | .tok _ s => by simp [Elem.text, Elem.len]
  | .tree cs => by simpa [Elem.text, Elem.len] using textList_size cs
  | .error cs => by simpa [Elem.text, Elem.len] using textList_size cs

theorem textList_size : ∀ cs : List Elem, (Elem.textList cs).utf8ByteSize = Elem.lenList cs
  | [] => by simp [Elem.textList, Elem.lenList]
  | c :: cs => by
    simp [Elem.textList, Elem.lenList, String.utf8ByteSize_append, text_size c, textList_size cs]

end

theorem inFile_text (A mid B : List Elem) : Elem.textList (inFile A mid B) =
    Elem.textList (A ++ .tok .lParen "(" :: (mid ++ .tok .rParen ")" :: B)) := by
  simp [inFile, parenthesised, textList_append, Elem.textList, Elem.text, String.append_assoc]

theorem inFile_leaves (A mid B : List Elem) : leavesList 0 (inFile A mid B) =
    leavesList 0 (A ++ .tok .lParen "(" :: (mid ++ .tok .rParen ")" :: B)) := by
  rw [inFile, parenthesised, leavesList_tree]
  simp

theorem inFile_full (A mid B : List Elem) (h : FullList (inFile A mid B) = true) :
    FullList (A ++ .tok .lParen "(" :: (mid ++ .tok .rParen ")" :: B)) = true := by
  simp only [inFile, parenthesised, fullList_append, FullList, Full, Bool.and_eq_true] at h ⊢
  obtain ⟨h1, ⟨_, h2, h3, h4⟩, h5⟩ := h
  exact ⟨h1, h2, h3, h4.1, h5⟩

theorem groupRuns_append (key : α → Bool) (a b : List α)
    (h : ∀ x y, a.getLast? = some x → b.head? = some y → key x ≠ key y) :
    groupRuns key (a ++ b) = groupRuns key a ++ groupRuns key b := by
  have hd : ∀ l : List α, (groupRuns key l).head?.map Prod.fst = l.head?.map key := by
    intro l
    cases l with
    | nil => rfl
    | cons x xs =>
      unfold groupRuns
      split
      · rfl
      · split
        · rename_i h; simp [h]
        · rfl
  induction a with
  | nil => rfl
  | cons x a ih =>
    cases a with
    | nil =>
      have hb := hd b
      rw [List.singleton_append]
      cases hg : groupRuns key b with
      | nil => simp [groupRuns, hg]
      | cons kg rest =>
        obtain ⟨k, g⟩ := kg
        rw [hg] at hb
        cases b with
        | nil => simp at hb
        | cons y b =>
          have hk : k = key y := by simpa using hb
          have := h x y (by simp) (by simp)
          rw [groupRuns, hg]
          simp only
          rw [if_neg (by rw [hk]; exact this)]
          simp [groupRuns]
    | cons y a =>
      have ih' := ih (fun u v hu hv => h u v (by simpa using hu) hv)
      rw [List.cons_append, groupRuns, ih']
      cases hg : groupRuns key (y :: a) with
      | nil =>
        have := hd (y :: a)
        rw [hg] at this
        cases this
      | cons kg rest =>
        obtain ⟨k, g⟩ := kg
        have e : groupRuns key (x :: y :: a) =
            if key x = k then (k, x :: g) :: rest else (key x, [x]) :: (k, g) :: rest := by
          rw [groupRuns, hg]
        rw [e]
        show (if key x = k then (k, x :: g) :: (rest ++ groupRuns key b)
          else (key x, [x]) :: (k, g) :: (rest ++ groupRuns key b)) =
          (if key x = k then (k, x :: g) :: rest else (key x, [x]) :: (k, g) :: rest) ++
            groupRuns key b
        split <;> rfl

theorem groupRuns_uniform (key : α → Bool) (g : List α) (hne : g ≠ [])
    (h : ∀ x ∈ g, key x = false) : groupRuns key g = [(false, g)] := by
  induction g with
  | nil => exact absurd rfl hne
  | cons x g ih =>
    have hx := h x (by simp)
    cases g with
    | nil => simp [groupRuns, hx]
    | cons y g =>
      rw [groupRuns, ih (by simp) (fun z hz => h z (by simp [hz]))]
      simp [hx]

theorem itemsOf_append {pe : ExprParser} {a b : Nat} (gs hs : List (Bool × List Annot)) (sep : Nat)
    (ms : List Meta) (h : itemsOf pe a b sep (gs ++ hs) = some ms) :
    ∃ sep' ms1 ms2, itemsOf pe a b sep gs = some ms1 ∧ itemsOf pe a b sep' hs = some ms2 ∧
      ms = ms1 ++ ms2 := by
  induction gs generalizing sep ms with
  | nil => exact ⟨sep, [], ms, rfl, h, rfl⟩
  | cons kg gs ih =>
    obtain ⟨k, g⟩ := kg
    cases k with
    | true =>
      rw [List.cons_append, itemsOf] at h
      obtain ⟨sep', ms1, ms2, h1, h2, h3⟩ := ih _ _ h
      exact ⟨sep', ms1, ms2, by rw [itemsOf]; exact h1, h2, h3⟩
    | false =>
      rw [List.cons_append, itemsOf] at h
      simp only [Option.bind_eq_some_iff, Option.map_eq_some_iff] at h
      obtain ⟨m, hm, ms', h', rfl⟩ := h
      obtain ⟨sep', ms1, ms2, h1, h2, rfl⟩ := ih _ _ h'
      exact ⟨sep', m :: ms1, ms2, by rw [itemsOf, hm, Option.bind_some, h1]; rfl, h2, rfl⟩

theorem runStarts_elem (pe : ExprParser) (o : Nat) (es : List Elem) (b : Bool) :
    runStarts (fun a : Annot => a.elem.isComma) b (annotate pe o es) =
      runStarts Elem.isComma b es := by
  induction es generalizing o b with
  | nil => rfl
  | cons x es ih =>
    simp only [annotate, runStarts, ih]
    rfl

theorem annotate_last (pe : ExprParser) (o : Nat) (es : List Elem) (z : Elem) :
    (annotate pe o (es ++ [z])).getLast? = some ⟨⟨z, o + Elem.lenList es⟩,
      z.parse pe (o + Elem.lenList es)⟩ := by
  rw [annotate_append]
  simp [annotate]

/-- The item of one argument. -/
theorem item_of_group (pe : ExprParser) (o : Nat) (pre g post : List Elem)
    (hb : Between (pre ++ g ++ post)) (hne : g ≠ []) (hg : ∀ e ∈ g, e.isComma = false)
    (hpre : pre = [] ∨ ∃ p c, pre = p ++ [.tok .comma c])
    (hpost : post = [] ∨ ∃ c p, post = .tok .comma c :: p) (items : List Meta) (m : Meta)
    (hm : ItemAfter pe o (pre ++ g ++ post) pre items m) :
    ∃ t1 t2 sep, buildItem pe t1 t2 sep (annotate pe (o + 1 + Elem.lenList pre) g) = some m := by
  obtain ⟨h1, h2⟩ := hm
  simp only [parenthesised, Elem.parse, content_parenthesised pe o _ hb] at h1
  have hgr : groupRuns (fun a : Annot => a.elem.isComma) (annotate pe (o + 1) (pre ++ g ++ post)) =
      groupRuns (fun a : Annot => a.elem.isComma) (annotate pe (o + 1) pre) ++
        ((false, annotate pe (o + 1 + Elem.lenList pre) g) ::
          groupRuns (fun a : Annot => a.elem.isComma)
            (annotate pe (o + 1 + Elem.lenList (pre ++ g)) post)) := by
    have hmem : ∀ a ∈ annotate pe (o + 1 + Elem.lenList pre) g, a.elem.isComma = false := by
      intro x hx
      apply hg
      rw [← annotate_elems pe (o + 1 + Elem.lenList pre) g]
      exact List.mem_map_of_mem hx
    rw [annotate_append, groupRuns_append, annotate_append, groupRuns_append,
      groupRuns_uniform _ (annotate pe _ g)]
    · simp
    · cases g with
      | nil => exact absurd rfl hne
      | cons x g => simp [annotate]
    · exact hmem
    · intro x y hx hy
      rcases hpre with rfl | ⟨p, c, rfl⟩
      · simp [annotate] at hx
      · rw [annotate_last] at hx
        obtain rfl := Option.some.inj hx
        rw [hmem y (List.mem_of_head? hy)]
        simp [Annot.elem, Elem.isComma]
    · intro x y hx hy
      rcases hpost with rfl | ⟨c, p, rfl⟩
      · simp [annotate] at hy
      · simp only [annotate, List.head?_cons, Option.some.injEq] at hy
        subst hy
        have hx' : (annotate pe (o + 1 + Elem.lenList pre) g).getLast? = some x := by
          rw [annotate_append] at hx
          cases hgl : (annotate pe (o + 1 + Elem.lenList pre) g).getLast? with
          | none =>
            rw [List.getLast?_eq_none_iff] at hgl
            cases g with
            | nil => exact absurd rfl hne
            | cons x g => simp [annotate] at hgl
          | some w =>
            rw [List.getLast?_append, hgl] at hx
            simpa using hx
        rw [hmem x (List.mem_of_getLast? hx')]
        simp [Annot.elem, Elem.isComma]
  rw [hgr] at h1
  obtain ⟨s1, ms1, ms2, e1, e2, rfl⟩ := itemsOf_append _ _ _ _ h1
  rw [itemsOf] at e2
  simp only [Option.bind_eq_some_iff, Option.map_eq_some_iff] at e2
  obtain ⟨m', hm', ms', _, rfl⟩ := e2
  have hl := itemsOf_length _ _ _ e1
  rw [groupRuns_count, runStarts_elem] at hl
  rw [List.getElem?_append_right (by omega), hl, Nat.sub_self] at h2
  obtain rfl : m' = m := by simpa using h2
  exact ⟨_, _, _, hm'⟩

theorem filter_trivia (es : List Elem) (h : AllTrivia es) (pe : ExprParser) (o : Nat) :
    ((annotate pe o es).map Annot.placed).filter (fun p => !p.elem.isTrivia) = [] ∧
      (annotate pe o es).filter (fun a => a.elem.isTree) = [] ∧
      ∀ a ∈ annotate pe o es, a.elem.isEq = false := by
  have hmem : ∀ a ∈ annotate pe o es, a.elem.isTrivia = true := by
    intro a ha
    apply h
    rw [← annotate_elems pe o es]
    exact List.mem_map_of_mem ha
  have hk : ∀ e : Elem, e.isTrivia = true → e.isTree = false ∧ e.isEq = false := by
    intro e he
    cases e with
    | tok k s => cases k <;> first | exact ⟨rfl, rfl⟩ | cases he
    | tree _ => cases he
    | error _ => exact ⟨rfl, rfl⟩
  refine ⟨?_, ?_, fun a ha => (hk _ (hmem a ha)).2⟩
  · rw [List.filter_eq_nil_iff]
    intro p hp
    obtain ⟨a, ha, rfl⟩ := List.mem_map.1 hp
    have := hmem a ha
    simp only [Annot.elem] at this
    simp [this]
  · rw [List.filter_eq_nil_iff]
    intro a ha
    simp [(hk _ (hmem a ha)).1]

/-- The name part of an argument: one name between trivia. -/
theorem name_part (pe : ExprParser) (o : Nat) (lead gap : List Elem) (nm : Elem)
    (hl : AllTrivia lead) (hgap : AllTrivia gap) (hn : IsName nm) (t1 t2 : Nat) :
    nestedOf (annotate pe o (lead ++ nm :: gap)) t1 t2 = some none ∧
      parseName ((annotate pe o (lead ++ nm :: gap)).map Annot.placed) =
        .ok ⟨nm, o + Elem.lenList lead⟩ ∧
      ∀ a ∈ annotate pe o (lead ++ nm :: gap), a.elem.isEq = false := by
  rw [annotate_append, annotate]
  obtain ⟨l1, l2, l3⟩ := filter_trivia lead hl pe o
  obtain ⟨g1, g2, g3⟩ := filter_trivia gap hgap pe (o + Elem.lenList lead + nm.len)
  have hk : nm.isTree = false ∧ nm.isTrivia = false ∧ nm.isEq = false := by
    obtain ⟨s, rfl | rfl⟩ := hn <;> exact ⟨rfl, rfl, rfl⟩
  refine ⟨?_, ?_, ?_⟩
  · unfold nestedOf
    rw [List.filter_append, l2, List.nil_append, List.filter_cons_of_neg (by simp [Annot.elem, hk]),
      g2]
  · unfold parseName
    rw [List.map_append, List.map_cons, List.filter_append, l1, List.nil_append,
      List.filter_cons_of_pos (by simp [hk]), g1]
    obtain ⟨s, rfl | rfl⟩ := hn <;> rfl
  · intro a ha
    rcases List.mem_append.1 ha with ha | ha
    · exact l3 a ha
    · rcases List.mem_cons.1 ha with rfl | ha
      · exact hk.2.2
      · exact g3 a ha

theorem item_flag (pe : ExprParser) (o : Nat) (lead gap : List Elem) (nm : Elem)
    (hl : AllTrivia lead) (hgap : AllTrivia gap) (hn : IsName nm) (t1 t2 sep : Nat) (m : Meta)
    (h : buildItem pe t1 t2 sep (annotate pe o (lead ++ nm :: gap)) = some m) :
    m = .mk (.ok ⟨nm, o + Elem.lenList lead⟩) none .none none sep none := by
  obtain ⟨h1, h2, h3⟩ := name_part pe o lead gap nm hl hgap hn t1 t2
  unfold buildItem at h
  have e1 : (annotate pe o (lead ++ nm :: gap)).takeWhile (fun a => !a.elem.isEq) =
      annotate pe o (lead ++ nm :: gap) := by
    have := List.takeWhile_append_of_pos (l₂ := []) (p := fun a : Annot => !a.elem.isEq)
      (l₁ := annotate pe o (lead ++ nm :: gap)) (by intro a ha; simp [h3 a ha])
    simpa using this
  have e2 : (annotate pe o (lead ++ nm :: gap)).dropWhile (fun a => !a.elem.isEq) = [] := by
    have := List.dropWhile_append_of_pos (l₂ := []) (p := fun a : Annot => !a.elem.isEq)
      (l₁ := annotate pe o (lead ++ nm :: gap)) (by intro a ha; simp [h3 a ha])
    simpa using this
  simp only [e1, e2, h1, Option.bind_some, Option.isSome_none, Bool.false_eq_true, if_false, h2,
    List.head?_nil, Option.map_none, List.tail_nil, List.map_nil] at h
  simpa [parseMetaValue, MetaOpt.isSome, Meta.new?] using h.symm

theorem item_keyed (pe : ExprParser) (o : Nat) (lead gap value : List Elem) (nm : Elem) (eq : String)
    (hl : AllTrivia lead) (hgap : AllTrivia gap) (hn : IsName nm) (t1 t2 sep : Nat) (m : Meta)
    (h : buildItem pe t1 t2 sep (annotate pe o ((lead ++ nm :: gap) ++ .tok .eq eq :: value)) =
      some m) :
    m = .mk (.ok ⟨nm, o + Elem.lenList lead⟩)
      (some ⟨.tok .eq eq, o + Elem.lenList (lead ++ nm :: gap)⟩)
      (parseMetaValue pe ((annotate pe (o + Elem.lenList (lead ++ nm :: gap) +
        (Elem.tok .eq eq).len) value).map Annot.placed)) none sep none := by
  obtain ⟨h1, h2, h3⟩ := name_part pe o lead gap nm hl hgap hn t1 t2
  unfold buildItem at h
  rw [annotate_append] at h
  have e1 : (annotate pe o (lead ++ nm :: gap) ++ annotate pe (o + Elem.lenList (lead ++ nm :: gap))
      (.tok .eq eq :: value)).takeWhile (fun a => !a.elem.isEq) =
      annotate pe o (lead ++ nm :: gap) := by
    rw [List.takeWhile_append_of_pos (by intro a ha; simp [h3 a ha]), annotate,
      List.takeWhile_cons_of_neg (by simp [Annot.elem, Elem.isEq]), List.append_nil]
  have e2 : (annotate pe o (lead ++ nm :: gap) ++ annotate pe (o + Elem.lenList (lead ++ nm :: gap))
      (.tok .eq eq :: value)).dropWhile (fun a => !a.elem.isEq) =
      annotate pe (o + Elem.lenList (lead ++ nm :: gap)) (.tok .eq eq :: value) := by
    rw [List.dropWhile_append_of_pos (by intro a ha; simp [h3 a ha]), annotate,
      List.dropWhile_cons_of_neg (by simp [Annot.elem, Elem.isEq])]
  simp only [e1, e2, h1, Option.bind_some, Option.isSome_none, Bool.false_eq_true, if_false, h2] at h
  simp only [annotate, List.head?_cons, Option.map_some, List.tail_cons] at h
  simpa [MetaOpt.isSome, Meta.new?] using h.symm

theorem flag_range (p : Placed) (sep : Nat) :
    (Meta.mk (.ok p) none .none none sep none).textRange = some (p.start, p.stop) ∧
      metaElements (.mk (.ok p) none .none none sep none) = [p] := by
  constructor
  · have := p.start_le_stop
    simp [Meta.textRange, optRange, updateRange, eqRange, rangeNew, this]
  · simp [metaElements, optElements, Util.sortBy, Util.insertBy]

theorem value_elements (pe : ExprParser) (l : List Placed) :
    optElements MetaValue.elements (parseMetaValue pe l) = l := by
  unfold parseMetaValue
  split
  · rename_i h
    rw [List.isEmpty_iff] at h
    rw [h]
    rfl
  · split
    · rename_i v hv
      exact (parseValue_elements hv).1
    · rfl

/-- The range contributed by the value of an argument ends inside the value, and at its last element
if that is not trivia. -/
theorem value_range (pe : ExprParser) (o : Nat) (V : List Elem) (s e : Nat) (he : e ≤ o) :
    ∃ e', optRange MetaValue.textRange (some (s, e))
        (parseMetaValue pe ((annotate pe o V).map Annot.placed)) = some (some (s, e')) ∧
      e' ≤ o + Elem.lenList V ∧ (V = [] → e' = e) ∧ (V ≠ [] → o ≤ e') ∧
      ∀ v z, V = v ++ [z] → z.isTrivia = false → e' = o + Elem.lenList V := by
  have hin := annotate_inB pe o V
  cases V with
  | nil =>
    refine ⟨e, by simp [annotate, parseMetaValue, optRange], by simp [Elem.lenList]; exact he,
      fun _ => rfl, by simp, ?_⟩
    intro v z h
    simp at h
  | cons x V =>
    generalize hV : x :: V = W at *
    have hne : (annotate pe o W).map Annot.placed ≠ [] := by
      rw [← hV]
      simp [annotate]
    have hlast : ∀ v z, W = v ++ [z] → ((annotate pe o W).map Annot.placed).getLast? =
        some ⟨z, o + Elem.lenList v⟩ := by
      rintro v z rfl
      rw [List.getLast?_map, annotate_last]
      rfl
    have hstop : ∀ v z, W = v ++ [z] →
        (⟨z, o + Elem.lenList v⟩ : Placed).stop = o + Elem.lenList W := by
      rintro v z rfl
      simp [Placed.stop, lenList_append, Elem.lenList, Nat.add_assoc]
    unfold parseMetaValue
    rw [if_neg (by simpa using hne)]
    cases hv : parseValue pe ((annotate pe o W).map Annot.placed) with
    | none =>
      simp only [optRange]
      obtain ⟨r, hr, hb⟩ := itemsRange_ok hin
      cases r with
      | none =>
        exfalso
        unfold itemsRange at hr
        cases hh : ((annotate pe o W).map Annot.placed).head? with
        | none => exact hne (List.head?_eq_none_iff.1 hh)
        | some a =>
          cases hl : ((annotate pe o W).map Annot.placed).getLast? with
          | none => exact hne (List.getLast?_eq_none_iff.1 hl)
          | some b =>
            rw [hh, hl] at hr
            simp [rangeNew] at hr
      | some r =>
        rw [hr]
        have := hb r rfl
        have hle := itemsRange_le hr
        refine ⟨r.2, rfl, this.2, fun h => absurd (h ▸ hV) (by simp), fun _ => by omega, ?_⟩
        intro v z hW hz
        unfold itemsRange at hr
        rw [hlast v z hW] at hr
        cases hh : ((annotate pe o W).map Annot.placed).head? with
        | none => exact absurd (List.head?_eq_none_iff.1 hh) hne
        | some a =>
          rw [hh] at hr
          simp only [Option.map_eq_some_iff, Option.some.injEq] at hr
          obtain ⟨x, hx, rfl⟩ := hr
          rw [(rangeNew_eq hx).1]
          exact hstop v z hW
    | some mv =>
      obtain ⟨h1, h2⟩ := parseValue_elements hv
      obtain ⟨r, hr, hb1, hb2⟩ := MetaValue.textRange_ok (v := mv) (by rw [h1]; exact hin)
        (by rw [h1]; exact h2)
      have hle := MetaValue.textRange_le hr
      simp only [optRange, hr, Option.map_some]
      refine ⟨r.2, rfl, hb2, fun h => absurd (h ▸ hV) (by simp), fun _ => by omega, ?_⟩
      intro v z hW hz
      unfold MetaValue.textRange at hr
      rw [h1, hlast v z hW] at hr
      have hf : (((annotate pe o W).map Annot.placed).filter
          (fun p => !p.elem.isTrivia)).getLast? = some ⟨z, o + Elem.lenList v⟩ := by
        rw [hW, annotate_append]
        simp only [annotate, List.map_append, List.map_cons, List.map_nil, List.filter_append]
        rw [List.filter_cons_of_pos (by simp [hz])]
        simp
      simp only [hf] at hr
      cases hh : ((annotate pe o W).map Annot.placed).head? with
      | none => exact absurd (List.head?_eq_none_iff.1 hh) hne
      | some a =>
        rw [hh] at hr
        simp only at hr
        rw [(rangeNew_eq hr).1]
        exact hstop v z hW

theorem keyed_range (pe : ExprParser) (s : Nat) (nm : Elem) (gap V : List Elem) (eq : String)
    (sep : Nat) (m : Meta)
    (hm : m = .mk (.ok ⟨nm, s⟩) (some ⟨.tok .eq eq, s + Elem.lenList (nm :: gap)⟩)
      (parseMetaValue pe ((annotate pe (s + Elem.lenList (nm :: gap) + (Elem.tok .eq eq).len)
        V).map Annot.placed)) none sep none) :
    metaElements m = ⟨nm, s⟩ :: ⟨.tok .eq eq, s + Elem.lenList (nm :: gap)⟩ ::
        (annotate pe (s + Elem.lenList (nm :: gap) + (Elem.tok .eq eq).len) V).map Annot.placed ∧
      ∃ e, m.textRange = some (s, e) ∧ e ≤ s + Elem.lenList (nm :: (gap ++ .tok .eq eq :: V)) ∧
        ((V = [] ∨ ∃ v z, V = v ++ [z] ∧ z.isTrivia = false) →
          e = s + Elem.lenList (nm :: (gap ++ .tok .eq eq :: V))) := by
  subst hm
  have hlen : s + Elem.lenList (nm :: (gap ++ .tok .eq eq :: V)) =
      s + Elem.lenList (nm :: gap) + (Elem.tok .eq eq).len + Elem.lenList V := by
    simp only [Elem.lenList, lenList_append]
    omega
  constructor
  · simp only [metaElements]
    rw [value_elements]
    simp only [optElements, Option.toList, List.append_nil,
      List.cons_append, List.nil_append]
    apply sortBy_of_sorted
    have hin := annotate_inB pe (s + Elem.lenList (nm :: gap) + (Elem.tok .eq eq).len) V
    refine List.pairwise_cons.2 ⟨?_, List.pairwise_cons.2 ⟨?_, ?_⟩⟩
    · intro p hp
      rcases List.mem_cons.1 hp with rfl | hp
      · simp
      · have := (hin.2 p hp).1
        simp only
        omega
    · intro p hp
      have := (hin.2 p hp).1
      simp only
      omega
    · exact hin.1.imp fun {a b} h => Nat.le_trans a.start_le_stop h
  · obtain ⟨e', h1, h2, h3, h4, h5⟩ := value_range pe
      (s + Elem.lenList (nm :: gap) + (Elem.tok .eq eq).len) V s
      (s + Elem.lenList (nm :: gap) + (Elem.tok .eq eq).len) (Nat.le_refl _)
    have hle : s ≤ e' := by
      by_cases hV : V = []
      · rw [h3 hV]; omega
      · have := h4 hV; omega
    refine ⟨e', ?_, by omega, ?_⟩
    · rw [Meta.textRange]
      show ((optRange MetaValue.textRange (some (s, s + Elem.lenList (nm :: gap) +
        (Elem.tok .eq eq).len)) (parseMetaValue pe ((annotate pe (s + Elem.lenList (nm :: gap) +
        (Elem.tok .eq eq).len) V).map Annot.placed))).bind fun r₄ =>
        rangeNew ((r₄.map Prod.fst).getD sep) (((r₄.map Prod.snd).or none).getD sep)) = _
      rw [h1]
      simp [rangeNew, hle]
    · rintro (rfl | ⟨v, z, rfl, hz⟩)
      · rw [h3 rfl, hlen]
        simp [Elem.lenList]
      · rw [h5 v z rfl hz, hlen]

/-- An attribute with several arguments has no special range. -/
theorem not_single (attr : Option RemAttr) (n : Nat) (h : ∀ a, attr = some a → a.args = n)
    (hn : 2 ≤ n) : attr.bind singleRange = none := by
  cases attr with
  | none => rfl
  | some a =>
    rw [Option.bind_some, singleRange, if_neg]
    have := h a rfl
    omega

theorem deletes_of (A mid B L G R : List Elem)
    (h : A ++ .tok .lParen "(" :: (mid ++ .tok .rParen ")" :: B) = L ++ G ++ R) (r : Nat × Nat)
    (hr : r = (Elem.lenList L, Elem.lenList (L ++ G))) :
    Deletes (Elem.textList (inFile A mid B)) r (Elem.textList L) (Elem.textList G)
      (Elem.textList R) := by
  refine ⟨by rw [inFile_text, h, textList_append, textList_append], ?_⟩
  rw [hr, textList_size, textList_size, lenList_append]

/-! ## Theorems -/

/-- An argument with a comma after it: the argument, the trivia after it and that comma are deleted,
and nothing else. Missing from the full claim: nested arguments (`C51_negation_nested`) and names
that are not a single identifier (`C51_negation_name`); trivia may contain a comment. -/
theorem C51_next_partial (pe : ExprParser) (A B pre lead core trail post : List Elem) (c : String)
    (mid : List Elem)
    (hmid : mid = pre ++ (lead ++ core ++ trail) ++ .tok .comma c :: post)
    (hfull : FullList (inFile A mid B) = true) (hb : Between mid)
    (hpre : pre = [] ∨ ∃ p c', pre = p ++ [.tok .comma c'])
    (hlead : AllTrivia lead) (htrail : AllTrivia trail) (hcore : Flag core ∨ Keyed core)
    (hcomma : ∀ e ∈ core, e.isComma = false) (items : List Meta) (m : Meta)
    (hm : ItemAfter pe (Elem.lenList A) mid pre items m)
    (attr : Option RemAttr) (hattr : ∀ a, attr = some a → a.args = items.length)
    (hlen : 2 ≤ items.length) :
    ∃ r, removalRange (leavesList 0 (inFile A mid B)) attr m = some r ∧
      Deletes (Elem.textList (inFile A mid B)) r
        (Elem.textList (A ++ .tok .lParen "(" :: (pre ++ lead)))
        (Elem.textList (core ++ trail ++ [.tok .comma c]))
        (Elem.textList (post ++ .tok .rParen ")" :: B)) := by
  have htriv : ∀ e : Elem, e.isTrivia = true → e.isComma = false := by
    intro e he
    cases e with
    | tok k s => cases k <;> first | rfl | cases he
    | tree _ => rfl
    | error _ => rfl
  have hcore' : core ≠ [] := by
    rcases hcore with ⟨nm, rfl, _⟩ | ⟨nm, gap, eq, v, rfl, _⟩ <;> simp
  obtain ⟨t1, t2, sep, hbuild⟩ := item_of_group pe (Elem.lenList A) pre (lead ++ core ++ trail)
    (.tok .comma c :: post) (by rw [← hmid]; exact hb) (by simp [hcore'])
    (by
      intro e he
      rcases List.mem_append.1 he with he | he
      · rcases List.mem_append.1 he with he | he
        · exact htriv e (hlead e he)
        · exact hcomma e he
      · exact htriv e (htrail e he))
    hpre (.inr ⟨c, post, rfl⟩) items m (by rw [← hmid]; exact hm)
  have hfull' := inFile_full A mid B hfull
  rw [inFile_leaves]
  generalize hX : A ++ .tok .lParen "(" :: (pre ++ lead) = X
  have hXl : Elem.lenList X = Elem.lenList A + 1 + Elem.lenList pre + Elem.lenList lead := by
    rw [← hX]
    simp only [lenList_append, Elem.lenList, show (Elem.tok .lParen "(").len = 1 from by decide]
    omega
  have hflat : A ++ .tok .lParen "(" :: (mid ++ .tok .rParen ")" :: B) =
      X ++ (core ++ trail ++ [.tok .comma c]) ++ (post ++ .tok .rParen ")" :: B) := by
    rw [hmid, ← hX]
    simp
  refine ⟨(Elem.lenList X, Elem.lenList (X ++ (core ++ trail ++ [.tok .comma c]))), ?_,
    deletes_of A mid B _ _ _ hflat _ rfl⟩
  have hcpos : 0 < c.utf8ByteSize := by
    rw [hflat] at hfull'
    simp only [fullList_append, FullList, Full, Bool.and_eq_true] at hfull'
    exact utf8ByteSize_pos c (by simpa using hfull'.1.2.2.1)
  -- what remains: the own range starts at the name and the end is the end of the comma
  suffices key : ∃ e, m.textRange = some (Elem.lenList X, e) ∧
      e ≤ Elem.lenList (X ++ (core ++ trail)) ∧
      ∀ own, removalStop (leavesList 0 (X ++ (core ++ trail ++ [.tok .comma c]) ++
        (post ++ .tok .rParen ")" :: B))) m own =
        Elem.lenList (X ++ (core ++ trail ++ [.tok .comma c])) by
    obtain ⟨e, h1, h2, h3⟩ := key
    unfold removalRange
    rw [not_single attr items.length hattr hlen, h1, hflat]
    simp only [Option.bind_some]
    rw [h3, removalStart, if_neg, rangeNew, if_pos]
    · rw [lenList_append]; omega
    · simp only [lenList_append, Elem.lenList, Elem.len] at h2 ⊢
      omega
  rw [hflat] at hfull'
  rcases hcore with ⟨nm, rfl, hn⟩ | ⟨nm, gap, eq, v, rfl, hn, hgap, hv⟩
  · have hm' := item_flag pe _ lead trail nm hlead htrail hn t1 t2 sep m
      (by simpa using hbuild)
    rw [← hXl] at hm'
    obtain ⟨h1, h2⟩ := flag_range ⟨nm, Elem.lenList X⟩ sep
    rw [← hm'] at h1 h2
    refine ⟨_, h1, ?_, ?_⟩
    · simp only [Placed.stop, lenList_append, Elem.lenList]
      omega
    · intro own
      have hre : X ++ ([nm] ++ trail ++ [.tok .comma c]) ++ (post ++ .tok .rParen ")" :: B) =
          X ++ nm :: (trail ++ .tok .comma c :: (post ++ .tok .rParen ")" :: B)) := by simp
      rw [hre] at hfull' ⊢
      obtain ⟨t, ht, hd⟩ := delim_next X trail (post ++ .tok .rParen ")" :: B) nm c hfull' htrail
      unfold removalStop
      rw [h2]
      simp only [List.getLast?_singleton, Option.bind_some, lastLeaf, ht]
      rw [hd]
      simp
  · have hm' := item_keyed pe _ lead gap (v ++ trail) nm eq hlead hgap hn t1 t2 sep m
      (by simpa using hbuild)
    have hoff : Elem.lenList A + 1 + Elem.lenList pre + Elem.lenList (lead ++ nm :: gap) =
        Elem.lenList X + Elem.lenList (nm :: gap) := by
      rw [hXl, lenList_append]
      omega
    rw [hoff, ← hXl] at hm'
    obtain ⟨h1, e, h2, h3, _⟩ := keyed_range pe (Elem.lenList X) nm gap (v ++ trail) eq sep m hm'
    refine ⟨e, h2, ?_, ?_⟩
    · refine Nat.le_trans h3 ?_
      simp only [lenList_append, Elem.lenList]
      omega
    · intro own
      -- the last element of the argument
      obtain ⟨w, z, hw, hlast⟩ : ∃ w z, gap ++ .tok .eq eq :: (v ++ trail) = w ++ [z] ∧
          (metaElements m).getLast? = some ⟨z, Elem.lenList X + Elem.lenList (nm :: w)⟩ := by
        rw [h1]
        rcases List.eq_nil_or_concat (v ++ trail) with hv' | ⟨u, z, hv'⟩
        · rw [hv']
          refine ⟨gap, .tok .eq eq, rfl, ?_⟩
          simp [annotate]
        · rw [List.concat_eq_append] at hv'
          rw [hv']
          refine ⟨gap ++ .tok .eq eq :: u, z, by simp, ?_⟩
          rw [List.getLast?_cons_cons, List.getLast?_cons, List.getLast?_map, annotate_last]
          simp only [Option.map_some, Option.getD_some, Elem.lenList, lenList_append]
          congr 2
          omega
      have hre : X ++ (nm :: (gap ++ .tok .eq eq :: v) ++ trail ++ [.tok .comma c]) ++
          (post ++ .tok .rParen ")" :: B) =
          (X ++ nm :: w) ++ z :: ([] ++ .tok .comma c :: (post ++ .tok .rParen ")" :: B)) := by
        have : nm :: (gap ++ .tok .eq eq :: v) ++ trail = nm :: (w ++ [z]) := by
          rw [← hw]
          simp
        rw [this]
        simp
      have hre2 : X ++ (nm :: (gap ++ .tok .eq eq :: v) ++ trail ++ [.tok .comma c]) =
          (X ++ nm :: w) ++ z :: ([] ++ [.tok .comma c]) := by
        have : nm :: (gap ++ .tok .eq eq :: v) ++ trail = nm :: (w ++ [z]) := by
          rw [← hw]
          simp
        rw [this]
        simp
      rw [hre] at hfull' ⊢
      obtain ⟨t, ht, hd⟩ := delim_next (X ++ nm :: w) [] (post ++ .tok .rParen ")" :: B) z c hfull'
        (by simp)
      unfold removalStop
      rw [hlast]
      rw [lenList_append] at ht
      simp only [Option.bind_some, lastLeaf, ht]
      rw [hd, hre2]

/-- The last argument, after a comma and without one behind it: the comma before it, the trivia after
that comma and the argument are deleted, and nothing else. Missing from the full claim: nested
arguments, malformed names, and values followed by trivia (`C51_negation_space`). -/
theorem C51_last_partial (pe : ExprParser) (A B pre lead core trail : List Elem) (c : String)
    (mid : List Elem)
    (hmid : mid = pre ++ .tok .comma c :: (lead ++ core ++ trail))
    (hfull : FullList (inFile A mid B) = true) (hb : Between mid)
    (hlead : AllTrivia lead)
    (hcore : Flag core ∧ AllTrivia trail ∨ Keyed core ∧ trail = [])
    (hcomma : ∀ e ∈ core, e.isComma = false) (items : List Meta) (m : Meta)
    (hm : ItemAfter pe (Elem.lenList A) mid (pre ++ [.tok .comma c]) items m)
    (attr : Option RemAttr) (hattr : ∀ a, attr = some a → a.args = items.length)
    (hlen : 2 ≤ items.length) :
    ∃ r, removalRange (leavesList 0 (inFile A mid B)) attr m = some r ∧
      Deletes (Elem.textList (inFile A mid B)) r
        (Elem.textList (A ++ .tok .lParen "(" :: pre))
        (Elem.textList (.tok .comma c :: (lead ++ core)))
        (Elem.textList (trail ++ .tok .rParen ")" :: B)) := by
  have htriv : ∀ e : Elem, e.isTrivia = true → e.isComma = false := by
    intro e he
    cases e with
    | tok k s => cases k <;> first | rfl | cases he
    | tree _ => rfl
    | error _ => rfl
  have hcore' : core ≠ [] := by
    rcases hcore with ⟨⟨nm, rfl, _⟩, _⟩ | ⟨⟨nm, gap, eq, v, rfl, _⟩, _⟩ <;> simp
  have htrail : AllTrivia trail := by
    rcases hcore with ⟨_, h⟩ | ⟨_, rfl⟩
    · exact h
    · intro e he; cases he
  have hmid' : mid = (pre ++ [.tok .comma c]) ++ (lead ++ core ++ trail) ++ [] := by
    rw [hmid]
    simp
  obtain ⟨t1, t2, sep, hbuild⟩ := item_of_group pe (Elem.lenList A) (pre ++ [.tok .comma c])
    (lead ++ core ++ trail) [] (by rw [← hmid']; exact hb) (by simp [hcore'])
    (by
      intro e he
      rcases List.mem_append.1 he with he | he
      · rcases List.mem_append.1 he with he | he
        · exact htriv e (hlead e he)
        · exact hcomma e he
      · exact htriv e (htrail e he))
    (.inr ⟨pre, c, rfl⟩) (.inl rfl) items m (by rw [← hmid']; exact hm)
  have hfull' := inFile_full A mid B hfull
  rw [inFile_leaves]
  generalize hX : A ++ .tok .lParen "(" :: pre = X
  have hXl : Elem.lenList (X ++ .tok .comma c :: lead) =
      Elem.lenList A + 1 + Elem.lenList (pre ++ [.tok .comma c]) + Elem.lenList lead := by
    rw [← hX]
    simp only [lenList_append, Elem.lenList, show (Elem.tok .lParen "(").len = 1 from by decide]
    omega
  have hflat : A ++ .tok .lParen "(" :: (mid ++ .tok .rParen ")" :: B) =
      X ++ (.tok .comma c :: (lead ++ core)) ++ (trail ++ .tok .rParen ")" :: B) := by
    rw [hmid, ← hX]
    simp
  refine ⟨(Elem.lenList X, Elem.lenList (X ++ (.tok .comma c :: (lead ++ core)))), ?_,
    deletes_of A mid B _ _ _ hflat _ rfl⟩
  -- what remains: own range, end and first token
  suffices key : ∃ nm rest t, core = nm :: rest ∧ IsName nm ∧
      m.textRange = some (Elem.lenList (X ++ .tok .comma c :: lead),
        Elem.lenList (X ++ (.tok .comma c :: (lead ++ core)))) ∧
      (∀ own, removalStop (leavesList 0 (X ++ (.tok .comma c :: (lead ++ core)) ++
        (trail ++ .tok .rParen ")" :: B))) m own =
        Elem.lenList (X ++ (.tok .comma c :: (lead ++ core)))) ∧
      firstToken m = some t ∧ leaves (Elem.lenList (X ++ .tok .comma c :: lead)) nm = [t] ∧
      nextDelim (leavesList 0 (X ++ (.tok .comma c :: (lead ++ core)) ++
        (trail ++ .tok .rParen ")" :: B))) t = none by
    obtain ⟨nm, rest, t, rfl, hn, h1, h2, h3, h4, h5⟩ := key
    unfold removalRange
    rw [not_single attr items.length hattr hlen, h1, hflat]
    simp only [Option.bind_some]
    rw [h2, removalStart, if_pos rfl, h3]
    rw [hflat] at hfull'
    have hre : X ++ (.tok .comma c :: (lead ++ nm :: rest)) ++ (trail ++ .tok .rParen ")" :: B) =
        X ++ .tok .comma c :: (lead ++ nm :: (rest ++ (trail ++ .tok .rParen ")" :: B))) := by simp
    rw [hre] at hfull' h5 ⊢
    have hp : (tokenAndDelim (leavesList 0 (X ++ .tok .comma c :: (lead ++ nm :: (rest ++
        (trail ++ .tok .rParen ")" :: B))))) t).1 = Elem.lenList X := by
      obtain ⟨s, rfl | rfl⟩ := hn
      · exact delim_prev X lead _ c .ident s hfull' hlead t h4 h5
      · exact delim_prev X lead _ c .implKw s hfull' hlead t h4 h5
    simp only
    rw [hp, rangeNew, if_pos]
    rw [lenList_append]
    omega
  rw [hflat] at hfull'
  have hone : ∀ nm o, IsName nm → ∃ t, leaves o nm = [t] := by
    rintro nm o ⟨s, rfl | rfl⟩ <;> exact ⟨_, rfl⟩
  rcases hcore with ⟨⟨nm, rfl, hn⟩, _⟩ | ⟨⟨nm, gap, eq, v, rfl, hn, hgap, hv⟩, rfl⟩
  · have hm' := item_flag pe _ lead trail nm hlead htrail hn t1 t2 sep m
      (by simpa using hbuild)
    rw [← hXl] at hm'
    obtain ⟨h1, h2⟩ := flag_range ⟨nm, Elem.lenList (X ++ .tok .comma c :: lead)⟩ sep
    rw [← hm'] at h1 h2
    have hre : X ++ (.tok .comma c :: (lead ++ [nm])) ++ (trail ++ .tok .rParen ")" :: B) =
        (X ++ .tok .comma c :: lead) ++ nm :: (trail ++ .tok .rParen ")" :: B) := by simp
    rw [hre] at hfull' ⊢
    obtain ⟨t, ht, hd, hs⟩ := delim_none (X ++ .tok .comma c :: lead) trail B nm .rParen ")" hfull'
      htrail rfl (by decide)
    obtain ⟨t', ht'⟩ := hone nm (Elem.lenList (X ++ .tok .comma c :: lead)) hn
    obtain rfl : t' = t := by
      rw [ht'] at ht
      simpa using ht
    refine ⟨nm, [], t', rfl, hn, ?_, ?_, ?_, ht', hd⟩
    · rw [h1]
      simp only [Placed.stop, lenList_append, Elem.lenList]
      congr 2
      omega
    · intro own
      unfold removalStop
      rw [h2]
      simp only [List.getLast?_singleton, Option.bind_some, lastLeaf, ht]
      rw [hs]
      simp
    · rw [hm']
      simp [firstToken, Meta.name, firstLeaf, ht']
  · have hm' := item_keyed pe _ lead gap v nm eq hlead hgap hn t1 t2 sep m
      (by simpa using hbuild)
    have hoff : Elem.lenList A + 1 + Elem.lenList (pre ++ [.tok .comma c]) +
        Elem.lenList (lead ++ nm :: gap) =
        Elem.lenList (X ++ .tok .comma c :: lead) + Elem.lenList (nm :: gap) := by
      rw [hXl, lenList_append lead]
      omega
    rw [hoff, ← hXl] at hm'
    obtain ⟨h1, e, h2, _, h3⟩ := keyed_range pe _ nm gap v eq sep m hm'
    have he := h3 hv
    obtain ⟨t, ht⟩ := hone nm (Elem.lenList (X ++ .tok .comma c :: lead)) hn
    -- the name has no delimiter directly after it
    have hnone : nextDelim (leavesList 0 (X ++ (.tok .comma c ::
        (lead ++ nm :: (gap ++ .tok .eq eq :: v))) ++ ([] ++ .tok .rParen ")" :: B))) t = none := by
      have hre : X ++ (.tok .comma c :: (lead ++ nm :: (gap ++ .tok .eq eq :: v))) ++
          ([] ++ .tok .rParen ")" :: B) =
          (X ++ .tok .comma c :: lead) ++ nm :: (gap ++ .tok .eq eq ::
            (v ++ .tok .rParen ")" :: B)) := by simp
      rw [hre] at hfull' ⊢
      obtain ⟨t', ht', hd, _⟩ := delim_none (X ++ .tok .comma c :: lead) gap _ nm .eq eq hfull'
        hgap rfl (by decide)
      obtain rfl : t = t' := by
        rw [ht] at ht'
        simpa using ht'
      exact hd
    refine ⟨nm, gap ++ .tok .eq eq :: v, t, rfl, hn, ?_, ?_, ?_, ht, hnone⟩
    · rw [h2, he]
      simp only [lenList_append, Elem.lenList]
      congr 2
      omega
    · intro own
      obtain ⟨w, z, hw, hlast⟩ : ∃ w z, gap ++ .tok .eq eq :: v = w ++ [z] ∧
          (metaElements m).getLast? =
            some ⟨z, Elem.lenList (X ++ .tok .comma c :: lead) + Elem.lenList (nm :: w)⟩ := by
        rw [h1]
        rcases List.eq_nil_or_concat v with hv' | ⟨u, z, hv'⟩
        · rw [hv']
          refine ⟨gap, .tok .eq eq, rfl, ?_⟩
          simp [annotate]
        · rw [List.concat_eq_append] at hv'
          rw [hv']
          refine ⟨gap ++ .tok .eq eq :: u, z, by simp, ?_⟩
          rw [List.getLast?_cons_cons, List.getLast?_cons, List.getLast?_map, annotate_last]
          simp only [Option.map_some, Option.getD_some, Elem.lenList, lenList_append]
          congr 2
          omega
      have hre : X ++ (.tok .comma c :: (lead ++ nm :: (gap ++ .tok .eq eq :: v))) ++
          ([] ++ .tok .rParen ")" :: B) =
          (X ++ .tok .comma c :: lead ++ nm :: w) ++ z :: ([] ++ .tok .rParen ")" :: B) := by
        rw [hw]
        simp
      have hre2 : X ++ (.tok .comma c :: (lead ++ nm :: (gap ++ .tok .eq eq :: v))) =
          (X ++ .tok .comma c :: lead ++ nm :: w) ++ [z] := by
        rw [hw]
        simp
      rw [hre] at hfull' ⊢
      obtain ⟨t', ht', _, hs⟩ := delim_none (X ++ .tok .comma c :: lead ++ nm :: w) [] B z .rParen
        ")" hfull' (by simp) rfl (by decide)
      unfold removalStop
      rw [hlast]
      rw [lenList_append (X ++ .tok .comma c :: lead)] at ht'
      simp only [Option.bind_some, lastLeaf, ht']
      rw [hs, hre2]
    · rw [hm']
      simp [firstToken, Meta.name, firstLeaf, ht]

/-! ## What is false -/

/-- What is left of the argument list `( mid )` after removing its `i`-th argument. -/
def leftOver (pe : ExprParser) (mid : List Elem) (i : Nat) : Option String :=
  ((parenthesised mid).parse pe 0).bind fun items =>
    (items[i]?).bind fun m =>
      (removalRange (leavesList 0 [parenthesised mid]) (some ⟨items.length, true, none, (0, 0)⟩) m).map
        fun r =>
          let text := (parenthesised mid).text.toList
          String.ofList (text.take r.1 ++ text.drop r.2)

/-- The closing parenthesis of a nested argument is left behind: removing `backend(node)` from
`(backend(node), payable)` leaves `(), payable)`, and removing it from `(payable, backend(node))`
leaves `(payable))`. -/
theorem C51_negation_nested :
    leftOver (fun _ => none) [.tok .ident "backend", parenthesised [.tok .ident "node"], .tok .comma ",",
      .tok .whitespace " ", .tok .ident "payable"] 0 = some "(), payable)" ∧
    leftOver (fun _ => none) [.tok .ident "payable", .tok .comma ",", .tok .whitespace " ",
      .tok .ident "backend", parenthesised [.tok .ident "node"]] 1 = some "(payable))" := by
  decide +kernel

/-- Of an argument whose name is not a single identifier only the last element is removed: removing
`a b` from `(message, a b)` leaves `(message, a )`. -/
theorem C51_negation_name :
    leftOver (fun _ => none) [.tok .ident "message", .tok .comma ",", .tok .whitespace " ", .tok .ident "a",
      .tok .whitespace " ", .tok .ident "b"] 1 = some "(message, a )" := by decide +kernel

/-- With a space before the closing parenthesis the comma stays: removing `selector = 1` from
`(message, selector = 1 )` leaves `(message, )`. -/
theorem C51_negation_space :
    ∃ pe : ExprParser, leftOver pe [.tok .ident "message", .tok .comma ",", .tok .whitespace " ",
      .tok .ident "selector", .tok .whitespace " ", .tok .eq "=", .tok .whitespace " ",
      .tok .intNumber "1", .tok .whitespace " "] 1 = some "(message, )" :=
  ⟨fun _ => some (.intNumber, "1"), by decide +kernel⟩

/-- A comment between the argument and its comma is removed with them. -/
theorem C51_negation_comment :
    leftOver (fun _ => none) [.tok .ident "message", .tok .comment "/* why */", .tok .comma ",",
      .tok .ident "payable"] 0 = some "(payable)" := by decide +kernel

/-! ## Cases -/

/-- `message, selector = 1, payable` -/
def sampleRemoval : List Elem :=
  [.tok .ident "message", .tok .comma ",", .tok .whitespace " ", .tok .ident "selector",
   .tok .whitespace " ", .tok .eq "=", .tok .whitespace " ", .tok .intNumber "1",
   .tok .comma ",", .tok .whitespace " ", .tok .ident "payable"]

/-- The hypotheses of `C51_next_partial` for the second argument. -/
example : ∃ pre lead core trail post c,
    sampleRemoval = pre ++ (lead ++ core ++ trail) ++ .tok .comma c :: post ∧
    FullList (inFile [.tok .other "#", .tok .ident "ink"] sampleRemoval [.tok .rBrack "]"]) = true ∧
    Between sampleRemoval ∧ (pre = [] ∨ ∃ p c', pre = p ++ [.tok .comma c']) ∧
    AllTrivia lead ∧ AllTrivia trail ∧ Keyed core ∧ (∀ e ∈ core, e.isComma = false) ∧
    ∀ pe : ExprParser, ∃ items m, ItemAfter pe 4 sampleRemoval pre items m ∧ items.length = 3 := by
  refine ⟨[.tok .ident "message", .tok .comma ","], [.tok .whitespace " "],
    [.tok .ident "selector", .tok .whitespace " ", .tok .eq "=", .tok .whitespace " ",
      .tok .intNumber "1"], [], [.tok .whitespace " ", .tok .ident "payable"], ",", rfl,
    by decide +kernel, by decide +kernel, .inr ⟨[.tok .ident "message"], ",", rfl⟩, ?_, ?_, ?_, ?_, ?_⟩
  · intro e he
    rw [List.mem_singleton.1 he]
    rfl
  · intro e he
    cases he
  · refine ⟨_, [.tok .whitespace " "], "=", _, rfl, ⟨_, .inl rfl⟩, ?_,
      .inr ⟨[.tok .whitespace " "], .tok .intNumber "1", rfl, rfl⟩⟩
    intro e he
    rw [List.mem_singleton.1 he]
    rfl
  · intro e he
    simp at he
    rcases he with rfl | rfl | rfl | rfl | rfl <;> rfl
  · intro pe
    obtain ⟨items, h, _⟩ := Elem.parse_ok pe (parenthesised sampleRemoval) 4 (by decide +kernel)
    have hl := C20_count_partial pe 4 _ items (by decide +kernel) h
    have hl' : items.length = 3 := by rw [hl]; decide +kernel
    refine ⟨items, items[1], ⟨h, ?_⟩, hl'⟩
    show items[1]? = _
    rw [List.getElem?_eq_getElem]

example : leftOver (fun _ => none) sampleRemoval 0 = some "( selector = 1, payable)" ∧
    leftOver (fun _ => none) sampleRemoval 1 = some "(message,  payable)" ∧
    leftOver (fun _ => none) sampleRemoval 2 = some "(message, selector = 1)" := by decide +kernel

end Verif.Analyzer
