import Verif.Analyzer.RemoveRead
import Verif.Analyzer.RemoveProps
import Verif.Analyzer.ParseProps

/-!
# C105: the fixes that remove an argument leave every other argument as it was
-/

namespace Verif.Analyzer.RemoveRead
open Verif.Ir

/-! ## Specification -/

/-- The white space and comments before an argument. -/
def lead : Written → List Elem
  | .flag l _ _ | .keyed l _ _ _ _ | .nest l _ _ _ _ | .hollow l _ _ _ => l

/-- The same argument with more white space and comments before it. -/
def behind (t : List Elem) : Written → Written
  | .flag l n tr => .flag (t ++ l) n tr
  | .keyed l n g e v => .keyed (t ++ l) n g e v
  | .nest l n g i tr => .nest (t ++ l) n g i tr
  | .hollow l n g tr => .hollow (t ++ l) n g tr

/-- The arguments without `w`: what was before `w` is now before the argument behind it. -/
def without (ws1 : List Written) (w : Written) : List Written → List Written
  | [] => ws1
  | x :: ws2 => ws1 ++ behind (lead w) x :: ws2

/-- An argument that is a name, or a name with a value. -/
def Simple : Written → Prop
  | .flag .. | .keyed .. => True
  | _ => False

/-- Nothing but a comma stands behind the argument. -/
def EndsTight : Written → Prop
  | .flag _ _ trail => trail = []
  | .keyed _ _ _ _ value => ∃ v z, value = v ++ [z] ∧ z.isTrivia = false
  | _ => False

/-- The kind and the value of an argument. -/
def facts (a : Arg) : ArgKind × Option (ValueTok × String) :=
  (a.kind, a.value.map fun v => (v.kind, v.text))

/-! ## Lemmas -/

theorem behind_source (t : List Elem) (w : Written) : (behind t w).source = t ++ w.source := by
  cases w <;> simp [behind, Written.source]

theorem lead_ok (pe : ExprParser) (w : Written) (h : w.Ok pe) : AllTrivia (lead w) := by
  cases w <;> exact h.1

theorem behind_ok (pe : ExprParser) (t : List Elem) (w : Written) (ht : AllTrivia t) (h : w.Ok pe) :
    (behind t w).Ok pe := by
  have key : ∀ l, AllTrivia l → AllTrivia (t ++ l) := by
    intro l hl e he
    rcases List.mem_append.1 he with h | h
    · exact ht e h
    · exact hl e h
  cases w with
  | flag => exact ⟨key _ h.1, h.2⟩
  | keyed => exact ⟨key _ h.1, h.2⟩
  | nest => exact ⟨key _ h.1, h.2⟩
  | hollow => exact ⟨key _ h.1, h.2⟩

theorem listSource_cons (tr : Bool) (w x : Written) (ws : List Written) :
    listSource tr (w :: x :: ws) = w.source ++ commaElem :: listSource tr (x :: ws) := rfl

theorem listSource_append (tr : Bool) (ws1 : List Written) (w : Written) (ws2 : List Written) :
    listSource tr (ws1 ++ w :: ws2) = listSource true ws1 ++ listSource tr (w :: ws2) := by
  induction ws1 with
  | nil => rfl
  | cons x ws1 ih =>
    cases ws1 with
    | nil => simp [listSource]
    | cons y ws1 =>
      rw [List.cons_append, List.cons_append, listSource_cons, ← List.cons_append, ih,
        listSource_cons]
      simp

theorem listSource_true (ws : List Written) :
    listSource true ws = [] ∨ ∃ p c, listSource true ws = p ++ [.tok .comma c] := by
  rcases List.eq_nil_or_concat ws with rfl | ⟨ws, w, rfl⟩
  · exact .inl rfl
  · refine .inr ⟨listSource true ws ++ w.source, ",", ?_⟩
    rw [List.concat_eq_append, listSource_append]
    simp [listSource, commaElem]

theorem listSource_last (ws : List Written) (h : ws ≠ []) :
    listSource true ws = listSource false ws ++ [commaElem] := by
  rcases List.eq_nil_or_concat ws with rfl | ⟨ws, w, rfl⟩
  · exact absurd rfl h
  · rw [List.concat_eq_append, listSource_append, listSource_append]
    simp [listSource]

theorem runStarts_plain (l r : List Elem) (h : ∀ e ∈ l, e.isComma = false) :
    runStarts Elem.isComma false (l ++ r) = runStarts Elem.isComma false r := by
  induction l with
  | nil => rfl
  | cons e l ih =>
    rw [List.cons_append, runStarts, h e (by simp), ih fun e he => h e (List.mem_cons_of_mem _ he)]
    simp

theorem runStarts_group (l r : List Elem) (c : String) (hne : l ≠ []) (h : ∀ e ∈ l, e.isComma = false) :
    runStarts Elem.isComma true (l ++ .tok .comma c :: r) = 1 + runStarts Elem.isComma true r := by
  cases l with
  | nil => exact absurd rfl hne
  | cons e l =>
    rw [List.cons_append, runStarts, h e (by simp),
      runStarts_plain l _ fun e he => h e (List.mem_cons_of_mem _ he), runStarts]
    simp [Elem.isComma]

theorem runStarts_list (pe : ExprParser) (ws : List Written) (h : ∀ w ∈ ws, w.Ok pe) :
    runStarts Elem.isComma true (listSource true ws) = ws.length := by
  induction ws with
  | nil => rfl
  | cons w ws ih =>
    obtain ⟨p1, -, p3⟩ := source_plain pe w (h w (by simp))
    have : listSource true (w :: ws) = w.source ++ .tok .comma "," :: listSource true ws := by
      cases ws with
      | nil => simp [listSource, commaElem]
      | cons x ws => rfl
    rw [this, runStarts_group _ _ _ p1 p3, ih fun x hx => h x (List.mem_cons_of_mem _ hx),
      List.length_cons, Nat.add_comm]

theorem split_value (v : List Elem) : ∃ u t, v = u ++ t ∧ AllTrivia t ∧
    (u = [] ∨ ∃ x z, u = x ++ [z] ∧ z.isTrivia = false) := by
  induction v with
  | nil => exact ⟨[], [], rfl, (by simp [AllTrivia]), .inl rfl⟩
  | cons e v ih =>
    obtain ⟨u, t, rfl, h1, rfl | ⟨x, z, rfl, hz⟩⟩ := ih
    · cases he : e.isTrivia with
      | false => exact ⟨[e], t, rfl, h1, .inr ⟨[], e, rfl, he⟩⟩
      | true =>
        refine ⟨[], e :: t, rfl, ?_, .inl rfl⟩
        intro y hy
        rcases List.mem_cons.1 hy with rfl | hy
        · exact he
        · exact h1 y hy
    · exact ⟨e :: (x ++ [z]), t, rfl, h1, .inr ⟨e :: x, z, rfl, hz⟩⟩

/-- The parts of a simple argument. -/
theorem parts (pe : ExprParser) (w : Written) (h : w.Ok pe) (hs : Simple w) :
    ∃ core trail, w.source = lead w ++ core ++ trail ∧ AllTrivia trail ∧ (Flag core ∨ Keyed core) ∧
      (∀ e ∈ core, e.isComma = false) ∧ (EndsTight w → trail = []) := by
  have hp := (source_plain pe w h).2.2
  cases w with
  | flag l n tr =>
    refine ⟨[n], tr, by simp [Written.source, lead], h.2.2, .inl ⟨n, rfl, h.2.1⟩, ?_, fun h => h⟩
    intro e he
    exact hp e (by simp [Written.source, List.mem_singleton.1 he])
  | keyed l n g q v =>
    obtain ⟨u, t, rfl, h1, h2⟩ := split_value v
    refine ⟨n :: (g ++ .tok .eq q :: u), t, by simp [Written.source, lead], h1,
      .inr ⟨n, g, q, u, rfl, h.2.1, h.2.2.1, h2⟩, ?_, ?_⟩
    · intro e he
      exact hp e (by simp only [Written.source, List.mem_append, List.mem_cons] at he ⊢; grind)
    · rintro ⟨x, z, h3, h4⟩
      rcases List.eq_nil_or_concat t with rfl | ⟨t', z', rfl⟩
      · rfl
      · rw [List.concat_eq_append, ← List.append_assoc] at h3
        obtain ⟨-, h5⟩ := List.append_inj' h3 rfl
        have := h1 z' (by simp)
        rw [List.cons.inj h5 |>.1, h4] at this
        cases this
  | nest => exact absurd hs id
  | hollow => exact absurd hs id

theorem valueIs_unique (pe : ExprParser) {v : List Elem} {k k' : ValueTok} {s s' : String}
    (h : ValueIs pe v k s) (h' : ValueIs pe v k' s') : k = k' ∧ s = s' := by
  have mid : ∀ {a b a' b' : List Elem} {x y : Elem}, AllTrivia a → AllTrivia a' → AllTrivia b →
      AllTrivia b' → x.isTrivia = false → y.isTrivia = false → a ++ x :: b = a' ++ y :: b' → x = y := by
    intro a
    induction a with
    | nil =>
      intro b a' b' x y _ ha' hb hb' hx hy he
      cases a' with
      | nil => exact (List.cons.inj he).1
      | cons z a' =>
        have := ha' z (by simp)
        rw [← (List.cons.inj he).1, hx] at this
        cases this
    | cons z a ih =>
      intro b a' b' x y ha ha' hb hb' hx hy he
      cases a' with
      | nil =>
        have := ha z (by simp)
        rw [(List.cons.inj he).1, hy] at this
        cases this
      | cons z' a' =>
        exact ih (fun e he => ha e (List.mem_cons_of_mem _ he))
          (fun e he => ha' e (List.mem_cons_of_mem _ he)) hb hb' hx hy (List.cons.inj he).2
  cases h with
  | underscore a b s ha hb =>
    generalize hv : a ++ Elem.tok .underscore s :: b = v at h'
    cases h' with
    | underscore a' b' s' ha' hb' =>
      have := mid ha ha' hb hb' rfl rfl hv
      cases this
      exact ⟨rfl, rfl⟩
    | «at» a' b' s' ha' hb' =>
      have := mid ha ha' hb hb' rfl rfl hv
      cases this
    | expr _ _ _ hn =>
      exact absurd rfl (hn (.tok .underscore s) (by rw [← hv]; simp) s).1
  | «at» a b s ha hb =>
    generalize hv : a ++ Elem.tok .at s :: b = v at h'
    cases h' with
    | underscore a' b' s' ha' hb' =>
      have := mid ha ha' hb hb' rfl rfl hv
      cases this
    | «at» a' b' s' ha' hb' =>
      have := mid ha ha' hb hb' rfl rfl hv
      cases this
      exact ⟨rfl, rfl⟩
    | expr _ _ _ hn =>
      exact absurd rfl (hn (.tok .at s) (by rw [← hv]; simp) s).2
  | expr _ _ _ hn hpe =>
    cases h' with
    | underscore a' b' s' ha' hb' =>
      exact absurd rfl (hn (.tok .underscore s') (by simp) s').1
    | «at» a' b' s' ha' hb' =>
      exact absurd rfl (hn (.tok .at s') (by simp) s').2
    | expr _ _ _ _ hpe' =>
      rw [hpe] at hpe'
      cases hpe'
      exact ⟨rfl, rfl⟩

theorem value_none {a : Arg} (h : a.item.value = .none) : a.value = none := by
  simp [Arg.value, h]

/-- What is read depends on what is written only, not on the place. -/
theorem facts_behind (pe : ExprParser) (t : List Elem) (w : Written) (o o' : Nat) (a a' : Arg)
    (h : IsRead pe w o a) (h' : IsRead pe (behind t w) o' a') : facts a' = facts a := by
  cases w with
  | flag =>
    obtain ⟨⟨-, h1⟩, -, h2, -⟩ := h
    obtain ⟨⟨-, h1'⟩, -, h2', -⟩ := h'
    simp [facts, h1, h1', value_none h2, value_none h2']
  | keyed l n g q v =>
    obtain ⟨⟨-, h1⟩, -, -, x, h2, h3⟩ := h
    obtain ⟨⟨-, h1'⟩, -, -, x', h2', h3'⟩ := h'
    have := valueIs_unique pe h3' h3
    simp [facts, h1, h1', h2, h2', this]
  | nest =>
    obtain ⟨⟨-, h1⟩, -, h2, -⟩ := h
    obtain ⟨⟨-, h1'⟩, -, h2', -⟩ := h'
    simp [facts, h1, h1', value_none h2, value_none h2']
  | hollow =>
    obtain ⟨⟨-, h1⟩, -, h2, -⟩ := h
    obtain ⟨⟨-, h1'⟩, -, h2', -⟩ := h'
    simp [facts, h1, h1', value_none h2, value_none h2']

theorem behind_nil (w : Written) : behind [] w = w := by cases w <;> rfl

theorem facts_same (pe : ExprParser) (ws : List Written) (o o' : Nat) (as as' : List Arg)
    (h : AreRead pe ws o as) (h' : AreRead pe ws o' as') : as'.map facts = as.map facts := by
  induction ws generalizing o o' as as' with
  | nil => rw [show as = [] from h, show as' = [] from h']
  | cons w ws ih =>
    obtain ⟨a, r, rfl, h1, h2⟩ := h
    obtain ⟨a', r', rfl, h1', h2'⟩ := h'
    rw [List.map_cons, List.map_cons, ih _ _ _ _ h2 h2',
      facts_behind pe [] w o o' a a' h1 (by rw [behind_nil]; exact h1')]

theorem areRead_append (pe : ExprParser) (ws1 ws2 : List Written) (o : Nat) (as : List Arg)
    (h : AreRead pe (ws1 ++ ws2) o as) : ∃ as1 as2 o2, as = as1 ++ as2 ∧ AreRead pe ws1 o as1 ∧
      AreRead pe ws2 o2 as2 := by
  induction ws1 generalizing o as with
  | nil => exact ⟨[], as, o, rfl, rfl, h⟩
  | cons w ws1 ih =>
    obtain ⟨a, r, rfl, h1, h2⟩ := h
    obtain ⟨as1, as2, o2, rfl, h3, h4⟩ := ih _ _ h2
    exact ⟨a :: as1, as2, o2, rfl, ⟨a, as1, rfl, h1, h3⟩, h4⟩

theorem facts_without (pe : ExprParser) (ws1 : List Written) (w : Written) (ws2 : List Written)
    (o o' : Nat) (as as' : List Arg) (h : AreRead pe (ws1 ++ w :: ws2) o as)
    (h' : AreRead pe (without ws1 w ws2) o' as') :
    as'.map facts = (as.eraseIdx ws1.length).map facts := by
  obtain ⟨as1, as2, o2, rfl, h1, b, r, rfl, -, h2⟩ := areRead_append pe ws1 _ o as h
  have hl := areRead_length pe ws1 o as1 h1
  have he : (as1 ++ b :: r).eraseIdx ws1.length = as1 ++ r := by
    rw [← hl, List.eraseIdx_append_of_length_le (Nat.le_refl _)]
    simp
  rw [he, List.map_append]
  cases ws2 with
  | nil =>
    rw [show r = [] from h2, facts_same pe ws1 _ _ _ _ h1 h']
    simp
  | cons x ws2 =>
    obtain ⟨as1', as2', o2', rfl, h1', b', r', rfl, h3', h2'⟩ := areRead_append pe ws1 _ o' as' h'
    obtain ⟨c, r, rfl, h3, h4⟩ := h2
    rw [List.map_append, facts_same pe ws1 _ _ _ _ h1 h1', List.map_cons, List.map_cons,
      facts_behind pe _ x _ _ _ _ h3 h3', facts_same pe ws2 _ _ _ _ h4 h2']

/-! ## Theorems -/

/-- Removing an argument of an attribute with several arguments deletes one piece of the text. What is left
is the source of the attribute without that argument, and is read as all the other arguments, with the
kinds and values that they had, in the same order. Missing for the full claim: arguments with parentheses
(`C51_negation_nested`), a last argument with white space behind it (`C51_negation_space`), and white space
before a last argument with a comma (`C105_negation_trailing`). -/
theorem C105_rest_partial (pe : ExprParser) (A B : List Elem) (segments : List String)
    (ws1 : List Written) (w : Written) (ws2 : List Written) (trailing : Bool)
    (hok : ∀ x ∈ ws1 ++ w :: ws2, x.Ok pe) (hs : Simple w) (hne : ws1 ≠ [] ∨ ws2 ≠ [])
    (hlast : ws2 = [] → if trailing then lead w = [] else EndsTight w)
    (hfull : FullList (inFile A (listSource trailing (ws1 ++ w :: ws2)) B) = true)
    (args : List Arg)
    (hargs : parseInkArgs pe ⟨segments, some (parenthesised (listSource trailing (ws1 ++ w :: ws2)),
      Elem.lenList A)⟩ = some args)
    (a : Arg) (ha : args[ws1.length]? = some a) (at_ : Option RemAttr)
    (hat : ∀ x, at_ = some x → x.args = args.length) :
    ∃ r left gone right args',
      removalRange (leavesList 0 (inFile A (listSource trailing (ws1 ++ w :: ws2)) B)) at_
        a.item = some r ∧
      Deletes (Elem.textList (inFile A (listSource trailing (ws1 ++ w :: ws2)) B)) r left gone right ∧
      left ++ right = Elem.textList (inFile A (listSource trailing (without ws1 w ws2)) B) ∧
      parseInkArgs pe ⟨segments, some (parenthesised (listSource trailing (without ws1 w ws2)),
        Elem.lenList A)⟩ = some args' ∧
      AreRead pe (without ws1 w ws2) (Elem.lenList A + 1) args' ∧
      args'.map facts = (args.eraseIdx ws1.length).map facts := by
  have hok1 : ∀ x ∈ ws1, x.Ok pe := fun x hx => hok x (by simp [hx])
  have hw : w.Ok pe := hok w (by simp)
  have hok2 : ∀ x ∈ without ws1 w ws2, x.Ok pe := by
    intro x hx
    cases ws2 with
    | nil => exact hok1 x hx
    | cons y ws2 =>
      simp only [without, List.mem_append, List.mem_cons] at hx
      rcases hx with hx | rfl | hx
      · exact hok1 x hx
      · exact behind_ok pe _ y (lead_ok pe w hw) (hok y (by simp))
      · exact hok x (by simp [hx])
  obtain ⟨args', hp', hr'⟩ := C76_read_partial pe (Elem.lenList A) segments _ trailing hok2
  have hread : AreRead pe (ws1 ++ w :: ws2) (Elem.lenList A + 1) args := by
    obtain ⟨args0, hp, hr⟩ := C76_read_partial pe (Elem.lenList A) segments _ trailing hok
    rw [hargs] at hp
    cases hp
    exact hr
  have hlen := areRead_length pe _ _ _ hread
  suffices key : ∃ r left gone right,
      removalRange (leavesList 0 (inFile A (listSource trailing (ws1 ++ w :: ws2)) B)) at_
        a.item = some r ∧
      Deletes (Elem.textList (inFile A (listSource trailing (ws1 ++ w :: ws2)) B)) r left gone right ∧
      left ++ right = Elem.textList (inFile A (listSource trailing (without ws1 w ws2)) B) by
    obtain ⟨r, left, gone, right, k1, k2, k3⟩ := key
    exact ⟨r, left, gone, right, args', k1, k2, k3, hp', hr',
      facts_without pe ws1 w ws2 _ _ _ _ hread hr'⟩
  have hb := listSource_plain pe trailing _ hok
  obtain ⟨items, hitems, rfl⟩ : ∃ items, (parenthesised (listSource trailing (ws1 ++ w :: ws2))).parse pe
      (Elem.lenList A) = some items ∧ args = items.map Arg.ofMeta := by
    simp only [parseInkArgs, Option.map_eq_some_iff] at hargs
    obtain ⟨items, h1, h2⟩ := hargs
    exact ⟨items, h1, h2.symm⟩
  rw [List.length_map] at hlen hat
  rw [List.getElem?_map, Option.map_eq_some_iff] at ha
  obtain ⟨m, hm, rfl⟩ := ha
  have hitem : ItemAfter pe (Elem.lenList A) (listSource trailing (ws1 ++ w :: ws2))
      (listSource true ws1) items m :=
    ⟨hitems, by rw [runStarts_list pe ws1 hok1]; exact hm⟩
  have h2 : 2 ≤ items.length := by
    rw [hlen, List.length_append, List.length_cons]
    rcases hne with h | h
    · have := List.length_pos_iff.2 h; omega
    · have := List.length_pos_iff.2 h; omega
  obtain ⟨core, trail, q1, q2, q3, q4, q5⟩ := parts pe w hw hs
  have hattr : ∀ x, at_ = some x → x.args = items.length := hat
  -- a comma behind the argument
  have next : ∀ post, listSource trailing (ws1 ++ w :: ws2) =
      listSource true ws1 ++ (lead w ++ core ++ trail) ++ .tok .comma "," :: post →
      listSource trailing (without ws1 w ws2) = listSource true ws1 ++ lead w ++ post →
      ∃ r left gone right,
      removalRange (leavesList 0 (inFile A (listSource trailing (ws1 ++ w :: ws2)) B)) at_
        m = some r ∧
      Deletes (Elem.textList (inFile A (listSource trailing (ws1 ++ w :: ws2)) B)) r left gone right ∧
      left ++ right = Elem.textList (inFile A (listSource trailing (without ws1 w ws2)) B) := by
    intro post hmid hafter
    obtain ⟨r, k1, k2⟩ := C51_next_partial pe A B (listSource true ws1) (lead w) core trail post ","
      _ hmid hfull hb (listSource_true ws1) (lead_ok pe w hw) q2 q3 q4 items m hitem at_ hattr h2
    refine ⟨r, _, _, _, k1, k2, ?_⟩
    rw [inFile_text, hafter, ← textList_append]
    simp
  show ∃ r left gone right,
      removalRange (leavesList 0 (inFile A (listSource trailing (ws1 ++ w :: ws2)) B)) at_
        m = some r ∧ _
  cases ws2 with
  | cons x ws2 =>
    refine next (listSource trailing (x :: ws2)) ?_ ?_
    · rw [listSource_append, listSource_cons, q1]
      simp [commaElem]
    · rw [without, listSource_append, List.append_assoc]
      congr 1
      cases ws2 with
      | nil => simp [listSource, behind_source]
      | cons y ws2 => rw [listSource_cons, listSource_cons, behind_source, List.append_assoc]
  | nil =>
    have hne1 : ws1 ≠ [] := hne.resolve_right (fun h => h rfl)
    cases trailing with
    | true =>
      have hl : lead w = [] := by simpa using hlast rfl
      refine next [] ?_ ?_
      · rw [listSource_append, ← q1]
        simp [listSource, commaElem]
      · rw [without, hl]
        simp
    | false =>
      have ht : EndsTight w := by simpa using hlast rfl
      have htr := q5 ht
      subst htr
      have hmid : listSource false (ws1 ++ [w]) =
          listSource false ws1 ++ .tok .comma "," :: (lead w ++ core ++ []) := by
        rw [listSource_append, listSource_last ws1 hne1, ← q1]
        simp [listSource, commaElem]
      have hitem' : ItemAfter pe (Elem.lenList A) (listSource false (ws1 ++ [w]))
          (listSource false ws1 ++ [.tok .comma ","]) items m := by
        have := listSource_last ws1 hne1
        unfold commaElem at this
        rw [← this]
        exact hitem
      obtain ⟨r, k1, k2⟩ := C51_last_partial pe A B (listSource false ws1) (lead w) core [] ","
        _ hmid hfull hb (lead_ok pe w hw)
        (q3.imp (fun h => ⟨h, by simp [AllTrivia]⟩) fun h => ⟨h, rfl⟩) q4 items m hitem' at_
        hattr h2
      refine ⟨r, _, _, _, k1, k2, ?_⟩
      rw [inFile_text, without, ← textList_append]
      simp

/-- The only argument of a macro is removed with its parentheses, and nothing else; the only argument of
another attribute is removed with the whole attribute, and nothing else. -/
theorem C105_single (pe : ExprParser) (A open_ mid close B : List Elem) (segments : List String)
    (a : Arg) (at_ : RemAttr)
    (hargs : parseInkArgs pe ⟨segments, some (parenthesised mid, Elem.lenList (A ++ open_))⟩ = some [a])
    (hat : at_.args = 1)
    (htree : at_.tree = some (Elem.lenList (A ++ open_),
      Elem.lenList (A ++ open_) + (parenthesised mid).len))
    (hrange : at_.range = (Elem.lenList A, Elem.lenList (A ++ (open_ ++ parenthesised mid :: close)))) :
    ∃ r, removalRange (leavesList 0 (inFile (A ++ open_) mid (close ++ B))) (some at_) a.item = some r ∧
      if at_.isMacro then
        Deletes (Elem.textList (inFile (A ++ open_) mid (close ++ B))) r (Elem.textList (A ++ open_))
          (parenthesised mid).text (Elem.textList (close ++ B))
      else
        Deletes (Elem.textList (inFile (A ++ open_) mid (close ++ B))) r (Elem.textList A)
          (Elem.textList (open_ ++ parenthesised mid :: close)) (Elem.textList B) := by
  obtain ⟨n, isMacro, tree, range⟩ := at_
  simp only at hat htree hrange
  subst hat htree hrange
  cases isMacro with
  | true =>
    refine ⟨_, rfl, ?_⟩
    simp only [if_true]
    refine ⟨by simp [inFile, textList_append, Elem.textList, String.append_assoc], ?_⟩
    rw [textList_size, text_size]
  | false =>
    refine ⟨_, rfl, ?_⟩
    simp only [Bool.false_eq_true, if_false]
    refine ⟨by simp [inFile, textList_append, Elem.textList, String.append_assoc], ?_⟩
    rw [textList_size, textList_size, lenList_append]

/-- An `impl` block is reported for its namespace iff it is the implementation of a trait and one of its ink!
attributes has a namespace; then the first one is reported, and the fix deletes what is deleted when that
argument is removed. -/
theorem C105_namespace (file : List Leaf) (hasTrait : Bool) (attrs : List (InkAttr × RemAttr))
    (res : Option ((Nat × Nat) × (Nat × Nat))) (h : implNamespace file hasTrait attrs = some res) :
    (res.isSome ↔ hasTrait = true ∧ ∃ x ∈ attrs, ∃ a ∈ x.1.args, a.kind = .namespace) ∧
    ∀ own r, res = some (own, r) → ∃ pre x post before a behind, attrs = pre ++ x :: post ∧
      (∀ y ∈ pre, ∀ b ∈ y.1.args, b.kind ≠ .namespace) ∧ x.1.args = before ++ a :: behind ∧
      (∀ b ∈ before, b.kind ≠ .namespace) ∧ a.kind = .namespace ∧ a.item.textRange = some own ∧
      removalRange file (some x.2) a.item = some r := by
  unfold implNamespace at h
  cases hasTrait with
  | false =>
    simp only [Bool.false_eq_true, if_false, Option.some.injEq] at h
    subst h
    simp
  | true =>
    simp only [if_true] at h
    cases hk : argByKind .namespace attrs with
    | none =>
      rw [hk] at h
      simp only [Option.some.injEq] at h
      subst h
      simp only [Option.isSome_none, Bool.false_eq_true, true_and, false_iff, reduceCtorEq,
        false_implies, implies_true, and_true]
      rintro ⟨x, hx, a, ha, hn⟩
      simp only [argByKind, List.findSome?_eq_none_iff, Option.map_eq_none_iff, List.find?_eq_none] at hk
      exact hk x hx a ha (by simp [hn])
    | some p =>
      obtain ⟨a, at_⟩ := p
      rw [hk] at h
      simp only [Option.bind_eq_some_iff, Option.map_eq_some_iff] at h
      obtain ⟨r, hr, own, hown, rfl⟩ := h
      obtain ⟨pre, x, post, h1, h2, h3⟩ := List.findSome?_eq_some_iff.1 hk
      simp only [Option.map_eq_some_iff, Prod.mk.injEq] at h2
      obtain ⟨a', h4, rfl, rfl⟩ := h2
      obtain ⟨h5, before, behind, h6, h7⟩ := List.find?_eq_some_iff_append.1 h4
      have hkind : a'.kind = .namespace := by simpa using h5
      refine ⟨⟨fun _ => ⟨rfl, x, by rw [h1]; simp, a', by rw [h6]; simp, hkind⟩, fun _ => rfl⟩, ?_⟩
      rintro own' r' ⟨⟩
      refine ⟨pre, x, post, before, a', behind, h1, ?_, h6, ?_, hkind, hown, hr⟩
      · intro y hy b hb hn
        have := h3 y hy
        simp only [Option.map_eq_none_iff, List.find?_eq_none] at this
        exact this b hb (by simp [hn])
      · intro b hb hn
        have := h7 b hb
        simp [hn] at this

/-- With a comma behind the last argument, the white space before it stays and is read as an argument:
removing `payable` from `(message, payable,)` leaves `(message, )`, which has an argument of unknown
kind. -/
theorem C105_negation_trailing (pe : ExprParser) :
    leftOver pe [.tok .ident "message", .tok .comma ",", .tok .whitespace " ", .tok .ident "payable",
      .tok .comma ","] 1 = some "(message, )" ∧
    ∃ a b, parseInkArgs pe ⟨["ink"], some (parenthesised [.tok .ident "message", .tok .comma ",",
      .tok .whitespace " "], 0)⟩ = some [a, b] ∧ b.kind = .unknown :=
  ⟨by rfl, C76_negation_trailing pe⟩

/-! ## Cases -/

/-- `#[ink(message)]` has one argument. -/
example : ∃ a, parseInkArgs (fun _ => none) ⟨["ink"], some (parenthesised [.tok .ident "message"],
    Elem.lenList ([] ++ [.tok .other "#", .tok .other "[", .tok .ident "ink"]))⟩ = some [a] :=
  ⟨_, rfl⟩

/-- `namespace = "a", impl`: the first argument. -/
example : ∃ (pe : ExprParser) (w x : Written), (∀ y ∈ [] ++ w :: [x], y.Ok pe) ∧ Simple w ∧
    FullList (inFile [.tok .other "#", .tok .ident "ink"] (listSource false ([] ++ w :: [x]))
      [.tok .rBrack "]"]) = true ∧
    Elem.textList (listSource false ([] ++ w :: [x])) = "namespace = \"a\", impl" ∧
    ∃ args, parseInkArgs pe ⟨["ink"], some (parenthesised (listSource false ([] ++ w :: [x])), 4)⟩ =
      some args ∧ args.map Arg.kind = [.namespace, .impl] := by
  have t0 : AllTrivia [] := fun e he => nomatch he
  have t1 : AllTrivia [.tok .whitespace " "] := by
    intro e he
    rw [List.mem_singleton.1 he]
    rfl
  refine ⟨fun s => if s = " \"a\"" then some (.string, "\"a\"") else none,
    .keyed [] (.tok .ident "namespace") [.tok .whitespace " "] "=" [.tok .whitespace " ", .tok .string "\"a\""],
    .flag [.tok .whitespace " "] (.tok .implKw "impl") [], ?_, trivial, by decide +kernel,
    by decide +kernel, _, rfl, by decide +kernel⟩
  intro y hy
  simp only [List.nil_append, List.mem_cons, List.not_mem_nil, or_false] at hy
  rcases hy with rfl | rfl
  · refine ⟨t0, ⟨_, .inl rfl⟩, t1, by simp, ⟨.string, "\"a\"", .expr _ _ _ ?_ ?_⟩, by decide, by decide⟩
    · intro e he t
      simp only [List.mem_cons, List.not_mem_nil, or_false] at he
      rcases he with rfl | rfl <;> exact ⟨(fun h => nomatch h), (fun h => nomatch h)⟩
    · decide +kernel
  · exact ⟨t1, ⟨_, .inr rfl⟩, t0⟩

end Verif.Analyzer.RemoveRead
