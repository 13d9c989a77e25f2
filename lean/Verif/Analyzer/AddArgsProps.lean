import Verif.Analyzer.AddArgs
import Verif.Analyzer.AttrActionsProps
import Verif.Analyzer.TraitImplProps

/-!
# C106: the fix for missing arguments of an implemented message adds exactly these arguments
-/

namespace Verif.Analyzer.AddArgs
open Verif.Ir Verif.Analyzer.Insert Verif.Analyzer.InsertText Verif.Analyzer.AttrActions

/-! ## Specification -/

/-- Applying insertions, whose offsets are offsets of a text that starts at `o`, in their order. -/
def Edited : Nat → String → List (Nat × String) → String → Prop
  | _, text, [], r => r = text
  | o, text, e :: es, r => ∃ a b r', text = a ++ b ∧ e.1 = o + a.utf8ByteSize ∧ Edited e.1 b es r' ∧
      r = a ++ e.2 ++ r'

/-- The arguments of a message: `message` itself and those that can stand beside it. -/
def OfMessage (k : ArgKind) : Prop := k = .message ∨ k = .default ∨ k = .payable ∨ k = .selector

/-- The attribute between `l1` and `l2` is the one to extend: the first `message` attribute, or, if there
is none, the first one whose first word can stand beside `message`. -/
def Chosen (l1 : List Lead) (a : OwnAttr) (l2 : List Lead) : Prop :=
  ∃ k ks, a.ink = some ⟨.arg k, ks⟩ ∧ OfMessage k ∧
    (∀ q ∈ inkOf l1, q.kind ≠ .arg .message) ∧
    (k ≠ .message → (∀ q ∈ inkOf l2, q.kind ≠ .arg .message) ∧
      ∀ q ∈ inkOf l1, ∀ k', q.kind = .arg k' → ¬ OfMessage k')

/-- `x` is the argument `d` of the declaration. -/
def Declared (pe : ExprParser) (x : TArg) (d : Arg) : Prop :=
  x.kind = d.kind ∧ x.text = (display d.item).toList ∧ ∃ w o, w.Ok pe ∧ IsRead pe w o d

/-- The attribute is read with the arguments `args` when it stands where its list starts at `o`. -/
def HasArgs (pe : ExprParser) (a : OwnAttr) (o : Nat) (args : List Arg) : Prop :=
  parseInkArgs pe ⟨segments a, a.tree.map fun cs => (.tree cs, o)⟩ = some args

/-- Where a new `message` attribute goes: before the first ink! attribute. -/
def BeforeInk (l1 l2 : List Lead) : Prop :=
  inkOf l1 = [] ∧ ∃ a r, l2 = .attr a :: r ∧ a.ink ≠ none

/-! ## Lemmas -/

theorem fits_iff (v : Version) (a : List Elem × OwnAttr × List Lead) :
    fits v a = true ↔ ∃ k ks, a.2.1.ink = some ⟨.arg k, ks⟩ ∧ OfMessage k := by
  obtain ⟨x, ⟨ink, hd, tr, g, c⟩, y⟩ := a
  unfold fits
  cases ink with
  | none => simp
  | some p =>
    obtain ⟨k, ks⟩ := p
    cases k with
    | «macro» m => simp
    | arg k =>
      simp only [Option.some.injEq, AttrV.mk.injEq, AttrKind.arg.injEq]
      constructor
      · intro h
        refine ⟨k, ks, ⟨rfl, rfl⟩, ?_⟩
        cases v <;> simpa [allowedMessageArgs, validSiblings, OfMessage] using h
      · rintro ⟨k', ks', ⟨rfl, rfl⟩, h⟩
        cases v <;> simpa [allowedMessageArgs, validSiblings, OfMessage] using h

/-- The first element of a stable sort. -/
theorem sortBy_first {α : Type} (key : α → Nat) (a b : List α) (x : α) (ha : ∀ y ∈ a, key x < key y)
    (hb : ∀ y ∈ b, key x ≤ key y) : (Util.sortBy key (a ++ x :: b)).head? = some x := by
  induction a with
  | nil =>
    rw [List.nil_append, Util.sortBy]
    cases hs : Util.sortBy key b with
    | nil => rfl
    | cons y ys =>
      have : y ∈ b := Util.mem_sortBy.1 (by rw [hs]; simp)
      rw [Util.insertBy, if_pos (hb y this)]
      rfl
  | cons z a ih =>
    have ih := ih fun y hy => ha y (by simp [hy])
    rw [List.cons_append, Util.sortBy]
    cases hs : Util.sortBy key (a ++ x :: b) with
    | nil => rw [hs] at ih; cases ih
    | cons y ys =>
      rw [hs] at ih
      cases ih
      have := ha z (by simp)
      rw [Util.insertBy, if_neg (by omega)]
      rfl

theorem mem_ink {b : List Elem} {l : List Lead} {x : List Elem × OwnAttr × List Lead}
    (hx : x ∈ (attrsFrom b l).filter fun a => a.2.1.ink.isSome) :
    ∃ q, x.2.1.ink = some q ∧ q ∈ inkOf l := by
  have h := (List.mem_filter.1 hx).2
  obtain ⟨q, hq⟩ := Option.isSome_iff_exists.1 h
  refine ⟨q, hq, ?_⟩
  rw [← inkKinds_from b l]
  exact List.mem_filterMap.2 ⟨x, hx, hq⟩

theorem rank_of (x : List Elem × OwnAttr × List Lead) (k : ArgKind) (ks : List ArgKind)
    (h : x.2.1.ink = some ⟨.arg k, ks⟩) : inkRank x = 1 + k.sortOrder := by
  simp [inkRank, h, AttrKind.rank]

theorem order_of (k : ArgKind) (h : OfMessage k) :
    (k = .message → k.sortOrder = 0) ∧ (k ≠ .message → k.sortOrder = 1) := by
  rcases h with rfl | rfl | rfl | rfl <;> simp [ArgKind.sortOrder]

theorem extendable_chosen (v : Version) (t : Target) (l1 l2 : List Lead) (a : OwnAttr)
    (hl : t.lead = l1 ++ .attr a :: l2) (h : Chosen l1 a l2) :
    extendable v t = some (t.before ++ leadElems l1, a, l2) := by
  obtain ⟨k, ks, ha, hk, h1, h2⟩ := h
  unfold extendable
  rw [inkAttrs_split t l1 l2 a hl (by rw [ha]; simp), List.filter_append, List.filter_cons_of_pos
    ((fits_iff v _).2 ⟨k, ks, ha, hk⟩)]
  have hr : inkRank (t.before ++ leadElems l1, a, l2) = 1 + k.sortOrder := rank_of _ k ks ha
  refine sortBy_first _ _ _ _ ?_ ?_
  · intro y hy
    obtain ⟨hy, hf⟩ := List.mem_filter.1 hy
    obtain ⟨z, hz, rfl⟩ := List.mem_map.1 hy
    obtain ⟨k', ks', hk', hm⟩ := (fits_iff v _).1 hf
    obtain ⟨q, hq, hm'⟩ := mem_ink hz
    have hk' : z.2.1.ink = some ⟨.arg k', ks'⟩ := hk'
    rw [hk'] at hq
    cases hq
    by_cases e : k = .message
    · have e' : k' ≠ .message := by
        rintro rfl
        exact h1 _ hm' rfl
      have h3 := rank_of (z.1, z.2.1, z.2.2 ++ .attr a :: l2) k' ks' hk'
      rw [hr, h3, (order_of k hk).1 e, (order_of k' hm).2 e']
      omega
    · exact absurd hm ((h2 e).2 _ hm' k' rfl)
  · intro y hy
    obtain ⟨hy, hf⟩ := List.mem_filter.1 hy
    obtain ⟨k', ks', hk', hm⟩ := (fits_iff v _).1 hf
    obtain ⟨q, hq, hm'⟩ := mem_ink hy
    rw [hk'] at hq
    cases hq
    rw [hr, rank_of y k' ks' hk']
    by_cases e : k = .message
    · rw [(order_of k hk).1 e]
      omega
    · have e' : k' ≠ .message := by
        rintro rfl
        exact (h2 e).1 _ hm' rfl
      rw [(order_of k hk).2 e, (order_of k' hm).2 e']
      omega

theorem extendable_none (v : Version) (t : Target)
    (h : ∀ q ∈ inkOf t.lead, ∀ k, q.kind = .arg k → ¬ OfMessage k) : extendable v t = none := by
  unfold extendable
  rw [List.filter_eq_nil_iff.2]
  · rfl
  · intro x hx hf
    obtain ⟨k, ks, hk, hm⟩ := (fits_iff v x).1 hf
    obtain ⟨q, hq, hq'⟩ := mem_ink hx
    rw [hk] at hq
    cases hq
    exact h _ hq' k rfl hm

/-! ### Reading the same arguments elsewhere -/

theorem same_read (pe : ExprParser) (w : Written) (o o' : Nat) (a b : Arg) (ha : IsRead pe w o a)
    (hb : IsRead pe w o' b) : SameArg a b := by
  induction w generalizing o o' a b with
  | flag lead name trail =>
    obtain ⟨⟨h1, h2⟩, _, h3, h4⟩ := ha
    obtain ⟨⟨g1, g2⟩, _, g3, g4⟩ := hb
    exact .leaf a b (by rw [h2, g2]) (by rw [h1, g1]; rfl)
      (by rw [arg_value h3, arg_value g3]) h4 g4
  | keyed lead name gap eq value =>
    obtain ⟨⟨h1, h2⟩, _, h3, v, h4, h5⟩ := ha
    obtain ⟨⟨g1, g2⟩, _, g3, u, g4, g5⟩ := hb
    refine .leaf a b (by rw [h2, g2]) (by rw [h1, g1]; rfl) ?_ h3 g3
    rw [h4, g4]
    have e1 := valueIs_unique pe _ v.kind u.kind v.text u.text h5 g5
    simp [e1]
  | nest lead name gap inner trail ih =>
    obtain ⟨⟨h1, h2⟩, _, h3, x, h4, h5⟩ := ha
    obtain ⟨⟨g1, g2⟩, _, g3, y, g4, g5⟩ := hb
    exact .nest a b x y (by rw [h2, g2]) (by rw [h1, g1]; rfl) (arg_value h3) (arg_value g3) h4 g4
      (ih _ _ x y h5 g5)
  | hollow lead name gap trail =>
    obtain ⟨⟨h1, h2⟩, _, h3, x, h4, h5, h6, _, h7, h8, _⟩ := ha
    obtain ⟨⟨g1, g2⟩, _, g3, y, g4, g5, g6, _, g7, g8, _⟩ := hb
    exact .nest a b x y (by rw [h2, g2]) (by rw [h1, g1]; rfl) (arg_value h3) (arg_value g3) h4 g4
      (.leaf x y (by rw [h5, g5]) (by rw [h6, g6]) (by rw [arg_value h7, arg_value g7]) h8 g8)

theorem same_lead (pe : ExprParser) (w : Written) (l : List Elem) (o o' : Nat) (a b : Arg)
    (ha : IsRead pe w o a) (hb : IsRead pe (setLead l w) o' b) : SameArg a b := by
  cases w with
  | flag lead name trail =>
    obtain ⟨⟨h1, h2⟩, _, h3, h4⟩ := ha
    obtain ⟨⟨g1, g2⟩, _, g3, g4⟩ := hb
    exact .leaf a b (by rw [h2, g2]) (by rw [h1, g1]; rfl)
      (by rw [arg_value h3, arg_value g3]) h4 g4
  | keyed lead name gap eq value =>
    obtain ⟨⟨h1, h2⟩, _, h3, v, h4, h5⟩ := ha
    obtain ⟨⟨g1, g2⟩, _, g3, u, g4, g5⟩ := hb
    refine .leaf a b (by rw [h2, g2]) (by rw [h1, g1]; rfl) ?_ h3 g3
    rw [h4, g4]
    have e1 := valueIs_unique pe _ v.kind u.kind v.text u.text h5 g5
    simp [e1]
  | nest lead name gap inner trail =>
    obtain ⟨⟨h1, h2⟩, _, h3, x, h4, h5⟩ := ha
    obtain ⟨⟨g1, g2⟩, _, g3, y, g4, g5⟩ := hb
    exact .nest a b x y (by rw [h2, g2]) (by rw [h1, g1]; rfl) (arg_value h3) (arg_value g3) h4 g4
      (same_read pe inner _ _ x y h5 g5)
  | hollow lead name gap trail =>
    obtain ⟨⟨h1, h2⟩, _, h3, x, h4, h5, h6, _, h7, h8, _⟩ := ha
    obtain ⟨⟨g1, g2⟩, _, g3, y, g4, g5, g6, _, g7, g8, _⟩ := hb
    exact .nest a b x y (by rw [h2, g2]) (by rw [h1, g1]; rfl) (arg_value h3) (arg_value g3) h4 g4
      (.leaf x y (by rw [h5, g5]) (by rw [h6, g6]) (by rw [arg_value h7, arg_value g7]) h8 g8)

theorem same_list (pe : ExprParser) (ws : List Written) (o o' : Nat) (as bs : List Arg)
    (ha : AreRead pe ws o as) (hb : AreRead pe ws o' bs) : SameArgs as bs := by
  induction ws generalizing o o' as bs with
  | nil => rw [show as = [] from ha, show bs = [] from hb]; exact .nil
  | cons w ws ih =>
    obtain ⟨a, as, rfl, h1, h2⟩ := ha
    obtain ⟨b, bs, rfl, g1, g2⟩ := hb
    exact .cons _ _ _ _ (same_read pe w _ _ a b h1 g1) (ih _ _ _ _ h2 g2)

theorem sameArgs_append {a b c d : List Arg} (h1 : SameArgs a b) (h2 : SameArgs c d) :
    SameArgs (a ++ c) (b ++ d) := by
  induction h1 with
  | nil => exact h2
  | cons x y as bs h _ ih => exact .cons _ _ _ _ h ih

theorem areRead_split (pe : ExprParser) (ws1 ws2 : List Written) (o : Nat) (as : List Arg)
    (h : AreRead pe (ws1 ++ ws2) o as) : ∃ as1 as2 o2, as = as1 ++ as2 ∧ AreRead pe ws1 o as1 ∧
      AreRead pe ws2 o2 as2 := by
  induction ws1 generalizing o as with
  | nil => exact ⟨[], as, o, rfl, rfl, h⟩
  | cons w ws1 ih =>
    obtain ⟨a, r, rfl, h1, h2⟩ := h
    obtain ⟨as1, as2, o2, rfl, h3, h4⟩ := ih _ _ h2
    exact ⟨a :: as1, as2, o2, rfl, ⟨a, as1, rfl, h1, h3⟩, h4⟩

/-! ### The printed arguments -/

theorem listSource_two (tr : Bool) (w : Written) (ws : List Written) (h : ws ≠ []) :
    listSource tr (w :: ws) = w.source ++ commaElem :: listSource tr ws := by
  cases ws with
  | nil => exact absurd rfl h
  | cons x xs => rfl

theorem spaceFirst_text (ws : List Written) (h : ws ≠ []) :
    Elem.textList (listSource false (spaceFirst ws)) = " " ++ Elem.textList (listSource false ws) := by
  cases ws with
  | nil => exact absurd rfl h
  | cons w ws =>
    obtain ⟨core, h1, h2⟩ := setLead_source (space :: leadOf w) w
    have e : ∃ r, listSource false (w :: ws) = w.source ++ r ∧
        listSource false (spaceFirst (w :: ws)) = (setLead (space :: leadOf w) w).source ++ r := by
      cases ws with
      | nil => exact ⟨[], by simp [listSource], by simp [listSource, spaceFirst]⟩
      | cons x xs => exact ⟨_, rfl, rfl⟩
    obtain ⟨r, e1, e2⟩ := e
    rw [e1, e2, h1, h2]
    simp [textList_append, Elem.textList, space, Elem.text, String.append_assoc]

theorem intercalate_cons (s a : String) (l : List String) (h : l ≠ []) :
    s.intercalate (a :: l) = a ++ s ++ s.intercalate l := by
  cases l with
  | nil => exact absurd rfl h
  | cons b l => exact String.intercalate_cons_cons

/-- What is written for the missing arguments, and how it is read. -/
theorem written (pe : ExprParser) (hpe : Reprints pe) (decl : TArg → Arg) (xs : List TArg)
    (h : ∀ x ∈ xs, Declared pe x (decl x)) :
    ∃ ns, joined xs = Elem.textList (listSource false ns) ∧ (∀ n ∈ ns, n.Ok pe) ∧
      (∀ n, ns.head? = some n → leadOf n = []) ∧ (ns = [] ↔ xs = []) ∧
      ∀ o as, AreRead pe ns o as → SameArgs (xs.map decl) as := by
  induction xs with
  | nil =>
    refine ⟨[], rfl, (fun w hw => nomatch hw), (fun w hw => nomatch hw), by simp, ?_⟩
    intro o as h
    rw [show as = [] from h]
    exact .nil
  | cons x xs ih =>
    obtain ⟨-, h2, w, o, hw, hr⟩ := h x (by simp)
    obtain ⟨n, t1, t2, t3, t4⟩ := display_read pe hpe w hw o _ hr
    obtain ⟨ns, i1, i2, i3, i4, i5⟩ := ih fun y hy => h y (by simp [hy])
    have hx : shown x = Elem.textList n.source := by rw [shown, h2, String.ofList_toList, t4]
    by_cases he : xs = []
    · subst he
      refine ⟨[n], ?_, ?_, ?_, by simp, ?_⟩
      · simp [joined, hx, listSource]
      · intro m hm
        rw [List.mem_singleton.1 hm]
        exact t2
      · intro m hm
        cases hm
        exact t3
      · rintro o as ⟨a, as, rfl, g1, g2⟩
        rw [show as = [] from g2]
        exact .cons _ _ _ _ (same_of_tidy pe hpe w n t1 _ _ _ _ hr g1) .nil
    · have hns : ns ≠ [] := fun e => he (i4.1 e)
      refine ⟨n :: spaceFirst ns, ?_, ?_, ?_, by simp, ?_⟩
      · rw [joined, List.map_cons, intercalate_cons _ _ _ (by simpa using he), ← joined, i1, hx,
          listSource_two _ _ _ (spaceFirst_ne hns), textList_append, Elem.textList, spaceFirst_text _ hns]
        simp [commaElem, Elem.text, String.append_assoc]
        rw [← String.append_assoc (s₁ := ",")]
        rfl
      · intro m hm
        rcases List.mem_cons.1 hm with rfl | hm
        · exact t2
        · exact spaceFirst_ok pe ns i2 m hm
      · intro m hm
        cases hm
        exact t3
      · rintro o as ⟨a, as, rfl, g1, g2⟩
        refine .cons _ _ _ _ (same_of_tidy pe hpe w n t1 _ _ _ _ hr g1) ?_
        cases ns with
        | nil => exact absurd rfl hns
        | cons m ms =>
          obtain ⟨b, bs, rfl, k1, k2⟩ := g2
          have hm := i3 m rfl
          rw [hm] at k1
          have k1' := read_setLead pe m [space] hm _ b k1
          obtain ⟨core, s1, s2⟩ := setLead_source [space] m
          have e : Elem.lenList ([space] ++ core) = 1 + Elem.lenList core := by
            rw [lenList_append]; rfl
          have e0 : (setLead (space :: leadOf m) m).source = [space] ++ core := by rw [hm]; exact s2
          rw [e0, e] at k2
          refine i5 _ (b :: bs) ⟨b, bs, rfl, k1', ?_⟩
          rw [s1, hm]
          have e1 : Elem.lenList [space] = 1 := rfl
          simpa [e1, Nat.add_assoc, Nat.add_comm, Nat.add_left_comm] using k2

theorem edited_one {text : String} {e : Nat × String} {r : String} (h : Inserts text e r) :
    Edited 0 text [e] r := by
  obtain ⟨a, b, h1, h2, h3⟩ := h
  exact ⟨a, b, b, h1, by simpa using h2, rfl, h3⟩

theorem attrIn_list (t : Target) (l1 l2 : List Lead) (a : OwnAttr) (tr : Bool) (ws : List Written)
    (hc : a.closed = true) (htree : a.tree = some (listed tr ws)) :
    attrIn t (t.before ++ leadElems l1, a, l2) =
      withArgs (t.before ++ leadElems l1 ++ a.head) a.gap (leadElems l2 ++ (t.body ++ t.after)) tr ws := by
  simp [attrIn, withArgs, withList, htree, hc, listed]

theorem spaceFirst_read (pe : ExprParser) (ns : List Written)
    (h : ∀ n, ns.head? = some n → leadOf n = []) (o : Nat) (as : List Arg)
    (hr : AreRead pe (spaceFirst ns) o as) : AreRead pe ns (o + 1) as := by
  cases ns with
  | nil => exact hr
  | cons m ms =>
    obtain ⟨b, bs, rfl, k1, k2⟩ := hr
    have hm := h m rfl
    rw [hm] at k1
    refine ⟨b, bs, rfl, read_setLead pe m [space] hm _ b k1, ?_⟩
    obtain ⟨core, s1, s2⟩ := setLead_source [space] m
    have e : Elem.lenList ([space] ++ core) = 1 + Elem.lenList core := by
      rw [lenList_append]; rfl
    have e0 : (setLead (space :: leadOf m) m).source = [space] ++ core := by rw [hm]; exact s2
    rw [e0, e] at k2
    rw [s1, hm]
    simpa [Nat.add_assoc, Nat.add_comm, Nat.add_left_comm] using k2

theorem hasArgs_list (pe : ExprParser) (a : OwnAttr) (tr : Bool) (ws : List Written)
    (htree : a.tree = some (listed tr ws)) (hws : ∀ w ∈ ws, w.Ok pe) (o : Nat) :
    ∃ args, HasArgs pe a o args ∧ AreRead pe ws (o + 1) args := by
  obtain ⟨args, h1, h2⟩ := C76_read_partial pe o (segments a) ws tr hws
  refine ⟨args, ?_, h2⟩
  unfold HasArgs
  rw [htree]
  exact h1

theorem prefix_of {a b x y : String} (h : a ++ x = b ++ y) (hs : b.utf8ByteSize ≤ a.utf8ByteSize) :
    ∃ m, a = b ++ m := by
  have h' : a.toList ++ x.toList = b.toList ++ y.toList := by
    rw [← String.toList_append, h, String.toList_append]
  rcases List.append_eq_append_iff.1 h' with ⟨c, h1, h2⟩ | ⟨c, h1, h2⟩
  · have e : b = a ++ String.ofList c := by
      rw [← String.toList_inj, h1, String.toList_append, String.toList_ofList]
    rw [e, String.utf8ByteSize_append] at hs
    have hc : String.ofList c = "" := String.utf8ByteSize_eq_zero_iff.1 (by omega)
    exact ⟨"", by rw [e, hc]; simp⟩
  · exact ⟨String.ofList c, by rw [← String.toList_inj, h1, String.toList_append, String.toList_ofList]⟩

/-- Two insertions, the later one applied first. -/
theorem edited_two {text text' r : String} {e1 e2 : Nat × String} (h2 : Inserts text e2 text')
    (h1 : Inserts text' e1 r) (hle : e1.1 ≤ e2.1) : Edited 0 text [e1, e2] r := by
  obtain ⟨a, b, rfl, g2, rfl⟩ := h2
  obtain ⟨c, d, k1, k2, rfl⟩ := h1
  rw [String.append_assoc] at k1
  obtain ⟨m, rfl⟩ := prefix_of k1 (by omega)
  rw [String.append_assoc] at k1
  have k1 := String.append_right_inj c |>.1 k1
  subst k1
  refine ⟨c, m ++ b, m ++ e2.2 ++ b, by simp [String.append_assoc], by simpa using k2,
    ⟨m, b, b, rfl, ?_, rfl, rfl⟩, by simp [String.append_assoc]⟩
  rw [g2, k2, String.utf8ByteSize_append]

/-- Inserting an argument in front of the first one. -/
theorem insert_first (before gap after : List Elem) (tr : Bool) (w n : Written) (ws : List Written) :
    Inserts (Elem.textList (withArgs before gap after tr (w :: ws)).file)
      (Elem.lenList before + 1 + Elem.lenList (leadOf w), Elem.textList n.source ++ ", ")
      (Elem.textList (withArgs before gap after tr
        (setLead (leadOf w ++ leadOf n) n :: setLead [space] w :: ws)).file) := by
  obtain ⟨c1, h1, h1'⟩ := setLead_source [space] w
  obtain ⟨c2, h2, h2'⟩ := setLead_source (leadOf w ++ leadOf n) n
  have e : ∃ rest, listSource tr (w :: ws) = leadOf w ++ (c1 ++ rest) ∧
      listSource tr (setLead (leadOf w ++ leadOf n) n :: setLead [space] w :: ws) =
        leadOf w ++ (n.source ++ [commaElem, space]) ++ (c1 ++ rest) := by
    cases ws with
    | nil => exact ⟨if tr then [commaElem] else [], by simp [listSource, h1],
        by simp [listSource, h1', h2', h2]⟩
    | cons v vs => exact ⟨commaElem :: listSource tr (v :: vs), by simp [listSource, h1],
        by simp [listSource, h1', h2', h2]⟩
  obtain ⟨rest, e1, e2⟩ := e
  have := insert_at before gap after (leadOf w) (c1 ++ rest) (n.source ++ [commaElem, space])
    (Elem.textList n.source ++ ", ") _ (by rw [textList_append]; rfl) rfl
  rw [← e1, ← e2] at this
  exact this

theorem name_bytes (k : ArgKind) (hk : k ≠ .unknown) (s : String) (h : ArgKind.ofName s = k) : s ≠ "" := by
  rintro rfl
  exact hk h.symm

theorem shown_ne (pe : ExprParser) (x : TArg) (d : Arg) (h : Declared pe x d) (hk : x.kind ≠ .unknown) :
    shown x ≠ "" := by
  obtain ⟨h1, h2, w, o, hw, hr⟩ := h
  obtain ⟨name, hb1, hb2⟩ : ∃ name : Elem, d.kind = ArgKind.ofName name.text ∧
      ∃ o, d.item.name = .ok ⟨name, o⟩ := by
    cases w with
    | flag lead name trail => exact ⟨name, hr.1.2, _, hr.1.1⟩
    | keyed lead name gap eq value => exact ⟨name, hr.1.2, _, hr.1.1⟩
    | nest lead name gap inner trail => exact ⟨name, hr.1.2, _, hr.1.1⟩
    | hollow lead name gap trail => exact ⟨name, hr.1.2, _, hr.1.1⟩
  obtain ⟨o', hb2⟩ := hb2
  have hne := name_bytes x.kind hk name.text (by rw [h1, hb1])
  intro he
  rw [shown, h2, String.ofList_toList] at he
  obtain ⟨kind, n, e, mv, nested, s, t⟩ := d
  cases hb2
  have hsplit : ∀ (a b : String), a ++ b = "" → a = "" := by
    intro a b h
    have := congrArg String.toList h
    simp only [String.toList_append, String.toList_empty, List.append_eq_nil_iff] at this
    rw [← String.toList_inj, this.1]
    rfl
  cases nested with
  | none => exact hne (hsplit _ _ (hsplit _ _ (hsplit _ _ he)))
  | some m => exact hne (hsplit _ _ (hsplit _ _ (hsplit _ _ he)))

theorem joined_ne (pe : ExprParser) (xs : List TArg) (decl : TArg → Arg)
    (h : ∀ x ∈ xs, Declared pe x (decl x)) (hk : ∀ x ∈ xs, OfMessage x.kind) (hne : xs ≠ []) :
    joined xs ≠ "" := by
  cases xs with
  | nil => exact absurd rfl hne
  | cons x xs =>
    have hu : x.kind ≠ .unknown := by
      rcases hk x (by simp) with h | h | h | h <;> rw [h] <;> decide
    have := shown_ne pe x _ (h x (by simp)) hu
    cases xs with
    | nil => simpa [joined] using this
    | cons y ys =>
      rw [joined, List.map_cons, intercalate_cons _ _ _ (by simp)]
      intro he
      have := congrArg String.toList he
      simp [String.toList_append] at this

/-! ## Theorems -/

/-- If the function has an attribute that can be extended and `message` is not missing, the missing
arguments go behind the arguments of that attribute. Afterwards it is read with the arguments that it had
and the missing ones as they are declared, in this order. Nothing else changes.
Missing for the full claim: lists with white space behind a trailing comma (`C106_negation_trailing`) and
attributes without closing bracket. -/
theorem C106_extend_partial (pe : ExprParser) (hpe : Reprints pe) (v : Version) (t : Target)
    (hp : Proper t) (l1 l2 : List Lead) (a : OwnAttr) (tr : Bool) (ws : List Written)
    (hl : t.lead = l1 ++ .attr a :: l2) (hch : Chosen l1 a l2) (hc : a.closed = true)
    (htree : a.tree = some (listed tr ws)) (hws : ∀ w ∈ ws, w.Ok pe) (hshut : ∀ w ∈ ws, Shut w)
    (decl : TArg → Arg) (first : TArg) (others : List TArg)
    (hd : ∀ x ∈ first :: others, Declared pe x (decl x)) (hm : first.kind ≠ .message) :
    ∃ edits ws', addEdits pe v t (first :: others) = some edits ∧
      Edited 0 (textOf t) edits (textOf (withLead t (l1 ++ .attr (withTree a false ws') :: l2))) ∧
      ∀ o, ∃ args args', HasArgs pe a o args ∧ HasArgs pe (withTree a false ws') o args' ∧
        SameArgs (args ++ (first :: others).map decl) args' := by
  obtain ⟨ns, n1, n2, n3, n4, n5⟩ := written pe hpe decl (first :: others) hd
  have hne : ns ≠ [] := fun e => by simpa using n4.1 e
  have hin := attrIn_list t l1 l2 a tr ws hc htree
  have hfile := attrIn_file t l1 l2 a hl
  have hfull := hp.full
  rw [← hfile, hin] at hfull
  obtain ⟨p, ns', p1, p2, p3, p4⟩ := C79_last_partial pe (t.before ++ leadElems l1 ++ a.head) a.gap
    (leadElems l2 ++ (t.body ++ t.after)) tr ws ns hws hshut n2 hne hfull none (fun k hk => nomatch hk)
  refine ⟨[p.insertion (joined (first :: others))], ws ++ ns', ?_, ?_, ?_⟩
  · unfold addEdits
    rw [extendable_chosen v t l1 l2 a hl hch]
    simp only [extendEdits, if_neg hm, hin, p1, Option.map_some, Option.getD_some]
  · rw [← hin, hfile] at p3
    rw [textOf, textOf, withTree_file t l1 l2 a hc, n1]
    exact edited_one p3
  · have hall : ∀ w ∈ ws ++ ns', w.Ok pe := by
      intro w hw
      rcases List.mem_append.1 hw with hw | hw
      · exact hws w hw
      · rcases p2 with rfl | rfl
        · exact n2 w hw
        · exact spaceFirst_ok pe ns n2 w hw
    intro o
    obtain ⟨args, f1, f2⟩ := hasArgs_list pe a tr ws htree hws o
    obtain ⟨args', g1, g2⟩ := hasArgs_list pe (withTree a false (ws ++ ns')) false (ws ++ ns') rfl hall o
    refine ⟨args, args', f1, g1, ?_⟩
    obtain ⟨as1, as2, o2, rfl, k1, k2⟩ := areRead_split pe ws ns' _ args' g2
    refine sameArgs_append (same_list pe ws _ _ _ _ f2 k1) ?_
    rcases p2 with rfl | rfl
    · exact n5 _ _ k2
    · exact n5 _ _ (spaceFirst_read pe ns n3 _ _ k2)

/-- If the function has an attribute that can be extended and `message` is missing, `message` goes in front
of the arguments of that attribute and the others that are missing behind them. Afterwards it is read with
`message`, the arguments that it had and the missing ones as they are declared, in this order. Nothing else
changes. Missing for the full claim: as for `C106_extend_partial`. -/
theorem C106_message_partial (pe : ExprParser) (hpe : Reprints pe) (v : Version) (t : Target)
    (hp : Proper t) (l1 l2 : List Lead) (a : OwnAttr) (tr : Bool) (w : Written) (ws : List Written)
    (hl : t.lead = l1 ++ .attr a :: l2) (hch : Chosen l1 a l2) (hc : a.closed = true)
    (htree : a.tree = some (listed tr (w :: ws))) (hws : ∀ x ∈ w :: ws, x.Ok pe)
    (hshut : ∀ x ∈ w :: ws, Shut x)
    (hwf : (Elem.tree (listed tr (w :: ws))).wf = true)
    (hnamed : (Elem.tree (listed tr (w :: ws))).named = true)
    (decl : TArg → Arg) (first : TArg) (others : List TArg)
    (hd : ∀ x ∈ first :: others, Declared pe x (decl x)) (hm : first.kind = .message)
    (ho : ∀ x ∈ others, OfMessage x.kind) :
    ∃ edits tr' ws', addEdits pe v t (first :: others) = some edits ∧
      Edited 0 (textOf t) edits (textOf (withLead t (l1 ++ .attr (withTree a tr' ws') :: l2))) ∧
      ∀ o, ∃ args args', HasArgs pe a o args ∧ HasArgs pe (withTree a tr' ws') o args' ∧
        SameArgs (decl first :: args ++ others.map decl) args' := by
  obtain ⟨m1, q1, q2, q3, q4, q5⟩ := written pe hpe decl [first] fun x hx => hd x (by
    rw [List.mem_singleton.1 hx]; simp)
  obtain ⟨n, rfl⟩ : ∃ n, m1 = [n] := by
    obtain ⟨args, h1, h2⟩ := C76_read_partial pe 0 [] m1 false q2
    have h3 := q5 _ _ h2
    cases h3 with
    | cons _ b _ bs _ h4 =>
      cases h4
      cases m1 with
      | nil => cases h2
      | cons n ms =>
        obtain ⟨_, _, h5, _, h6⟩ := h2
        cases h5
        cases ms with
        | nil => exact ⟨n, rfl⟩
        | cons _ _ =>
          obtain ⟨_, _, h7, _⟩ := h6
          cases h7
  have hn : n.Ok pe := q2 n (by simp)
  have hn0 : leadOf n = [] := q3 n rfl
  have hshown : shown first = Elem.textList n.source := by simpa [joined, listSource] using q1
  have hin := attrIn_list t l1 l2 a tr (w :: ws) hc htree
  have hfile := attrIn_file t l1 l2 a hl
  have hfull := hp.full
  rw [← hfile, hin] at hfull
  have hplace := place_first pe (t.before ++ leadElems l1 ++ a.head) a.gap
    (leadElems l2 ++ (t.body ++ t.after)) tr w ws hws hwf hnamed
  have hread : ∀ (o : Nat) (tr' : Bool) (rest : List Written), (∀ x ∈ rest, x.Ok pe) →
      (∀ o as, AreRead pe rest o as → SameArgs (others.map decl) as) →
      ∃ args args', HasArgs pe a o args ∧
        HasArgs pe (withTree a tr' (setLead (leadOf w ++ leadOf n) n :: setLead [space] w :: (ws ++ rest)))
          o args' ∧ SameArgs (decl first :: args ++ others.map decl) args' := by
    intro o tr' rest hrest hsame
    have hall : ∀ x ∈ setLead (leadOf w ++ leadOf n) n :: setLead [space] w :: (ws ++ rest), x.Ok pe := by
      intro x hx
      rcases List.mem_cons.1 hx with rfl | hx
      · exact setLead_ok pe _ (trivia_append (leadOf_trivia pe w (hws w (by simp)))
          (leadOf_trivia pe n hn)) n hn
      · rcases List.mem_cons.1 hx with rfl | hx
        · exact setLead_ok pe _ space_trivia w (hws w (by simp))
        · rcases List.mem_append.1 hx with hx | hx
          · exact hws x (by simp [hx])
          · exact hrest x hx
    obtain ⟨args, f1, f2⟩ := hasArgs_list pe a tr (w :: ws) htree hws o
    obtain ⟨args', g1, g2⟩ := hasArgs_list pe (withTree a tr' _) tr' _ rfl hall o
    refine ⟨args, args', f1, g1, ?_⟩
    obtain ⟨x, xs, rfl, f3, f4⟩ := f2
    obtain ⟨y, ys, rfl, g3, z, zs, rfl, g4, g5⟩ := g2
    obtain ⟨as1, as2, o2, rfl, k1, k2⟩ := areRead_split pe ws rest _ zs g5
    rw [hn0, List.append_nil] at g3
    have g3 := read_setLead pe n (leadOf w) hn0 _ y g3
    have hy : SameArgs [decl first] [y] := q5 _ [y] ⟨y, [], rfl, g3, rfl⟩
    cases hy with
    | cons _ _ _ _ hy _ =>
      exact .cons _ _ _ _ hy (.cons _ _ _ _ (same_lead pe w _ _ _ _ _ f3 g4)
        (sameArgs_append (same_list pe ws _ _ _ _ f4 k1) (hsame _ _ k2)))
  by_cases hot : others = []
  · subst hot
    refine ⟨[(Elem.lenList (t.before ++ leadElems l1 ++ a.head) + 1 + Elem.lenList (leadOf w),
      Elem.textList n.source ++ ", ")], tr, _, ?_, ?_, fun o => hread o tr [] (by simp)
        fun _ as h => by rw [show as = [] from h]; exact .nil⟩
    · unfold addEdits
      rw [extendable_chosen v t l1 l2 a hl hch]
      simp only [extendEdits, if_pos hm, hin, hplace, Option.map_some, Option.getD_some, messageEdits]
      rw [if_pos (by rfl), hshown]
      simp [Place.insertion]
    · have := insert_first (t.before ++ leadElems l1 ++ a.head) a.gap
        (leadElems l2 ++ (t.body ++ t.after)) tr w n ws
      rw [← hin, hfile] at this
      rw [textOf, textOf, withTree_file t l1 l2 a hc, List.append_nil]
      exact edited_one this
  · obtain ⟨ns, n1, n2, n3, n4, n5⟩ := written pe hpe decl others fun x hx => hd x (by simp [hx])
    have hne : ns ≠ [] := fun e => hot (n4.1 e)
    obtain ⟨p, ns', p1, p2, p3, -⟩ := C79_last_partial pe (t.before ++ leadElems l1 ++ a.head) a.gap
      (leadElems l2 ++ (t.body ++ t.after)) tr (w :: ws) ns hws hshut n2 hne hfull none
      (fun k hk => nomatch hk)
    have hok : ∀ x ∈ ns', x.Ok pe := by
      rcases p2 with rfl | rfl
      · exact n2
      · exact spaceFirst_ok pe ns n2
    have hsame : ∀ o as, AreRead pe ns' o as → SameArgs (others.map decl) as := by
      intro o as h
      rcases p2 with rfl | rfl
      · exact n5 _ _ h
      · exact n5 _ _ (spaceFirst_read pe ns n3 _ _ h)
    refine ⟨[(Elem.lenList (t.before ++ leadElems l1 ++ a.head) + 1 + Elem.lenList (leadOf w),
      Elem.textList n.source ++ ", "), p.insertion (joined others)], false, _, ?_, ?_,
      fun o => hread o false ns' hok hsame⟩
    · unfold addEdits
      rw [extendable_chosen v t l1 l2 a hl hch]
      simp only [extendEdits, if_pos hm, hin, hplace, Option.map_some, Option.getD_some, messageEdits, p1]
      rw [if_neg (joined_ne pe others decl (fun x hx => hd x (by simp [hx])) ho hot), hshown]
      simp [Place.insertion]
    · have h1 := insert_first (t.before ++ leadElems l1 ++ a.head) a.gap
        (leadElems l2 ++ (t.body ++ t.after)) false w n (ws ++ ns')
      have hoff := place_last (t.before ++ leadElems l1 ++ a.head) a.gap
        (leadElems l2 ++ (t.body ++ t.after)) _ (args_between pe tr (w :: ws) hws) hfull none rfl
      rw [show argPlace (withList _ _ _ (listSource tr (w :: ws))) none = some p from p1] at hoff
      have hle : Elem.lenList (leadOf w) ≤ Elem.lenList (listSource tr (w :: ws)) := by
        obtain ⟨x, hx, -⟩ := lead_list tr w ws
        rw [hx, lenList_append]
        omega
      rw [← hin, hfile, ← n1] at p3
      rw [textOf, textOf, withTree_file t l1 l2 a hc]
      refine edited_two p3 h1 ?_
      rw [Option.some.inj hoff]
      simp only [Place.insertion]
      omega

/-- A new attribute with the written arguments. -/
def newAttr (k : ArgKind) (ks : List ArgKind) (ns : List Written) : OwnAttr :=
  ⟨some ⟨.arg k, ks⟩, [.tok .other "#", .tok .other "[", .tok .ident "ink"], some (listed false ns), [],
    true⟩

theorem newAttr_text (k : ArgKind) (ks : List ArgKind) (ns : List Written) :
    inkText (Elem.textList (listSource false ns)) = Elem.textList (newAttr k ks ns).elems := by
  have e : (newAttr k ks ns).elems = [.tok .other "#", .tok .other "[", .tok .ident "ink",
      .tree (.tok .lParen "(" :: (listSource false ns ++ [.tok .rParen ")"])), .tok .rBrack "]"] := by
    simp [newAttr, OwnAttr.elems, listed]
  rw [e, inkText]
  simp only [Elem.textList, Elem.text, textList_append, String.append_empty]
  rw [← String.toList_inj]
  simp [String.toList_append]

theorem sameArgs_kinds {as bs : List Arg} (h : SameArgs as bs) :
    as.map (·.kind) = bs.map (·.kind) := by
  induction h with
  | nil => rfl
  | cons a b as bs h _ ih =>
    rw [List.map_cons, List.map_cons, ih]
    cases h with
    | leaf _ _ h => rw [h]
    | nest _ _ _ _ h => rw [h]

/-- The first ink! attribute. -/
theorem first_ink (l : List Lead) :
    inkOf l = [] ∨ ∃ x a r, l = x ++ .attr a :: r ∧ a.ink ≠ none ∧ inkOf x = [] := by
  induction l with
  | nil => exact .inl rfl
  | cons y l ih =>
    cases y with
    | attr a =>
      cases ha : a.ink with
      | some v => exact .inr ⟨[], a, l, rfl, by simp [ha], rfl⟩
      | none =>
        rcases ih with h | ⟨x, b, r, rfl, h1, h2⟩
        · exact .inl (by simpa [inkOf, ha] using h)
        · exact .inr ⟨.attr a :: x, b, r, rfl, h1, by simpa [inkOf, ha] using h2⟩
    | trivia k s =>
      rcases ih with h | ⟨x, b, r, rfl, h1, h2⟩
      · exact .inl (by simpa [inkOf] using h)
      · exact .inr ⟨.trivia k s :: x, b, r, rfl, h1, by simpa [inkOf] using h2⟩

theorem first_offset (t : Target) (hp : Proper t) :
    ∃ l1 l2, t.lead = l1 ++ l2 ∧ (BeforeInk l1 l2 ∨ (inkOf t.lead = [] ∧ l2 = [])) ∧
      firstAttrOffset t = Elem.lenList (t.before ++ leadElems l1) := by
  rcases first_ink t.lead with h | ⟨x, a, r, hl, ha, hx⟩
  · obtain ⟨l1, l2, g1, g2, g3⟩ := offset_spot t hp
    have hl2 : l2 = [] := by
      rcases g2 with ⟨_, rfl⟩ | ⟨x, a, q, rfl, ha, _⟩
      · rfl
      · rw [g1] at h
        cases ha' : a.ink with
        | none => exact absurd ha' ha
        | some v => simp [inkOf, ha'] at h
    refine ⟨l1, l2, g1, .inr ⟨h, hl2⟩, ?_⟩
    have hi : t.inkAttrs = [] := inkOf_nil_filter _ _ h
    rw [firstAttrOffset, hi]
    exact g3
  · refine ⟨x, .attr a :: r, hl, .inl ⟨hx, a, r, rfl, ha⟩, ?_⟩
    rw [firstAttrOffset, inkAttrs_split t x r a hl ha, inkOf_nil_filter _ x hx]
    rfl

/-- If the function has no attribute that can be extended, a new attribute is added: before the first ink!
attribute if `message` is missing, else behind the ink! attributes (without ink! attributes: behind all
attributes). It is read as an attribute of the first missing argument with the missing arguments as they
are declared, in this order. Nothing else changes. -/
theorem C106_new (pe : ExprParser) (hpe : Reprints pe) (v : Version) (t : Target) (hp : Proper t)
    (hno : ∀ q ∈ inkOf t.lead, ∀ k, q.kind = .arg k → ¬ OfMessage k)
    (decl : TArg → Arg) (first : TArg) (others : List TArg)
    (hd : ∀ x ∈ first :: others, Declared pe x (decl x))
    (hk : ∀ x ∈ first :: others, OfMessage x.kind)
    (hm : first.kind ≠ .message → ∀ x ∈ others, x.kind ≠ .message) :
    ∃ edits a l1 l2, addEdits pe v t (first :: others) = some edits ∧ t.lead = l1 ++ l2 ∧
      (if first.kind = .message then BeforeInk l1 l2 ∨ (inkOf t.lead = [] ∧ l2 = []) else Spot l1 l2) ∧
      Edited 0 (textOf t) edits (textOf (withLead t (l1 ++ .attr a :: l2))) ∧
      ∀ o, ∃ r, castAttr pe ⟨segments a, a.tree.map fun cs => (.tree cs, o)⟩ = some (some r) ∧
        r.kind = .arg first.kind ∧ SameArgs ((first :: others).map decl) r.args := by
  obtain ⟨ns, n1, n2, n3, n4, n5⟩ := written pe hpe decl (first :: others) hd
  obtain ⟨l1, l2, g1, g2, g3⟩ : ∃ l1 l2, t.lead = l1 ++ l2 ∧
      (if first.kind = .message then BeforeInk l1 l2 ∨ (inkOf t.lead = [] ∧ l2 = []) else Spot l1 l2) ∧
      (if first.kind = .message then firstAttrOffset t else t.insertOffset) =
        Elem.lenList (t.before ++ leadElems l1) := by
    by_cases e : first.kind = .message
    · simp only [if_pos e]
      exact first_offset t hp
    · simp only [if_neg e]
      exact offset_spot t hp
  refine ⟨newEdits t first others, newAttr first.kind [] ns, l1, l2, ?_, g1, g2, ?_, ?_⟩
  · unfold addEdits
    rw [extendable_none v t hno]
  · exact edited_one (inserts_attr t l1 l2 g1 _ _ (by rw [n1, newAttr_text first.kind []]) _ g3)
  · intro o
    obtain ⟨args, h1, h2⟩ := C76_read_partial pe o ["ink"] ns false n2
    have hs := n5 _ _ h2
    have hkinds := sameArgs_kinds hs
    rw [List.map_map, List.map_cons] at hkinds
    cases args with
    | nil => cases hkinds
    | cons b bs =>
      rw [List.map_cons, List.cons.injEq] at hkinds
      have hb : b.kind = first.kind := by
        rw [← hkinds.1]
        exact ((hd first (by simp)).1).symm
      have hmin : ∀ y ∈ bs, b.kind.sortOrder ≤ y.kind.sortOrder := by
        intro y hy
        have : y.kind ∈ bs.map (·.kind) := List.mem_map_of_mem hy
        rw [← hkinds.2] at this
        obtain ⟨x, hx, hxy⟩ := List.mem_map.1 this
        have hxk : x.kind = y.kind := by
          rw [← hxy]
          exact (hd x (by simp [hx])).1
        rw [hb, ← hxk]
        by_cases e : first.kind = .message
        · rw [(order_of _ (hk first (by simp))).1 e]
          omega
        · rw [(order_of _ (hk first (by simp))).2 e, (order_of _ (hk x (by simp [hx]))).2 (hm e x hx)]
          omega
      have hhead := sortBy_first (fun a : Arg => a.kind.sortOrder) [] bs b (by simp) hmin
      refine ⟨⟨.arg first.kind, b :: bs, some b⟩, ?_, rfl, hs⟩
      unfold castAttr
      have e : (newAttr first.kind [] ns).tree.map (fun cs => (Elem.tree cs, o)) =
        some (parenthesised (listSource false ns), o) := rfl
      have e' : segments (newAttr first.kind [] ns) = ["ink"] := rfl
      rw [e, e', if_pos (show AttrSyntax.canCast _ = true from rfl), h1]
      rw [List.nil_append] at hhead
      simp [castKind, hhead, hb]

/-- Once the function has every argument that was missing, and still those that it had, none is reported as
missing. -/
theorem C106_resolves (order : List TArg → List TArg) (ho : ∀ l, (order l).Perm l) (v : Version)
    (m : TraitMsg) (f f' : ImplFn) (hkeep : ∀ k, ImplHasArg f.attrs k → ImplHasArg f'.attrs k)
    (hadd : ∀ x ∈ missingArgs order v m.args f.attrs, ImplHasArg f'.attrs x.kind) :
    ¬ ∃ d ∈ matchArgs order v m f', ∃ ts, d.issue = .missingArgs ts := by
  obtain ⟨ms, -, -, h2, h3⟩ := C65_missing order ho v m f'
  rintro ⟨d, hd, hi⟩
  obtain ⟨hne, -⟩ := (h3 d).1 ⟨hd, hi⟩
  obtain ⟨x, hx⟩ := List.exists_mem_of_ne_nil _ hne
  obtain ⟨g1, g2, g3⟩ := (h2 x).1 hx
  by_cases hf : ImplHasArg f.attrs x.kind
  · exact g2 (hkeep _ hf)
  · apply g2
    refine hadd x ?_
    unfold missingArgs
    rw [Util.mem_sortBy, List.mem_filter, (ho _).mem_iff, mem_argIndex]
    refine ⟨⟨?_, g1⟩, ?_⟩
    · intro hu
      rw [hu] at g3
      exact absurd g3 (by decide)
    · rw [Bool.and_eq_true, Bool.not_eq_true']
      refine ⟨?_, ?_⟩
      · rw [← Bool.not_eq_true]
        intro hc
        exact hf (by simpa [ImplHasArg, List.any_eq_true] using hc)
      · rw [List.contains_iff_mem]
        revert g3
        cases v <;> exact id

/-- The missing arguments that the fix adds are declared, can stand beside `message`, and `message` comes
first. -/
theorem C106_missing (order : List TArg → List TArg) (ho : ∀ l, (order l).Perm l) (v : Version)
    (declared : List TArg) (attrs : List TAttr) (first : TArg) (others : List TArg)
    (h : missingArgs order v declared attrs = first :: others) :
    (∀ x ∈ first :: others, x ∈ declared ∧ OfMessage x.kind ∧ ¬ ImplHasArg attrs x.kind) ∧
    (first.kind ≠ .message → ∀ x ∈ others, x.kind ≠ .message) := by
  have hmem : ∀ x ∈ first :: others, x ∈ declared ∧ OfMessage x.kind ∧ ¬ ImplHasArg attrs x.kind := by
    intro x hx
    rw [← h] at hx
    unfold missingArgs at hx
    rw [Util.mem_sortBy, List.mem_filter, (ho _).mem_iff, mem_argIndex] at hx
    obtain ⟨⟨-, xs, ys, rfl, -, -⟩, hx⟩ := hx
    rw [Bool.and_eq_true, Bool.not_eq_true', List.contains_iff_mem] at hx
    refine ⟨by simp, ?_, ?_⟩
    · cases v <;> simpa [allowedMessageArgs, validSiblings, OfMessage] using hx.2
    · intro hc
      have : (attrs.any fun t => t.args.any fun a' => a'.kind == x.kind) = true := by
        simpa [ImplHasArg, List.any_eq_true] using hc
      rw [this] at hx
      cases hx.1
  refine ⟨hmem, ?_⟩
  intro hne x hx hxm
  have hs := Util.sortBy_sorted (fun a : TArg => a.kind.sortOrder) ((order (argIndex declared)).filter
    fun a => !(attrs.any fun t => t.args.any fun a' => a'.kind == a.kind) &&
      (allowedMessageArgs v).contains a.kind)
  rw [show Util.sortBy _ _ = first :: others from h, List.pairwise_cons] at hs
  have h1 := hs.1 x hx
  rw [(order_of _ (hmem first (by simp)).2.1).2 hne, hxm] at h1
  exact absurd h1 (by decide)

/-! ## Where the claim is false -/

/-- The argument, from the attribute `#[ink(payable)]` of the declaration. -/
def payableArg : TArg := ⟨.payable, none, "payable".toList, (0, 0), (0, 0)⟩

/-- The argument, from the attribute `#[ink(message)]` of the declaration. -/
def messageArg : TArg := ⟨.message, none, "message".toList, (0, 0), (0, 0)⟩

/-- `#[ink(message, )]` in front of a function. -/
def trailingTarget : Target :=
  ⟨[], [.attr ⟨some ⟨.arg .message, [.message, .unknown]⟩,
    [.tok .other "#", .tok .other "[", .tok .ident "ink"],
    some [.tok .lParen "(", .tok .ident "message", .tok .comma ",", .tok .whitespace " ",
      .tok .rParen ")"], [], true⟩, .trivia .whitespace "\n"],
    [.tok .ident "fn", .tok .whitespace " ", .tok .ident "f"], []⟩

/-- Behind a trailing comma with white space a second comma is added: between the two commas there is no
argument, so that the code does not compile. -/
theorem C106_negation_trailing (pe : ExprParser) :
    textOf trailingTarget = "#[ink(message, )]\nfn f" ∧
    addEdits pe .v5 trailingTarget [payableArg] = some [(15, ", payable")] ∧
    Edited 0 "#[ink(message, )]\nfn f" [(15, ", payable")] "#[ink(message, , payable)]\nfn f" :=
  ⟨by decide +kernel, rfl,
    ⟨"#[ink(message, ", ")]\nfn f", _, by decide, by decide, rfl, by decide⟩⟩

/-! ## Cases -/

/-- What is read for `payable`. -/
def payableRead : Arg := ⟨.payable, .mk (.ok ⟨.tok .ident "payable", 0⟩) none .none none 0 none⟩

/-- What is read for `message`. -/
def messageRead : Arg := ⟨.message, .mk (.ok ⟨.tok .ident "message", 0⟩) none .none none 0 none⟩

theorem payable_declared (pe : ExprParser) : Declared pe payableArg payableRead :=
  ⟨rfl, by decide, .flag [] (.tok .ident "payable") [], 0,
    ⟨(fun _ h => nomatch h), ⟨_, .inl rfl⟩, (fun _ h => nomatch h)⟩, ⟨rfl, by decide⟩, rfl, rfl, rfl⟩

theorem message_declared (pe : ExprParser) : Declared pe messageArg messageRead :=
  ⟨rfl, by decide, .flag [] (.tok .ident "message") [], 0,
    ⟨(fun _ h => nomatch h), ⟨_, .inl rfl⟩, (fun _ h => nomatch h)⟩, ⟨rfl, by decide⟩, rfl, rfl, rfl⟩

/-- On `messageTarget` (`#[derive] #[ink(message)]`), `payable` goes into `#[ink(message)]`: the hypotheses
of `C106_extend_partial` hold. -/
example : addEdits literalPe .v5 messageTarget [payableArg] = some [(24, ", payable")] ∧
    Chosen [.attr deriveAttr, .trivia .whitespace " "] messageAttr [.trivia .whitespace "\n"] ∧
    messageTarget.lead = [.attr deriveAttr, .trivia .whitespace " "] ++ .attr messageAttr ::
      [.trivia .whitespace "\n"] ∧ Proper messageTarget ∧ Declared literalPe payableArg payableRead :=
  ⟨rfl, ⟨_, _, rfl, .inl rfl, by decide, fun h => absurd rfl h⟩, rfl, messageTarget_proper,
    payable_declared _⟩

/-- `#[ink(default)]`. -/
def defaultAttr : OwnAttr :=
  ⟨some ⟨.arg .default, [.default]⟩, [.tok .other "#", .tok .other "[", .tok .ident "ink"],
    some (listed false [.flag [] (.tok .ident "default") []]), [], true⟩

/-- `#[ink(default)]` in front of a function. -/
def defaultTarget : Target :=
  ⟨[.tok .whitespace "\n"], [.attr defaultAttr, .trivia .whitespace "\n"],
    [.tok .ident "fn", .tok .whitespace " ", .tok .ident "f"], []⟩

/-- With `message` and `payable` missing, `#[ink(default)]` becomes `#[ink(message, default, payable)]`:
the hypotheses of `C106_message_partial` hold. -/
example : addEdits literalPe .v5 defaultTarget [messageArg, payableArg] =
      some [(7, "message, "), (14, ", payable")] ∧
    Edited 0 (textOf defaultTarget) [(7, "message, "), (14, ", payable")]
      "\n#[ink(message, default, payable)]\nfn f" ∧
    Chosen [] defaultAttr [.trivia .whitespace "\n"] ∧
    (Elem.tree (listed false [.flag [] (.tok .ident "default") []])).wf = true ∧
    (Elem.tree (listed false [.flag [] (.tok .ident "default") []])).named = true ∧
    Declared literalPe messageArg messageRead ∧ OfMessage payableArg.kind :=
  ⟨by decide +kernel, ⟨"\n#[ink(", "default)]\nfn f", _, by decide, by decide,
    ⟨"default", ")]\nfn f", _, by decide, by decide, rfl, rfl⟩, by decide⟩,
    ⟨_, _, rfl, .inr (.inl rfl), by decide, fun _ => ⟨by decide, fun _ h => nomatch h⟩⟩, by decide, by decide,
    message_declared _, .inr (.inr (.inl rfl))⟩

/-- On a function without ink! attribute (`bareTarget`) a new attribute is added: the hypotheses of
`C106_new` hold. -/
example : addEdits literalPe .v5 bareTarget [messageArg, payableArg] =
      some [(16, "#[ink(message, payable)]")] ∧ Proper bareTarget ∧
    (∀ q ∈ inkOf bareTarget.lead, ∀ k, q.kind = .arg k → ¬ OfMessage k) :=
  ⟨by decide +kernel, bareTarget_proper, by simp [bareTarget, inkOf, deriveAttr]⟩

/-- A parser that reads a number, with or without a space before it, prints what it can read again. -/
example : Reprints fun t => if t.toList.dropWhile (· = ' ') = ['1'] then some (.intNumber, "1") else none := by
  intro t k s h
  simp only at h
  split at h
  · cases h
    decide
  · cases h

/-- The arguments that a function without attributes lacks. -/
example : missingArgs id .v5 [payableArg, messageArg] [] = [messageArg, payableArg] := by decide +kernel

end Verif.Analyzer.AddArgs
