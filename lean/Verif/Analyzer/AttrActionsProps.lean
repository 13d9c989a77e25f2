import Verif.Analyzer.AttrActions
import Verif.Analyzer.InsertTextProps
import Verif.Analyzer.SuggestProps

/-!
# C102: the attribute actions add just the attribute or argument they name

Property C102.
-/

namespace Verif.Analyzer.AttrActions
open Verif.Ir Verif.Analyzer.Insert Verif.Analyzer.InsertText

/-! ## Specification -/

/-- The ink! attributes of an item, in their order. -/
def inkOf (l : List Lead) : List AttrV :=
  l.filterMap fun
    | .attr a => a.ink
    | .trivia _ _ => none

/-- White space and comments only. -/
def NoAttr (l : List Lead) : Prop := ∀ x ∈ l, ∃ k s, x = .trivia k s

/-- What is read of a file: no token is empty, white space and comments are what they are, attributes
start with a token that is neither, and so does what follows them. -/
structure Proper (t : Target) : Prop where
  full : FullList t.file = true
  trivia : ∀ k s, Lead.trivia k s ∈ t.lead → k.isTrivia = true
  attrs : ∀ a, Lead.attr a ∈ t.lead → ∃ k s rest, a.head = .tok k s :: rest ∧ k.isTrivia = false
  body : ∃ k s rest, t.body = .tok k s :: rest ∧ k.isTrivia = false

/-- Where a new attribute goes: behind the last ink! attribute and the white space and comments that
follow it; without ink! attributes, behind all attributes. -/
def Spot (l1 l2 : List Lead) : Prop :=
  (inkOf (l1 ++ l2) = [] ∧ l2 = []) ∨
  ∃ x a q, l1 = x ++ .attr a :: q ∧ a.ink ≠ none ∧ NoAttr q ∧ inkOf l2 = [] ∧
    (l2 = [] ∨ ∃ b r, l2 = .attr b :: r)

/-- The item with other attributes. -/
def withLead (t : Target) (l : List Lead) : Target := { t with lead := l }

/-- The source of the file. -/
def textOf (t : Target) : String := Elem.textList t.file

/-- The names in the path of an attribute. -/
def segments (a : OwnAttr) : List String :=
  a.head.filterMap fun
    | .tok .ident s => some s
    | _ => none

/-- The attribute is read as an ink! attribute with the kind, and with the arguments written as `ws`. -/
def ReadAs (pe : ExprParser) (a : OwnAttr) (k : AttrKind) (ws : List Written) : Prop :=
  ∀ o, ∃ r, castAttr pe ⟨segments a, a.tree.map fun cs => (.tree cs, o)⟩ = some (some r) ∧
    r.kind = k ∧ AreRead pe ws (o + 1) r.args

/-- The argument list in parentheses. -/
def listed (trailing : Bool) (ws : List Written) : List Elem :=
  .tok .lParen "(" :: (listSource trailing ws ++ [.tok .rParen ")"])

/-- The attribute with another argument list. -/
def withTree (a : OwnAttr) (trailing : Bool) (ws : List Written) : OwnAttr :=
  { a with tree := some (listed trailing ws) }

/-- The attribute without argument list, with one. -/
def givenTree (a : OwnAttr) (ws : List Written) : OwnAttr :=
  { a with head := a.head ++ a.gap, tree := some (listed false ws), gap := [] }

/-- The arguments with the new one: in front if it is one that decides the kind of the attribute, else
behind the others. -/
def WithNew (k : ArgKind) (ws : List Written) (n : Written) (ws' : List Written) : Prop :=
  if k.isEntityType = true then ws' = n :: spaceFirst ws
  else ws' = ws ++ [n] ∨ ws' = ws ++ spaceFirst [n]

/-- The snippet (if any) shows the text, with one tab stop. -/
def Shows (e : Edit) : Prop := ∀ s, e.snippet = some s → expand s.toList = some (e.text.toList, [1])

/-! ## Lemmas -/

theorem leadElems_append (a b : List Lead) : leadElems (a ++ b) = leadElems a ++ leadElems b := by
  simp [leadElems]

theorem leadElems_cons (x : Lead) (b : List Lead) : leadElems (x :: b) = x.elems ++ leadElems b := by
  simp [leadElems]

theorem inkOf_append (a b : List Lead) : inkOf (a ++ b) = inkOf a ++ inkOf b := by simp [inkOf]

theorem attrsFrom_append (b : List Elem) (l1 l2 : List Lead) :
    attrsFrom b (l1 ++ l2) = (attrsFrom b l1).map (fun x => (x.1, x.2.1, x.2.2 ++ l2)) ++
      attrsFrom (b ++ leadElems l1) l2 := by
  induction l1 generalizing b with
  | nil => simp [attrsFrom, leadElems]
  | cons x l1 ih =>
    cases x with
    | attr a => simp [attrsFrom, ih, leadElems_cons, Lead.elems]
    | trivia k s => simp [attrsFrom, ih, leadElems_cons, Lead.elems]

theorem inkKinds_from (b : List Elem) (l : List Lead) :
    ((attrsFrom b l).filter fun a => a.2.1.ink.isSome).filterMap (fun a => a.2.1.ink) = inkOf l := by
  induction l generalizing b with
  | nil => rfl
  | cons x l ih =>
    cases x with
    | trivia k s => simpa [attrsFrom, inkOf] using ih _
    | attr a =>
      rw [attrsFrom]
      cases h : a.ink with
      | none => simpa [inkOf, h] using ih _
      | some v => simpa [inkOf, h] using ih _

theorem inkKinds_eq (t : Target) : t.inkKinds = inkOf t.lead := inkKinds_from _ _

theorem filter_length (b : List Elem) (l : List Lead) :
    ((attrsFrom b l).filter fun a => a.2.1.ink.isSome).length = (inkOf l).length := by
  induction l generalizing b with
  | nil => rfl
  | cons x l ih =>
    cases x with
    | trivia k s => simpa [attrsFrom, inkOf] using ih _
    | attr a =>
      rw [attrsFrom]
      cases h : a.ink with
      | none => simpa [inkOf, h] using ih _
      | some v => simpa [inkOf, h] using ih _

theorem inkAttrs_split (t : Target) (l1 l2 : List Lead) (a : OwnAttr) (h : t.lead = l1 ++ .attr a :: l2)
    (ha : a.ink ≠ none) :
    t.inkAttrs = ((attrsFrom t.before l1).filter fun a => a.2.1.ink.isSome).map
        (fun x => (x.1, x.2.1, x.2.2 ++ .attr a :: l2)) ++
      (t.before ++ leadElems l1, a, l2) ::
        (attrsFrom (t.before ++ leadElems l1 ++ a.elems) l2).filter fun a => a.2.1.ink.isSome := by
  unfold Target.inkAttrs Target.attrs
  rw [h, attrsFrom_append, attrsFrom, List.filter_append, List.filter_cons_of_pos
    (by simpa using Option.isSome_iff_ne_none.2 ha), List.filter_map]
  rfl

theorem inkAttrs_at (t : Target) (l1 l2 : List Lead) (a : OwnAttr) (h : t.lead = l1 ++ .attr a :: l2)
    (ha : a.ink ≠ none) :
    t.inkAttrs[(inkOf l1).length]? = some (t.before ++ leadElems l1, a, l2) := by
  rw [inkAttrs_split t l1 l2 a h ha, List.getElem?_append_right (by simp [filter_length]),
    List.length_map, filter_length, Nat.sub_self]
  rfl

theorem file_split (t : Target) (l1 l2 : List Lead) (h : t.lead = l1 ++ l2) :
    t.file = (t.before ++ leadElems l1) ++ (leadElems l2 ++ (t.body ++ t.after)) := by
  simp [Target.file, h, leadElems_append]

theorem attrIn_file (t : Target) (l1 l2 : List Lead) (a : OwnAttr) (h : t.lead = l1 ++ .attr a :: l2) :
    (attrIn t (t.before ++ leadElems l1, a, l2)).file = t.file := by
  rw [file_split t l1 _ h, leadElems_cons]
  cases hc : a.closed <;> simp [attrIn, AttrIn.file, AttrIn.bracket, Lead.elems, OwnAttr.elems, hc]

/-! ### The insert offset -/

theorem nextSolid_after (X T R : List Elem) (k : Ir.TokKind) (s : String) (l : Leaf)
    (hf : FullList (X ++ (T ++ .tok k s :: R)) = true) (hl : (leavesList 0 X).getLast? = some l)
    (hT : ∀ e ∈ T, e.isTrivia = true) (hk : k.isTrivia = false) :
    (nextSolid (leavesList 0 (X ++ (T ++ .tok k s :: R))) l).map Leaf.start =
      some (Elem.lenList (X ++ T)) := by
  have ht := leavesList_tiled _ 0 hf
  obtain ⟨ls, hls⟩ := List.getLast?_eq_some_iff.1 hl
  rw [leavesList_append, hls, List.append_assoc, List.singleton_append] at ht
  unfold nextSolid
  rw [leavesList_append, hls, List.append_assoc, List.singleton_append, tiled_after ht,
    leavesList_append, List.find?_append, leavesList, leaves]
  rw [List.find?_eq_none.2]
  · simp [hk, lenList_append]
  · intro x hx
    simp [leavesList_trivia T hT _ x hx]

theorem noAttr_trivia (q : List Lead) (h : NoAttr q)
    (hq : ∀ k s, Lead.trivia k s ∈ q → k.isTrivia = true) : ∀ e ∈ leadElems q, e.isTrivia = true := by
  intro e he
  obtain ⟨x, hx, he⟩ := List.mem_flatMap.1 he
  obtain ⟨k, s, rfl⟩ := h x hx
  simp only [Lead.elems, List.mem_singleton] at he
  subst he
  exact hq k s hx

/-- The next token behind the white space is an attribute or what follows the attributes. -/
theorem next_elem (t : Target) (hp : Proper t) (l1 l2 : List Lead) (h : t.lead = l1 ++ l2)
    (h2 : l2 = [] ∨ ∃ b r, l2 = .attr b :: r) :
    ∃ k s R, leadElems l2 ++ (t.body ++ t.after) = .tok k s :: R ∧ k.isTrivia = false := by
  rcases h2 with rfl | ⟨b, r, rfl⟩
  · obtain ⟨k, s, rest, hb, hk⟩ := hp.body
    exact ⟨k, s, rest ++ t.after, by simp [leadElems, hb], hk⟩
  · obtain ⟨k, s, rest, hb, hk⟩ := hp.attrs b (by rw [h]; simp)
    exact ⟨k, s, _, by rw [leadElems_cons, Lead.elems, OwnAttr.elems, hb]; simp; rfl, hk⟩

theorem elems_ne (t : Target) (hp : Proper t) (a : OwnAttr) (h : Lead.attr a ∈ t.lead) :
    a.elems ≠ [] := by
  obtain ⟨k, s, rest, hb, -⟩ := hp.attrs a h
  simp [OwnAttr.elems, hb]

theorem lastToken_some (t : Target) (hp : Proper t) (l1 l2 : List Lead) (a : OwnAttr)
    (h : t.lead = l1 ++ .attr a :: l2) (r : List Lead) :
    ∃ l, lastToken (t.before ++ leadElems l1, a, r) = some l ∧
      (leavesList 0 (t.before ++ leadElems l1 ++ a.elems)).getLast? = some l := by
  have hf := hp.full
  rw [file_split t l1 _ h, leadElems_cons, Lead.elems] at hf
  simp only [fullList_append, Bool.and_eq_true] at hf
  obtain ⟨_, l, hl, _⟩ := leavesList_ends a.elems (Elem.lenList (t.before ++ leadElems l1)) hf.2.1.1
    (elems_ne t hp a (by rw [h]; simp))
  refine ⟨l, hl, ?_⟩
  rw [leavesList_append, List.getLast?_append, Nat.zero_add, hl]
  rfl

theorem anchor_offset (t : Target) (hp : Proper t) (x q l2 : List Lead) (a : OwnAttr)
    (h : t.lead = x ++ .attr a :: (q ++ l2)) (hq : NoAttr q)
    (h2 : l2 = [] ∨ ∃ b r, l2 = .attr b :: r) (l : Leaf)
    (hl : (leavesList 0 (t.before ++ leadElems x ++ a.elems)).getLast? = some l)
    (hanchor : t.anchor = some l) :
    t.insertOffset = Elem.lenList (t.before ++ leadElems (x ++ .attr a :: q)) := by
  obtain ⟨k, s, R, hR, hk⟩ := next_elem t hp (x ++ .attr a :: q) l2 (by simp [h]) h2
  have e : t.file = (t.before ++ leadElems x ++ a.elems) ++ (leadElems q ++ .tok k s :: R) := by
    rw [← hR, file_split t x _ h]
    simp [leadElems_append, leadElems_cons, Lead.elems]
  have hf := hp.full
  rw [e] at hf
  unfold Target.insertOffset
  rw [hanchor, Option.bind_some, e, nextSolid_after _ _ _ _ _ l hf hl
    (noAttr_trivia q hq fun k s hks => hp.trivia k s (by rw [h]; simp [hks])) hk]
  simp [leadElems_append, leadElems_cons, Lead.elems]

theorem inkOf_nil_filter (b : List Elem) (l : List Lead) (h : inkOf l = []) :
    (attrsFrom b l).filter (fun a => a.2.1.ink.isSome) = [] :=
  List.eq_nil_of_length_eq_zero (by rw [filter_length, h]; rfl)

theorem attrsFrom_noAttr (b : List Elem) (l : List Lead) (h : NoAttr l) : attrsFrom b l = [] := by
  induction l generalizing b with
  | nil => rfl
  | cons x l ih =>
    obtain ⟨k, s, rfl⟩ := h x (by simp)
    exact ih _ fun y hy => h y (by simp [hy])

/-- A list of attributes and white space is white space only, or it has a last attribute. -/
theorem last_attr (l : List Lead) :
    NoAttr l ∨ ∃ x a q, l = x ++ .attr a :: q ∧ NoAttr q := by
  induction l with
  | nil => exact .inl (by simp [NoAttr])
  | cons y l ih =>
    rcases ih with h | ⟨x, a, q, rfl, h⟩
    · cases y with
      | attr a => exact .inr ⟨[], a, l, rfl, h⟩
      | trivia k s =>
        refine .inl fun z hz => ?_
        rcases List.mem_cons.1 hz with rfl | hz
        · exact ⟨k, s, rfl⟩
        · exact h z hz
    · exact .inr ⟨y :: x, a, q, rfl, h⟩

/-- It has no ink! attribute, or it has a last one. -/
theorem last_ink (l : List Lead) :
    inkOf l = [] ∨ ∃ x a r, l = x ++ .attr a :: r ∧ a.ink ≠ none ∧ inkOf r = [] := by
  induction l with
  | nil => exact .inl rfl
  | cons y l ih =>
    rcases ih with h | ⟨x, a, r, rfl, h⟩
    · cases y with
      | attr a =>
        cases ha : a.ink with
        | none => exact .inl (by simpa [inkOf, ha] using h)
        | some v => exact .inr ⟨[], a, l, rfl, by simp [ha], h⟩
      | trivia k s => exact .inl (by simpa [inkOf] using h)
    · exact .inr ⟨y :: x, a, r, rfl, h⟩

/-- White space up to the next attribute. -/
theorem split_trivia (l : List Lead) :
    ∃ q r, l = q ++ r ∧ NoAttr q ∧ (r = [] ∨ ∃ b r', r = .attr b :: r') := by
  induction l with
  | nil => exact ⟨[], [], rfl, by simp [NoAttr], .inl rfl⟩
  | cons y l ih =>
    cases y with
    | attr a => exact ⟨[], .attr a :: l, rfl, by simp [NoAttr], .inr ⟨a, l, rfl⟩⟩
    | trivia k s =>
      obtain ⟨q, r, rfl, h1, h2⟩ := ih
      refine ⟨.trivia k s :: q, r, rfl, ?_, h2⟩
      intro z hz
      rcases List.mem_cons.1 hz with rfl | hz
      · exact ⟨k, s, rfl⟩
      · exact h1 z hz

/-- The offset of a new attribute is the end of the first part of the attributes. -/
theorem offset_spot (t : Target) (hp : Proper t) :
    ∃ l1 l2, t.lead = l1 ++ l2 ∧ Spot l1 l2 ∧
      t.insertOffset = Elem.lenList (t.before ++ leadElems l1) := by
  rcases last_ink t.lead with hink | ⟨x, a, r, hl, ha, hr⟩
  · refine ⟨t.lead, [], by simp, .inl ⟨by simpa using hink, rfl⟩, ?_⟩
    have hi : t.inkAttrs = [] := inkOf_nil_filter _ _ hink
    rcases last_attr t.lead with hn | ⟨x, a, q, hl, hq⟩
    · have hattrs : t.attrs = [] := attrsFrom_noAttr _ _ hn
      obtain ⟨k, s, rest, hb, hk⟩ := hp.body
      have hanchor : t.anchor = (leavesList (Elem.lenList t.before)
          (leadElems t.lead ++ t.body)).head?.filter fun l => l.kind.isTrivia := by
        simp [Target.anchor, hi, hattrs]
      cases hlead : t.lead with
      | nil =>
        unfold Target.insertOffset
        rw [hanchor, hlead, hb]
        simp [leadElems, leavesList, leaves, hk, Option.filter]
      | cons y l =>
        obtain ⟨k', s', rfl⟩ := hn y (by rw [hlead]; simp)
        have hk' := hp.trivia k' s' (by rw [hlead]; simp)
        have ha : t.anchor = some ⟨k', Elem.lenList t.before,
            Elem.lenList t.before + s'.utf8ByteSize⟩ := by
          rw [hanchor, hlead]
          simp [leadElems_cons, Lead.elems, leavesList, leaves, hk']
        have e : t.file = (t.before ++ [.tok k' s']) ++ (leadElems l ++ .tok k s :: (rest ++ t.after)) := by
          simp [Target.file, hlead, hb, leadElems_cons, Lead.elems]
        have hf := hp.full
        rw [e] at hf
        unfold Target.insertOffset
        rw [ha, Option.bind_some, e, nextSolid_after _ _ _ _ _ _ hf _ _ hk]
        · simp [leadElems_cons, Lead.elems]
        · rw [leavesList_append]
          simp [leavesList, leaves]
        · exact noAttr_trivia l (fun z hz => hn z (by rw [hlead]; simp [hz]))
            fun k s hks => hp.trivia k s (by rw [hlead]; simp [hks])
    · obtain ⟨l, h1, h2⟩ := lastToken_some t hp x q a hl q
      have hlast : t.attrs.getLast? = some (t.before ++ leadElems x, a, q) := by
        unfold Target.attrs
        rw [hl, attrsFrom_append, attrsFrom, attrsFrom_noAttr _ q hq]
        simp
      have := anchor_offset t hp x q [] a (by simpa using hl) hq (.inl rfl) l h2
        (by simp [Target.anchor, hi, hlast, h1])
      rw [this, ← hl]
  · obtain ⟨q, l2, rfl, hq, h2⟩ := split_trivia r
    refine ⟨x ++ .attr a :: q, l2, by simp [hl], .inr ⟨x, a, q, rfl, ha, hq, ?_, h2⟩, ?_⟩
    · rw [inkOf_append] at hr
      exact (List.append_eq_nil_iff.1 hr).2
    · obtain ⟨l, h1, h3⟩ := lastToken_some t hp x (q ++ l2) a hl (q ++ l2)
      have hlast : t.inkAttrs.getLast? = some (t.before ++ leadElems x, a, q ++ l2) := by
        rw [inkAttrs_split t x _ a hl ha, inkOf_nil_filter _ _ hr]
        simp
      exact anchor_offset t hp x q l2 a hl hq h2 l h3 (by simp [Target.anchor, hlast, h1])

theorem inserts_attr (t : Target) (l1 l2 : List Lead) (h : t.lead = l1 ++ l2) (a : OwnAttr) (s : String)
    (hs : s = Elem.textList a.elems) (n : Nat) (hn : n = Elem.lenList (t.before ++ leadElems l1)) :
    Inserts (textOf t) (n, s) (textOf (withLead t (l1 ++ .attr a :: l2))) := by
  refine ⟨Elem.textList (t.before ++ leadElems l1),
    Elem.textList (leadElems l2 ++ (t.body ++ t.after)), ?_, ?_, ?_⟩
  · rw [textOf, file_split t l1 l2 h, textList_append]
  · rw [textList_size]
    exact hn
  · rw [textOf, file_split (withLead t (l1 ++ .attr a :: l2)) l1 (.attr a :: l2) rfl, hs,
      ← textList_append, ← textList_append]
    simp [withLead, leadElems_cons, Lead.elems]

/-! ### Reading the new attributes -/

/-- The attribute with the macro. -/
def macroAttr (m : MacroKind) : OwnAttr :=
  ⟨some ⟨.macro m, []⟩, [.tok .other "#", .tok .other "[", .tok .ident m.crateName, .tok .other "::",
    .tok .ident m.macroName], none, [], true⟩

/-- The attribute with the argument. -/
def argAttr (k : ArgKind) (n : Written) : OwnAttr :=
  ⟨some ⟨.arg k, [k]⟩, [.tok .other "#", .tok .other "[", .tok .ident "ink"], some (listed false [n]), [],
    true⟩

theorem macroAttr_text (m : MacroKind) (h : m ≠ .unknown) :
    macroText m = Elem.textList (macroAttr m).elems := by
  cases m <;> first
    | exact absurd rfl h
    | decide

theorem macroAttr_read (pe : ExprParser) (m : MacroKind) : ReadAs pe (macroAttr m) (.macro m) [] ∨
    m = .unknown := by
  cases m <;> first
    | exact .inr rfl
    | exact .inl fun o => ⟨⟨_, [], none⟩, rfl, rfl, rfl⟩

theorem argAttr_text (k : ArgKind) (n : Written) :
    inkText (Elem.textList n.source) = Elem.textList (argAttr k n).elems := by
  have e : (argAttr k n).elems = [.tok .other "#", .tok .other "[", .tok .ident "ink",
      .tree (.tok .lParen "(" :: (n.source ++ [.tok .rParen ")"])), .tok .rBrack "]"] := by
    simp [argAttr, OwnAttr.elems, listed, listSource]
  rw [e, inkText]
  simp only [Elem.textList, Elem.text, textList_append, String.append_empty]
  rw [← String.toList_inj]
  simp [String.toList_append]

theorem argAttr_read (pe : ExprParser) (fi : String → Option String) (v : Version)
    (attr : Option AttrKind) (k : ArgKind) (n : Written) (hn : n.Ok pe)
    (ha : Accepted pe fi v attr k n) : ReadAs pe (argAttr k n) (.arg k) [n] := by
  intro o
  obtain ⟨args, h1, h2⟩ := C76_read_partial pe o (segments (argAttr k n)) [n] false
    (by intro w hw; rw [List.mem_singleton.1 hw]; exact hn)
  obtain ⟨a, as', rfl, h3, h4⟩ := h2
  cases h4
  refine ⟨⟨.arg k, [a], some a⟩, ?_, rfl, a, [], rfl, h3, rfl⟩
  have h5 := (ha _ _ h3).1
  unfold castAttr
  have e : (argAttr k n).tree.map (fun cs => (Elem.tree cs, o)) =
    some (parenthesised (listSource false [n]), o) := rfl
  rw [e, if_pos (show AttrSyntax.canCast _ = true from rfl), h1]
  show some (some _) = _
  simp [castKind, segments, argAttr, Util.sortBy, Util.insertBy, h5]

/-! ### Snippets -/

theorem run_plain (l : List Char) (h : ∀ c ∈ l, c ≠ '$' ∧ c ≠ '\\') :
    Reading.text.run l = some (.text, l, []) := by
  induction l with
  | nil => rfl
  | cons c l ih =>
    have hc := h c (by simp)
    simp only [Reading.run, Reading.step, if_neg hc.1, if_neg hc.2, Option.bind_some,
      ih fun y hy => h y (by simp [hy]), Option.map_some]
    rfl

theorem expand_affix (p s x : List Char) (o : List Char) (h : expand s = some (o, [1]))
    (hp : ∀ c ∈ p, c ≠ '$' ∧ c ≠ '\\') (hx : ∀ c ∈ x, c ≠ '$' ∧ c ≠ '\\')
    (hd : ∀ c, x.head? = some c → decimal c = none) :
    expand (p ++ s ++ x) = some (p ++ o ++ x, [1]) := by
  unfold expand at h
  obtain ⟨⟨st, o', s'⟩, h1, h2⟩ := Option.bind_eq_some_iff.1 h
  obtain ⟨e, h3, h4⟩ := Option.map_eq_some_iff.1 h2
  simp only [Prod.mk.injEq] at h4
  obtain ⟨rfl, h4⟩ := h4
  unfold expand
  rw [List.append_assoc, run_append, run_plain p hp, Option.bind_some]
  simp only
  rw [run_append, h1, Option.bind_some]
  simp only
  cases st with
  | text =>
    cases h3
    rw [run_plain x hx]
    simp at h4
    simp [Reading.finish, h4]
  | bare n =>
    cases h3
    cases x with
    | nil => simp [Reading.run, Reading.finish, h4]
    | cons c x =>
      have hc := hx c (by simp)
      have : (Reading.bare n).run (c :: x) = some (.text, c :: x, [n]) := by
        simp only [Reading.run, Reading.step, hd c rfl, if_neg hc.1, if_neg hc.2, Option.bind_some,
          run_plain x fun y hy => hx y (by simp [hy]), Option.map_some]
        rfl
      rw [this]
      simp [Reading.finish, h4]
  | _ => cases h3

/-! ### Extending an attribute -/

theorem not_follows (X Y : List Elem) (hf : FullList (X ++ Y) = true) (l : Leaf) (k : Ir.TokKind)
    (hl : (leavesList (Elem.lenList X) Y).find? (fun l => !l.kind.isTrivia) = some l) (hk : l.kind ≠ k) :
    ¬ Follows (leavesList 0 (X ++ Y)) (Elem.lenList X) k := by
  rw [← find_follows]
  simp only [fullList_append, Bool.and_eq_true] at hf
  have hX := leavesList_tiled X 0 hf.1
  have hY := leavesList_tiled Y (Elem.lenList X) hf.2
  rw [leavesList_append, List.find?_append, List.find?_eq_none.2]
  · rw [Nat.zero_add]
    have : ∀ L : List Leaf, (∀ x ∈ L, Elem.lenList X ≤ x.start) →
        L.find? (fun x => decide (Elem.lenList X ≤ x.start) && !x.kind.isTrivia) =
        L.find? (fun x => !x.kind.isTrivia) := by
      intro L
      induction L with
      | nil => simp
      | cons y L ih =>
        intro h
        rw [List.find?_cons, List.find?_cons, ih fun x hx => h x (by simp [hx])]
        simp [h y (by simp)]
    rw [this _ fun x hx => (hY.2 x hx).1, hl]
    simp [hk]
  · intro x hx
    have := hX.2 x hx
    simp
    intro
    omega

/-- The first token of an argument list that is not white space or a comment. -/
theorem first_solid (pe : ExprParser) (ws : List Written) (t : Bool) (hne : ws ≠ [])
    (h : ∀ w ∈ ws, w.Ok pe) (rest : List Elem) (o : Nat) :
    ∃ l, (leavesList o (listSource t ws ++ rest)).find? (fun l => !l.kind.isTrivia) = some l ∧
      l.kind ≠ .eq ∧ l.kind ≠ .lParen := by
  cases ws with
  | nil => exact absurd rfl hne
  | cons w ws =>
    have hw := h w (by simp)
    have e : ∃ name more, w.source = leadOf w ++ name :: more ∧ IsName name := by
      cases w with
      | flag lead name trail => exact ⟨name, _, by simp [Written.source, leadOf]; rfl, hw.2.1⟩
      | keyed lead name gap eq value => exact ⟨name, _, by simp [Written.source, leadOf]; rfl, hw.2.1⟩
      | nest lead name gap inner trail => exact ⟨name, _, by simp [Written.source, leadOf]; rfl, hw.2.1⟩
      | hollow lead name gap trail => exact ⟨name, _, by simp [Written.source, leadOf]; rfl, hw.2.1⟩
    obtain ⟨name, more, e, hn⟩ := e
    have e' : ∃ m, listSource t (w :: ws) = leadOf w ++ name :: m := by
      cases ws with
      | nil => exact ⟨_, by rw [listSource, e, List.append_assoc, List.cons_append]⟩
      | cons v vs => exact ⟨_, by rw [listSource, e, List.append_assoc, List.cons_append]; simp⟩
    obtain ⟨m, e'⟩ := e'
    rw [e', List.append_assoc, leavesList_append, List.find?_append, List.find?_eq_none.2]
    · obtain ⟨s, rfl | rfl⟩ := hn
      · exact ⟨_, rfl, (fun h => nomatch h), (fun h => nomatch h)⟩
      · exact ⟨_, rfl, (fun h => nomatch h), (fun h => nomatch h)⟩
    · intro x hx
      simp [leavesList_trivia _ (leadOf_trivia pe w hw) _ x hx]

/-- What the site needs to get the full text of an argument. -/
structure Clear (s : Site) (o : Nat) : Prop where
  inside : Inside s o
  eq : ¬ Follows s.file o .eq
  paren : ¬ Follows s.file o .lParen

theorem clear_of (around : Around) (t : Target) (l1 l2 : List Lead) (a : OwnAttr) (X Y : List Elem)
    (e : leavesList 0 t.file = leavesList 0 (X ++ Y)) (hf : FullList (X ++ Y) = true) (l : Leaf)
    (hl : (leavesList (Elem.lenList X) Y).find? (fun l => !l.kind.isTrivia) = some l)
    (hk : l.kind ≠ .eq ∧ l.kind ≠ .lParen) (y : Leaf) (hy : y ∈ leavesList 0 (X ++ Y))
    (h1 : Elem.lenList (t.before ++ leadElems l1) ≤ y.start)
    (h2 : y.stop ≤ Elem.lenList (t.before ++ leadElems l1) + Elem.lenList a.elems)
    (h3 : y.start ≤ Elem.lenList X) (h4 : Elem.lenList X ≤ y.stop) :
    Clear (siteOf around t (t.before ++ leadElems l1, a, l2)) (Elem.lenList X) := by
  refine ⟨⟨?_, ?_, y, ?_, h1, h2, h3, h4⟩, ?_, ?_⟩
  · exact Nat.le_trans h1 h3
  · exact Nat.le_trans h4 h2
  · show y ∈ leavesList 0 t.file
    rw [e]
    exact hy
  · show ¬ Follows (leavesList 0 t.file) _ _
    rw [e]
    exact not_follows X Y hf l _ hl hk.1
  · show ¬ Follows (leavesList 0 t.file) _ _
    rw [e]
    exact not_follows X Y hf l _ hl hk.2

theorem accepted_at (pe : ExprParser) (fi : String → Option String) (hash : String → Vector UInt8 32)
    (k : ArgKind) (hk : k ≠ .unknown) (hs : k ≠ .signatureTopic) (s : Site) (p : Place)
    (hc : Clear s p.offset) (hr : Reads pe fi (s.environment.getD "ink::env::DefaultEnvironment"))
    (v : Version) (attr : Option AttrKind) (hv : k = .extension → v = .v5 → s.onFn = false) :
    ∃ e n, extendEdit hash k p s = some e ∧ n.Ok pe ∧ Accepted pe fi v attr k n ∧
      (e.offset, e.text) = p.insertion (Elem.textList n.source) := by
  obtain ⟨text, sn, h1, n, h2, h3, h4⟩ := C80_accepted_partial pe fi hash k hk hs (some s) (some p.offset)
    (fun s' o h1 h2 => by cases h1; cases h2; exact hc.inside) hr
    ⟨fun ⟨s', o, h1, h2, h3⟩ => by cases h1; cases h2; exact hc.eq h3,
      fun ⟨s', o, h1, h2, h3⟩ => by cases h1; cases h2; exact hc.paren h3⟩ v attr
    (fun h1 h2 s' h3 => by cases h3; exact hv h1 h2)
  unfold extendEdit
  rw [h1]
  exact ⟨_, n, rfl, h2, h4, by rw [h3]; rfl⟩

theorem withTree_file (t : Target) (l1 l2 : List Lead) (a : OwnAttr) (hc : a.closed = true)
    (tr : Bool) (ws : List Written) :
    (withLead t (l1 ++ .attr (withTree a tr ws) :: l2)).file =
      (withArgs (t.before ++ leadElems l1 ++ a.head) a.gap (leadElems l2 ++ (t.body ++ t.after)) tr
        ws).file := by
  rw [file_split (withLead t (l1 ++ .attr (withTree a tr ws) :: l2)) l1
    (.attr (withTree a tr ws) :: l2) rfl, leadElems_cons]
  simp [withLead, Lead.elems, OwnAttr.elems, withTree, withArgs, withList, AttrIn.file, AttrIn.bracket,
    listed, hc]

theorem givenTree_file (t : Target) (l1 l2 : List Lead) (a : OwnAttr) (hc : a.closed = true)
    (ws : List Written) :
    (withLead t (l1 ++ .attr (givenTree a ws) :: l2)).file =
      (withArgs (t.before ++ leadElems l1 ++ a.head ++ a.gap) [] (leadElems l2 ++ (t.body ++ t.after))
        false ws).file := by
  rw [file_split (withLead t (l1 ++ .attr (givenTree a ws) :: l2)) l1
    (.attr (givenTree a ws) :: l2) rfl, leadElems_cons]
  simp [withLead, Lead.elems, OwnAttr.elems, givenTree, withArgs, withList, AttrIn.file, AttrIn.bracket,
    listed, hc]

/-- The edit that extends the attribute, whichever action it belongs to. -/
def extension (hash : String → Vector UInt8 32) (around : Around) (t : Target) (l1 l2 : List Lead)
    (a : OwnAttr) (k : ArgKind) : Option Edit :=
  (argPlace (attrIn t (t.before ++ leadElems l1, a, l2)) (some k)).bind fun p =>
    extendEdit hash k p (siteOf around t (t.before ++ leadElems l1, a, l2))

/-- Extending a list. -/
theorem extend_list (pe : ExprParser) (fi : String → Option String) (hash : String → Vector UInt8 32)
    (around : Around) (v : Version) (attr : Option AttrKind) (t : Target) (l1 l2 : List Lead)
    (a : OwnAttr) (tr : Bool) (ws : List Written) (k : ArgKind)
    (hf : FullList t.file = true) (hl : t.lead = l1 ++ .attr a :: l2) (hc : a.closed = true)
    (htree : a.tree = some (listed tr ws)) (hws : ∀ w ∈ ws, w.Ok pe) (hshut : ∀ w ∈ ws, Shut w)
    (hk : k ≠ .unknown) (hs : k ≠ .signatureTopic)
    (hr : Reads pe fi (around.environment.getD "ink::env::DefaultEnvironment"))
    (hv : k = .extension → v = .v5 → around.onFn = false) :
    ∃ e n tr' ws', extension hash around t l1 l2 a k = some e ∧ n.Ok pe ∧
      Accepted pe fi v attr k n ∧ WithNew k ws n ws' ∧
      Inserts (textOf t) (e.offset, e.text)
        (textOf (withLead t (l1 ++ .attr (withTree a tr' ws') :: l2))) ∧
      Has pe (withArgs (t.before ++ leadElems l1 ++ a.head) a.gap (leadElems l2 ++ (t.body ++ t.after))
        tr' ws') ws' := by
  have hfile := attrIn_file t l1 l2 a hl
  have hin : attrIn t (t.before ++ leadElems l1, a, l2) =
      withArgs (t.before ++ leadElems l1 ++ a.head) a.gap (leadElems l2 ++ (t.body ++ t.after)) tr ws := by
    simp [attrIn, withArgs, withList, htree, hc, listed]
  rw [hin] at hfile
  have hf' := hf
  rw [← hfile] at hf'
  have hflat := file_full _ _ _ _ hf'
  have hleaves : leavesList 0 t.file = leavesList 0 (flat (t.before ++ leadElems l1 ++ a.head) a.gap
      (leadElems l2 ++ (t.body ++ t.after)) (listSource tr ws)) := by
    rw [← hfile]
    exact file_leaves _ _ _ _
  have hlen : Elem.lenList a.elems = Elem.lenList a.head + (1 + (Elem.lenList (listSource tr ws) + 1) +
      (Elem.lenList a.gap + 1)) := by
    have e1 : (Elem.tok .lParen "(").len = 1 := rfl
    have e2 : (Elem.tok .rParen ")").len = 1 := rfl
    have e3 : (Elem.tok .rBrack "]").len = 1 := rfl
    have e4 : ∀ cs : List Elem, (Elem.tree cs).len = Elem.lenList cs := fun _ => by rw [Elem.len]
    simp [OwnAttr.elems, htree, hc, listed, lenList_append, Elem.lenList, e1, e2, e3, e4]
  unfold extension
  rw [hin]
  generalize hB : t.before ++ leadElems l1 ++ a.head = B at *
  generalize hA : leadElems l2 ++ (t.body ++ t.after) = A at *
  have hBlen : Elem.lenList B = Elem.lenList (t.before ++ leadElems l1) + Elem.lenList a.head := by
    rw [← hB, lenList_append]
  by_cases hkind : k.isEntityType = true
  · have hp := place_primary B a.gap A _ (args_between pe tr ws hws) hf' k hkind
    rw [← withArgs] at hp
    have hX : flat B a.gap A (listSource tr ws) = (B ++ [.tok .lParen "("]) ++
        (listSource tr ws ++ .tok .rParen ")" :: (a.gap ++ .tok .rBrack "]" :: A)) := by simp [flat]
    have hX1 : Elem.lenList (B ++ [.tok .lParen "("]) = Elem.lenList B + 1 := by
      rw [lenList_append]
      rfl
    have hclear : Clear (siteOf around t (t.before ++ leadElems l1, a, l2))
        (Elem.lenList (B ++ [.tok .lParen "("])) := by
      have hsolid : ∃ l, (leavesList (Elem.lenList (B ++ [.tok .lParen "("])) (listSource tr ws ++
          .tok .rParen ")" :: (a.gap ++ .tok .rBrack "]" :: A))).find? (fun l => !l.kind.isTrivia) =
          some l ∧ l.kind ≠ .eq ∧ l.kind ≠ .lParen := by
        by_cases h0 : ws = []
        · subst h0
          exact ⟨⟨.rParen, _, _⟩, rfl, (by decide : Ir.TokKind.rParen ≠ .eq),
            (by decide : Ir.TokKind.rParen ≠ .lParen)⟩
        · exact first_solid pe ws tr h0 hws _ _
      obtain ⟨l, hl1, hl2⟩ := hsolid
      refine clear_of around t l1 l2 a _ _ (by rw [hleaves, hX]) (by rw [← hX]; exact hflat) l hl1 hl2
        ⟨.lParen, Elem.lenList B, Elem.lenList B + 1⟩ ?_ ?_ ?_ ?_ ?_
      · rw [List.append_assoc, leavesList_append]
        exact List.mem_append_right _ (by rw [Nat.zero_add]; exact List.mem_cons_self)
      · show _ ≤ Elem.lenList B
        omega
      · show Elem.lenList B + 1 ≤ _
        omega
      · show Elem.lenList B ≤ _
        omega
      · show _ ≤ Elem.lenList B + 1
        omega
    rw [hX1] at hclear
    rw [hp, Option.bind_some]
    obtain ⟨e, n, h1, h2, h3, h4⟩ := accepted_at pe fi hash k hk hs
      (siteOf around t (t.before ++ leadElems l1, a, l2)) ⟨Elem.lenList B + 1, none, _⟩ hclear hr v attr hv
    obtain ⟨p, tr', h5, h6, h7⟩ := C79_primary_partial pe B a.gap A tr ws n hws h2 hf' k hkind
    rw [hp] at h5
    cases h5
    refine ⟨e, n, tr', n :: spaceFirst ws, h1, h2, h3, by simp [WithNew, hkind], ?_, h7⟩
    rw [textOf, textOf, withTree_file t l1 l2 a hc, hB, hA, h4, ← hfile]
    exact h6
  · have hkind' : k.isEntityType = false := by simpa using hkind
    have hp := place_last B a.gap A _ (args_between pe tr ws hws) hf' (some k) hkind'
    rw [← withArgs] at hp
    have hX : flat B a.gap A (listSource tr ws) = (B ++ .tok .lParen "(" :: listSource tr ws) ++
        .tok .rParen ")" :: (a.gap ++ .tok .rBrack "]" :: A) := by simp [flat]
    have hX1 : Elem.lenList (B ++ .tok .lParen "(" :: listSource tr ws) =
        Elem.lenList B + 1 + Elem.lenList (listSource tr ws) := by
      rw [lenList_append, Nat.add_assoc]
      rfl
    have hclear : Clear (siteOf around t (t.before ++ leadElems l1, a, l2))
        (Elem.lenList (B ++ .tok .lParen "(" :: listSource tr ws)) := by
      refine clear_of around t l1 l2 a _ _ (by rw [hleaves, hX]) (by rw [← hX]; exact hflat)
        ⟨.rParen, Elem.lenList (B ++ .tok .lParen "(" :: listSource tr ws),
          Elem.lenList (B ++ .tok .lParen "(" :: listSource tr ws) + 1⟩ rfl
        ⟨(by decide : Ir.TokKind.rParen ≠ .eq), (by decide : Ir.TokKind.rParen ≠ .lParen)⟩ ⟨.rParen,
          Elem.lenList (B ++ .tok .lParen "(" :: listSource tr ws),
          Elem.lenList (B ++ .tok .lParen "(" :: listSource tr ws) + 1⟩ ?_ ?_ ?_ ?_ ?_
      · rw [leavesList_append]
        exact List.mem_append_right _ (by rw [Nat.zero_add]; exact List.mem_cons_self)
      · show _ ≤ Elem.lenList (B ++ .tok .lParen "(" :: listSource tr ws)
        omega
      · show Elem.lenList (B ++ .tok .lParen "(" :: listSource tr ws) + 1 ≤ _
        omega
      · exact Nat.le_refl _
      · exact Nat.le_succ _
    rw [hX1] at hclear
    rw [hp, Option.bind_some]
    obtain ⟨e, n, h1, h2, h3, h4⟩ := accepted_at pe fi hash k hk hs
      (siteOf around t (t.before ++ leadElems l1, a, l2))
      ⟨Elem.lenList B + 1 + Elem.lenList (listSource tr ws), _, _⟩ hclear hr v attr hv
    obtain ⟨p, ns', h5, h6, h7, h8⟩ := C79_last_partial pe B a.gap A tr ws [n] hws hshut
      (by intro w hw; rw [List.mem_singleton.1 hw]; exact h2) (by simp) hf' (some k)
      (by intro k' h; cases h; exact hkind')
    rw [hp] at h5
    cases h5
    refine ⟨e, n, false, ws ++ ns', h1, h2, h3, ?_, ?_, h8⟩
    · rw [WithNew, if_neg hkind]
      rcases h6 with rfl | rfl
      · exact .inl rfl
      · exact .inr rfl
    · rw [textOf, textOf, withTree_file t l1 l2 a hc, hB, hA, h4, ← hfile]
      simpa [listSource] using h7

/-- Extending an attribute without a list. -/
theorem extend_bare (pe : ExprParser) (fi : String → Option String) (hash : String → Vector UInt8 32)
    (around : Around) (v : Version) (attr : Option AttrKind) (t : Target) (l1 l2 : List Lead)
    (a : OwnAttr) (k : ArgKind) (hf : FullList t.file = true) (hl : t.lead = l1 ++ .attr a :: l2)
    (hc : a.closed = true) (htree : a.tree = none) (hk : k ≠ .unknown) (hs : k ≠ .signatureTopic)
    (hr : Reads pe fi (around.environment.getD "ink::env::DefaultEnvironment"))
    (hv : k = .extension → v = .v5 → around.onFn = false) :
    ∃ e n, extension hash around t l1 l2 a k = some e ∧ n.Ok pe ∧ Accepted pe fi v attr k n ∧
      Inserts (textOf t) (e.offset, e.text)
        (textOf (withLead t (l1 ++ .attr (givenTree a [n]) :: l2))) ∧
      Has pe (withArgs (t.before ++ leadElems l1 ++ a.head ++ a.gap) []
        (leadElems l2 ++ (t.body ++ t.after)) false [n]) [n] := by
  have hfile := attrIn_file t l1 l2 a hl
  have hin : attrIn t (t.before ++ leadElems l1, a, l2) =
      ⟨t.before ++ leadElems l1 ++ a.head, none, a.gap, true, leadElems l2 ++ (t.body ++ t.after)⟩ := by
    simp [attrIn, htree, hc]
  rw [hin] at hfile
  have hX : t.file = (t.before ++ leadElems l1 ++ a.head ++ a.gap) ++
      .tok .rBrack "]" :: (leadElems l2 ++ (t.body ++ t.after)) := by
    rw [← hfile]
    simp [AttrIn.file, AttrIn.bracket]
  have hlen : Elem.lenList a.elems = Elem.lenList a.head + (Elem.lenList a.gap + 1) := by
    have e3 : (Elem.tok .rBrack "]").len = 1 := rfl
    simp [OwnAttr.elems, htree, hc, lenList_append, Elem.lenList, e3]
  have hBlen : Elem.lenList (t.before ++ leadElems l1 ++ a.head ++ a.gap) =
      Elem.lenList (t.before ++ leadElems l1) + Elem.lenList a.head + Elem.lenList a.gap := by
    simp only [lenList_append]
  have hclear : Clear (siteOf around t (t.before ++ leadElems l1, a, l2))
      (Elem.lenList (t.before ++ leadElems l1 ++ a.head ++ a.gap)) := by
    refine clear_of around t l1 l2 a _ _ (by rw [hX]) (by rw [← hX]; exact hf)
      ⟨.rBrack, Elem.lenList (t.before ++ leadElems l1 ++ a.head ++ a.gap),
        Elem.lenList (t.before ++ leadElems l1 ++ a.head ++ a.gap) + 1⟩ rfl
      ⟨(by decide : Ir.TokKind.rBrack ≠ .eq), (by decide : Ir.TokKind.rBrack ≠ .lParen)⟩ ⟨.rBrack,
        Elem.lenList (t.before ++ leadElems l1 ++ a.head ++ a.gap),
        Elem.lenList (t.before ++ leadElems l1 ++ a.head ++ a.gap) + 1⟩ ?_ ?_ ?_ ?_ ?_
    · rw [leavesList_append]
      exact List.mem_append_right _ (by rw [Nat.zero_add]; exact List.mem_cons_self)
    · show _ ≤ Elem.lenList (t.before ++ leadElems l1 ++ a.head ++ a.gap)
      omega
    · show Elem.lenList (t.before ++ leadElems l1 ++ a.head ++ a.gap) + 1 ≤ _
      omega
    · exact Nat.le_refl _
    · exact Nat.le_succ _
  have hp : argPlace ⟨t.before ++ leadElems l1 ++ a.head, none, a.gap, true,
      leadElems l2 ++ (t.body ++ t.after)⟩ (some k) =
      some ⟨Elem.lenList (t.before ++ leadElems l1 ++ a.head ++ a.gap), some "(", some ")"⟩ := rfl
  unfold extension
  rw [hin, hp, Option.bind_some]
  obtain ⟨e, n, h1, h2, h3, h4⟩ := accepted_at pe fi hash k hk hs _
    ⟨Elem.lenList (t.before ++ leadElems l1 ++ a.head ++ a.gap), some "(", some ")"⟩ hclear hr v attr hv
  obtain ⟨p, h5, _, h6, h7⟩ := C79_bare pe (t.before ++ leadElems l1 ++ a.head) a.gap
    (leadElems l2 ++ (t.body ++ t.after)) [n]
    (by intro w hw; rw [List.mem_singleton.1 hw]; exact h2) (some k)
  rw [hp] at h5
  cases h5
  refine ⟨e, n, h1, h2, h3, ?_, h7⟩
  rw [textOf, textOf, givenTree_file t l1 l2 a hc, h4, ← hfile]
  simpa [listSource] using h6

/-! ### No panics -/

theorem childAt_bounds (p : Elem → Bool) (o : Nat) (cs : List Elem) (x : Placed)
    (h : childAt p o cs = some x) : o ≤ x.start ∧ x.stop ≤ o + Elem.lenList cs := by
  induction cs generalizing o with
  | nil => cases h
  | cons c cs ih =>
    rw [childAt] at h
    rw [Elem.lenList]
    split at h
    · cases h
      exact ⟨Nat.le_refl _, by simp only [Placed.stop]; omega⟩
    · have := ih _ h
      omega

theorem place_bounds (t : Target) (l1 l2 : List Lead) (a : OwnAttr) (k : ArgKind) (p : Place)
    (h : argPlace (attrIn t (t.before ++ leadElems l1, a, l2)) (some k) = some p) :
    Elem.lenList (t.before ++ leadElems l1) ≤ p.offset ∧
      p.offset ≤ Elem.lenList (t.before ++ leadElems l1) + Elem.lenList a.elems := by
  unfold argPlace at h
  split at h
  · cases ht : a.tree with
    | none =>
      simp only [attrIn, ht] at h
      cases h
      simp only [AttrIn.bracketStart, OwnAttr.elems, lenList_append, ht, Option.map_none,
        Option.toList_none, Elem.lenList]
      omega
    | some cs =>
      simp only [attrIn, ht] at h
      cases h
      simp only [AttrIn.treeStart, OwnAttr.elems, lenList_append, ht, Option.map_some,
        Option.toList_some, Elem.lenList, Elem.len, treeOffset]
      split
      · cases hx : childAt Elem.isLParen (Elem.lenList (t.before ++ leadElems l1 ++ a.head)) cs with
        | none => simp only [lenList_append] at hx; simp only [hx, Option.map_none, Option.getD_none]; omega
        | some x =>
          have := childAt_bounds _ _ _ _ hx
          simp only [lenList_append] at hx this
          simp only [hx, Option.map_some, Option.getD_some]
          have : x.start ≤ x.stop := by simp [Placed.stop]
          omega
      · cases hx : childAt Elem.isRParen (Elem.lenList (t.before ++ leadElems l1 ++ a.head)) cs with
        | none => simp only [lenList_append] at hx; simp only [hx, Option.map_none, Option.getD_none]; omega
        | some x =>
          have := childAt_bounds _ _ _ _ hx
          simp only [lenList_append] at hx this
          simp only [hx, Option.map_some, Option.getD_some]
          have : x.start ≤ x.stop := by simp [Placed.stop]
          omega
  · cases h

theorem insertText_some (hash : String → Vector UInt8 32) (k : ArgKind) (off : Option Nat)
    (site : Option Site) (h : ∃ t, nextOf site off = some t) :
    ∃ r, insertText hash k off site = some r := by
  obtain ⟨t, ht⟩ := h
  have h1 : ∃ b, insertEqual site off k = some b := by
    unfold insertEqual
    split <;> simp [ht]
  obtain ⟨b, hb⟩ := h1
  have h2 : ∃ c, insertNested site off b k = some c := by
    unfold insertNested
    split
    · simp
    · split <;> simp [ht]
  obtain ⟨c, hc⟩ := h2
  exact ⟨_, by unfold insertText; rw [hb, Option.bind_some, hc]; rfl⟩

theorem extend_some (hash : String → Vector UInt8 32) (around : Around) (t : Target)
    (l1 l2 : List Lead) (a : OwnAttr) (k : ArgKind) (p : Place)
    (h : argPlace (attrIn t (t.before ++ leadElems l1, a, l2)) (some k) = some p) :
    ∃ e, extendEdit hash k p (siteOf around t (t.before ++ leadElems l1, a, l2)) = some e := by
  have hb := place_bounds t l1 l2 a k p h
  obtain ⟨r, hr⟩ := insertText_some hash k (some p.offset)
    (some (siteOf around t (t.before ++ leadElems l1, a, l2))) (by
      have : (Site.next (siteOf around t (t.before ++ leadElems l1, a, l2)) p.offset).isSome := by
        unfold Site.next
        rw [if_pos (by simp [siteOf, hb])]
        rfl
      exact Option.isSome_iff_exists.1 this)
  exact ⟨_, by rw [extendEdit, hr]; rfl⟩

theorem new_some (hash : String → Vector UInt8 32) (k : ArgKind) (off : Nat) :
    ∃ e, newEdit hash k off = some e := by
  obtain ⟨r, hr⟩ := insertText_some hash k (some off) none ⟨none, rfl⟩
  exact ⟨_, by rw [newEdit, hr]; rfl⟩

theorem mem_attrsFrom (b : List Elem) (l : List Lead) (x : List Elem × OwnAttr × List Lead)
    (h : x ∈ attrsFrom b l) :
    ∃ l1 l2, l = l1 ++ .attr x.2.1 :: l2 ∧ x = (b ++ leadElems l1, x.2.1, l2) := by
  induction l generalizing b with
  | nil => cases h
  | cons y l ih =>
    cases y with
    | attr a =>
      rcases List.mem_cons.1 h with rfl | h
      · exact ⟨[], l, rfl, by simp [leadElems]⟩
      · obtain ⟨l1, l2, h1, h2⟩ := ih _ h
        refine ⟨.attr a :: l1, l2, by rw [h1]; rfl, ?_⟩
        rw [h2]
        simp [leadElems_cons, Lead.elems]
    | trivia k s =>
      obtain ⟨l1, l2, h1, h2⟩ := ih _ h
      refine ⟨.trivia k s :: l1, l2, by rw [h1]; rfl, ?_⟩
      rw [h2]
      simp [leadElems_cons, Lead.elems]

theorem candidate_mem (t : Target) (x : List Elem × OwnAttr × List Lead) (h : t.candidate = some x) :
    ∃ l1 l2, t.lead = l1 ++ .attr x.2.1 :: l2 ∧ x = (t.before ++ leadElems l1, x.2.1, l2) := by
  obtain ⟨c, -, hc⟩ := Option.bind_eq_some_iff.1 h
  have := List.mem_of_getElem? hc
  exact mem_attrsFrom _ _ _ (List.mem_filter.1 this).1

theorem argEdit_cases (hash : String → Vector UInt8 32) (around : Around) (t : Target) (k : ArgKind) :
    (∃ l1 l2 a p, t.lead = l1 ++ .attr a :: l2 ∧
      t.candidate = some (t.before ++ leadElems l1, a, l2) ∧
      argPlace (attrIn t (t.before ++ leadElems l1, a, l2)) (some k) = some p ∧
      argEdit hash around t k = extendEdit hash k p (siteOf around t (t.before ++ leadElems l1, a, l2))) ∨
    (argEdit hash around t k = newEdit hash k t.insertOffset) := by
  unfold argEdit
  cases hc : t.candidate with
  | none => exact .inr rfl
  | some x =>
    obtain ⟨l1, l2, h1, h2⟩ := candidate_mem t x hc
    rw [Option.bind_some]
    cases hp : argPlace (attrIn t x) (some k) with
    | none => exact .inr rfl
    | some p =>
      refine .inl ⟨l1, l2, x.2.1, p, h1, by rw [← h2], by rw [← h2, hp], ?_⟩
      rw [← h2]
      rfl

theorem argEdit_some (hash : String → Vector UInt8 32) (around : Around) (t : Target) (k : ArgKind) :
    ∃ e, argEdit hash around t k = some e := by
  rcases argEdit_cases hash around t k with ⟨l1, l2, a, p, _, _, h3, h4⟩ | h
  · rw [h4]
    exact extend_some hash around t l1 l2 a k p h3
  · rw [h]
    exact new_some _ _ _

theorem mapM_some {α β : Type} (f : α → Option β) (l : List α) (h : ∀ x ∈ l, ∃ y, f x = some y) :
    ∃ r, l.mapM f = some r := by
  induction l with
  | nil => exact ⟨[], rfl⟩
  | cons x l ih =>
    obtain ⟨y, hy⟩ := h x (by simp)
    obtain ⟨r, hr⟩ := ih fun z hz => h z (by simp [hz])
    exact ⟨y :: r, by rw [List.mapM_cons, hy, hr]; rfl⟩

theorem mem_mapM {α β : Type} (f : α → Option β) (l : List α) (r : List β)
    (h : l.mapM f = some r) (y : β) : y ∈ r ↔ ∃ x ∈ l, f x = some y := by
  induction l generalizing r with
  | nil =>
    simp at h
    subst h
    simp
  | cons a l ih =>
    rw [List.mapM_cons] at h
    cases ha : f a with
    | none => simp [ha] at h
    | some b =>
      rw [ha] at h
      cases hl : l.mapM f with
      | none => simp [hl] at h
      | some bs =>
        rw [hl] at h
        have : r = b :: bs := by simpa using h.symm
        subst this
        simp only [List.mem_cons, ih bs hl, exists_eq_or_imp, ha, Option.some.injEq]
        rw [eq_comm]

/-- The actions on an item and where they come from. -/
theorem mem_item (hash : String → Vector UInt8 32) (around : Around) (v : Version) (t : Target)
    (focused inAttr inItem onField onDecl : Bool) (kind : ItemKind) (ti tm : Bool)
    (scope : List AttrKind) (cfgTest cfgE2e : Bool) (l : List Act)
    (h : itemActions hash around v t focused inAttr inItem onField onDecl kind ti tm scope cfgTest
      cfgE2e = some l) (x : Act) :
    x ∈ l ↔ (focused = true ∧ inAttr = false ∧ inItem = true ∧ (onField = true ∨ onDecl = true)) ∧
      ((∃ m ∈ itemMacroSuggestions v (inkOf t.lead) kind scope cfgTest cfgE2e,
          x = ⟨.macro m, some ⟨t.insertOffset, macroText m, none⟩⟩) ∨
        ∃ k ∈ itemArgSuggestions v (inkOf t.lead) kind ti tm scope, ∃ e,
          argEdit hash around t k = some e ∧ x = ⟨.arg k, some e⟩) := by
  unfold itemActions at h
  split at h
  · rename_i hg
    have hg' : focused = true ∧ inAttr = false ∧ inItem = true ∧ (onField = true ∨ onDecl = true) := by
      simpa [and_assoc] using hg
    obtain ⟨l', h1, rfl⟩ := Option.map_eq_some_iff.1 h
    have h2 := mem_mapM _ _ _ h1 x
    rw [List.mem_append, h2, inkKinds_eq]
    simp only [hg', true_and]
    simp only [macroActs, inkKinds_eq, List.mem_map, Option.map_eq_some_iff]
    simp only [eq_comm]
  · rename_i hg
    cases h
    have hg' : ¬ (focused = true ∧ inAttr = false ∧ inItem = true ∧
        (onField = true ∨ onDecl = true)) := by
      simpa [and_assoc] using hg
    simp only [hg', false_and]
    simp

theorem withNew_ok (pe : ExprParser) (k : ArgKind) (ws : List Written) (n : Written)
    (ws' : List Written) (hws : ∀ w ∈ ws, w.Ok pe) (hn : n.Ok pe) (h : WithNew k ws n ws') :
    ∀ w ∈ ws', w.Ok pe := by
  unfold WithNew at h
  have h1 : ∀ w ∈ [n], w.Ok pe := by
    intro w hw
    rw [List.mem_singleton.1 hw]
    exact hn
  split at h
  · subst h
    intro w hw
    rcases List.mem_cons.1 hw with rfl | hw
    · exact hn
    · exact spaceFirst_ok pe ws hws w hw
  · rcases h with rfl | rfl <;> intro w hw <;> rcases List.mem_append.1 hw with hw | hw
    · exact hws w hw
    · exact h1 w hw
    · exact hws w hw
    · exact spaceFirst_ok pe [n] h1 w hw

/-! ### Affixes -/

theorem comma_cases (kinds : List Ir.TokKind) (o : Option Leaf) (s : String)
    (h : o.bind (commaUnless kinds) = some s) : s = ", " := by
  obtain ⟨t, -, h⟩ := Option.bind_eq_some_iff.1 h
  unfold commaUnless at h
  split at h
  · cases h
  · cases h
    rfl

theorem comma2_cases (kinds : List Ir.TokKind) (f : Placed → Option Leaf) (o : Option Placed) (s : String)
    (h : (o.bind fun r => (f r).bind (commaUnless kinds)) = some s) : s = ", " := by
  obtain ⟨t, -, h⟩ := Option.bind_eq_some_iff.1 h
  exact comma_cases _ _ _ h

theorem affix_cases (a : AttrIn) (k : Option ArgKind) (p : Place) (h : argPlace a k = some p) :
    (∀ s, p.before = some s → s = "(" ∨ s = ", ") ∧ ∀ s, p.after = some s → s = ")" ∨ s = ", " := by
  unfold argPlace at h
  split at h
  · cases ht : a.tree with
    | none =>
      simp only [ht] at h
      cases h
      exact ⟨fun s hs => by cases hs; exact .inl rfl, fun s hs => by cases hs; exact .inl rfl⟩
    | some cs =>
      simp only [ht] at h
      cases h
      constructor
      · intro s hs
        simp only [treePrefix] at hs
        split at hs
        · split at hs
          · cases hs
          · rcases Option.or_eq_some_iff.1 hs with hs | ⟨_, hs⟩
            · exact .inr (comma2_cases _ _ _ _ hs)
            · exact .inr (comma_cases _ _ _ hs)
        · cases hs
          exact .inl rfl
      · intro s hs
        simp only [treeSuffix] at hs
        split at hs
        · split at hs
          · rcases Option.or_eq_some_iff.1 hs with hs | ⟨_, hs⟩
            · exact .inr (comma2_cases _ _ _ _ hs)
            · exact .inr (comma_cases _ _ _ hs)
          · cases hs
        · cases hs
          exact .inl rfl
  · cases h

theorem extend_shows (hash : String → Vector UInt8 32) (around : Around) (t : Target)
    (l1 l2 : List Lead) (a : OwnAttr) (k : ArgKind) (p : Place)
    (h : argPlace (attrIn t (t.before ++ leadElems l1, a, l2)) (some k) = some p)
    (henv : ∀ p, around.environment = some p → Clean p.toList) (e : Edit)
    (he : extendEdit hash k p (siteOf around t (t.before ++ leadElems l1, a, l2)) = some e) :
    Shows e := by
  obtain ⟨⟨text, sn⟩, h1, rfl⟩ := Option.map_eq_some_iff.1 he
  intro s hs
  obtain ⟨x, hx, rfl⟩ := Option.map_eq_some_iff.1 hs
  simp only at hx
  subst hx
  have hx := C80_snippet hash k _ _ text x h1 (fun s p hs hp => by cases hs; exact henv p hp)
  obtain ⟨hb, ha⟩ := affix_cases _ _ _ h
  have hb' : ∀ c ∈ (p.before.getD "").toList, c ≠ '$' ∧ c ≠ '\\' := by
    cases hp : p.before with
    | none => simp
    | some s => rcases hb s hp with rfl | rfl <;> decide
  have ha' : (∀ c ∈ (p.after.getD "").toList, c ≠ '$' ∧ c ≠ '\\') ∧
      ∀ c, (p.after.getD "").toList.head? = some c → decimal c = none := by
    cases hp : p.after with
    | none => simp
    | some s => rcases ha s hp with rfl | rfl <;> exact ⟨by decide, fun c hc => by cases hc; decide⟩
  have := expand_affix _ _ _ _ hx hb' ha'.1 ha'.2
  simpa [Place.insertion, String.toList_append] using this

theorem new_shows (hash : String → Vector UInt8 32) (k : ArgKind) (off : Nat) (e : Edit)
    (he : newEdit hash k off = some e) : Shows e := by
  obtain ⟨⟨text, sn⟩, h1, rfl⟩ := Option.map_eq_some_iff.1 he
  intro s hs
  obtain ⟨x, hx, rfl⟩ := Option.map_eq_some_iff.1 hs
  simp only at hx
  subst hx
  have hx := C80_snippet hash k _ _ text x h1 (fun s p hs hp => by cases hs)
  have := expand_affix "#[ink(".toList _ ")]".toList _ hx (by decide) (by decide)
    (fun c hc => by cases hc; decide)
  simpa [inkText, String.toList_append] using this

/-! ## Theorems -/

/-- C102. The actions are always computed: no focus, no layout of attributes makes them panic. -/
theorem C102_total (hash : String → Vector UInt8 32) (around : Around) (v : Version) (t : Target) :
    (∀ focused inAttr inItem onField onDecl kind ti tm scope cfgTest cfgE2e,
      ∃ l, itemActions hash around v t focused inAttr inItem onField onDecl kind ti tm scope cfgTest
        cfgE2e = some l) ∧
    ∀ l1 a l2 k tm scope, t.lead = l1 ++ .attr a :: l2 →
      ∃ l, attrActions hash around v t (t.before ++ leadElems l1, a, l2) k tm scope = some l := by
  constructor
  · intro focused inAttr inItem onField onDecl kind ti tm scope cfgTest cfgE2e
    unfold itemActions
    split
    · obtain ⟨r, hr⟩ := mapM_some (fun k => (argEdit hash around t k).map fun e =>
        (⟨.arg k, some e⟩ : Act)) (itemArgSuggestions v t.inkKinds kind ti tm scope)
        (fun k _ => by
          obtain ⟨e, he⟩ := argEdit_some hash around t k
          exact ⟨_, by rw [he]; rfl⟩)
      exact ⟨_, by rw [argActs, hr]; rfl⟩
    · exact ⟨_, rfl⟩
  · intro l1 a l2 k tm scope _
    unfold attrActions
    split
    · obtain ⟨r, hr⟩ := mapM_some (attrArg hash around t (t.before ++ leadElems l1, a, l2))
        (attrArgSuggestions v t.inkKinds k a.closed tm scope) (fun q _ => by
          unfold attrArg
          cases hp : argPlace (attrIn t (t.before ++ leadElems l1, a, l2)) (some q) with
          | none => exact ⟨_, rfl⟩
          | some p =>
            obtain ⟨e, he⟩ := extend_some hash around t l1 l2 a q p hp
            exact ⟨[⟨.arg q, some e⟩], by simp only [he]; rfl⟩)
      exact ⟨_, by rw [hr]; rfl⟩
    · exact ⟨_, rfl⟩

/-- C102. A macro is offered iff the cursor is in an item, not in an attribute, and either in a field of a
struct or on the declaration of the item, the item has no ink! attribute, and the macro fits the item
and its surroundings. -/
theorem C102_macros_offered (hash : String → Vector UInt8 32) (around : Around) (v : Version)
    (t : Target) (focused inAttr inItem onField onDecl : Bool) (kind : ItemKind) (ti tm : Bool)
    (scope : List AttrKind) (cfgTest cfgE2e : Bool) (l : List Act)
    (h : itemActions hash around v t focused inAttr inItem onField onDecl kind ti tm scope cfgTest
      cfgE2e = some l) (m : MacroKind) :
    (∃ e, ⟨.macro m, e⟩ ∈ l) ↔
      (focused = true ∧ inAttr = false ∧ inItem = true ∧ (onField = true ∨ onDecl = true)) ∧
      inkOf t.lead = [] ∧ m ∈ macrosBySyntax kind v ∧
      (scope ≠ [] → ∃ s ∈ scope, m ∈ validDescendantMacros s v) ∧
      (m = .test → cfgTest = true) ∧ (m = .e2eTest → cfgTest = true ∧ cfgE2e = true) := by
  have key := mem_item hash around v t focused inAttr inItem onField onDecl kind ti tm scope cfgTest
    cfgE2e l h
  have h1 : (∃ e, (⟨.macro m, e⟩ : Act) ∈ l) ↔
      (focused = true ∧ inAttr = false ∧ inItem = true ∧ (onField = true ∨ onDecl = true)) ∧
      m ∈ itemMacroSuggestions v (inkOf t.lead) kind scope cfgTest cfgE2e := by
    constructor
    · rintro ⟨e, he⟩
      obtain ⟨hg, ⟨m', hm, hx⟩ | ⟨k, _, _, _, hx⟩⟩ := (key _).1 he
      · cases hx
        exact ⟨hg, hm⟩
      · cases hx
    · rintro ⟨hg, hm⟩
      exact ⟨_, (key _).2 ⟨hg, .inl ⟨m, hm, rfl⟩⟩⟩
  rw [h1]
  refine and_congr_right fun _ => ?_
  by_cases hi : inkOf t.lead = []
  · rw [hi, C61_macros]
    simp
  · rw [C61_annotated v _ hi]
    simp [hi]

/-- The arguments that are offered. -/
theorem args_offered (hash : String → Vector UInt8 32) (around : Around) (v : Version)
    (t : Target) (focused inAttr inItem onField onDecl : Bool) (kind : ItemKind) (ti tm : Bool)
    (scope : List AttrKind) (cfgTest cfgE2e : Bool) (l : List Act)
    (h : itemActions hash around v t focused inAttr inItem onField onDecl kind ti tm scope cfgTest
      cfgE2e = some l) (k : ArgKind) :
    (∃ e, ⟨.arg k, e⟩ ∈ l) ↔
      (focused = true ∧ inAttr = false ∧ inItem = true ∧ (onField = true ∨ onDecl = true)) ∧
      k ∈ itemArgSuggestions v (inkOf t.lead) kind ti tm scope := by
  have key := mem_item hash around v t focused inAttr inItem onField onDecl kind ti tm scope cfgTest
    cfgE2e l h
  constructor
  · rintro ⟨e, he⟩
    obtain ⟨hg, ⟨m', hm, hx⟩ | ⟨k, hk, _, _, hx⟩⟩ := (key _).1 he
    · cases hx
    · cases hx
      exact ⟨hg, hk⟩
  · rintro ⟨hg, hk⟩
    obtain ⟨e, he⟩ := argEdit_some hash around t k
    exact ⟨_, (key _).2 ⟨hg, .inr ⟨k, hk, e, he, rfl⟩⟩⟩

/-- C102. On an item with a known ink! attribute an argument is offered iff the cursor is in the right
place, the item is not a message of an implemented trait definition, and the argument may stand beside
the main attribute, is not there yet and is allowed where the item is. -/
theorem C102_args_offered (hash : String → Vector UInt8 32) (around : Around) (v : Version)
    (t : Target) (focused inAttr inItem onField onDecl : Bool) (kind : ItemKind) (ti tm : Bool)
    (scope : List AttrKind) (cfgTest cfgE2e : Bool) (l : List Act)
    (h : itemActions hash around v t focused inAttr inItem onField onDecl kind ti tm scope cfgTest
      cfgE2e = some l) (P : AttrV) (p : Nat) (hP : IsPrimary (inkOf t.lead) p P) (hw : P.Wf)
    (k : ArgKind) :
    (∃ e, ⟨.arg k, e⟩ ∈ l) ↔
      (focused = true ∧ inAttr = false ∧ inItem = true ∧ (onField = true ∨ onDecl = true)) ∧
      tm = false ∧ k ∈ validSiblings P.kind v ∧ ¬ HasArg (inkOf t.lead) k ∧
      ¬ EventClash v (inkOf t.lead) k ∧ ¬ (ti = true ∧ k = .namespace) ∧
      ((∃ a, P.kind = .arg a) → ScopeOpen v scope → ScopeAllows v scope k) := by
  rw [args_offered hash around v t focused inAttr inItem onField onDecl kind ti tm scope cfgTest
    cfgE2e l h]
  refine and_congr_right fun _ => ?_
  cases tm with
  | true => simp [itemArgSuggestions]
  | false => rw [C28_item v _ P p hP hw]; simp

/-- C102. On an item without known ink! attribute: iff the argument fits the kind of item. -/
theorem C102_args_offered_bare (hash : String → Vector UInt8 32) (around : Around) (v : Version)
    (t : Target) (focused inAttr inItem onField onDecl : Bool) (kind : ItemKind) (ti tm : Bool)
    (scope : List AttrKind) (cfgTest cfgE2e : Bool) (l : List Act)
    (h : itemActions hash around v t focused inAttr inItem onField onDecl kind ti tm scope cfgTest
      cfgE2e = some l) (hP : ∀ a ∈ inkOf t.lead, ¬ Known a.kind) (k : ArgKind) :
    (∃ e, ⟨.arg k, e⟩ ∈ l) ↔
      (focused = true ∧ inAttr = false ∧ inItem = true ∧ (onField = true ∨ onDecl = true)) ∧
      tm = false ∧ k ∈ argsBySyntax kind v ∧ ¬ HasArg (inkOf t.lead) k ∧
      ¬ (ti = true ∧ k = .namespace) ∧ (ScopeOpen v scope → ScopeAllows v scope k) := by
  rw [args_offered hash around v t focused inAttr inItem onField onDecl kind ti tm scope cfgTest
    cfgE2e l h]
  refine and_congr_right fun _ => ?_
  cases tm with
  | true => simp [itemArgSuggestions]
  | false => rw [C28_item_bare v _ hP]; simp

/-- C102. Applying the action for a macro puts an attribute between the other attributes of the item and
the item, which is read as that macro; nothing else in the file changes. -/
theorem C102_macro (pe : ExprParser) (hash : String → Vector UInt8 32) (around : Around) (v : Version)
    (t : Target) (hp : Proper t) (focused inAttr inItem onField onDecl : Bool) (kind : ItemKind)
    (ti tm : Bool) (scope : List AttrKind) (cfgTest cfgE2e : Bool) (l : List Act)
    (h : itemActions hash around v t focused inAttr inItem onField onDecl kind ti tm scope cfgTest
      cfgE2e = some l) (m : MacroKind) (e : Option Edit) (he : ⟨.macro m, e⟩ ∈ l) :
    ∃ e' a, e = some e' ∧ e'.snippet = none ∧ ReadAs pe a (.macro m) [] ∧
      Inserts (textOf t) (e'.offset, e'.text) (textOf (withLead t (t.lead ++ [.attr a]))) := by
  obtain ⟨-, ⟨m', hm, hx⟩ | ⟨k, _, _, _, hx⟩⟩ := (mem_item hash around v t focused inAttr inItem onField
    onDecl kind ti tm scope cfgTest cfgE2e l h _).1 he
  · cases hx
    have hi : inkOf t.lead = [] := Classical.byContradiction fun hi => by
      rw [C61_annotated v _ hi] at hm
      cases hm
    have hmu : m ≠ .unknown := by
      rintro rfl
      rw [hi, C61_macros, C61_kinds] at hm
      simp at hm
    obtain ⟨l1, l2, h1, h2, h3⟩ := offset_spot t hp
    have : l2 = [] ∧ l1 = t.lead := by
      rcases h2 with ⟨_, rfl⟩ | ⟨x, a, q, rfl, ha, _⟩
      · exact ⟨rfl, by simpa using h1.symm⟩
      · rw [h1] at hi
        exfalso
        cases ha' : a.ink with
        | none => exact ha ha'
        | some v => simp [inkOf, ha'] at hi
    obtain ⟨rfl, rfl⟩ := this
    refine ⟨_, macroAttr m, rfl, rfl, (macroAttr_read pe m).resolve_right hmu, ?_⟩
    exact inserts_attr t t.lead [] (by simp) _ _ (macroAttr_text m hmu) _ h3
  · cases hx

/-- C102. On an item without known ink! attribute, applying the action for an argument adds an
attribute behind the ink! attributes (if there are any, else behind all attributes), which is read as
that argument, with a value that is accepted; nothing else in the file changes.
Missing for the full claim: `signature_topic` (`C80_negation_topic`). -/
theorem C102_new_partial (pe : ExprParser) (fi : String → Option String)
    (hash : String → Vector UInt8 32) (around : Around) (v : Version)
    (t : Target) (hp : Proper t) (focused inAttr inItem onField onDecl : Bool) (kind : ItemKind)
    (ti tm : Bool) (scope : List AttrKind) (cfgTest cfgE2e : Bool) (l : List Act)
    (h : itemActions hash around v t focused inAttr inItem onField onDecl kind ti tm scope cfgTest
      cfgE2e = some l) (hP : ∀ a ∈ inkOf t.lead, ¬ Known a.kind) (k : ArgKind) (hk : k ≠ .unknown)
    (hs : k ≠ .signatureTopic) (hr : Reads pe fi "ink::env::DefaultEnvironment")
    (attr : Option AttrKind) (e : Option Edit) (he : ⟨.arg k, e⟩ ∈ l) :
    ∃ e' a n l1 l2, e = some e' ∧ t.lead = l1 ++ l2 ∧ Spot l1 l2 ∧ ReadAs pe a (.arg k) [n] ∧
      Accepted pe fi v attr k n ∧
      Inserts (textOf t) (e'.offset, e'.text) (textOf (withLead t (l1 ++ .attr a :: l2))) := by
  obtain ⟨-, ⟨m', hm, hx⟩ | ⟨k, hk', e', he', hx⟩⟩ := (mem_item hash around v t focused inAttr inItem
    onField onDecl kind ti tm scope cfgTest cfgE2e l h _).1 he
  · cases hx
  · cases hx
    have hc : t.candidate = none := by
      unfold Target.candidate
      rw [inkKinds_eq, no_primary _ hP]
      rfl
    unfold argEdit at he'
    rw [hc] at he'
    simp only [Option.bind_none] at he'
    obtain ⟨text, sn, h1, n, h2, h3, h4⟩ := C80_accepted_partial pe fi hash k hk hs none
      (some t.insertOffset) (fun s' o h1 _ => by cases h1) hr
      ⟨fun ⟨s', o, h1, _⟩ => by (cases h1), fun ⟨s', o, h1, _⟩ => by (cases h1)⟩ v attr
      (fun _ _ s' h3 => by cases h3)
    unfold newEdit at he'
    rw [h1] at he'
    cases he'
    obtain ⟨l1, l2, g1, g2, g3⟩ := offset_spot t hp
    refine ⟨_, argAttr k n, n, l1, l2, rfl, g1, g2, argAttr_read pe fi v attr k n h2 h4, h4, ?_⟩
    exact inserts_attr t l1 l2 g1 _ _ (by rw [← argAttr_text, h3]) _ g3

/-- The edit for an argument on an item with a primary attribute. -/
theorem argEdit_primary (hash : String → Vector UInt8 32) (around : Around) (t : Target)
    (l1 l2 : List Lead) (a : OwnAttr) (P : AttrV) (hl : t.lead = l1 ++ .attr a :: l2)
    (ha : a.ink = some P) (hc : a.closed = true)
    (hP : IsPrimary (inkOf t.lead) (inkOf l1).length P) (k : ArgKind) :
    argEdit hash around t k = extension hash around t l1 l2 a k := by
  have h1 : t.candidate = some (t.before ++ leadElems l1, a, l2) := by
    unfold Target.candidate
    rw [inkKinds_eq, (C43_primary _ P _).2 hP, Option.bind_some]
    exact inkAttrs_at t l1 l2 a hl (by simp [ha])
  unfold argEdit extension
  rw [h1, Option.bind_some]
  cases hp : argPlace (attrIn t (t.before ++ leadElems l1, a, l2)) (some k) with
  | none => simp [argPlace, attrIn, hc] at hp
  | some p => rfl

/-- C102. On an item whose main ink! attribute has an argument list, applying the action for an argument
adds it to this list (in front if it decides the kind of the attribute, else at the end), with a value
that is accepted; nothing else in the file changes.
Missing for the full claim: `signature_topic`, `extension` on functions of ink! 5 (which is not offered
there) and lists with white space behind a trailing comma or of white space only (see C79, C80). -/
theorem C102_extend_partial (pe : ExprParser) (fi : String → Option String)
    (hash : String → Vector UInt8 32) (around : Around) (v : Version) (t : Target) (hp : Proper t)
    (focused inAttr inItem onField onDecl : Bool) (kind : ItemKind)
    (ti tm : Bool) (scope : List AttrKind) (cfgTest cfgE2e : Bool) (l : List Act)
    (h : itemActions hash around v t focused inAttr inItem onField onDecl kind ti tm scope cfgTest
      cfgE2e = some l) (l1 l2 : List Lead) (a : OwnAttr) (P : AttrV) (tr : Bool) (ws : List Written)
    (hl : t.lead = l1 ++ .attr a :: l2) (ha : a.ink = some P) (hc : a.closed = true)
    (hP : IsPrimary (inkOf t.lead) (inkOf l1).length P) (htree : a.tree = some (listed tr ws))
    (hws : ∀ w ∈ ws, w.Ok pe) (hshut : ∀ w ∈ ws, Shut w) (k : ArgKind)
    (hk : k ≠ .unknown) (hs : k ≠ .signatureTopic)
    (hr : Reads pe fi (around.environment.getD "ink::env::DefaultEnvironment"))
    (hv : k = .extension → v = .v5 → around.onFn = false)
    (attr : Option AttrKind) (e : Option Edit) (he : ⟨.arg k, e⟩ ∈ l) :
    ∃ e' n tr' ws', e = some e' ∧ WithNew k ws n ws' ∧ Accepted pe fi v attr k n ∧
      (∀ w ∈ ws', w.Ok pe) ∧
      Inserts (textOf t) (e'.offset, e'.text)
        (textOf (withLead t (l1 ++ .attr (withTree a tr' ws') :: l2))) := by
  obtain ⟨-, ⟨m', hm, hx⟩ | ⟨k, hk', e', he', hx⟩⟩ := (mem_item hash around v t focused inAttr inItem
    onField onDecl kind ti tm scope cfgTest cfgE2e l h _).1 he
  · cases hx
  · cases hx
    rw [argEdit_primary hash around t l1 l2 a P hl ha hc hP] at he'
    obtain ⟨e'', n, tr', ws', h1, h2, h3, h4, h5, h6⟩ := extend_list pe fi hash around v attr t l1 l2 a
      tr ws k hp.full hl hc htree hws hshut hk hs hr hv
    rw [he'] at h1
    cases h1
    exact ⟨e', n, tr', ws', rfl, h4, h3, withNew_ok pe k ws n ws' hws h2 h4, h5⟩

/-- C102. The same on an item whose main ink! attribute has no argument list: it gets one with just
the argument. -/
theorem C102_extend_bare_partial (pe : ExprParser) (fi : String → Option String)
    (hash : String → Vector UInt8 32) (around : Around) (v : Version) (t : Target) (hp : Proper t)
    (focused inAttr inItem onField onDecl : Bool) (kind : ItemKind)
    (ti tm : Bool) (scope : List AttrKind) (cfgTest cfgE2e : Bool) (l : List Act)
    (h : itemActions hash around v t focused inAttr inItem onField onDecl kind ti tm scope cfgTest
      cfgE2e = some l) (l1 l2 : List Lead) (a : OwnAttr) (P : AttrV)
    (hl : t.lead = l1 ++ .attr a :: l2) (ha : a.ink = some P) (hc : a.closed = true)
    (hP : IsPrimary (inkOf t.lead) (inkOf l1).length P) (htree : a.tree = none) (k : ArgKind)
    (hk : k ≠ .unknown) (hs : k ≠ .signatureTopic)
    (hr : Reads pe fi (around.environment.getD "ink::env::DefaultEnvironment"))
    (hv : k = .extension → v = .v5 → around.onFn = false)
    (attr : Option AttrKind) (e : Option Edit) (he : ⟨.arg k, e⟩ ∈ l) :
    ∃ e' n, e = some e' ∧ Accepted pe fi v attr k n ∧ n.Ok pe ∧
      Inserts (textOf t) (e'.offset, e'.text)
        (textOf (withLead t (l1 ++ .attr (givenTree a [n]) :: l2))) := by
  obtain ⟨-, ⟨m', hm, hx⟩ | ⟨k, hk', e', he', hx⟩⟩ := (mem_item hash around v t focused inAttr inItem
    onField onDecl kind ti tm scope cfgTest cfgE2e l h _).1 he
  · cases hx
  · cases hx
    rw [argEdit_primary hash around t l1 l2 a P hl ha hc hP] at he'
    obtain ⟨e'', n, h1, h2, h3, h4, h5⟩ := extend_bare pe fi hash around v attr t l1 l2 a
      k hp.full hl hc htree hk hs hr hv
    rw [he'] at h1
    cases h1
    exact ⟨e', n, rfl, h3, h2, h4⟩

/-- The actions on an attribute and where they come from. -/
theorem mem_attr (hash : String → Vector UInt8 32) (around : Around) (v : Version) (t : Target)
    (l1 l2 : List Lead) (a : OwnAttr) (k : AttrKind) (tm : Bool) (scope : List AttrKind) (l : List Act)
    (h : attrActions hash around v t (t.before ++ leadElems l1, a, l2) k tm scope = some l) (x : Act) :
    x ∈ l ↔ a.closed = true ∧ tm = false ∧ (x ∈ startActs v k ∨
      ∃ q ∈ attrArgSuggestions v (inkOf t.lead) k a.closed tm scope, ∃ e,
        extension hash around t l1 l2 a q = some e ∧ x = ⟨.arg q, some e⟩) := by
  unfold attrActions at h
  split at h
  · rename_i hg
    have hg' : a.closed = true ∧ tm = false := by simpa using hg
    obtain ⟨l', h1, rfl⟩ := Option.map_eq_some_iff.1 h
    simp only [hg', true_and, List.mem_append, List.mem_flatten]
    refine or_congr_right ?_
    rw [inkKinds_eq] at h1
    simp only [hg'] at h1
    have hm := mem_mapM _ _ _ h1
    constructor
    · rintro ⟨y, hy, hx⟩
      obtain ⟨q, hq, hq'⟩ := (hm y).1 hy
      unfold attrArg at hq'
      refine ⟨q, hq, ?_⟩
      cases hp : argPlace (attrIn t (t.before ++ leadElems l1, a, l2)) (some q) with
      | none =>
        rw [hp] at hq'
        cases hq'
        cases hx
      | some p =>
        rw [hp] at hq'
        obtain ⟨e, he, rfl⟩ := Option.map_eq_some_iff.1 hq'
        exact ⟨e, by rw [extension, hp]; exact he, List.mem_singleton.1 hx⟩
    · rintro ⟨q, hq, e, he, rfl⟩
      refine ⟨[⟨.arg q, some e⟩], (hm _).2 ⟨q, hq, ?_⟩, by simp⟩
      unfold extension at he
      obtain ⟨p, hp, he⟩ := Option.bind_eq_some_iff.1 he
      unfold attrArg
      simp only [hp, he]
      rfl
  · rename_i hg
    cases h
    have hg' : ¬ (a.closed = true ∧ tm = false) := by simpa using hg
    constructor
    · intro hx
      cases hx
    · rintro ⟨h1, h2, _⟩
      exact absurd ⟨h1, h2⟩ hg'

/-- C102. On an attribute of kind `k`: arguments are offered iff the attribute is closed, the item is not
a message of an implemented trait definition, and the argument may stand beside this attribute and the
main attribute of the item, is not there yet and is allowed where the item is; migration iff the
project is in ink! 4 and the attribute is one of four macros; extraction iff it is in ink! 5 and the
attribute makes an event. -/
theorem C102_attr_offered (hash : String → Vector UInt8 32) (around : Around) (v : Version) (t : Target)
    (l1 l2 : List Lead) (a : OwnAttr) (k : AttrKind) (tm : Bool) (scope : List AttrKind) (l : List Act)
    (h : attrActions hash around v t (t.before ++ leadElems l1, a, l2) k tm scope = some l) (P : AttrV)
    (p : Nat) (hP : IsPrimary (inkOf t.lead) p P) (hw : P.Wf) :
    (∀ q, (∃ e, ⟨.arg q, e⟩ ∈ l) ↔ a.closed = true ∧ tm = false ∧ q ∈ validSiblings k v ∧
      q ∈ validSiblings P.kind v ∧ ¬ HasArg (inkOf t.lead) q ∧ ¬ EventClash v (inkOf t.lead) q ∧
      ((∃ a, k = .arg a) → ScopeOpen v scope → ScopeAllows v scope q)) ∧
    (∀ m e, ⟨.macro m, e⟩ ∉ l) ∧
    (∀ e, ⟨.migrate, e⟩ ∈ l ↔ e = none ∧ a.closed = true ∧ tm = false ∧ v = .v4 ∧
      (k = .macro .contract ∨ k = .macro .traitDefinition ∨ k = .macro .chainExtension ∨
        k = .macro .storageItem)) ∧
    (∀ e, ⟨.extract, e⟩ ∈ l ↔ e = none ∧ a.closed = true ∧ tm = false ∧ v = .v5 ∧
      (k = .macro .event ∨ k = .arg .event)) := by
  have key := mem_attr hash around v t l1 l2 a k tm scope l h
  refine ⟨fun q => ?_, fun m e he => ?_, fun e => ?_, fun e => ?_⟩
  · have h1 : (∃ e, (⟨.arg q, e⟩ : Act) ∈ l) ↔ a.closed = true ∧ tm = false ∧
        q ∈ attrArgSuggestions v (inkOf t.lead) k a.closed tm scope := by
      constructor
      · rintro ⟨e, he⟩
        obtain ⟨g1, g2, g3 | ⟨q', hq', e', _, hx⟩⟩ := (key _).1 he
        · unfold startActs at g3
          rcases List.mem_append.1 g3 with g3 | g3 <;> split at g3 <;> simp at g3
        · cases hx
          exact ⟨g1, g2, hq'⟩
      · rintro ⟨g1, g2, hq⟩
        cases hp : argPlace (attrIn t (t.before ++ leadElems l1, a, l2)) (some q) with
        | none => simp [argPlace, attrIn, g1] at hp
        | some p =>
          obtain ⟨e, he⟩ := extend_some hash around t l1 l2 a q p hp
          exact ⟨_, (key _).2 ⟨g1, g2, .inr ⟨q, hq, e, by rw [extension, hp]; exact he, rfl⟩⟩⟩
    rw [h1, C28_attr v _ P p hP hw]
    constructor
    · rintro ⟨_, _, g⟩
      exact g
    · intro g
      exact ⟨g.1, g.2.1, g⟩
  · obtain ⟨g1, g2, g3 | ⟨q', hq', e', _, hx⟩⟩ := (key _).1 he
    · unfold startActs at g3
      rcases List.mem_append.1 g3 with g3 | g3 <;> split at g3 <;> simp at g3
    · cases hx
  · rw [key]
    have hs : (⟨.migrate, e⟩ : Act) ∈ startActs v k ↔ e = none ∧ v = .v4 ∧
        (k = .macro .contract ∨ k = .macro .traitDefinition ∨ k = .macro .chainExtension ∨
        k = .macro .storageItem) := by
      unfold startActs
      rw [List.mem_append]
      have : (⟨.migrate, e⟩ : Act) ∉ (if v = .v5 ∧ k ∈ [.macro .event, .arg .event]
          then [(⟨.extract, none⟩ : Act)] else []) := by split <;> simp
      simp only [this, or_false]
      split
      · rename_i hv
        have hk := hv.2
        simp only [List.mem_cons, List.not_mem_nil, or_false] at hk
        simp [hv.1, hk]
      · rename_i hv
        simp only [List.mem_cons, List.not_mem_nil, or_false] at hv
        simp only [List.not_mem_nil, false_iff]
        exact fun g => hv g.2
    rw [hs]
    constructor
    · rintro ⟨g1, g2, g3 | ⟨_, _, _, _, hx⟩⟩
      · exact ⟨g3.1, g1, g2, g3.2⟩
      · cases hx
    · rintro ⟨g1, g2, g3, g4⟩
      exact ⟨g2, g3, .inl ⟨g1, g4⟩⟩
  · rw [key]
    have hs : (⟨.extract, e⟩ : Act) ∈ startActs v k ↔ e = none ∧ v = .v5 ∧
        (k = .macro .event ∨ k = .arg .event) := by
      unfold startActs
      rw [List.mem_append]
      have : (⟨.extract, e⟩ : Act) ∉ (if v = .v4 ∧ k ∈ [.macro .contract, .macro .traitDefinition,
          .macro .chainExtension, .macro .storageItem] then [(⟨.migrate, none⟩ : Act)] else []) := by
        split <;> simp
      simp only [this, false_or]
      split
      · rename_i hv
        have hk := hv.2
        simp only [List.mem_cons, List.not_mem_nil, or_false] at hk
        simp [hv.1, hk]
      · rename_i hv
        simp only [List.mem_cons, List.not_mem_nil, or_false] at hv
        simp only [List.not_mem_nil, false_iff]
        exact fun g => hv g.2
    rw [hs]
    constructor
    · rintro ⟨g1, g2, g3 | ⟨_, _, _, _, hx⟩⟩
      · exact ⟨g3.1, g1, g2, g3.2⟩
      · cases hx
    · rintro ⟨g1, g2, g3, g4⟩
      exact ⟨g2, g3, .inl ⟨g1, g4⟩⟩

/-- C102. Applying the action for an argument of an attribute adds it to the list of this attribute.
Missing for the full claim: as for `C102_extend_partial`. -/
theorem C102_attr_partial (pe : ExprParser) (fi : String → Option String)
    (hash : String → Vector UInt8 32) (around : Around) (v : Version) (t : Target) (hp : Proper t)
    (l1 l2 : List Lead) (a : OwnAttr) (kind : AttrKind) (tm : Bool) (scope : List AttrKind) (l : List Act)
    (h : attrActions hash around v t (t.before ++ leadElems l1, a, l2) kind tm scope = some l)
    (hl : t.lead = l1 ++ .attr a :: l2) (tr : Bool) (ws : List Written)
    (htree : a.tree = some (listed tr ws)) (hws : ∀ w ∈ ws, w.Ok pe) (hshut : ∀ w ∈ ws, Shut w)
    (k : ArgKind) (hk : k ≠ .unknown) (hs : k ≠ .signatureTopic)
    (hr : Reads pe fi (around.environment.getD "ink::env::DefaultEnvironment"))
    (hv : k = .extension → v = .v5 → around.onFn = false)
    (attr : Option AttrKind) (e : Option Edit) (he : ⟨.arg k, e⟩ ∈ l) :
    ∃ e' n tr' ws', e = some e' ∧ WithNew k ws n ws' ∧ Accepted pe fi v attr k n ∧
      (∀ w ∈ ws', w.Ok pe) ∧
      Inserts (textOf t) (e'.offset, e'.text)
        (textOf (withLead t (l1 ++ .attr (withTree a tr' ws') :: l2))) := by
  obtain ⟨hc, -, g3 | ⟨q, -, e', he', hx⟩⟩ := (mem_attr hash around v t l1 l2 a kind tm scope l h _).1 he
  · unfold startActs at g3
    rcases List.mem_append.1 g3 with g3 | g3 <;> split at g3 <;> simp at g3
  · cases hx
    obtain ⟨e'', n, tr', ws', h1, h2, h3, h4, h5, h6⟩ := extend_list pe fi hash around v attr t l1 l2 a
      tr ws k hp.full hl hc htree hws hshut hk hs hr hv
    rw [he'] at h1
    cases h1
    exact ⟨e', n, tr', ws', rfl, h4, h3, withNew_ok pe k ws n ws' hws h2 h4, h5⟩

/-- C102. The same for an attribute without argument list. -/
theorem C102_attr_bare_partial (pe : ExprParser) (fi : String → Option String)
    (hash : String → Vector UInt8 32) (around : Around) (v : Version) (t : Target) (hp : Proper t)
    (l1 l2 : List Lead) (a : OwnAttr) (kind : AttrKind) (tm : Bool) (scope : List AttrKind) (l : List Act)
    (h : attrActions hash around v t (t.before ++ leadElems l1, a, l2) kind tm scope = some l)
    (hl : t.lead = l1 ++ .attr a :: l2) (htree : a.tree = none)
    (k : ArgKind) (hk : k ≠ .unknown) (hs : k ≠ .signatureTopic)
    (hr : Reads pe fi (around.environment.getD "ink::env::DefaultEnvironment"))
    (hv : k = .extension → v = .v5 → around.onFn = false)
    (attr : Option AttrKind) (e : Option Edit) (he : ⟨.arg k, e⟩ ∈ l) :
    ∃ e' n, e = some e' ∧ Accepted pe fi v attr k n ∧ n.Ok pe ∧
      Inserts (textOf t) (e'.offset, e'.text)
        (textOf (withLead t (l1 ++ .attr (givenTree a [n]) :: l2))) := by
  obtain ⟨hc, -, g3 | ⟨q, -, e', he', hx⟩⟩ := (mem_attr hash around v t l1 l2 a kind tm scope l h _).1 he
  · unfold startActs at g3
    rcases List.mem_append.1 g3 with g3 | g3 <;> split at g3 <;> simp at g3
  · cases hx
    obtain ⟨e'', n, h1, h2, h3, h4, h5⟩ := extend_bare pe fi hash around v attr t l1 l2 a
      k hp.full hl hc htree hk hs hr hv
    rw [he'] at h1
    cases h1
    exact ⟨e', n, rfl, h3, h2, h4⟩

/-- C102. Wherever an action has a snippet, it shows the same text, with the value of the argument to be
replaced as its tab stop. -/
theorem C102_snippets (hash : String → Vector UInt8 32) (around : Around) (v : Version) (t : Target)
    (henv : ∀ p, around.environment = some p → Clean p.toList) :
    (∀ focused inAttr inItem onField onDecl kind ti tm scope cfgTest cfgE2e l,
      itemActions hash around v t focused inAttr inItem onField onDecl kind ti tm scope cfgTest
        cfgE2e = some l → ∀ w e, ⟨w, some e⟩ ∈ l → Shows e) ∧
    ∀ l1 a l2 k tm scope l, t.lead = l1 ++ .attr a :: l2 →
      attrActions hash around v t (t.before ++ leadElems l1, a, l2) k tm scope = some l →
      ∀ w e, ⟨w, some e⟩ ∈ l → Shows e := by
  constructor
  · intro focused inAttr inItem onField onDecl kind ti tm scope cfgTest cfgE2e l h w e he
    obtain ⟨-, ⟨m', hm, hx⟩ | ⟨k, _, e', he', hx⟩⟩ := (mem_item hash around v t focused inAttr inItem
      onField onDecl kind ti tm scope cfgTest cfgE2e l h _).1 he
    · cases hx
      intro s hs
      cases hs
    · cases hx
      rcases argEdit_cases hash around t k with ⟨l1, l2, a, p, _, _, h3, h4⟩ | h
      · rw [h4] at he'
        exact extend_shows hash around t l1 l2 a k p h3 henv e he'
      · rw [h] at he'
        exact new_shows hash k _ e he'
  · intro l1 a l2 k tm scope l hl h w e he
    obtain ⟨-, -, g3 | ⟨q, -, e', he', hx⟩⟩ := (mem_attr hash around v t l1 l2 a k tm scope l h _).1 he
    · unfold startActs at g3
      rcases List.mem_append.1 g3 with g3 | g3 <;> split at g3 <;> simp at g3
    · cases hx
      unfold extension at he'
      obtain ⟨p, h3, he'⟩ := Option.bind_eq_some_iff.1 he'
      exact extend_shows hash around t l1 l2 a q p h3 henv e he'

/-! ## Examples -/

/-- `#[derive]`, which is no ink! attribute. -/
def deriveAttr : OwnAttr :=
  ⟨none, [.tok .other "#", .tok .other "[", .tok .ident "derive"], none, [], true⟩

/-- `#[ink(message)]`. -/
def messageAttr : OwnAttr :=
  ⟨some ⟨.arg .message, [.message]⟩,
    [.tok .other "#", .tok .other "[", .tok .ident "ink"],
    some (listed false [.flag [] (.tok .ident "message") []]), [], true⟩

/-- `#[ink::contract]`. -/
def contractAttr : OwnAttr :=
  ⟨some ⟨.macro .contract, []⟩,
    [.tok .other "#", .tok .other "[", .tok .ident "ink", .tok .other "::", .tok .ident "contract"],
    none, [], true⟩

/-- `#[derive]` and a comment in front of a function. -/
def bareTarget : Target :=
  ⟨[.tok .whitespace "\n"], [.attr deriveAttr, .trivia .whitespace "\n", .trivia .comment "// a",
    .trivia .whitespace "\n"], [.tok .ident "fn", .tok .whitespace " ", .tok .ident "f"], []⟩

/-- `#[derive] #[ink(message)]` in front of a function. -/
def messageTarget : Target :=
  ⟨[.tok .whitespace "\n"], [.attr deriveAttr, .trivia .whitespace " ", .attr messageAttr,
    .trivia .whitespace "\n"], [.tok .ident "fn", .tok .whitespace " ", .tok .ident "f"], []⟩

/-- `#[ink::contract]` in front of a module. -/
def contractTarget : Target :=
  ⟨[], [.attr contractAttr, .trivia .whitespace "\n"],
    [.tok .ident "mod", .tok .whitespace " ", .tok .ident "m"], []⟩

theorem bareTarget_proper : Proper bareTarget where
  full := by decide
  trivia k s h := by
    simp only [bareTarget, List.mem_cons, reduceCtorEq, Lead.trivia.injEq, List.not_mem_nil, or_false,
      false_or] at h
    rcases h with ⟨rfl, _⟩ | ⟨rfl, _⟩ | ⟨rfl, _⟩ <;> rfl
  attrs a h := by
    simp only [bareTarget, List.mem_cons, reduceCtorEq, Lead.attr.injEq, List.not_mem_nil, or_false] at h
    subst h
    exact ⟨_, _, _, rfl, rfl⟩
  body := ⟨_, _, _, rfl, rfl⟩

theorem messageTarget_proper : Proper messageTarget where
  full := by decide
  trivia k s h := by
    simp only [messageTarget, List.mem_cons, reduceCtorEq, Lead.trivia.injEq, List.not_mem_nil, or_false,
      false_or] at h
    rcases h with ⟨rfl, _⟩ | ⟨rfl, _⟩ <;> rfl
  attrs a h := by
    simp only [messageTarget, List.mem_cons, reduceCtorEq, Lead.attr.injEq, List.not_mem_nil, or_false,
      false_or] at h
    rcases h with rfl | rfl <;> exact ⟨_, _, _, rfl, rfl⟩
  body := ⟨_, _, _, rfl, rfl⟩

theorem contractTarget_proper : Proper contractTarget where
  full := by decide
  trivia k s h := by
    simp only [contractTarget, List.mem_cons, reduceCtorEq, Lead.trivia.injEq, List.not_mem_nil, or_false,
      false_or] at h
    obtain ⟨rfl, _⟩ := h
    rfl
  attrs a h := by
    simp only [contractTarget, List.mem_cons, reduceCtorEq, Lead.attr.injEq, List.not_mem_nil,
      or_false] at h
    subst h
    exact ⟨_, _, _, rfl, rfl⟩
  body := ⟨_, _, _, rfl, rfl⟩

/-- No surroundings. -/
def nowhere : Around := ⟨false, none, none, none, none⟩

/-- The test macro for the function of `bareTarget`, behind the comment. -/
example : ∃ l, itemActions (fun _ => Vector.replicate 32 0) nowhere .v5 bareTarget true false true false
      true .fn false false [] true false = some l ∧
    (⟨.macro .test, some ⟨16, "#[ink::test]", none⟩⟩ : Act) ∈ l :=
  ⟨_, rfl, by decide⟩

/-- The argument `message` for this function is a new attribute: the hypotheses of `C102_new_partial`
hold. -/
example : ∃ l, itemActions (fun _ => Vector.replicate 32 0) nowhere .v5 bareTarget true false true false
      true .fn false false [.macro .contract] true false = some l ∧
    (⟨.arg .message, some ⟨16, "#[ink(message)]", none⟩⟩ : Act) ∈ l ∧
    (∀ a ∈ inkOf bareTarget.lead, ¬ Known a.kind) ∧ Proper bareTarget ∧
    Reads literalPe (fun s => some s) "ink::env::DefaultEnvironment" :=
  ⟨_, rfl, by decide, by simp [bareTarget, inkOf, deriveAttr], bareTarget_proper, literalPe_reads⟩

/-- On `messageTarget` the argument `payable` goes into `#[ink(message)]`: the hypotheses of
`C102_extend_partial` hold. -/
example : ∃ l, itemActions (fun _ => Vector.replicate 32 0) nowhere .v5 messageTarget true false true
      false true .fn false false [.macro .contract] true false = some l ∧
    (⟨.arg .payable, some ⟨24, ", payable", none⟩⟩ : Act) ∈ l ∧
    messageTarget.lead = [.attr deriveAttr, .trivia .whitespace " "] ++ .attr messageAttr ::
      [.trivia .whitespace "\n"] ∧
    IsPrimary (inkOf messageTarget.lead) 0 ⟨.arg .message, [.message]⟩ ∧
    (Written.flag [] (.tok .ident "message") []).Ok literalPe ∧
    Shut (.flag [] (.tok .ident "message") []) :=
  ⟨_, rfl, by decide, rfl, (C43_primary _ _ _).1 (by decide),
    ⟨(fun _ h => nomatch h), ⟨_, .inl rfl⟩, (fun _ h => nomatch h)⟩, trivial⟩

/-- On the attribute `#[ink::contract]` in ink! 4: migration, and arguments. -/
example : ∃ l, attrActions (fun _ => Vector.replicate 32 0) nowhere .v4 contractTarget
      ([], contractAttr, [.trivia .whitespace "\n"]) (.macro .contract) false [] = some l ∧
    (⟨.migrate, none⟩ : Act) ∈ l ∧
    (⟨.arg .env, some ⟨15, "(env = ink::env::DefaultEnvironment)",
      some "(env = ${1:ink::env::DefaultEnvironment})"⟩⟩ : Act) ∈ l :=
  ⟨_, rfl, by decide, by decide⟩

/-! ## Where the claim is false -/

/-- `#[ink::event]`. -/
def eventAttr : OwnAttr :=
  ⟨some ⟨.macro .event, []⟩,
    [.tok .other "#", .tok .other "[", .tok .ident "ink", .tok .other "::", .tok .ident "event"],
    none, [], true⟩

/-- `#[ink::event]` in front of a struct. -/
def eventTarget : Target :=
  ⟨[], [.attr eventAttr, .trivia .whitespace "\n"],
    [.tok .ident "struct", .tok .whitespace " ", .tok .ident "E"], []⟩

/-- The action that adds a signature topic to `#[ink::event]` gives it the value `""`, which the analyzer
then reports. -/
theorem C102_negation_topic (attr : Option AttrKind) :
    ∃ l snippet, itemActions (fun _ => Vector.replicate 32 0) nowhere .v5 eventTarget true false true false
        true .struct false false [] false false = some l ∧
      (⟨.arg .signatureTopic, some ⟨12, "(signature_topic = \"\")", snippet⟩⟩ : Act) ∈ l ∧
      ∃ n : Written, n.Ok literalPe ∧ Elem.textList n.source = "signature_topic = \"\"" ∧
        ∀ o a, IsRead literalPe n o a →
          validateArg (fun s => some s) .v5 attr a.item a.kind = [.badValue] := by
  refine ⟨_, some "(signature_topic = \"$1\")", rfl, by decide, ?_⟩
  obtain ⟨n, _, -, h1, h2, h3⟩ := C80_negation_topic literalPe (fun s => some s) _ literalPe_reads
    (fun _ => Vector.replicate 32 0) .v5 attr
  exact ⟨n, h1, h2, h3⟩

end Verif.Analyzer.AttrActions
