import Verif.Analyzer.Insert
import Verif.Analyzer.ParseProps

/-!
# C79: adding an argument to an attribute adds just that argument

The argument list of the attribute is any list of well-formed arguments (`Written`, as in C76).
-/

namespace Verif.Analyzer.Insert
open Verif.Ir

/-! ## Specification -/

/-- Inserting a text at a byte offset of `text` gives `result`. -/
def Inserts (text : String) (ins : Nat × String) (result : String) : Prop :=
  ∃ l r, text = l ++ r ∧ ins.1 = l.utf8ByteSize ∧ result = l ++ ins.2 ++ r

/-- The attribute with the given elements between its parentheses. -/
def withList (before gap after : List Elem) (mid : List Elem) : AttrIn :=
  ⟨before, some (.tok .lParen "(" :: (mid ++ [.tok .rParen ")"])), gap, true, after⟩

/-- The attribute with the given argument list. -/
def withArgs (before gap after : List Elem) (trailing : Bool) (ws : List Written) : AttrIn :=
  withList before gap after (listSource trailing ws)

/-- A space. -/
def space : Elem := .tok .whitespace " "

/-- The white space and comments in front of an argument. -/
def leadOf : Written → List Elem
  | .flag lead _ _ => lead
  | .keyed lead _ _ _ _ => lead
  | .nest lead _ _ _ _ => lead
  | .hollow lead _ _ _ => lead

/-- The same argument with other white space and comments in front of it. -/
def setLead (l : List Elem) : Written → Written
  | .flag _ name trail => .flag l name trail
  | .keyed _ name gap eq value => .keyed l name gap eq value
  | .nest _ name gap inner trail => .nest l name gap inner trail
  | .hollow _ name gap trail => .hollow l name gap trail

/-- The same arguments with a space in front. -/
def spaceFirst : List Written → List Written
  | [] => []
  | w :: ws => setLead (space :: leadOf w) w :: ws

/-- A value does not end in a comma or an opening parenthesis (of an unclosed nested tree). -/
def Shut : Written → Prop
  | .keyed _ _ _ _ value => Elem.lastTokList value ≠ some .comma ∧
      Elem.lastTokList value ≠ some .lParen
  | _ => True

/-- The attribute has exactly the arguments `ws`. -/
def Has (pe : ExprParser) (a : AttrIn) (ws : List Written) : Prop :=
  ∃ args, a.args pe = some args ∧ AreRead pe ws (a.treeStart + 1) args

/-- The element that stands for a printed value. -/
def valueElem (k : ValueTok) (s : String) : Elem :=
  match k with
  | .underscore => .tok .underscore s
  | .at => .tok .at s
  | _ => .tok .other s

/-- The second argument is the first one in a uniform layout, without comments. -/
inductive Tidy (pe : ExprParser) : Written → Written → Prop
  | flag (lead name trail) : Tidy pe (.flag lead name trail) (.flag [] name [])
  | keyed (lead name gap eq value k s) : ValueIs pe value k s →
      Tidy pe (.keyed lead name gap eq value) (.keyed [] name [space] "=" [space, valueElem k s])
  | nest (lead name gap inner trail inner') : Tidy pe inner inner' →
      Tidy pe (.nest lead name gap inner trail) (.nest [] name [] inner' [])
  | hollow (lead name gap trail) : Tidy pe (.hollow lead name gap trail) (.hollow [] name [] [])

/-- Two arguments with the same kind, name, value and nested argument, wherever they stand. -/
inductive SameArg : Arg → Arg → Prop
  | leaf (a b : Arg) : a.kind = b.kind → optText (fun p => p.elem.text) a.item.name =
      optText (fun p => p.elem.text) b.item.name →
      a.value.map (fun v => (v.kind, v.text)) = b.value.map (fun v => (v.kind, v.text)) →
      a.nested = none → b.nested = none → SameArg a b
  | nest (a b x y : Arg) : a.kind = b.kind → optText (fun p => p.elem.text) a.item.name =
      optText (fun p => p.elem.text) b.item.name →
      a.value = none → b.value = none →
      a.nested = some x → b.nested = some y → SameArg x y → SameArg a b

/-- The same arguments one for one. -/
inductive SameArgs : List Arg → List Arg → Prop
  | nil : SameArgs [] []
  | cons (a b as bs) : SameArg a b → SameArgs as bs → SameArgs (a :: as) (b :: bs)

/-- The expression parser recognises what it has printed. -/
def Reprints (pe : ExprParser) : Prop := ∀ t k s, pe t = some (k, s) → pe (" " ++ s) = some (k, s)

/-- Inserting a text and deleting a range behind it, both in the offsets of `text`, gives `result`. -/
def Moves (text : String) (ins : Nat × String) (del : Nat × Nat) (result : String) : Prop :=
  ∃ l m gone r, text = l ++ m ++ gone ++ r ∧ ins.1 = l.utf8ByteSize ∧
    del = ((l ++ m).utf8ByteSize, (l ++ m ++ gone).utf8ByteSize) ∧ result = l ++ ins.2 ++ m ++ r

/-- A lone name, or a name with a value that does not end in white space or a comment. -/
def Movable : Written → Prop
  | .flag _ _ _ => True
  | .keyed _ _ _ _ value => ∃ v z, value = v ++ [z] ∧ z.isTrivia = false
  | _ => False

/-- No white space or comment behind the name of a lone name. -/
def Tight : Written → Prop
  | .flag _ _ trail => trail = []
  | _ => True

/-- The arguments with further white space and comments in front of the first one. -/
def leadFirst (l : List Elem) : List Written → List Written
  | [] => []
  | w :: ws => setLead (l ++ leadOf w) w :: ws

/-! ## Lemmas -/

theorem setLead_source (l : List Elem) (w : Written) :
    ∃ core, w.source = leadOf w ++ core ∧ (setLead l w).source = l ++ core := by
  cases w <;> exact ⟨_, by simp [Written.source, leadOf]; rfl, by simp [Written.source, setLead]⟩

theorem spaceFirst_ne {ws : List Written} (h : ws ≠ []) : spaceFirst ws ≠ [] := by
  cases ws with
  | nil => exact absurd rfl h
  | cons w ws => simp [spaceFirst]

theorem setLead_ok (pe : ExprParser) (l : List Elem) (hl : AllTrivia l) (w : Written)
    (h : w.Ok pe) : (setLead l w).Ok pe := by
  cases w <;> exact ⟨hl, h.2⟩

theorem leadOf_trivia (pe : ExprParser) (w : Written) (h : w.Ok pe) : AllTrivia (leadOf w) := by
  cases w <;> exact h.1

theorem space_trivia : AllTrivia [space] := by
  intro e he
  rw [List.mem_singleton.1 he]
  rfl

theorem trivia_append {a b : List Elem} (ha : AllTrivia a) (hb : AllTrivia b) :
    AllTrivia (a ++ b) := by
  intro e he
  rcases List.mem_append.1 he with h | h
  · exact ha e h
  · exact hb e h

theorem spaceFirst_ok (pe : ExprParser) (ws : List Written) (h : ∀ w ∈ ws, w.Ok pe) :
    ∀ w ∈ spaceFirst ws, w.Ok pe := by
  cases ws with
  | nil => exact h
  | cons w ws =>
    intro x hx
    rcases List.mem_cons.1 hx with rfl | hx
    · exact setLead_ok pe _ (trivia_append space_trivia
        (leadOf_trivia pe w (h w (by simp)))) w (h w (by simp))
    · exact h x (by simp [hx])

theorem spaceFirst_source (t : Bool) (ws : List Written) (h : ws ≠ []) :
    listSource t (spaceFirst ws) = space :: listSource t ws := by
  cases ws with
  | nil => exact absurd rfl h
  | cons w ws =>
    obtain ⟨core, h1, h2⟩ := setLead_source (space :: leadOf w) w
    cases ws with
    | nil => simp [spaceFirst, listSource, h1, h2]
    | cons v vs => simp [spaceFirst, listSource, h1, h2]

theorem listSource_cons (t : Bool) (w : Written) (ws : List Written) (h : ws ≠ []) :
    listSource t (w :: ws) = w.source ++ commaElem :: listSource t ws := by
  cases ws with
  | nil => exact absurd rfl h
  | cons v vs => rfl

theorem listSource_append (t : Bool) (as bs : List Written) (ha : as ≠ []) (hb : bs ≠ []) :
    listSource t (as ++ bs) = listSource false as ++ commaElem :: listSource t bs := by
  induction as with
  | nil => exact absurd rfl ha
  | cons a as ih =>
    rw [List.cons_append, listSource_cons t a _ (by simp [hb])]
    by_cases h : as = []
    · subst h
      simp [listSource]
    · rw [listSource_cons false a as h, ih h]
      simp

theorem listSource_true (as : List Written) (h : as ≠ []) :
    listSource true as = listSource false as ++ [commaElem] := by
  induction as with
  | nil => exact absurd rfl h
  | cons a as ih =>
    by_cases h : as = []
    · subst h
      simp [listSource]
    · rw [listSource_cons _ a as h, listSource_cons _ a as h, ih h]
      simp

theorem has_args (pe : ExprParser) (before gap after : List Elem) (t : Bool) (ws : List Written)
    (h : ∀ w ∈ ws, w.Ok pe) : Has pe (withArgs before gap after t ws) ws :=
  C76_read_partial pe _ _ ws t h

theorem childAt_here (p : Elem → Bool) (o : Nat) (c : Elem) (cs : List Elem) (h : p c = true) :
    childAt p o (c :: cs) = some ⟨c, o⟩ := by
  unfold childAt
  rw [if_pos h]

theorem childAt_skip (p : Elem → Bool) (o : Nat) (a b : List Elem)
    (h : ∀ c ∈ a, p c = false) : childAt p o (a ++ b) = childAt p (o + Elem.lenList a) b := by
  induction a generalizing o with
  | nil => simp [Elem.lenList]
  | cons x a ih =>
    rw [List.cons_append, childAt, if_neg (by simp [h x (by simp)]),
      ih _ (fun c hc => h c (by simp [hc])), Elem.lenList, Nat.add_assoc]

theorem lParen_at (o : Nat) (mid : List Elem) :
    childAt Elem.isLParen o (.tok .lParen "(" :: (mid ++ [.tok .rParen ")"])) =
      some ⟨.tok .lParen "(", o⟩ := childAt_here _ _ _ _ rfl

theorem rParen_at (o : Nat) (mid : List Elem) (h : Between mid) :
    childAt Elem.isRParen o (.tok .lParen "(" :: (mid ++ [.tok .rParen ")"])) =
      some ⟨.tok .rParen ")", o + 1 + Elem.lenList mid⟩ := by
  rw [childAt, if_neg (by simp [Elem.isRParen]),
    childAt_skip _ _ _ _ (fun c hc => (h c hc).2.1), childAt_here _ _ _ _ rfl]
  rfl

/-- The elements of the file with the attribute, without the nesting of its tree. -/
def flat (before gap after mid : List Elem) : List Elem :=
  before ++ .tok .lParen "(" :: (mid ++ .tok .rParen ")" :: (gap ++ .tok .rBrack "]" :: after))

theorem file_leaves (before gap after mid : List Elem) :
    leavesList 0 (withList before gap after mid).file = leavesList 0 (flat before gap after mid) := by
  show leavesList 0 (before ++ ([Elem.tree _] ++ _)) = _
  rw [List.singleton_append, leavesList_tree]
  simp [flat, AttrIn.bracket, withList]

theorem file_text (before gap after mid : List Elem) :
    Elem.textList (withList before gap after mid).file =
      Elem.textList (flat before gap after mid) := by
  simp [AttrIn.file, withList, flat, AttrIn.bracket, textList_append, Elem.textList, Elem.text,
    String.append_assoc]

theorem file_full (before gap after mid : List Elem)
    (h : FullList (withList before gap after mid).file = true) :
    FullList (flat before gap after mid) = true := by
  simp only [AttrIn.file, withList, flat, AttrIn.bracket, fullList_append, FullList, Full,
    Bool.and_eq_true, Option.map_some, Option.toList_some, if_true] at h ⊢
  obtain ⟨h1, ⟨⟨_, h2, h3, h4⟩, _⟩, h5, ⟨h6, _⟩, h7⟩ := h
  exact ⟨h1, h2, h3, h4.1, h5, h6, h7⟩

mutual

theorem lastTok_leaf1 : ∀ (e : Elem) (o : Nat), (leaves o e).getLast?.map Leaf.kind = e.lastTok
  | .tok k s, o => rfl
  | .tree cs, o => by simpa [leaves, Elem.lastTok] using lastTok_leaf cs o
  | .error cs, o => by simpa [leaves, Elem.lastTok] using lastTok_leaf cs o

theorem lastTok_leaf : ∀ (es : List Elem) (o : Nat),
    (leavesList o es).getLast?.map Leaf.kind = Elem.lastTokList es
  | [], o => rfl
  | c :: cs, o => by
    rw [leavesList, List.getLast?_append, Elem.lastTokList, ← lastTok_leaf cs (o + c.len),
      ← lastTok_leaf1 c o]
    cases (leavesList (o + c.len) cs).getLast? <;> simp

end

/-- The token before the closing parenthesis. -/
theorem prev_rParen (before gap after mid : List Elem)
    (hf : FullList (flat before gap after mid) = true) :
    (prevToken (leavesList 0 (flat before gap after mid))
      ⟨.tok .rParen ")", Elem.lenList before + 1 + Elem.lenList mid⟩).map Leaf.kind =
      Elem.lastTokList (before ++ .tok .lParen "(" :: mid) := by
  have e : flat before gap after mid = (before ++ .tok .lParen "(" :: mid) ++
      .tok .rParen ")" :: (gap ++ .tok .rBrack "]" :: after) := by simp [flat]
  rw [e] at hf ⊢
  have ht := leavesList_tiled _ 0 hf
  rw [leavesList_append, leavesList] at ht ⊢
  have hl : leaves (0 + Elem.lenList (before ++ .tok .lParen "(" :: mid)) (.tok .rParen ")") =
      [⟨.rParen, Elem.lenList before + 1 + Elem.lenList mid,
        Elem.lenList before + 1 + Elem.lenList mid + 1⟩] := by
    simp only [leaves, lenList_append, Elem.lenList, Nat.zero_add]
    have h1 : (Elem.tok .lParen "(").len = 1 := rfl
    have h2 : (")" : String).utf8ByteSize = 1 := rfl
    rw [h1, h2]
    simp only [Nat.add_assoc]
  rw [hl, List.singleton_append] at ht ⊢
  unfold prevToken
  rw [tiled_before ht, lastTok_leaf]

theorem lastTok_append (a b : List Elem) :
    Elem.lastTokList (a ++ b) = (Elem.lastTokList b).or (Elem.lastTokList a) := by
  induction a with
  | nil => simp [Elem.lastTokList]
  | cons x a ih => rw [List.cons_append, Elem.lastTokList, ih, Elem.lastTokList, Option.or_assoc]

/-- The kind of a last token after which a comma is needed. -/
def Ended (k : Option Ir.TokKind) : Prop :=
  ∃ t, k = some t ∧ t ≠ .comma ∧ t ≠ .lParen

theorem ended_trivia (x : List Elem) (es : List Elem) (h : AllTrivia es)
    (hx : Ended (Elem.lastTokList x)) : Ended (Elem.lastTokList (x ++ es)) := by
  rw [lastTok_append]
  have key : ∀ es : List Elem, AllTrivia es →
      Elem.lastTokList es = none ∨ ∃ t, Elem.lastTokList es = some t ∧ t.isTrivia = true := by
    intro es
    induction es with
    | nil => intro _; exact .inl rfl
    | cons c cs ih =>
      intro h
      rw [Elem.lastTokList]
      rcases ih (fun e he => h e (by simp [he])) with h' | ⟨t, h', h''⟩
      · rw [h', Option.none_or]
        have := h c (by simp)
        cases c with
        | tok k s => exact .inr ⟨k, rfl, this⟩
        | tree _ => cases this
        | error _ => cases this
      · exact .inr ⟨t, by rw [h']; rfl, h''⟩
  rcases key es h with h' | ⟨t, h', h''⟩
  · rw [h', Option.none_or]
    exact hx
  · refine ⟨t, by rw [h']; rfl, ?_, ?_⟩ <;> (rintro rfl; cases h'')

theorem ended_cons (x : List Elem) (e : Elem) (es : List Elem) (h : AllTrivia es)
    (he : Ended e.lastTok) : Ended (Elem.lastTokList (x ++ e :: es)) := by
  rw [show x ++ e :: es = (x ++ [e]) ++ es by simp]
  refine ended_trivia _ _ h ?_
  rw [lastTok_append]
  obtain ⟨t, h1, h2⟩ := he
  refine ⟨t, ?_, h2⟩
  simp [Elem.lastTokList, h1]

theorem ended_source (pe : ExprParser) (w : Written) (h : w.Ok pe) (hs : Shut w) :
    Ended (Elem.lastTokList w.source) := by
  cases w with
  | flag lead name trail =>
    refine ended_cons _ _ _ h.2.2 ?_
    obtain ⟨s, h | h⟩ := h.2.1
    · exact ⟨.ident, by rw [h]; rfl, by decide, by decide⟩
    · exact ⟨.implKw, by rw [h]; rfl, by decide, by decide⟩
  | keyed lead name gap eq value =>
    simp only [Written.source]
    rw [lastTok_append, Elem.lastTokList]
    cases hv : Elem.lastTokList value with
    | none => exact ⟨.eq, rfl, by decide, by decide⟩
    | some t =>
      refine ⟨t, rfl, ?_, ?_⟩
      · rintro rfl
        exact hs.1 hv
      · rintro rfl
        exact hs.2 hv
  | nest lead name gap inner trail =>
    refine ended_cons _ _ _ h.2.2.2.2 ?_
    exact ⟨.rParen, by rw [parenthesised, Elem.lastTok, ← List.cons_append, lastTok_snoc],
      by decide, by decide⟩
  | hollow lead name gap trail =>
    refine ended_cons _ _ _ h.2.2.2 ?_
    exact ⟨.rParen, rfl, by decide, by decide⟩

theorem ended_list (pe : ExprParser) (ws : List Written) (hne : ws ≠ []) (h : ∀ w ∈ ws, w.Ok pe)
    (hs : ∀ w ∈ ws, Shut w) (x : List Elem) :
    Ended (Elem.lastTokList (x ++ listSource false ws)) := by
  induction ws generalizing x with
  | nil => exact absurd rfl hne
  | cons w ws ih =>
    by_cases hw : ws = []
    · subst hw
      rw [lastTok_append]
      obtain ⟨t, h1, h2⟩ := ended_source pe w (h w (by simp)) (hs w (by simp))
      refine ⟨t, ?_, h2⟩
      simp [listSource, h1]
    · have := ih hw (fun w hw => h w (by simp [hw])) (fun w hw => hs w (by simp [hw]))
        (x ++ w.source ++ [commaElem])
      rw [listSource_cons _ _ _ hw]
      simpa using this

theorem args_between (pe : ExprParser) (t : Bool) (ws : List Written) (h : ∀ w ∈ ws, w.Ok pe) :
    Between (listSource t ws) := listSource_plain pe t ws h

/-- The place for an argument that is not primary. -/
theorem place_last (before gap after mid : List Elem) (hb : Between mid)
    (hf : FullList (withList before gap after mid).file = true) (kind : Option ArgKind)
    (hk : kind.any ArgKind.isEntityType = false) :
    argPlace (withList before gap after mid) kind = some
      ⟨Elem.lenList before + 1 + Elem.lenList mid,
        match Elem.lastTokList (before ++ .tok .lParen "(" :: mid) with
        | some k => if k ∈ [Ir.TokKind.comma, .lParen] then none else some ", "
        | none => none, none⟩ := by
  unfold argPlace
  rw [if_pos (show (withList before gap after mid).closed = true from rfl)]
  simp only [withList, AttrIn.treeStart, hk]
  rw [show (AttrIn.mk before (some (.tok .lParen "(" :: (mid ++ [.tok .rParen ")"]))) gap true after)
    = withList before gap after mid from rfl, file_leaves]
  have hp := prev_rParen before gap after mid (file_full _ _ _ _ hf)
  simp only [treeOffset, treePrefix, treeSuffix, lParen_at, rParen_at _ _ hb, Option.map_some,
    Option.getD_some, Bool.false_eq_true, if_false, Option.bind_some]
  congr 2
  rw [← hp]
  have hlast : (leavesList (Elem.lenList before)
      (.tok .lParen "(" :: (mid ++ [.tok .rParen ")"]))).getLast?.bind
        (commaUnless [.comma, .lParen, .rParen]) = none := by
    have := lastTok_leaf (.tok .lParen "(" :: (mid ++ [.tok .rParen ")"])) (Elem.lenList before)
    rw [← List.cons_append, lastTok_snoc] at this
    cases hg : (leavesList (Elem.lenList before)
        (.tok .lParen "(" :: mid ++ [.tok .rParen ")"])).getLast? with
    | none => rw [hg] at this; cases this
    | some l =>
      rw [hg] at this
      rw [← List.cons_append, hg]
      have hk : l.kind = .rParen := Option.some.inj this
      simp [commaUnless, hk]
  rw [hlast, Option.or_none]
  cases prevToken (leavesList 0 (flat before gap after mid))
    ⟨.tok .rParen ")", Elem.lenList before + 1 + Elem.lenList mid⟩ with
  | none => rfl
  | some l => rfl

theorem insert_at (before gap after a b : List Elem) (x : List Elem) (s : String) (n : Nat)
    (hs : s = Elem.textList x) (hn : n = Elem.lenList before + 1 + Elem.lenList a) :
    Inserts (Elem.textList (withList before gap after (a ++ b)).file) (n, s)
      (Elem.textList (withList before gap after (a ++ x ++ b)).file) := by
  refine ⟨Elem.textList (before ++ .tok .lParen "(" :: a),
    Elem.textList (b ++ .tok .rParen ")" :: (gap ++ .tok .rBrack "]" :: after)), ?_, ?_, ?_⟩
  · rw [file_text, ← textList_append]
    simp [flat]
  · rw [textList_size, lenList_append, Elem.lenList, hn]
    have h1 : (Elem.tok .lParen "(").len = 1 := rfl
    rw [h1]
    omega
  · rw [file_text, hs, ← textList_append, ← textList_append]
    simp [flat]

theorem text_comma (x : List Elem) : ", " ++ Elem.textList x =
    Elem.textList (commaElem :: space :: x) := by
  simp only [Elem.textList, commaElem, space, Elem.text]
  rw [← String.append_assoc]
  rfl

theorem text_after (x : List Elem) : Elem.textList x ++ ", " =
    Elem.textList (x ++ [commaElem, space]) := by
  rw [textList_append]
  rfl

/-! ## Theorems -/

/-- C79. Adding arguments that are not primary puts them behind all others, and changes nothing
else: in the resulting file the attribute has the arguments it had, followed by the new ones.
Missing for the full claim: lists with white space behind a trailing comma, and lists of white space
only (`C79_negation_trailing`, `C79_negation_empty`). -/
theorem C79_last_partial (pe : ExprParser) (before gap after : List Elem) (trailing : Bool)
    (ws ns : List Written) (hws : ∀ w ∈ ws, w.Ok pe) (hshut : ∀ w ∈ ws, Shut w)
    (hns : ∀ w ∈ ns, w.Ok pe) (hne : ns ≠ [])
    (hfull : FullList (withArgs before gap after trailing ws).file = true) (kind : Option ArgKind)
    (hk : ∀ k, kind = some k → k.isEntityType = false) :
    ∃ p ns', argPlace (withArgs before gap after trailing ws) kind = some p ∧
      (ns' = ns ∨ ns' = spaceFirst ns) ∧
      Inserts (Elem.textList (withArgs before gap after trailing ws).file)
        (p.insertion (Elem.textList (listSource false ns)))
        (Elem.textList (withArgs before gap after false (ws ++ ns')).file) ∧
      Has pe (withArgs before gap after false (ws ++ ns')) (ws ++ ns') := by
  have hk' : kind.any ArgKind.isEntityType = false := by
    cases kind with
    | none => rfl
    | some k => exact hk k rfl
  have hp := place_last before gap after _ (args_between pe trailing ws hws) hfull kind hk'
  have hall : ∀ ns' : List Written, (ns' = ns ∨ ns' = spaceFirst ns) →
      ∀ w ∈ ws ++ ns', w.Ok pe := by
    intro ns' h w hw
    rcases List.mem_append.1 hw with hw | hw
    · exact hws w hw
    · rcases h with rfl | rfl
      · exact hns w hw
      · exact spaceFirst_ok pe ns hns w hw
  by_cases hws0 : ws = []
  · subst hws0
    refine ⟨_, ns, hp, .inl rfl, ?_, has_args pe _ _ _ _ _ (hall ns (.inl rfl))⟩
    have : Elem.lastTokList (before ++ [.tok .lParen "("]) = some .lParen := lastTok_snoc _ _ _
    simp only [listSource, this]
    have := insert_at before gap after [] [] (listSource false ns)
      (Elem.textList (listSource false ns)) (Elem.lenList before + 1) rfl (by simp [Elem.lenList])
    simpa [withArgs, Place.insertion, listSource, Elem.lenList] using this
  · cases trailing with
    | true =>
      refine ⟨_, ns, hp, .inl rfl, ?_, has_args pe _ _ _ _ _ (hall ns (.inl rfl))⟩
      have hl : Elem.lastTokList (before ++ .tok .lParen "(" :: listSource true ws) =
          some .comma := by
        rw [listSource_true ws hws0]
        have := lastTok_snoc (before ++ .tok .lParen "(" :: listSource false ws) .comma ","
        simpa [commaElem] using this
      simp only [hl]
      have := insert_at before gap after (listSource true ws) [] (listSource false ns)
        (Elem.textList (listSource false ns)) _ rfl rfl
      rw [List.append_nil, List.append_nil] at this
      have e : listSource true ws ++ listSource false ns = listSource false (ws ++ ns) := by
        rw [listSource_append _ _ _ hws0 hne, listSource_true ws hws0]
        simp
      rw [e] at this
      simpa [withArgs, Place.insertion] using this
    | false =>
      refine ⟨_, spaceFirst ns, hp, .inr rfl, ?_, has_args pe _ _ _ _ _ (hall _ (.inr rfl))⟩
      obtain ⟨t, h1, h2, h3⟩ := ended_list pe ws hws0 hws hshut (before ++ [.tok .lParen "("])
      rw [show before ++ [Elem.tok .lParen "("] ++ listSource false ws =
        before ++ .tok .lParen "(" :: listSource false ws by simp] at h1
      simp only [h1]
      rw [if_neg (by simp [h2, h3])]
      have := insert_at before gap after (listSource false ws) []
        (commaElem :: space :: listSource false ns)
        (", " ++ Elem.textList (listSource false ns)) _ (text_comma _) rfl
      rw [List.append_nil, List.append_nil] at this
      have e : listSource false ws ++ commaElem :: space :: listSource false ns =
          listSource false (ws ++ spaceFirst ns) := by
        rw [listSource_append _ _ _ hws0 (spaceFirst_ne hne), spaceFirst_source _ _ hne]
      rw [e] at this
      simpa [withArgs, Place.insertion] using this

/-- The token after the opening parenthesis. -/
theorem next_lParen (before gap after mid : List Elem)
    (hf : FullList (flat before gap after mid) = true) :
    nextToken (leavesList 0 (flat before gap after mid)) ⟨.tok .lParen "(", Elem.lenList before⟩ =
      (leavesList (Elem.lenList before + 1) (mid ++ [.tok .rParen ")"])).head? := by
  have ht := leavesList_tiled _ 0 hf
  unfold flat at ht ⊢
  rw [leavesList_append, leavesList] at ht ⊢
  simp only [Nat.zero_add] at ht ⊢
  have hl : leaves (Elem.lenList before) (.tok .lParen "(") =
      [⟨.lParen, Elem.lenList before, Elem.lenList before + 1⟩] := rfl
  have h1 : (Elem.tok .lParen "(").len = 1 := rfl
  rw [hl, List.singleton_append, h1] at ht ⊢
  unfold nextToken
  have := tiled_after ht
  simp only at this ⊢
  rw [this, show mid ++ Elem.tok .rParen ")" :: (gap ++ .tok .rBrack "]" :: after) =
    (mid ++ [.tok .rParen ")"]) ++ (gap ++ .tok .rBrack "]" :: after) by simp,
    leavesList_append (mid ++ [Elem.tok .rParen ")"])]
  cases h : leavesList (Elem.lenList before + 1) (mid ++ [.tok .rParen ")"]) with
  | nil =>
    have := lastTok_leaf (mid ++ [.tok .rParen ")"]) (Elem.lenList before + 1)
    rw [h, lastTok_snoc] at this
    cases this
  | cons x xs => rfl

/-- The place for a primary argument. -/
theorem place_primary (before gap after mid : List Elem) (hb : Between mid)
    (hf : FullList (withList before gap after mid).file = true) (k : ArgKind)
    (hk : k.isEntityType = true) :
    argPlace (withList before gap after mid) (some k) = some
      ⟨Elem.lenList before + 1, none,
        (leavesList (Elem.lenList before + 1) (mid ++ [.tok .rParen ")"])).head?.bind
          (commaUnless [.comma, .rParen])⟩ := by
  unfold argPlace
  rw [if_pos (show (withList before gap after mid).closed = true from rfl)]
  simp only [withList, AttrIn.treeStart, Option.any_some, hk]
  rw [show (AttrIn.mk before (some (.tok .lParen "(" :: (mid ++ [.tok .rParen ")"]))) gap true after)
    = withList before gap after mid from rfl, file_leaves]
  simp only [treeOffset, treePrefix, treeSuffix, lParen_at, rParen_at _ _ hb, Option.map_some,
    Option.getD_some, if_true, Option.bind_some, next_lParen before gap after mid
      (file_full _ _ _ _ hf)]
  have hfirst : (leavesList (Elem.lenList before)
      (.tok .lParen "(" :: (mid ++ [.tok .rParen ")"]))).head?.bind
        (commaUnless [.comma, .lParen, .rParen]) = none := by
    rw [leavesList]
    simp [leaves, commaUnless]
  rw [hfirst, Option.or_none]
  rfl

/-- The first token of an argument is white space, a comment or its name. -/
theorem first_token (pe : ExprParser) (ws : List Written) (t : Bool) (hne : ws ≠ [])
    (h : ∀ w ∈ ws, w.Ok pe) (rest : List Elem) (o : Nat) :
    ∃ l, (leavesList o (listSource t ws ++ rest)).head? = some l ∧ l.kind ≠ .comma ∧
      l.kind ≠ .rParen := by
  cases ws with
  | nil => exact absurd rfl hne
  | cons w ws =>
    have hw := h w (by simp)
    have e : ∃ name more, listSource t (w :: ws) = leadOf w ++ name :: more ∧ IsName name := by
      cases ws with
      | nil =>
        cases w with
        | flag lead name trail => exact ⟨name, _, by simp [listSource, Written.source, leadOf]; rfl, hw.2.1⟩
        | keyed lead name gap eq value =>
          exact ⟨name, _, by simp [listSource, Written.source, leadOf]; rfl, hw.2.1⟩
        | nest lead name gap inner trail =>
          exact ⟨name, _, by simp [listSource, Written.source, leadOf]; rfl, hw.2.1⟩
        | hollow lead name gap trail =>
          exact ⟨name, _, by simp [listSource, Written.source, leadOf]; rfl, hw.2.1⟩
      | cons v vs =>
        cases w with
        | flag lead name trail => exact ⟨name, _, by simp [listSource, Written.source, leadOf]; rfl, hw.2.1⟩
        | keyed lead name gap eq value =>
          exact ⟨name, _, by simp [listSource, Written.source, leadOf]; rfl, hw.2.1⟩
        | nest lead name gap inner trail =>
          exact ⟨name, _, by simp [listSource, Written.source, leadOf]; rfl, hw.2.1⟩
        | hollow lead name gap trail =>
          exact ⟨name, _, by simp [listSource, Written.source, leadOf]; rfl, hw.2.1⟩
    obtain ⟨name, more, e, hn⟩ := e
    have hl := leadOf_trivia pe w hw
    rw [e]
    cases hlead : leadOf w with
    | nil =>
      obtain ⟨s, rfl | rfl⟩ := hn
      · exact ⟨⟨.ident, o, o + s.utf8ByteSize⟩, rfl, (fun h => nomatch h), (fun h => nomatch h)⟩
      · exact ⟨⟨.implKw, o, o + s.utf8ByteSize⟩, rfl, (fun h => nomatch h), (fun h => nomatch h)⟩
    | cons c cs =>
      have hc := hl c (by rw [hlead]; simp)
      cases c with
      | tok k s =>
        refine ⟨⟨k, o, o + s.utf8ByteSize⟩, rfl, ?_, ?_⟩ <;>
          (intro h; simp only at h; subst h; cases hc)
      | tree _ => cases hc
      | error _ => cases hc

/-- C79. Adding a primary argument puts it in front of all others, and changes nothing else.
Missing for the full claim: as for `C79_last_partial`. -/
theorem C79_primary_partial (pe : ExprParser) (before gap after : List Elem) (trailing : Bool)
    (ws : List Written) (n : Written) (hws : ∀ w ∈ ws, w.Ok pe) (hn : n.Ok pe)
    (hfull : FullList (withArgs before gap after trailing ws).file = true) (k : ArgKind)
    (hk : k.isEntityType = true) :
    ∃ p t, argPlace (withArgs before gap after trailing ws) (some k) = some p ∧
      Inserts (Elem.textList (withArgs before gap after trailing ws).file)
        (p.insertion (Elem.textList n.source))
        (Elem.textList (withArgs before gap after t (n :: spaceFirst ws)).file) ∧
      Has pe (withArgs before gap after t (n :: spaceFirst ws)) (n :: spaceFirst ws) := by
  have hp := place_primary before gap after _ (args_between pe trailing ws hws) hfull k hk
  have hall : ∀ w ∈ n :: spaceFirst ws, w.Ok pe := by
    intro w hw
    rcases List.mem_cons.1 hw with rfl | hw
    · exact hn
    · exact spaceFirst_ok pe ws hws w hw
  by_cases hws0 : ws = []
  · subst hws0
    refine ⟨_, false, hp, ?_, has_args pe _ _ _ _ _ hall⟩
    have := insert_at before gap after [] [] n.source
      (Elem.textList n.source) (Elem.lenList before + 1) rfl (by simp [Elem.lenList])
    simpa [withArgs, Place.insertion, listSource, Elem.lenList, leavesList, leaves, commaUnless,
      spaceFirst] using this
  · refine ⟨_, trailing, hp, ?_, has_args pe _ _ _ _ _ hall⟩
    obtain ⟨l, h1, h2, h3⟩ := first_token pe ws trailing hws0 hws [.tok .rParen ")"]
      (Elem.lenList before + 1)
    rw [h1]
    have := insert_at before gap after [] (listSource trailing ws)
      (n.source ++ [commaElem, space])
      (Elem.textList n.source ++ ", ") (Elem.lenList before + 1) (text_after _)
      (by simp [Elem.lenList])
    have e : [] ++ (n.source ++ [commaElem, space]) ++ listSource trailing ws =
        listSource trailing (n :: spaceFirst ws) := by
      rw [listSource_cons _ _ _ (spaceFirst_ne hws0), spaceFirst_source _ _ hws0]
      simp
    rw [e, List.nil_append] at this
    simpa [withArgs, Place.insertion, commaUnless, h2, h3] using this

theorem start_of_range (m : Meta) (p : Placed) (r : Nat × Nat) (hn : m.name = .ok p)
    (hr : m.textRange = some r) : r.1 = p.start := by
  obtain ⟨name, eq, value, nested, start, stop⟩ := m
  cases show name = .ok p from hn
  have hu : ∀ (acc : Option (Nat × Nat)) (q : Nat × Nat), acc.map Prod.fst = some p.start →
      (updateRange acc q).map Prod.fst = some p.start := by
    intro acc q h
    cases acc with
    | none => cases h
    | some a => exact h
  have he : ∀ acc : Option (Nat × Nat), acc.map Prod.fst = some p.start →
      (eqRange acc eq).map Prod.fst = some p.start := by
    intro acc h
    cases eq with
    | none => exact h
    | some q => exact hu acc _ h
  rw [Meta.textRange] at hr
  simp only [optRange, Option.map_some, Option.bind_some] at hr
  have h1 : (eqRange (updateRange none (p.start, p.stop)) eq).map Prod.fst = some p.start :=
    he _ rfl
  generalize eqRange (updateRange none (p.start, p.stop)) eq = acc at hr h1
  have h2 : ∃ acc' : Option (Nat × Nat), acc'.map Prod.fst = some p.start ∧
      ((optRange MetaValue.textRange acc' value).bind fun r₄ =>
        rangeNew ((r₄.map Prod.fst).getD start) (((r₄.map Prod.snd).or stop).getD start)) =
        some r := by
    cases nested with
    | none => exact ⟨acc, h1, hr⟩
    | some m =>
      simp only at hr
      cases hm : m.textRange with
      | none => rw [hm] at hr; cases hr
      | some q =>
        rw [hm] at hr
        exact ⟨_, hu acc q h1, hr⟩
  obtain ⟨acc', h3, h4⟩ := h2
  have h5 : ∃ acc'' : Option (Nat × Nat), acc''.map Prod.fst = some p.start ∧
      rangeNew ((acc''.map Prod.fst).getD start) (((acc''.map Prod.snd).or stop).getD start) =
        some r := by
    cases value with
    | none => exact ⟨acc', h3, h4⟩
    | ok v =>
      simp only [optRange] at h4
      cases hv : v.textRange with
      | none => rw [hv] at h4; cases h4
      | some q =>
        rw [hv] at h4
        exact ⟨_, hu acc' q h3, h4⟩
    | err items =>
      simp only [optRange] at h4
      cases hv : itemsRange items with
      | none => rw [hv] at h4; cases h4
      | some q =>
        rw [hv] at h4
        cases q with
        | none => exact ⟨acc', h3, h4⟩
        | some q => exact ⟨_, hu acc' q h3, h4⟩
  obtain ⟨acc'', h6, h7⟩ := h5
  rw [h6, Option.getD_some] at h7
  unfold rangeNew at h7
  split at h7
  · rw [← Option.some.inj h7]
  · cases h7

theorem bears_of_read (pe : ExprParser) (w : Written) (o : Nat) (a : Arg) (h : IsRead pe w o a) :
    ∃ name : Elem, a.item.name = .ok ⟨name, o + Elem.lenList (leadOf w)⟩ := by
  cases w <;> exact ⟨_, h.1.1⟩

/-- The place for a first argument in a list that has one. -/
theorem place_first (pe : ExprParser) (before gap after : List Elem) (trailing : Bool)
    (w : Written) (ws : List Written) (hws : ∀ x ∈ w :: ws, x.Ok pe)
    (hwf : (parenthesised (listSource trailing (w :: ws))).wf = true)
    (hnamed : (parenthesised (listSource trailing (w :: ws))).named = true) :
    firstPlace pe (withArgs before gap after trailing (w :: ws)) =
      some (some ⟨Elem.lenList before + 1 + Elem.lenList (leadOf w), none, some ", "⟩) := by
  obtain ⟨args, h1, a, as, rfl, h2, _⟩ := has_args pe before gap after trailing (w :: ws) hws
  unfold firstPlace
  rw [h1, Option.bind_some]
  obtain ⟨name, hname⟩ := bears_of_read pe w _ a h2
  have hsome : a.item.textRange.isSome := by
    obtain ⟨items, hi⟩ := Option.isSome_iff_exists.1
      (C20_total pe (Elem.lenList before) _ hwf)
    refine C20_range_partial pe _ _ items hwf hnamed hi _ ?_
    have : (parseInkArgs pe ⟨["ink"], some (parenthesised (listSource trailing (w :: ws)),
        Elem.lenList before)⟩) = some (a :: as) := h1
    rw [parseInkArgs] at this
    simp only [hi, Option.map_some, Option.some.injEq] at this
    cases items with
    | nil => cases this
    | cons m ms =>
      rw [List.map_cons, List.cons.injEq] at this
      rw [← this.1]
      exact List.mem_cons_self
  obtain ⟨r, hr⟩ := Option.isSome_iff_exists.1 hsome
  simp only [hr, Option.map_some]
  rw [start_of_range _ _ _ hname hr]
  rfl

/-- C79. Adding a first argument puts it in front of all others, where the first one was, and changes
nothing else. -/
theorem C79_first (pe : ExprParser) (before gap after : List Elem) (trailing : Bool)
    (w : Written) (ws : List Written) (n : Written) (hws : ∀ x ∈ w :: ws, x.Ok pe) (hn : n.Ok pe)
    (hwf : (parenthesised (listSource trailing (w :: ws))).wf = true)
    (hnamed : (parenthesised (listSource trailing (w :: ws))).named = true) :
    ∃ p ws', firstPlace pe (withArgs before gap after trailing (w :: ws)) = some (some p) ∧
      ws' = setLead (leadOf w ++ leadOf n) n :: setLead [space] w :: ws ∧
      Inserts (Elem.textList (withArgs before gap after trailing (w :: ws)).file)
        (p.insertion (Elem.textList n.source))
        (Elem.textList (withArgs before gap after trailing ws').file) ∧
      Has pe (withArgs before gap after trailing ws') ws' := by
  refine ⟨_, _, place_first pe before gap after trailing w ws hws hwf hnamed, rfl, ?_,
    has_args pe _ _ _ _ _ ?_⟩
  · obtain ⟨c1, h1, h1'⟩ := setLead_source [space] w
    obtain ⟨c2, h2, h2'⟩ := setLead_source (leadOf w ++ leadOf n) n
    have e : ∃ rest, listSource trailing (w :: ws) = leadOf w ++ (c1 ++ rest) ∧
        listSource trailing (setLead (leadOf w ++ leadOf n) n :: setLead [space] w :: ws) =
          leadOf w ++ (n.source ++ [commaElem, space]) ++ (c1 ++ rest) := by
      cases ws with
      | nil => exact ⟨if trailing then [commaElem] else [], by simp [listSource, h1],
          by simp [listSource, h1', h2', h2]⟩
      | cons v vs => exact ⟨commaElem :: listSource trailing (v :: vs), by simp [listSource, h1],
          by simp [listSource, h1', h2', h2]⟩
    obtain ⟨rest, e1, e2⟩ := e
    have := insert_at before gap after (leadOf w) (c1 ++ rest) (n.source ++ [commaElem, space])
      (Elem.textList n.source ++ ", ") _ (text_after _) rfl
    rw [← e1, ← e2] at this
    simpa [withArgs, Place.insertion] using this
  · intro x hx
    rcases List.mem_cons.1 hx with rfl | hx
    · exact setLead_ok pe _ (trivia_append (leadOf_trivia pe w (hws w (by simp)))
        (leadOf_trivia pe n hn)) n hn
    · rcases List.mem_cons.1 hx with rfl | hx
      · exact setLead_ok pe _ space_trivia w (hws w (by simp))
      · exact hws x (by simp [hx])

/-- C79. Adding a first argument to an empty list makes it the only one. -/
theorem C79_first_empty (pe : ExprParser) (before gap after : List Elem) (n : Written)
    (hn : n.Ok pe) :
    ∃ p, firstPlace pe (withArgs before gap after false []) = some (some p) ∧
      Inserts (Elem.textList (withArgs before gap after false []).file)
        (p.insertion (Elem.textList n.source))
        (Elem.textList (withArgs before gap after false [n]).file) ∧
      Has pe (withArgs before gap after false [n]) [n] := by
  refine ⟨⟨Elem.lenList before + 1, none, none⟩, ?_, ?_, has_args pe _ _ _ _ _ ?_⟩
  · obtain ⟨args, h1, h2⟩ := has_args pe before gap after false [] (fun w hw => nomatch hw)
    unfold firstPlace
    rw [h1, show args = [] from h2]
    rfl
  · have := insert_at before gap after [] [] n.source
      (Elem.textList n.source) (Elem.lenList before + 1) rfl (by simp [Elem.lenList])
    simpa [withArgs, Place.insertion, listSource] using this
  · intro w hw
    rw [List.mem_singleton.1 hw]
    exact hn

/-- C79. Adding arguments to an attribute without an argument list gives it one with just these
arguments. -/
theorem C79_bare (pe : ExprParser) (before gap after : List Elem) (ns : List Written)
    (hns : ∀ w ∈ ns, w.Ok pe) (kind : Option ArgKind) :
    ∃ p, argPlace ⟨before, none, gap, true, after⟩ kind = some p ∧
      firstPlace pe ⟨before, none, gap, true, after⟩ = some (some p) ∧
      Inserts (Elem.textList (AttrIn.file ⟨before, none, gap, true, after⟩))
        (p.insertion (Elem.textList (listSource false ns)))
        (Elem.textList (withArgs (before ++ gap) [] after false ns).file) ∧
      Has pe (withArgs (before ++ gap) [] after false ns) ns := by
  refine ⟨⟨Elem.lenList (before ++ gap), some "(", some ")"⟩, rfl, rfl, ?_,
    has_args pe _ _ _ _ _ hns⟩
  refine ⟨Elem.textList (before ++ gap), Elem.textList (.tok .rBrack "]" :: after), ?_, ?_, ?_⟩
  · rw [← textList_append]
    simp [AttrIn.file, AttrIn.bracket]
  · rw [textList_size]
    rfl
  · rw [withArgs, file_text]
    simp [flat, textList_append, Elem.textList, Elem.text, Place.insertion, String.append_assoc]

/-- C79. While the list of an attribute is not closed (`#[ink(]`), adding a first argument closes it. -/
theorem C79_unclosed (pe : ExprParser) (before rest : List Elem) (n : Written) (hn : n.Ok pe)
    (hrest : ∀ e ∈ rest, e.isRParen = false) (kind : Option ArgKind) :
    ∃ p, firstPlace pe ⟨before, some (.tok .lParen "(" :: .error [.tok .rBrack "]"] :: rest), [],
        false, []⟩ = some (some p) ∧
      argPlace ⟨before, some (.tok .lParen "(" :: .error [.tok .rBrack "]"] :: rest), [],
        false, []⟩ kind = none ∧
      Inserts (Elem.textList (AttrIn.file
          ⟨before, some (.tok .lParen "(" :: .error [.tok .rBrack "]"] :: rest), [], false, []⟩))
        (p.insertion (Elem.textList n.source))
        (Elem.textList (withArgs before [] rest false [n]).file) ∧
      Has pe (withArgs before [] rest false [n]) [n] := by
  refine ⟨⟨Elem.lenList before + 1, none, some ")"⟩, ?_, rfl, ?_, has_args pe _ _ _ _ _ ?_⟩
  · obtain ⟨args, h1, h2⟩ := C76_unclosed_partial pe (Elem.lenList before) ["ink"] [] false
      (fun w hw => nomatch hw) (.error [.tok .rBrack "]"] :: rest) (.bracket [] "]" rest)
    unfold firstPlace
    rw [show AttrIn.args pe ⟨before, some (.tok .lParen "(" :: .error [.tok .rBrack "]"] :: rest), [],
      false, []⟩ = some args from h1, show args = [] from h2]
    simp only [Option.bind_some, firstPlaceEmpty, Option.getD_some, AttrIn.treeStart]
    have hl := childAt_here Elem.isLParen (Elem.lenList before) (.tok .lParen "(")
      (.error [.tok .rBrack "]"] :: rest) rfl
    have : childAt Elem.isRParen (Elem.lenList before)
        (.tok .lParen "(" :: .error [.tok .rBrack "]"] :: rest) = none := by
      have := childAt_skip Elem.isRParen (Elem.lenList before)
        (.tok .lParen "(" :: .error [.tok .rBrack "]"] :: rest) [] (by
          intro c hc
          rcases List.mem_cons.1 hc with rfl | hc
          · rfl
          · rcases List.mem_cons.1 hc with rfl | hc
            · rfl
            · exact hrest c hc)
      rw [List.append_nil] at this
      rw [this]
      rfl
    simp only [this, hl]
    rfl
  · refine ⟨Elem.textList (before ++ [.tok .lParen "("]), Elem.textList (.tok .rBrack "]" :: rest),
      ?_, ?_, ?_⟩
    · rw [← textList_append]
      simp [AttrIn.file, AttrIn.bracket, textList_append, Elem.textList, Elem.text]
    · rw [textList_size, lenList_append]
      rfl
    · rw [withArgs, file_text]
      simp [flat, textList_append, Elem.textList, Elem.text, Place.insertion, listSource,
        String.append_assoc]
  · intro w hw
    rw [List.mem_singleton.1 hw]
    exact hn

/-! ### Printed arguments -/

theorem valueElem_read (pe : ExprParser) (hpe : Reprints pe) (v : List Elem) (k : ValueTok)
    (s : String) (h : ValueIs pe v k s) : ValueIs pe [space, valueElem k s] k s := by
  have hb : AllTrivia [] := fun e he => nomatch he
  cases h with
  | underscore a b s _ _ => exact .underscore [space] [] s space_trivia hb
  | «at» a b s _ _ => exact .at [space] [] s space_trivia hb
  | expr v k s hv hp =>
    have hp' := hpe _ _ _ hp
    have key : ∀ t, t ≠ Ir.TokKind.underscore → t ≠ .at →
        ValueIs pe [space, .tok t s] k s := by
      intro t h1 h2
      refine .expr _ _ _ ?_ ?_
      · intro e he u
        rcases List.mem_cons.1 he with rfl | he
        · exact ⟨(fun h => nomatch h), (fun h => nomatch h)⟩
        · rw [List.mem_singleton.1 he]
          exact ⟨(by rintro ⟨⟩; exact h1 rfl), (by rintro ⟨⟩; exact h2 rfl)⟩
      · rw [show Elem.textList [space, .tok t s] = " " ++ s by
          simp [Elem.textList, space, Elem.text]]
        exact hp'
    cases k with
    | underscore => exact .underscore [space] [] s space_trivia hb
    | «at» => exact .at [space] [] s space_trivia hb
    | _ => exact key .other (by decide) (by decide)

theorem valueIs_unique (pe : ExprParser) (v : List Elem) (k k' : ValueTok)
    (s s' : String) (h : ValueIs pe v k s) (h' : ValueIs pe v k' s') : k' = k ∧ s' = s := by
  have hf : ∀ (a b : List Elem) (x : Elem), AllTrivia a → AllTrivia b → x.isTrivia = false →
      (a ++ x :: b).filter (fun e => !e.isTrivia) = [x] := by
    intro a b x ha hb hx
    rw [List.filter_append, List.filter_cons_of_pos (by simp [hx]),
      List.filter_eq_nil_iff.2 (by intro e he; simp [ha e he]),
      List.filter_eq_nil_iff.2 (by intro e he; simp [hb e he])]
    rfl
  cases h with
  | underscore a b s ha hb =>
    generalize hl : a ++ Elem.tok .underscore s :: b = l at h'
    have hv := hf a b (.tok .underscore s) ha hb rfl
    rw [hl] at hv
    cases h' with
    | underscore a' b' s' ha' hb' =>
      rw [hf a' b' _ ha' hb' rfl] at hv
      cases hv
      exact ⟨rfl, rfl⟩
    | «at» a' b' s' ha' hb' =>
      rw [hf a' b' _ ha' hb' rfl] at hv
      cases hv
    | expr _ _ _ hno _ => exact absurd rfl (hno (.tok .underscore s) (by rw [← hl]; simp) s).1
  | «at» a b s ha hb =>
    generalize hl : a ++ Elem.tok .at s :: b = l at h'
    have hv := hf a b (.tok .at s) ha hb rfl
    rw [hl] at hv
    cases h' with
    | underscore a' b' s' ha' hb' =>
      rw [hf a' b' _ ha' hb' rfl] at hv
      cases hv
    | «at» a' b' s' ha' hb' =>
      rw [hf a' b' _ ha' hb' rfl] at hv
      cases hv
      exact ⟨rfl, rfl⟩
    | expr _ _ _ hno _ => exact absurd rfl (hno (.tok .at s) (by rw [← hl]; simp) s).2
  | expr _ _ _ hno hp =>
    cases h' with
    | underscore a' b' s' => exact absurd rfl (hno (.tok .underscore s') (by simp) s').1
    | «at» a' b' s' => exact absurd rfl (hno (.tok .at s') (by simp) s').2
    | expr _ _ _ _ hp' =>
      rw [hp] at hp'
      cases hp'
      exact ⟨rfl, rfl⟩

theorem arg_value {a : Arg} (h : a.item.value = .none) : a.value = none := by
  unfold Arg.value
  rw [h]

theorem display_read (pe : ExprParser) (hpe : Reprints pe) (w : Written) (h : w.Ok pe) (o : Nat)
    (a : Arg) (hr : IsRead pe w o a) :
    ∃ w', Tidy pe w w' ∧ w'.Ok pe ∧ leadOf w' = [] ∧ display a.item = Elem.textList w'.source := by
  have t0 : AllTrivia [] := fun e he => nomatch he
  induction w generalizing o a with
  | flag lead name trail =>
    obtain ⟨⟨h1, _⟩, h2, h3, h4⟩ := hr
    refine ⟨_, .flag _ _ _, ⟨t0, h.2.1, t0⟩, rfl, ?_⟩
    obtain ⟨kind, n, e, v, nested, s, t⟩ := a
    have h4' : nested = none := by
      cases nested with
      | none => rfl
      | some _ => cases h4
    cases h1; cases h2; cases h3; cases h4'
    simp [display, optText, Written.source, Elem.textList]
  | keyed lead name gap eq value =>
    obtain ⟨⟨h1, _⟩, h2, h3, v, h4, h5⟩ := hr
    refine ⟨_, .keyed _ _ _ _ _ _ _ h5, ⟨t0, h.2.1, space_trivia, by simp,
      ⟨_, _, valueElem_read pe hpe _ _ _ h5⟩, ?_, ?_⟩, rfl, ?_⟩
    · intro c hc
      rcases List.mem_cons.1 hc with rfl | hc
      · exact ⟨rfl, rfl, rfl⟩
      · rw [List.mem_singleton.1 hc]
        cases v.kind <;> exact ⟨rfl, rfl, rfl⟩
    · intro c hc
      rcases List.mem_cons.1 hc with rfl | hc
      · rfl
      · rw [List.mem_singleton.1 hc]
        cases v.kind <;> rfl
    · obtain ⟨kind, n, e, mv, nested, s, t⟩ := a
      have h3' : nested = none := by
        cases nested with
        | none => rfl
        | some _ => cases h3
      have h4' : mv = .ok v := by
        cases mv with
        | ok v' => exact congrArg MetaOpt.ok (Option.some.inj h4)
        | err _ => cases h4
        | none => cases h4
      have hx : (valueElem v.kind v.text).text = v.text := by cases v.kind <;> rfl
      cases h1; cases h2; cases h3'; cases h4'
      simp only [display, optText, Written.source, Elem.textList, List.nil_append, List.cons_append,
        Option.isSome_some, if_true, hx, String.append_empty]
      simp [space, Elem.text, String.append_assoc, Elem.textList, hx]
      rw [← String.append_assoc, ← String.append_assoc]
      rfl
  | nest lead name gap inner trail ih =>
    obtain ⟨⟨h1, _⟩, h2, h3, a', h4, h5⟩ := hr
    obtain ⟨w', i1, i2, _, i3⟩ := ih h.2.2.2.1 _ a' h5
    refine ⟨_, .nest _ _ _ _ _ _ i1, ⟨t0, h.2.1, t0, i2, t0⟩, rfl, ?_⟩
    obtain ⟨kind, n, e, v, nested, s, t⟩ := a
    cases nested with
    | none => cases h4
    | some m =>
      have hm : a'.item = m := by
        have := Option.some.inj h4
        rw [← this]
        rfl
      rw [hm] at i3
      cases h1; cases h2; cases h3
      simp [display, optText, Written.source, Elem.textList, parenthesised, Elem.text,
        textList_append, i3, String.append_assoc]
  | hollow lead name gap trail =>
    obtain ⟨⟨h1, _⟩, h2, h3, a', h4, _, h5, h6, h7, h8, _⟩ := hr
    refine ⟨_, .hollow _ _ _ _, ⟨t0, h.2.1, t0, t0⟩, rfl, ?_⟩
    obtain ⟨kind, n, e, v, nested, s, t⟩ := a
    cases nested with
    | none => cases h4
    | some m =>
      have hm : a'.item = m := by
        have := Option.some.inj h4
        rw [← this]
        rfl
      obtain ⟨kind', n', e', v', nested', s', t'⟩ := a'
      have h8' : nested' = none := by
        cases nested' with
        | none => rfl
        | some _ => cases h8
      cases h1; cases h2; cases h3; cases h5; cases h6; cases h7; cases h8'
      rw [← show Meta.mk _ _ _ _ _ _ = m from hm]
      simp [display, optText, Written.source, Elem.textList, parenthesised, Elem.text]

theorem same_of_tidy (pe : ExprParser) (hpe : Reprints pe) (w w' : Written) (h : Tidy pe w w')
    (o o' : Nat) (a b : Arg) (ha : IsRead pe w o a) (hb : IsRead pe w' o' b) : SameArg a b := by
  induction h generalizing o o' a b with
  | flag lead name trail =>
    obtain ⟨⟨h1, h2⟩, _, h3, h4⟩ := ha
    obtain ⟨⟨g1, g2⟩, _, g3, g4⟩ := hb
    exact .leaf a b (by rw [h2, g2]) (by rw [h1, g1]; rfl)
      (by rw [arg_value h3, arg_value g3]) h4 g4
  | keyed lead name gap eq value k s hv =>
    obtain ⟨⟨h1, h2⟩, _, h3, v, h4, h5⟩ := ha
    obtain ⟨⟨g1, g2⟩, _, g3, u, g4, g5⟩ := hb
    refine .leaf a b (by rw [h2, g2]) (by rw [h1, g1]; rfl) ?_ h3 g3
    rw [h4, g4]
    have e1 := valueIs_unique pe _ k u.kind s u.text (valueElem_read pe hpe _ _ _ hv) g5
    have e2 := valueIs_unique pe _ k v.kind s v.text hv h5
    simp [e1, e2]
  | nest lead name gap inner trail inner' hi ih =>
    obtain ⟨⟨h1, h2⟩, _, h3, x, h4, h5⟩ := ha
    obtain ⟨⟨g1, g2⟩, _, g3, y, g4, g5⟩ := hb
    exact .nest a b x y (by rw [h2, g2]) (by rw [h1, g1]; rfl) (arg_value h3) (arg_value g3) h4 g4
      (ih _ _ x y h5 g5)
  | hollow lead name gap trail =>
    obtain ⟨⟨h1, h2⟩, _, h3, x, h4, h5, h6, _, h7, h8, _⟩ := ha
    obtain ⟨⟨g1, g2⟩, _, g3, y, g4, g5, g6, _, g7, g8, _⟩ := hb
    exact .nest a b x y (by rw [h2, g2]) (by rw [h1, g1]; rfl) (arg_value h3) (arg_value g3) h4 g4
      (.leaf x y (by rw [h5, g5]) (by rw [h6, g6]) (by rw [arg_value h7, arg_value g7]) h8 g8)

theorem read_setLead (pe : ExprParser) (w : Written) (l : List Elem) (hw : leadOf w = []) (o : Nat)
    (a : Arg) (h : IsRead pe (setLead l w) o a) : IsRead pe w (o + Elem.lenList l) a := by
  cases w <;>
  · simp only [leadOf] at hw
    subst hw
    simp only [setLead, IsRead, lenList_append, List.nil_append, Elem.lenList, Nat.add_assoc,
      Nat.zero_add, Nat.add_zero] at h ⊢
    exact h

/-- The printed list of arguments. -/
theorem print_read (pe : ExprParser) (hpe : Reprints pe) (ws : List Written)
    (h : ∀ w ∈ ws, w.Ok pe) (o : Nat) (args : List Arg) (hr : AreRead pe ws o args) :
    ∃ ws', printArgs args = Elem.textList (listSource false ws') ∧ (∀ w ∈ ws', w.Ok pe) ∧
      (∀ w, ws'.head? = some w → leadOf w = []) ∧ (ws' = [] ↔ ws = []) ∧
      ∀ o' args', AreRead pe ws' o' args' → SameArgs args args' := by
  induction ws generalizing o args with
  | nil =>
    rw [show args = [] from hr]
    refine ⟨[], rfl, (fun w hw => nomatch hw), (fun w hw => nomatch hw), by simp, ?_⟩
    intro o' args' h'
    rw [show args' = [] from h']
    exact .nil
  | cons w ws ih =>
    obtain ⟨a, as, rfl, ha, has⟩ := hr
    obtain ⟨w', t1, t2, t3, t4⟩ := display_read pe hpe w (h w (by simp)) _ a ha
    obtain ⟨ws', i1, i2, i3, i4, i5⟩ := ih (fun w hw => h w (by simp [hw])) _ as has
    refine ⟨w' :: spaceFirst ws', ?_, ?_, ?_, by simp, ?_⟩
    · by_cases he : ws = []
      · subst he
        have e1 : ws' = [] := i4.2 rfl
        have e2 : as = [] := has
        subst e1
        subst e2
        simp [printArgs, spaceFirst, listSource, t4]
      · have e1 : ws' ≠ [] := fun h => he (i4.1 h)
        rw [listSource_cons _ _ _ (spaceFirst_ne e1), spaceFirst_source _ _ e1, textList_append,
          ← text_comma, ← i1, ← t4]
        cases as with
        | nil =>
          cases ws with
          | nil => exact absurd rfl he
          | cons v vs =>
            obtain ⟨_, _, h, _⟩ := has
            cases h
        | cons b bs => simp [printArgs, String.intercalate_cons_cons, String.append_assoc]
    · intro x hx
      rcases List.mem_cons.1 hx with rfl | hx
      · exact t2
      · exact spaceFirst_ok pe ws' i2 x hx
    · intro x hx
      cases hx
      exact t3
    · intro o' args' h'
      obtain ⟨b, bs, rfl, hb, hbs⟩ := h'
      refine .cons a b as bs (same_of_tidy pe hpe w w' t1 _ _ a b ha hb) ?_
      cases ws' with
      | nil => exact i5 _ _ hbs
      | cons v vs =>
        obtain ⟨c, cs, rfl, hc, hcs⟩ := hbs
        have hv := i3 v rfl
        obtain ⟨core, s1, s2⟩ := setLead_source (space :: leadOf v) v
        refine i5 (o' + Elem.lenList w'.source + 1 + 1) (c :: cs) ⟨c, cs, rfl, ?_, ?_⟩
        · rw [hv] at hc
          exact read_setLead pe v [space] hv _ c hc
        · rw [s2, hv] at hcs
          rw [s1, hv]
          have e : Elem.lenList ([space] ++ core) = 1 + Elem.lenList core := by
            rw [lenList_append]; rfl
          rw [e] at hcs
          simpa [Nat.add_assoc, Nat.add_comm, Nat.add_left_comm] using hcs

/-- C79. The attribute written for a suggested macro has the arguments of the attribute it replaces:
the same names, values and nested arguments in the same order, without the white space and comments. -/
theorem C79_print (pe : ExprParser) (hpe : Reprints pe) (segments : List String) (o : Nat)
    (trailing : Bool) (ws : List Written) (h : ∀ w ∈ ws, w.Ok pe) (args : List Arg)
    (hargs : parseInkArgs pe ⟨segments, some (parenthesised (listSource trailing ws), o)⟩ =
      some args) (path : String) :
    ∃ list : Elem, macroAttr path args = "#[" ++ path ++ list.text ++ "]" ∧
      ∀ segments' o', ∃ args', parseInkArgs pe ⟨segments', some (list, o')⟩ = some args' ∧
        SameArgs args args' := by
  obtain ⟨args', h1, h2⟩ := C76_read_partial pe o segments ws trailing h
  rw [hargs] at h1
  cases h1
  obtain ⟨ws', p1, p2, _, _, p3⟩ := print_read pe hpe ws h _ args h2
  refine ⟨parenthesised (listSource false ws'), ?_, ?_⟩
  · unfold macroAttr
    rw [p1]
    simp [parenthesised, Elem.text, Elem.textList, textList_append, String.append_assoc]
  · intro segments' o'
    obtain ⟨args', q1, q2⟩ := C76_read_partial pe o' segments' ws' false p2
    exact ⟨args', q1, p3 _ _ q2⟩

/-! ### Moving an argument to the front -/

theorem lead_list (t : Bool) (w : Written) (ws : List Written) :
    ∃ x, listSource t (w :: ws) = leadOf w ++ x ∧
      ∀ l, listSource t (setLead l w :: ws) = l ++ x := by
  have key : ∃ core, w.source = leadOf w ++ core ∧ ∀ l, (setLead l w).source = l ++ core := by
    cases w <;> exact ⟨_, by simp [Written.source, leadOf]; rfl,
      fun l => by simp [Written.source, setLead]⟩
  obtain ⟨core, h1, h2⟩ := key
  cases ws with
  | nil => exact ⟨core ++ (if t then [commaElem] else []), by simp [listSource, h1],
      fun l => by simp [listSource, h2]⟩
  | cons v vs => exact ⟨core ++ commaElem :: listSource t (v :: vs), by simp [listSource, h1],
      fun l => by simp [listSource, h2]⟩

theorem movable_core (pe : ExprParser) (w : Written) (h : w.Ok pe) (hm : Movable w) :
    ∃ core trail, w.source = leadOf w ++ core ++ trail ∧ AllTrivia trail ∧
      (Flag core ∨ Keyed core ∧ trail = []) ∧ (∀ e ∈ core, e.isComma = false) ∧
      (Tight w → trail = []) := by
  have hn : ∀ nm : Elem, IsName nm → nm.isComma = false := fun nm h => by
    obtain ⟨s, rfl | rfl⟩ := h <;> rfl
  cases w with
  | flag lead name trail =>
    refine ⟨[name], trail, by simp [Written.source, leadOf], h.2.2, .inl ⟨name, rfl, h.2.1⟩, ?_,
      id⟩
    intro e he
    rw [List.mem_singleton.1 he]
    exact hn _ h.2.1
  | keyed lead name gap eq value =>
    refine ⟨name :: (gap ++ .tok .eq eq :: value), [], by simp [Written.source, leadOf],
      (fun e he => nomatch he), .inr ⟨⟨name, gap, eq, value, rfl, h.2.1, h.2.2.1, .inr hm⟩, rfl⟩, ?_,
      fun _ => rfl⟩
    intro e he
    rcases List.mem_cons.1 he with rfl | he
    · exact hn _ h.2.1
    · rcases List.mem_append.1 he with he | he
      · have := h.2.2.1 e he
        cases e with
        | tok k s => cases k <;> first | rfl | cases this
        | tree _ => cases this
        | error _ => cases this
      · rcases List.mem_cons.1 he with rfl | he
        · rfl
        · exact h.2.2.2.2.2.2 e he
  | nest => cases hm
  | hollow => cases hm

theorem runStarts_args (pe : ExprParser) (ws : List Written) (h : ∀ w ∈ ws, w.Ok pe) :
    runStarts Elem.isComma true (listSource true ws) = ws.length := by
  obtain ⟨args, h1, h2⟩ := C76_read_partial pe 0 [] ws true h
  rw [parseInkArgs] at h1
  simp only at h1
  cases hp : (parenthesised (listSource true ws)).parse pe 0 with
  | none => rw [hp] at h1; cases h1
  | some items =>
    rw [hp] at h1
    have hl := areRead_length pe ws _ args h2
    rw [← C20_count_partial pe 0 _ items (args_between pe true ws h) hp, ← hl,
      ← Option.some.inj h1, List.length_map]

theorem areRead_get (pe : ExprParser) (ws : List Written) (o : Nat) (args : List Arg)
    (h : AreRead pe ws o args) (i : Nat) (a : Arg) (ha : args[i]? = some a) :
    ∃ w o', ws[i]? = some w ∧ IsRead pe w o' a := by
  induction ws generalizing o args i with
  | nil => rw [show args = [] from h] at ha; cases ha
  | cons w ws ih =>
    obtain ⟨b, bs, rfl, hb, hbs⟩ := h
    cases i with
    | zero => cases ha; exact ⟨w, o, rfl, hb⟩
    | succ i => exact ih _ _ hbs i ha

theorem leadFirst_ok (pe : ExprParser) (l : List Elem) (hl : AllTrivia l) (ws : List Written)
    (h : ∀ w ∈ ws, w.Ok pe) : ∀ w ∈ leadFirst l ws, w.Ok pe := by
  cases ws with
  | nil => exact h
  | cons w ws =>
    intro x hx
    rcases List.mem_cons.1 hx with rfl | hx
    · exact setLead_ok pe _ (trivia_append hl (leadOf_trivia pe w (h w (by simp)))) w
        (h w (by simp))
    · exact h x (by simp [hx])

theorem leadFirst_source (t : Bool) (l : List Elem) (ws : List Written) (h : ws ≠ []) :
    listSource t (leadFirst l ws) = l ++ listSource t ws := by
  cases ws with
  | nil => exact absurd rfl h
  | cons w ws =>
    obtain ⟨x, h1, h2⟩ := lead_list t w ws
    rw [leadFirst, h2, h1, List.append_assoc]

theorem tidy_source {w : Written} (h : leadOf w = []) (l : List Elem) :
    (setLead l w).source = l ++ w.source := by
  obtain ⟨c, h1, h2⟩ := setLead_source l w
  rw [h2, h1, h, List.nil_append]

/-- The pieces common to both positions of the argument. -/
theorem move_setup (pe : ExprParser) (hpe : Reprints pe) (before gap after : List Elem)
    (trailing : Bool) (w₀ w : Written) (as bs : List Written)
    (hok : ∀ x ∈ w₀ :: as ++ w :: bs, x.Ok pe) (args : List Arg)
    (hargs : (withArgs before gap after trailing (w₀ :: as ++ w :: bs)).args pe = some args)
    (a : Arg) (ha : args[(w₀ :: as).length]? = some a) :
    (∃ w', Tidy pe w w' ∧ w'.Ok pe ∧ leadOf w' = [] ∧ display a.item = Elem.textList w'.source) ∧
    ∃ items, ItemAfter pe (Elem.lenList before) (listSource trailing (w₀ :: as ++ w :: bs))
      (listSource true (w₀ :: as)) items a.item ∧ items.length = args.length ∧ 2 ≤ items.length := by
  obtain ⟨args', h1, h2⟩ := has_args pe before gap after trailing (w₀ :: as ++ w :: bs) hok
  rw [hargs] at h1
  cases h1
  obtain ⟨x, o', g1, g2⟩ := areRead_get pe _ _ _ h2 _ a ha
  have : x = w := by
    rw [List.getElem?_append_right (by simp)] at g1
    simp at g1
    exact g1.symm
  subst this
  have hx : x.Ok pe := hok x (by simp)
  refine ⟨display_read pe hpe x hx o' a g2, ?_⟩
  have hargs' : parseInkArgs pe ⟨["ink"], some (parenthesised (listSource trailing
      (w₀ :: as ++ x :: bs)), Elem.lenList before)⟩ = some args := hargs
  rw [parseInkArgs] at hargs'
  simp only at hargs'
  cases hp : (parenthesised (listSource trailing (w₀ :: as ++ x :: bs))).parse pe
      (Elem.lenList before) with
  | none => rw [hp] at hargs'; cases hargs'
  | some items =>
    rw [hp] at hargs'
    have hmap : items.map Arg.ofMeta = args := Option.some.inj hargs'
    have hlen : items.length = args.length := by rw [← hmap, List.length_map]
    have hl := areRead_length pe _ _ _ h2
    refine ⟨items, ⟨hp, ?_⟩, hlen, ?_⟩
    · rw [runStarts_args pe _ (fun y hy => hok y (by
        rcases List.mem_cons.1 hy with rfl | hy
        · simp
        · simp [hy]))]
      rw [← hmap, List.getElem?_map] at ha
      cases hi : items[(w₀ :: as).length]? with
      | none => rw [hi] at ha; cases ha
      | some m =>
        rw [hi] at ha
        rw [← Option.some.inj ha]
        rfl
    · rw [hlen, hl]
      simp only [List.length_append, List.length_cons]
      omega

/-- C79. Making an argument the first one moves it in front of all others and keeps the others in
their order. Missing for the full claim: arguments with nested arguments and values followed by white
space or comments (see `C51_negation_nested`, `C51_negation_space`); the argument is printed in a uniform
layout. This is the case of an argument that is followed by another one. -/
theorem C79_move_next_partial (pe : ExprParser) (hpe : Reprints pe) (before gap after : List Elem)
    (trailing : Bool) (w₀ w : Written) (as bs : List Written)
    (hok : ∀ x ∈ w₀ :: as ++ w :: bs, x.Ok pe) (hbs : bs ≠ []) (hm : Movable w)
    (hfull : FullList (withArgs before gap after trailing (w₀ :: as ++ w :: bs)).file = true)
    (hwf : (parenthesised (listSource trailing (w₀ :: as ++ w :: bs))).wf = true)
    (hnamed : (parenthesised (listSource trailing (w₀ :: as ++ w :: bs))).named = true)
    (args : List Arg)
    (hargs : (withArgs before gap after trailing (w₀ :: as ++ w :: bs)).args pe = some args)
    (a : Arg) (ha : args[(w₀ :: as).length]? = some a)
    (attr : Option RemAttr) (hattr : ∀ r, attr = some r → r.args = args.length) :
    ∃ ins del w' ws', makeFirst pe (withArgs before gap after trailing (w₀ :: as ++ w :: bs)) attr
        a.item = some (some (ins, del)) ∧ Tidy pe w w' ∧
      ws' = setLead (leadOf w₀) w' :: setLead [space] w₀ :: as ++ leadFirst (leadOf w) bs ∧
      Moves (Elem.textList (withArgs before gap after trailing (w₀ :: as ++ w :: bs)).file) ins del
        (Elem.textList (withArgs before gap after trailing ws').file) ∧
      Has pe (withArgs before gap after trailing ws') ws' := by
  obtain ⟨⟨w', t1, t2, t3, t4⟩, items, hia, hlen, h2⟩ := move_setup pe hpe before gap after trailing
    w₀ w as bs hok args hargs a ha
  have hw : w.Ok pe := hok w (by simp)
  have hw₀ : w₀.Ok pe := hok w₀ (by simp)
  obtain ⟨core, trail, c1, c2, c3, c4, _⟩ := movable_core pe w hw hm
  have hplace := place_first pe before gap after trailing w₀ (as ++ w :: bs) hok hwf hnamed
  have emid : listSource trailing (w₀ :: as ++ w :: bs) = listSource true (w₀ :: as) ++
      (leadOf w ++ core ++ trail) ++ .tok .comma "," :: listSource trailing bs := by
    rw [listSource_append _ _ _ (by simp) (by simp), listSource_cons _ _ _ hbs,
      listSource_true _ (by simp), c1]
    simp [commaElem]
  have efile : (withArgs before gap after trailing (w₀ :: as ++ w :: bs)).file =
      inFile before (listSource trailing (w₀ :: as ++ w :: bs)) (gap ++ .tok .rBrack "]" :: after) := by
    simp [AttrIn.file, withArgs, withList, inFile, parenthesised, AttrIn.bracket]
  rw [efile] at hfull
  obtain ⟨r, r1, r2, r3⟩ := C51_next_partial pe before (gap ++ .tok .rBrack "]" :: after)
    (listSource true (w₀ :: as)) (leadOf w) core trail (listSource trailing bs) ","
    (listSource trailing (w₀ :: as ++ w :: bs)) emid hfull
    (args_between pe trailing _ hok)
    (.inr ⟨listSource false (w₀ :: as), ",", listSource_true _ (by simp)⟩)
    (leadOf_trivia pe w hw) c2 (c3.imp id And.left) c4 items a.item hia attr
    (fun r hr => by rw [hattr r hr, hlen]) h2
  obtain ⟨x, x1, x2⟩ := lead_list true w₀ as
  refine ⟨Place.insertion ⟨Elem.lenList before + 1 + Elem.lenList (leadOf w₀), none, some ", "⟩
    (display a.item), r, w', (setLead (leadOf w₀) w' :: setLead [space] w₀ :: as ++ leadFirst (leadOf w) bs), ?_, t1, rfl, ?_,
    has_args pe _ _ _ _ _ ?_⟩
  · unfold makeFirst
    rw [show w₀ :: as ++ w :: bs = w₀ :: (as ++ w :: bs) from rfl] at efile r1 ⊢
    rw [hplace, Option.bind_some, efile]
    simp only [r1, Option.map_some]
  · refine ⟨Elem.textList (before ++ .tok .lParen "(" :: leadOf w₀),
      Elem.textList (x ++ leadOf w), Elem.textList (core ++ trail ++ [.tok .comma ","]),
      Elem.textList (listSource trailing bs ++ .tok .rParen ")" ::
        (gap ++ .tok .rBrack "]" :: after)), ?_, ?_, ?_, ?_⟩
    · rw [efile, r2, x1]
      simp only [← textList_append]
      simp
    · simp only [Place.insertion]
      rw [textList_size, lenList_append, Elem.lenList]
      have h1 : (Elem.tok .lParen "(").len = 1 := rfl
      rw [h1]
      omega
    · rw [r3, x1]
      simp only [String.utf8ByteSize_append, textList_size, lenList_append, Elem.lenList]
      simp [Nat.add_assoc, Nat.add_comm, Nat.add_left_comm]
    · rw [withArgs, file_text]
      have e1 : listSource trailing (setLead (leadOf w₀) w' :: setLead [space] w₀ :: as ++
          leadFirst (leadOf w) bs) =
          leadOf w₀ ++ (w'.source ++ [commaElem, space]) ++ (x ++ leadOf w) ++
            listSource trailing bs := by
        have hb : leadFirst (leadOf w) bs ≠ [] := by
          cases bs with
          | nil => exact absurd rfl hbs
          | cons b bs => simp [leadFirst]
        rw [List.cons_append, listSource_cons _ _ _ (by simp), tidy_source t3,
          listSource_append _ _ _ (by simp) hb, leadFirst_source _ _ _ hbs]
        have := x2 [space]
        rw [listSource_true _ (by simp)] at this
        have e := congrArg (fun z => z ++ (leadOf w ++ listSource trailing bs)) this
        simp only [List.append_assoc, List.singleton_append] at e
        simp [e]
      simp only [Place.insertion]
      rw [e1, Option.getD_none, Option.getD_some, t4, String.empty_append, text_after,
        ← textList_append, ← textList_append, ← textList_append]
      simp [flat]
  · intro y hy
    rcases List.mem_append.1 hy with hy | hy
    · rcases List.mem_cons.1 hy with rfl | hy
      · exact setLead_ok pe _ (leadOf_trivia pe w₀ hw₀) w' t2
      · rcases List.mem_cons.1 hy with rfl | hy
        · exact setLead_ok pe _ space_trivia w₀ hw₀
        · exact hok y (by simp [hy])
    · exact leadFirst_ok pe _ (leadOf_trivia pe w hw) bs (fun b hb => hok b (by simp [hb])) y hy

/-- C79. The same for the last argument of a list without trailing comma. -/
theorem C79_move_last_partial (pe : ExprParser) (hpe : Reprints pe) (before gap after : List Elem)
    (w₀ w : Written) (as : List Written)
    (hok : ∀ x ∈ w₀ :: as ++ [w], x.Ok pe) (hm : Movable w) (ht : Tight w)
    (hfull : FullList (withArgs before gap after false (w₀ :: as ++ [w])).file = true)
    (hwf : (parenthesised (listSource false (w₀ :: as ++ [w]))).wf = true)
    (hnamed : (parenthesised (listSource false (w₀ :: as ++ [w]))).named = true)
    (args : List Arg)
    (hargs : (withArgs before gap after false (w₀ :: as ++ [w])).args pe = some args)
    (a : Arg) (ha : args[(w₀ :: as).length]? = some a)
    (attr : Option RemAttr) (hattr : ∀ r, attr = some r → r.args = args.length) :
    ∃ ins del w' ws', makeFirst pe (withArgs before gap after false (w₀ :: as ++ [w])) attr
        a.item = some (some (ins, del)) ∧ Tidy pe w w' ∧
      ws' = setLead (leadOf w₀) w' :: setLead [space] w₀ :: as ∧
      Moves (Elem.textList (withArgs before gap after false (w₀ :: as ++ [w])).file) ins del
        (Elem.textList (withArgs before gap after false ws').file) ∧
      Has pe (withArgs before gap after false ws') ws' := by
  obtain ⟨⟨w', t1, t2, t3, t4⟩, items, hia, hlen, h2⟩ := move_setup pe hpe before gap after false
    w₀ w as [] hok args hargs a ha
  have hw : w.Ok pe := hok w (by simp)
  have hw₀ : w₀.Ok pe := hok w₀ (by simp)
  obtain ⟨core, trail, c1, c2, c3, c4, c5⟩ := movable_core pe w hw hm
  have c6 := c5 ht
  subst c6
  have hplace := place_first pe before gap after false w₀ (as ++ [w]) hok hwf hnamed
  have emid : listSource false (w₀ :: as ++ [w]) = listSource false (w₀ :: as) ++
      .tok .comma "," :: (leadOf w ++ core ++ []) := by
    rw [listSource_append _ _ _ (by simp) (by simp)]
    simp [listSource, c1, commaElem]
  have efile : (withArgs before gap after false (w₀ :: as ++ [w])).file =
      inFile before (listSource false (w₀ :: as ++ [w])) (gap ++ .tok .rBrack "]" :: after) := by
    simp [AttrIn.file, withArgs, withList, inFile, parenthesised, AttrIn.bracket]
  rw [efile] at hfull
  rw [listSource_true _ (by simp)] at hia
  obtain ⟨r, r1, r2, r3⟩ := C51_last_partial pe before (gap ++ .tok .rBrack "]" :: after)
    (listSource false (w₀ :: as)) (leadOf w) core [] ","
    (listSource false (w₀ :: as ++ [w])) emid hfull
    (args_between pe false _ hok) (leadOf_trivia pe w hw)
    (c3.imp (fun h => ⟨h, c2⟩) id) c4 items a.item hia attr
    (fun r hr => by rw [hattr r hr, hlen]) h2
  obtain ⟨x, x1, x2⟩ := lead_list false w₀ as
  refine ⟨Place.insertion ⟨Elem.lenList before + 1 + Elem.lenList (leadOf w₀), none, some ", "⟩
    (display a.item), r, w', (setLead (leadOf w₀) w' :: setLead [space] w₀ :: as), ?_, t1, rfl, ?_,
    has_args pe _ _ _ _ _ ?_⟩
  · unfold makeFirst
    rw [show w₀ :: as ++ [w] = w₀ :: (as ++ [w]) from rfl] at efile r1 ⊢
    rw [hplace, Option.bind_some, efile]
    simp only [r1, Option.map_some]
  · refine ⟨Elem.textList (before ++ .tok .lParen "(" :: leadOf w₀),
      Elem.textList x, Elem.textList (.tok .comma "," :: (leadOf w ++ core)),
      Elem.textList (.tok .rParen ")" :: (gap ++ .tok .rBrack "]" :: after)), ?_, ?_, ?_, ?_⟩
    · rw [efile, r2, x1]
      simp only [← textList_append]
      simp
    · simp only [Place.insertion]
      rw [textList_size, lenList_append, Elem.lenList]
      have h1 : (Elem.tok .lParen "(").len = 1 := rfl
      rw [h1]
      omega
    · rw [r3, x1]
      simp only [String.utf8ByteSize_append, textList_size, lenList_append, Elem.lenList]
      simp [Nat.add_assoc, Nat.add_comm, Nat.add_left_comm]
    · rw [withArgs, file_text]
      have e1 : listSource false (setLead (leadOf w₀) w' :: setLead [space] w₀ :: as) =
          leadOf w₀ ++ (w'.source ++ [commaElem, space]) ++ x := by
        rw [listSource_cons _ _ _ (by simp), tidy_source t3, x2]
        simp
      simp only [Place.insertion]
      rw [e1, Option.getD_none, Option.getD_some, t4, String.empty_append, text_after,
        ← textList_append, ← textList_append, ← textList_append]
      simp [flat]
  · intro y hy
    rcases List.mem_cons.1 hy with rfl | hy
    · exact setLead_ok pe _ (leadOf_trivia pe w₀ hw₀) w' t2
    · rcases List.mem_cons.1 hy with rfl | hy
      · exact setLead_ok pe _ space_trivia w₀ hw₀
      · exact hok y (by simp [hy])

/-! ## Where the claim is false -/

/-- `#[ink` -/
def sampleStart : List Elem := [.tok .other "#", .tok .other "[", .tok .ident "ink"]

/-- Behind a trailing comma followed by white space another comma is inserted. -/
theorem C79_negation_trailing :
    ∃ p, argPlace (withList sampleStart [] [] [.tok .ident "event", .tok .comma ",", .tok .whitespace " "])
        (some .anonymous) = some p ∧
      Inserts "#[ink(event, )]" (p.insertion "anonymous") "#[ink(event, , anonymous)]" :=
  ⟨⟨13, some ", ", none⟩, by decide +kernel, "#[ink(event, ", ")]", by decide, by decide, by decide⟩

/-- Between parentheses with just white space a comma is inserted in front of the argument, or behind
it when it is a primary one. -/
theorem C79_negation_empty :
    (∃ p, argPlace (withList sampleStart [] [] [.tok .whitespace " "]) (some .anonymous) = some p ∧
      Inserts "#[ink( )]" (p.insertion "anonymous") "#[ink( , anonymous)]") ∧
    ∃ p, argPlace (withList sampleStart [] [] [.tok .whitespace " "]) (some .event) = some p ∧
      Inserts "#[ink( )]" (p.insertion "event") "#[ink(event,  )]" :=
  ⟨⟨⟨7, some ", ", none⟩, by decide +kernel, "#[ink( ", ")]", by decide, by decide, by decide⟩,
    ⟨6, none, some ", "⟩, by decide +kernel, "#[ink(", " )]", by decide, by decide, by decide⟩

theorem childAt_none (p : Elem → Bool) (o : Nat) (cs : List Elem) (h : ∀ c ∈ cs, p c = false) :
    childAt p o cs = none := by
  have := childAt_skip p o cs [] h
  rw [List.append_nil] at this
  rw [this]
  rfl

/-- C79. To a list without parentheses of its own (one in square or curly brackets), whatever it holds,
every argument is added in a second list behind it, and nothing else changes. -/
theorem C79_brackets (before gap after cs : List Elem) (text : String) (kind : Option ArgKind)
    (hcs : ∀ c ∈ cs, c.isLParen = false ∧ c.isRParen = false) :
    ∃ p, argPlace ⟨before, some cs, gap, true, after⟩ kind = some p ∧
      Inserts (Elem.textList (AttrIn.file ⟨before, some cs, gap, true, after⟩)) (p.insertion text)
        (Elem.textList before ++ Elem.textList cs ++ "(" ++ text ++ ")" ++ Elem.textList gap ++ "]" ++
          Elem.textList after) := by
  refine ⟨⟨Elem.lenList before + Elem.lenList cs, some "(", some ")"⟩, ?_, ?_⟩
  · have hl := childAt_none Elem.isLParen (Elem.lenList before) cs fun c hc => (hcs c hc).1
    have hr := childAt_none Elem.isRParen (Elem.lenList before) cs fun c hc => (hcs c hc).2
    simp only [argPlace, AttrIn.treeStart, treeOffset, treePrefix, treeSuffix, hl, hr, if_true]
    cases kind.any ArgKind.isEntityType <;> rfl
  · refine ⟨Elem.textList (before ++ cs), Elem.textList (gap ++ .tok .rBrack "]" :: after), ?_, ?_, ?_⟩
    · simp [AttrIn.file, AttrIn.bracket, textList_append, Elem.textList, Elem.text, String.append_assoc]
    · rw [textList_size, lenList_append]
      rfl
    · simp [textList_append, Elem.textList, Elem.text, Place.insertion, String.append_assoc]

example : ∀ c ∈ [Elem.tok .other "[", .tok .ident "event", .tok .rBrack "]"],
    c.isLParen = false ∧ c.isRParen = false := by decide

/-- To a list in square brackets a second list in parentheses is added. -/
theorem C79_negation_brackets :
    ∃ p, argPlace ⟨sampleStart, some [.tok .other "[", .tok .ident "event", .tok .rBrack "]"], [], true, []⟩
        (some .anonymous) = some p ∧
      Inserts "#[ink[event]]" (p.insertion "anonymous") "#[ink[event](anonymous)]" :=
  ⟨⟨12, some "(", some ")"⟩, by decide +kernel, "#[ink[event]", "]", by decide, by decide, by decide⟩

/-- Moving the last argument of a list with a trailing comma to the front leaves white space behind the
trailing comma, which the analyzer takes for a further argument. -/
theorem C79_negation_move :
    ∃ pe a₁ a₂ b₁ b₂ b₃ ins del, (withList sampleStart [] [] [.tok .ident "payable", .tok .comma ",",
        .tok .whitespace " ", .tok .ident "message", .tok .comma ","]).args pe = some [a₁, a₂] ∧
      makeFirst pe (withList sampleStart [] [] [.tok .ident "payable", .tok .comma ",",
        .tok .whitespace " ", .tok .ident "message", .tok .comma ","]) none a₂.item =
          some (some (ins, del)) ∧
      Moves "#[ink(payable, message,)]" ins del "#[ink(message, payable, )]" ∧
      (withList sampleStart [] [] [.tok .ident "message", .tok .comma ",", .tok .whitespace " ",
        .tok .ident "payable", .tok .comma ",", .tok .whitespace " "]).args pe = some [b₁, b₂, b₃] ∧
      b₃.kind = .unknown :=
  ⟨fun _ => none, _, _, _, _, _, (6, "message, "), (15, 23), rfl, by decide +kernel,
    ⟨"#[ink(", "payable, ", "message,", ")]", by decide, by decide, by decide, by decide⟩, rfl, rfl⟩

/-! ## Cases -/

/-- `payable, selector = _, message` -/
def sampleMoved : List Written :=
  [.flag [] (.tok .ident "payable") [],
   .keyed [space] (.tok .ident "selector") [space] "=" [space, .tok .underscore "_"],
   .flag [space] (.tok .ident "message") []]

theorem sampleMoved_ok (pe : ExprParser) : ∀ w ∈ sampleMoved, w.Ok pe := by
  have t0 : AllTrivia [] := fun e he => nomatch he
  have nm : ∀ s, IsName (.tok .ident s) := fun s => ⟨s, .inl rfl⟩
  intro w hw
  simp only [sampleMoved, List.mem_cons, List.not_mem_nil, or_false] at hw
  rcases hw with rfl | rfl | rfl
  · exact ⟨t0, nm _, t0⟩
  · exact ⟨space_trivia, nm _, space_trivia, by simp,
      ⟨_, _, .underscore [.tok .whitespace " "] [] "_" space_trivia t0⟩, by decide, by decide⟩
  · exact ⟨space_trivia, nm _, t0⟩

theorem sampleMoved_full :
    FullList (withArgs sampleStart [] [] false sampleMoved).file = true := by decide

/-- The expression parser that knows one constant. -/
def constPe : ExprParser := fun s => if s = " A" then some (.path, "A") else none

theorem constPe_reprints : Reprints constPe := by
  intro t k s h
  unfold constPe at h
  split at h
  · cases h; rfl
  · cases h

/-- The hypotheses of `C79_last_partial` hold of `#[ink(payable, selector = _, message)]`. -/
example : ∃ p ns', argPlace (withArgs sampleStart [] [] false sampleMoved) (some .default) = some p ∧
    Inserts (Elem.textList (withArgs sampleStart [] [] false sampleMoved).file)
      (p.insertion "default") (Elem.textList (withArgs sampleStart [] [] false
        (sampleMoved ++ ns')).file) :=
  let ⟨p, ns', h1, _, h2, _⟩ := C79_last_partial constPe sampleStart [] [] false sampleMoved
    [.flag [] (.tok .ident "default") []] (sampleMoved_ok _)
    (by
      intro w hw
      simp only [sampleMoved, List.mem_cons, List.not_mem_nil, or_false] at hw
      rcases hw with rfl | rfl | rfl
      · trivial
      · exact ⟨by decide, by decide⟩
      · trivial)
    (by
      intro w hw
      rw [List.mem_singleton.1 hw]
      exact ⟨(fun e he => nomatch he), ⟨_, .inl rfl⟩, (fun e he => nomatch he)⟩)
    (by simp) sampleMoved_full (some .default) (by decide)
  ⟨p, ns', h1, h2⟩

/-- So do those of `C79_primary_partial` and `C79_first`. -/
example : ArgKind.isEntityType .message = true ∧
    (parenthesised (listSource false sampleMoved)).wf = true ∧
    (parenthesised (listSource false sampleMoved)).named = true := by decide

/-- Those of `C79_move_last_partial` for the argument `message`; the attribute becomes
`#[ink(message, payable, selector = _)]`. -/
example : ∃ ins del, Moves "#[ink(payable, selector = _, message)]" ins del
    "#[ink(message, payable, selector = _)]" := by
  obtain ⟨args, h1, h2⟩ := has_args constPe sampleStart [] [] false sampleMoved (sampleMoved_ok _)
  have hl := areRead_length _ _ _ _ h2
  have hlt : 2 < args.length := by rw [hl]; decide
  obtain ⟨ins, del, w', ws', _, t, rfl, h, _⟩ := C79_move_last_partial constPe constPe_reprints
    sampleStart [] [] (.flag [] (.tok .ident "payable") []) (.flag [space] (.tok .ident "message") [])
    [.keyed [space] (.tok .ident "selector") [space] "=" [space, .tok .underscore "_"]]
    (sampleMoved_ok _) trivial rfl sampleMoved_full (by decide) (by decide) args h1 args[2]
    (List.getElem?_eq_getElem hlt) none (fun _ h => nomatch h)
  cases t
  exact ⟨ins, del, h⟩

/-- Those of `C79_move_next_partial` for the argument `selector = _`. -/
example : ∃ ins del w', Tidy constPe (.keyed [space] (.tok .ident "selector") [space] "="
      [space, .tok .underscore "_"]) w' ∧
    Moves "#[ink(payable, selector = _, message)]" ins del
      (Elem.textList (withArgs sampleStart [] [] false
        [setLead [] w', .flag [space] (.tok .ident "payable") [],
          .flag [space, space] (.tok .ident "message") []]).file) := by
  obtain ⟨args, h1, h2⟩ := has_args constPe sampleStart [] [] false sampleMoved (sampleMoved_ok _)
  have hl := areRead_length _ _ _ _ h2
  have hlt : 1 < args.length := by rw [hl]; decide
  obtain ⟨ins, del, w', ws', _, t, rfl, h, _⟩ := C79_move_next_partial constPe constPe_reprints
    sampleStart [] [] false (.flag [] (.tok .ident "payable") [])
    (.keyed [space] (.tok .ident "selector") [space] "=" [space, .tok .underscore "_"]) []
    [.flag [space] (.tok .ident "message") []]
    (sampleMoved_ok _) (by simp) ⟨[space], .tok .underscore "_", rfl, rfl⟩ sampleMoved_full
    (by decide) (by decide) args h1 args[1]
    (List.getElem?_eq_getElem hlt) none (fun _ h => nomatch h)
  exact ⟨ins, del, w', t, h⟩

/-- Those of `C79_print` for the whole list. -/
example : ∃ args, parseInkArgs constPe ⟨["ink"], some (parenthesised (listSource false sampleMoved), 5)⟩ =
    some args ∧ args.length = 3 :=
  let ⟨args, h, h'⟩ := C76_read_partial constPe 5 ["ink"] sampleMoved false (sampleMoved_ok _)
  ⟨args, h, areRead_length _ _ _ _ h'⟩

end Verif.Analyzer.Insert
