import Verif.Analyzer.Complement
import Verif.Analyzer.OverlapProps
import Verif.Analyzer.RemoveReadProps
import Verif.Analyzer.AddArgsProps
import Verif.Analyzer.TemplatesProps

/-!
# C107: the quickfixes of the wildcard complement rule lead to a contract that meets the rule
-/

namespace Verif.Analyzer.Complement
open Verif.Ir Verif.Analyzer.RemoveRead Verif.Analyzer.Insert

/-! ## Specification -/

/-- The kind of an argument, and the kind and text of its value. -/
abbrev Fact := ArgKind × Option (ValueTok × String)

/-- What is said about a message: the arguments of its ink! attributes. -/
abbrev Said := List (List Fact)

/-- What is said about a message. -/
def said (m : CallItem) : Said := m.call.attrs.map fun a => a.args.map facts

/-- Of each attribute the first selector counts. -/
def selectors (s : Said) : List Fact := s.filterMap fun args => args.find? fun x => x.1 = .selector

/-- There is a wildcard selector. -/
def Wild (s : Said) : Prop := ∃ x ∈ selectors s, ∃ t, x.2 = some (.underscore, t)

/-- There is a wildcard complement selector: `@`, or the number that means the same. -/
def Compl (s : Said) : Prop :=
  ∃ x ∈ selectors s, ∃ k t, x.2 = some (k, t) ∧ (k = .at ∨ asInt 4294967295 k t = some 0x9BAE9D5E)

/-- The rule: neither selector is used, or there are wildcard messages and exactly one other message, which
has the complement selector. -/
def Rule (ms : List Said) : Prop :=
  (∀ m ∈ ms, ¬ Wild m ∧ ¬ Compl m) ∨
    ((∃ m ∈ ms, Wild m) ∧ ∃ pre m post, ms = pre ++ m :: post ∧ ¬ Wild m ∧ Compl m ∧
      ∀ x ∈ pre ++ post, Wild x)

/-- `selector = @`. -/
def atSelector : Fact := (.selector, some (.at, "@"))

/-- `sel` is an argument of the message: the attributes before its own are `p`, those behind it `q`, the
arguments of its attribute before it are `a`, those behind it `b`. -/
structure ArgAt (m : CallItem) (sel : Arg) (p : List InkAttr) (a b : List Arg) (q : List InkAttr) : Prop where
  attrs : ∃ k pr, m.call.attrs = p ++ ⟨k, a ++ sel :: b, pr⟩ :: q
  first : sel ∉ a ∧ ∀ x ∈ p, sel ∉ x.args

/-- What is said about the messages after a quickfix. -/
inductive Applied (ms : List CallItem) : Fix → List Said → Prop
  /-- A new message has the complement selector and no wildcard selector. -/
  | addMessage (act pre post new) : ms.map said = pre ++ post → ¬ Wild new → Compl new →
      Applied ms (.addMessage act) (pre ++ new :: post)
  | removeMessage (m pre post) : ms = pre ++ m :: post →
      Applied ms (.removeMessage m) (pre.map said ++ post.map said)
  | replaceSelector (m sel pre post p a b q) : ms = pre ++ m :: post → ArgAt m sel p a b q →
      Applied ms (.replaceSelector m sel) (pre.map said ++
        (p.map (fun x => x.args.map facts) ++ (a.map facts ++ atSelector :: b.map facts) ::
          q.map (fun x => x.args.map facts)) :: post.map said)
  /-- The new argument is the last one of an attribute. -/
  | addSelector (m place pre post p x q) : ms = pre ++ m :: post → m.call.attrs = p ++ x :: q →
      Applied ms (.addSelector m place) (pre.map said ++
        (p.map (fun x => x.args.map facts) ++ (x.args.map facts ++ [atSelector]) ::
          q.map (fun x => x.args.map facts)) :: post.map said)
  | removeSelector (m sel pre post p a b q) : ms = pre ++ m :: post → ArgAt m sel p a b q →
      Applied ms (.removeSelector m sel) (pre.map said ++
        (p.map (fun x => x.args.map facts) ++ (a.map facts ++ b.map facts) ::
          q.map (fun x => x.args.map facts)) :: post.map said)
  /-- An attribute without arguments may no longer be an ink! attribute. -/
  | dropAttribute (m sel pre post p q) : ms = pre ++ m :: post → ArgAt m sel p [] [] q →
      Applied ms (.removeSelector m sel) (pre.map said ++
        (p.map (fun x => x.args.map facts) ++ q.map (fun x => x.args.map facts)) :: post.map said)

/-- One of the quickfixes of the reports is applied. -/
def Step (c : Context) (ms ms' : List CallItem) : Prop :=
  ∃ d ∈ wildcardComplement ms, ∃ f, fix c ms d = some f ∧ Applied ms f (ms'.map said)

/-- So many quickfixes are applied, one after the other. The places for new arguments and the added message
may be others each time. -/
inductive Run : Nat → List CallItem → List CallItem → Prop
  | done (ms) : Run 0 ms ms
  | step (c n ms ms' ms'') : Step c ms ms' → Run n ms' ms'' → Run (n + 1) ms ms''

/-- Replacing the byte range `r` of the text. -/
def Replaces (text : String) (r : Nat × Nat) (new result : String) : Prop :=
  ∃ left gone right, Deletes text r left gone right ∧ result = left ++ new ++ right

/-- `selector = @`, with white space and comments around it. -/
def atWritten (lead trail : List Elem) : Written :=
  .keyed lead (.tok .ident "selector") [.tok .whitespace " "] "="
    (.tok .whitespace " " :: .tok .at "@" :: trail)

/-- What stands behind a lone name. -/
def behindName : Written → List Elem
  | .flag _ _ trail => trail
  | _ => []

/-- The number of arguments of the messages. -/
def size (ms : List CallItem) : Nat := (ms.flatMap fun m => m.call.attrs.flatMap (·.args)).length

/-! ## Lemmas -/

theorem selectors_eq (m : CallItem) : selectors (said m) = (firstSelectors m).map facts := by
  unfold selectors said firstSelectors
  rw [List.filterMap_map, List.map_filterMap]
  congr 1
  funext a
  simp only [Function.comp_apply, List.find?_map, List.head?_filter]
  congr 1

theorem wild_iff (m : CallItem) : Wild (said m) ↔ isWild m := by
  unfold Wild isWild
  rw [selectors_eq]
  constructor
  · rintro ⟨x, hx, t, ht⟩
    obtain ⟨a, ha, rfl⟩ := List.mem_map.1 hx
    simp only [facts, Option.map_eq_some_iff] at ht
    obtain ⟨v, hv, he⟩ := ht
    exact ⟨a, ha, v, hv, (Prod.mk.inj he).1⟩
  · rintro ⟨a, ha, v, hv, hk⟩
    exact ⟨facts a, List.mem_map_of_mem ha, v.text, by simp [facts, hv, hk]⟩

theorem compl_iff (m : CallItem) : Compl (said m) ↔ isCompl m := by
  unfold Compl isCompl
  rw [selectors_eq]
  constructor
  · rintro ⟨x, hx, k, t, ht, hc⟩
    obtain ⟨a, ha, rfl⟩ := List.mem_map.1 hx
    simp only [facts, Option.map_eq_some_iff] at ht
    obtain ⟨v, hv, he⟩ := ht
    obtain ⟨rfl, rfl⟩ := Prod.mk.inj he
    exact ⟨a, ha, v, hv, hc⟩
  · rintro ⟨a, ha, v, hv, hk⟩
    exact ⟨facts a, List.mem_map_of_mem ha, v.kind, v.text, by simp [facts, hv], hk⟩

open Classical in
/-- The number of messages without wildcard. -/
noncomputable def others (l : List Said) : Nat := l.countP fun s => decide (¬ Wild s)

open Classical in
/-- The number of messages without wildcard, with complement. -/
noncomputable def compls (l : List Said) : Nat := l.countP fun s => decide (¬ Wild s ∧ Compl s)

open Classical in
/-- How many steps can follow. -/
noncomputable def steps (l : List Said) : Nat :=
  if ∃ m ∈ l, Wild m then
    if others l = 0 then 1
    else if ∃ m ∈ l, Compl m then if compls l = 0 then others l + 1 else others l - 1
    else others l
  else l.flatten.flatten.length + l.length + 1

theorem others_le (l : List Said) : others l ≤ l.length := by
  classical
  exact List.countP_le_length

theorem steps_wild (l : List Said) (h : ∃ m ∈ l, Wild m) : steps l ≤ l.length + 1 := by
  have := others_le l
  unfold steps
  rw [if_pos h]
  repeat' split
  all_goals omega

theorem compls_le (l : List Said) : compls l ≤ others l := by
  classical
  unfold compls others
  apply List.countP_mono_left
  intro x _ h
  simp only [decide_eq_true_eq] at h ⊢
  exact h.1

theorem others_split (a b : List Said) (m : Said) :
    others (a ++ m :: b) = others (a ++ b) + others [m] := by
  classical
  simp only [others, List.countP_append, List.countP_cons, List.countP_nil]
  omega

theorem compls_split (a b : List Said) (m : Said) :
    compls (a ++ m :: b) = compls (a ++ b) + compls [m] := by
  classical
  simp only [compls, List.countP_append, List.countP_cons, List.countP_nil]
  omega

theorem others_one {m : Said} (h : ¬ Wild m) : others [m] = 1 := by
  classical
  simp [others, h]

theorem compls_one {m : Said} (h : ¬ Wild m) (h' : Compl m) : compls [m] = 1 := by
  classical
  simp [compls, h, h']

theorem compls_none {m : Said} (h' : ¬ Compl m) : compls [m] = 0 := by
  classical
  simp [compls, h']

theorem others_zero {l : List Said} (h : ∀ m ∈ l, Wild m) : others l = 0 := by
  classical
  unfold others
  rw [List.countP_eq_zero]
  intro m hm
  simp [h m hm]

theorem compl_of_compls {l : List Said} (h : compls l ≠ 0) : ∃ m ∈ l, Compl m := by
  classical
  have : 0 < compls l := by omega
  unfold compls at this
  rw [List.countP_pos_iff] at this
  obtain ⟨m, hm, h⟩ := this
  simp only [decide_eq_true_eq] at h
  exact ⟨m, hm, h.2⟩

/-- With complement selectors among the other messages, every other message but one has to go. -/
theorem steps_compls {l : List Said} (hw : ∃ m ∈ l, Wild m) (h : compls l ≠ 0) :
    steps l = others l - 1 := by
  unfold steps
  have := compls_le l
  rw [if_pos hw, if_neg (by omega), if_pos (compl_of_compls h), if_neg h]

theorem wild_rest {a b : List Said} {m : Said} (h : ∃ x ∈ a ++ m :: b, Wild x) (hm : ¬ Wild m) :
    ∃ x ∈ a ++ b, Wild x := by
  obtain ⟨x, hx, h⟩ := h
  rw [List.mem_append, List.mem_cons] at hx
  rcases hx with hx | rfl | hx
  · exact ⟨x, by simp [hx], h⟩
  · exact absurd h hm
  · exact ⟨x, by simp [hx], h⟩

theorem wild_more {a b : List Said} {m : Said} (h : ∃ x ∈ a ++ b, Wild x) : ∃ x ∈ a ++ m :: b, Wild x := by
  obtain ⟨x, hx, h⟩ := h
  rw [List.mem_append] at hx
  rcases hx with hx | hx
  · exact ⟨x, by simp [hx], h⟩
  · exact ⟨x, by simp [hx], h⟩

/-- Removing a message that is not needed. -/
theorem steps_remove (a b : List Said) (m : Said) (hw : ∃ x ∈ a ++ m :: b, Wild x) (hm : ¬ Wild m)
    (h : (Compl m ∧ 2 ≤ compls (a ++ m :: b)) ∨ (¬ Compl m ∧ ∃ x ∈ a ++ m :: b, Compl x)) :
    steps (a ++ b) < steps (a ++ m :: b) := by
  have hw' := wild_rest hw hm
  have h1 := others_split a b m
  rw [others_one hm] at h1
  have h2 := compls_split a b m
  rcases h with ⟨hc, h⟩ | ⟨hc, h⟩
  · rw [compls_one hm hc] at h2
    have h3 := compls_le (a ++ b)
    rw [steps_compls hw (by omega), steps_compls hw' (by omega)]
    omega
  · rw [compls_none hc] at h2
    by_cases hz : compls (a ++ b) = 0
    · have hs : steps (a ++ m :: b) = others (a ++ m :: b) + 1 := by
        unfold steps
        rw [if_pos hw, if_neg (by omega), if_pos h, if_pos (by omega)]
      rw [hs]
      have hx : ∃ x ∈ a ++ b, Compl x := by
        obtain ⟨x, hx, hx'⟩ := h
        rw [List.mem_append, List.mem_cons] at hx
        rcases hx with hx | rfl | hx
        · exact ⟨x, by simp [hx], hx'⟩
        · exact absurd hx' hc
        · exact ⟨x, by simp [hx], hx'⟩
      unfold steps
      rw [if_pos hw', if_pos hx, if_pos hz]
      split <;> omega
    · have h3 := compls_le (a ++ b)
      rw [steps_compls hw (by omega), steps_compls hw' hz]
      omega

/-- Giving a message the selector. -/
theorem steps_mark (a b : List Said) (m m' : Said) (hw : ∃ x ∈ a ++ m :: b, Wild x) (hm : ¬ Wild m)
    (hn : ∀ x ∈ a ++ m :: b, ¬ Compl x) (hm' : ¬ Wild m') (hc : Compl m') :
    steps (a ++ m' :: b) < steps (a ++ m :: b) := by
  have hw' := wild_more (m := m') (wild_rest hw hm)
  have h1 := others_split a b m
  have h1' := others_split a b m'
  rw [others_one hm] at h1
  rw [others_one hm'] at h1'
  have h2 := compls_split a b m'
  rw [compls_one hm' hc] at h2
  rw [steps_compls hw' (by omega)]
  have hs : steps (a ++ m :: b) = others (a ++ m :: b) := by
    unfold steps
    rw [if_pos hw, if_neg (by omega), if_neg (fun ⟨x, hx, h⟩ => hn x hx h)]
  omega

/-- Adding the missing message. -/
theorem steps_add (a b : List Said) (m : Said) (hw : ∃ x ∈ a ++ b, Wild x) (ha : ∀ x ∈ a ++ b, Wild x)
    (hm : ¬ Wild m) (hc : Compl m) : steps (a ++ m :: b) < steps (a ++ b) := by
  have hw' := wild_more (m := m) hw
  have h1 := others_split a b m
  rw [others_one hm, others_zero ha] at h1
  have h2 := compls_split a b m
  rw [compls_one hm hc] at h2
  rw [steps_compls hw' (by omega), h1]
  unfold steps
  rw [if_pos hw, if_pos (others_zero ha)]
  omega

/-- Removing an argument where there is no wildcard. -/
theorem steps_drop (l l' : List Said) (hw : ∀ x ∈ l, ¬ Wild x) (hl : l'.length = l.length)
    (h : l'.flatten.flatten.length < l.flatten.flatten.length) : steps l' < steps l := by
  have hs : steps l = l.flatten.flatten.length + l.length + 1 := by
    unfold steps
    rw [if_neg (fun ⟨x, hx, h⟩ => hw x hx h)]
  rw [hs]
  by_cases hw' : ∃ m ∈ l', Wild m
  · have := steps_wild l' hw'
    omega
  · unfold steps
    rw [if_neg hw']
    omega

/-! ### The reports -/

theorem second_count (m : CallItem) (sel : Arg) : ∀ (ms : List CallItem) (w seen : Bool),
    .second m sel ∈ complementLoop w seen ms →
      ∃ k, ms.countP hasComplement = k ∧ (if seen then 1 ≤ k else 2 ≤ k) := by
  intro ms
  induction ms with
  | nil => intro w seen h; simp [complementLoop] at h
  | cons x ms ih =>
    intro w seen h
    refine ⟨_, rfl, ?_⟩
    unfold complementLoop at h
    have hc : hasComplement x =
        ((argsByKind x.call.attrs .selector).find? argIsComplement).isSome := by
      unfold hasComplement
      rw [Bool.eq_iff_iff, List.find?_isSome]
      simp
    rw [List.countP_cons]
    cases hf : (argsByKind x.call.attrs .selector).find? argIsComplement with
    | none =>
      rw [hf] at h hc
      have : .second m sel ∈ complementLoop w seen ms := by
        cases w <;> simpa using h
      obtain ⟨k, hk, h'⟩ := ih _ _ this
      rw [hk, hc]
      simpa using h'
    | some s =>
      rw [hf] at h hc
      rw [hc]
      simp only [Option.isSome_some, if_true]
      cases seen with
      | true => simp
      | false =>
        have : .second m sel ∈ complementLoop w true ms := by
          cases w <;> simpa using h
        obtain ⟨k, hk, h'⟩ := ih _ _ this
        rw [hk]
        simpa using h'

theorem noOther_wild {ms : List CallItem} (h : .noOther ∈ wildcardComplement ms) :
    ∃ m ∈ ms, isWild m := by
  have hloop : ∀ (ms : List CallItem) (w seen : Bool), .noOther ∉ complementLoop w seen ms := by
    intro ms
    induction ms with
    | nil => intro w seen h; simp [complementLoop] at h
    | cons x ms ih =>
      intro w seen h
      unfold complementLoop at h
      split at h <;> cases w <;> cases seen <;> simp [ih] at h
  unfold wildcardComplement at h
  dsimp only at h
  split at h
  · cases h
  · split at h
    · rename_i h'
      rw [Bool.and_eq_true] at h'
      obtain ⟨m, hm, hw⟩ := List.any_eq_true.1 h'.1
      exact ⟨m, hm, (hasWildcard_iff m).1 hw⟩
    · exact absurd h (hloop _ _ _)

theorem second_compls {ms : List CallItem} {m : CallItem} {sel : Arg}
    (h : .second m sel ∈ wildcardComplement ms) : 2 ≤ compls (ms.map said) := by
  classical
  unfold wildcardComplement at h
  dsimp only at h
  split at h
  · cases h
  · split at h
    · simp at h
    · obtain ⟨k, hk, h2⟩ := second_count m sel _ _ _ h
      have h2 : 2 ≤ k := by simpa using h2
      have : compls (ms.map said) = k := by
        rw [← hk, compls, List.countP_map, List.countP_filter]
        apply List.countP_congr
        intro x _
        simp only [Function.comp_apply, decide_eq_true_eq, wild_iff, compl_iff, ← hasWildcard_iff,
          ← hasComplement_iff, Bool.and_eq_true, Bool.not_eq_true']
        cases hasWildcard x <;> simp
      omega

/-! ### Marking a message -/

theorem split_unique {α : Type} {a b c d : List α} {x y : α} (h : a ++ x :: b = c ++ y :: d)
    (h1 : y ∉ a) (h2 : x ∉ c) : a = c ∧ x = y ∧ b = d := by
  rcases List.append_eq_append_iff.1 h with ⟨e, h3, h4⟩ | ⟨e, h3, h4⟩
  · cases e with
    | nil =>
      simp only [List.nil_append, List.cons.injEq] at h4
      simp only [List.append_nil] at h3
      exact ⟨h3.symm, h4.1, h4.2⟩
    | cons z e =>
      simp only [List.cons_append, List.cons.injEq] at h4
      exact absurd (by rw [h3, h4.1]; simp) h2
  · cases e with
    | nil =>
      simp only [List.nil_append, List.cons.injEq] at h4
      simp only [List.append_nil] at h3
      exact ⟨h3, h4.1.symm, h4.2.symm⟩
    | cons z e =>
      simp only [List.cons_append, List.cons.injEq] at h4
      exact absurd (by rw [h3, h4.1]; simp) h1

/-- The argument that is replaced is the first selector of its attribute. -/
theorem first_selector {m : CallItem} {sel : Arg} {p q : List InkAttr} {a b : List Arg}
    (h : Ir.argByKind m.call.attrs .selector = some sel) (hs : ArgAt m sel p a b q) :
    sel.kind = .selector ∧ ∀ x ∈ a, x.kind ≠ .selector := by
  obtain ⟨⟨k, pr, he⟩, h1, h2⟩ := hs
  obtain ⟨p0, x0, q0, e0, f0, g0⟩ := List.findSome?_eq_some_iff.1 h
  obtain ⟨hk, b1, b2, e1, g1⟩ := List.find?_eq_some_iff_append.1 f0
  have hk : sel.kind = .selector := by simpa using hk
  refine ⟨hk, ?_⟩
  rw [he] at e0
  have hx0 : sel ∈ x0.args := by rw [e1]; simp
  obtain ⟨rfl, hx, rfl⟩ := split_unique e0 (fun hm => h2 x0 hm hx0) (fun hm => by
    have := g0 _ hm
    rw [List.find?_eq_none] at this
    exact this sel (by simp) (by simp [hk]))
  subst hx
  have hb1 : sel ∉ b1 := fun hm => by
    have := g1 sel hm
    simp [hk] at this
  obtain ⟨rfl, -, -⟩ := split_unique e1 h1 hb1
  intro y hy
  have := g1 y hy
  simpa using this

theorem find_skip (a b : List Fact) (x : Fact) (h : ∀ y ∈ a, y.1 ≠ .selector) (hx : x.1 = .selector) :
    (a ++ x :: b).find? (fun x => decide (x.1 = ArgKind.selector)) = some x := by
  rw [List.find?_append, List.find?_eq_none.2 (by simpa using h), List.find?_cons_of_pos (by simpa using hx)]
  rfl

theorem marked (p q : Said) (l a b : List Fact) (x : Fact) (hl : l.find? (fun x => decide (x.1 = ArgKind.selector)) = some x ∨
      l.find? (fun x => decide (x.1 = ArgKind.selector)) = none)
    (h : ∀ y ∈ a, y.1 ≠ .selector) (hw : ¬ Wild (p ++ l :: q)) :
    ¬ Wild (p ++ (a ++ atSelector :: b) :: q) ∧ Compl (p ++ (a ++ atSelector :: b) :: q) := by
  have e : selectors (p ++ (a ++ atSelector :: b) :: q) =
      selectors p ++ atSelector :: selectors q := by
    unfold selectors
    rw [List.filterMap_append, List.filterMap_cons, find_skip a b atSelector h rfl]
  have e' : ∃ z, selectors (p ++ l :: q) = selectors p ++ (z ++ selectors q) := by
    unfold selectors
    rw [List.filterMap_append, List.filterMap_cons]
    rcases hl with hl | hl <;> rw [hl]
    · exact ⟨[x], rfl⟩
    · exact ⟨[], rfl⟩
  constructor
  · rintro ⟨y, hy, t, ht⟩
    rw [e, List.mem_append, List.mem_cons] at hy
    obtain ⟨z, e'⟩ := e'
    rcases hy with hy | rfl | hy
    · exact hw ⟨y, by rw [e']; simp [hy], t, ht⟩
    · cases ht
    · exact hw ⟨y, by rw [e']; simp [hy], t, ht⟩
  · exact ⟨atSelector, by rw [e]; simp, .at, "@", rfl, .inl rfl⟩

theorem said_split {m : CallItem} {p q : List InkAttr} {x : InkAttr} (h : m.call.attrs = p ++ x :: q) :
    said m = p.map (fun x => x.args.map facts) ++ x.args.map facts :: q.map (fun x => x.args.map facts) := by
  unfold said
  rw [h]
  simp

theorem find_cases (l : List Fact) (f : Fact → Bool) : ∃ x, l.find? f = some x ∨ l.find? f = none := by
  cases h : l.find? f with
  | none => exact ⟨atSelector, .inr rfl⟩
  | some x => exact ⟨x, .inl rfl⟩

theorem step_steps {c : Context} {ms ms' : List CallItem} (h : Step c ms ms') :
    steps (ms'.map said) < steps (ms.map said) := by
  obtain ⟨d, hd, f, hf, ha⟩ := h
  have hr := C41_reports ms d hd
  generalize ms'.map said = l' at ha
  have mem : ∀ {P : Said → Prop}, (∃ x ∈ ms, P (said x)) → ∃ x ∈ ms.map said, P x :=
    fun ⟨x, hx, h⟩ => ⟨said x, List.mem_map_of_mem hx, h⟩
  cases d with
  | noOther =>
    have hr : ∀ m ∈ ms, isWild m := hr
    simp only [fix, Option.map_eq_some_iff] at hf
    obtain ⟨act, _, rfl⟩ := hf
    cases ha with
    | addMessage _ pre post new he h1 h2 =>
      rw [he]
      refine steps_add pre post new ?_ ?_ h1 h2
      · rw [← he]
        obtain ⟨m, hm, hw⟩ := noOther_wild hd
        exact mem ⟨m, hm, (wild_iff m).2 hw⟩
      · rw [← he]
        intro x hx
        obtain ⟨m, hm, rfl⟩ := List.mem_map.1 hx
        exact (wild_iff m).2 (hr m hm)
  | second m sel =>
    obtain ⟨h1, h2, h3, w, hw, h4⟩ := (hr : m ∈ ms ∧ ¬ isWild m ∧ isCompl m ∧ ∃ w ∈ ms, isWild w)
    cases hf
    cases ha with
    | removeMessage _ pre post he =>
      have hcount := second_compls hd
      have hwild := mem (P := Wild) ⟨w, hw, (wild_iff w).2 h4⟩
      subst he
      rw [List.map_append, List.map_cons] at hcount hwild ⊢
      exact steps_remove _ _ _ hwild (fun h => h2 ((wild_iff m).1 h)) (.inl ⟨(compl_iff m).2 h3, hcount⟩)
  | notComplement m =>
    obtain ⟨h1, h2, h3, w, hw, h4⟩ := (hr : m ∈ ms ∧ ¬ isWild m ∧ ¬ isCompl m ∧ ∃ w ∈ ms, isWild w)
    have hwild := mem (P := Wild) ⟨w, hw, (wild_iff w).2 h4⟩
    have h2' : ¬ Wild (said m) := fun h => h2 ((wild_iff m).1 h)
    simp only [fix, messageFix] at hf
    split at hf
    · rename_i hc
      cases hf
      obtain ⟨x, hx, hxc⟩ := List.any_eq_true.1 hc
      have hcompl := mem (P := Compl) ⟨x, hx, (compl_iff x).2 ((hasComplement_iff x).1 hxc)⟩
      cases ha with
      | removeMessage _ pre post he =>
        subst he
        rw [List.map_append, List.map_cons] at hwild hcompl ⊢
        exact steps_remove _ _ _ hwild h2' (.inr ⟨fun h => h3 ((compl_iff m).1 h), hcompl⟩)
    · rename_i hc
      have hn : ∀ x ∈ ms.map said, ¬ Compl x := by
        intro x hx h
        obtain ⟨y, hy, rfl⟩ := List.mem_map.1 hx
        exact hc (List.any_eq_true.2 ⟨y, hy, (hasComplement_iff y).2 ((compl_iff y).1 h)⟩)
      split at hf
      · rename_i s hs
        cases hf
        cases ha with
        | replaceSelector _ _ pre post p a b q he hat =>
          obtain ⟨k1, k2⟩ := first_selector hs hat
          obtain ⟨⟨k, pr, he'⟩, -⟩ := hat
          have hm := said_split he'
          subst he
          rw [List.map_append, List.map_cons] at hwild hn ⊢
          obtain ⟨z, hz⟩ := find_cases ((a ++ s :: b).map facts) fun x => decide (x.1 = ArgKind.selector)
          have := marked _ _ _ (a.map facts) (b.map facts) z hz (by
            intro y hy
            obtain ⟨u, hu, rfl⟩ := List.mem_map.1 hy
            exact k2 u hu) (by rw [hm] at h2'; exact h2')
          exact steps_mark _ _ _ _ hwild h2' hn this.1 this.2
      · rename_i hs
        simp only [Option.map_eq_some_iff] at hf
        obtain ⟨pl, _, rfl⟩ := hf
        cases ha with
        | addSelector _ _ pre post p x q he he' =>
          have hm := said_split he'
          subst he
          rw [List.map_append, List.map_cons] at hwild hn ⊢
          obtain ⟨z, hz⟩ := find_cases (x.args.map facts) fun x => decide (x.1 = ArgKind.selector)
          have := marked _ _ _ (x.args.map facts) [] z hz (by
            intro y hy
            obtain ⟨u, hu, rfl⟩ := List.mem_map.1 hy
            rw [Ir.argByKind, List.findSome?_eq_none_iff] at hs
            have := hs x (by rw [he']; simp)
            rw [List.find?_eq_none] at this
            have := this u hu
            show u.kind ≠ _
            simpa using this) (by rw [hm] at h2'; exact h2')
          exact steps_mark _ _ _ _ hwild h2' hn this.1 this.2
  | noWildcard m sel =>
    obtain ⟨h1, h2, h3⟩ := (hr : m ∈ ms ∧ isCompl m ∧ ∀ w ∈ ms, ¬ isWild w)
    have hno : ∀ x ∈ ms.map said, ¬ Wild x := by
      intro x hx h
      obtain ⟨y, hy, rfl⟩ := List.mem_map.1 hx
      exact h3 y hy ((wild_iff y).1 h)
    cases hf
    cases ha with
    | removeSelector _ _ pre post p a b q he hat =>
      obtain ⟨⟨k, pr, he'⟩, -⟩ := hat
      have hm := said_split he'
      subst he
      refine steps_drop _ _ hno (by simp) ?_
      rw [List.map_append, List.map_cons, hm]
      simp
    | dropAttribute _ _ pre post p q he hat =>
      obtain ⟨⟨k, pr, he'⟩, -⟩ := hat
      have hm := said_split he'
      subst he
      refine steps_drop _ _ hno (by simp) ?_
      rw [List.map_append, List.map_cons, hm]
      simp

theorem steps_bound (ms : List CallItem) : steps (ms.map said) ≤ size ms + ms.length + 1 := by
  by_cases h : ∃ m ∈ ms.map said, Wild m
  · have := steps_wild _ h
    rw [List.length_map] at this
    omega
  · unfold steps
    rw [if_neg h]
    have : (ms.map said).flatten.flatten.length = size ms := by
      unfold size
      induction ms with
      | nil => rfl
      | cons m ms ih =>
        rw [List.map_cons, List.flatten_cons, List.flatten_append, List.length_append,
          ih (fun ⟨x, hx, hw⟩ => h ⟨x, by simp only [List.map_cons, List.mem_cons]; exact .inr hx, hw⟩),
          List.flatMap_cons, List.length_append]
        congr 1
        unfold said
        induction m.call.attrs with
        | nil => rfl
        | cons x xs ih => simp [ih]
    rw [this, List.length_map]
    omega

theorem rule_iff (ms : List CallItem) : wildcardComplement ms = [] ↔ Rule (ms.map said) := by
  rw [C41_iff]
  unfold Rule
  refine or_congr ?_ (and_congr ?_ ?_)
  · simp [wild_iff, compl_iff]
  · simp only [List.mem_map]
    constructor
    · rintro ⟨m, hm, h⟩
      exact ⟨said m, ⟨m, hm, rfl⟩, (wild_iff m).2 h⟩
    · rintro ⟨_, ⟨m, hm, rfl⟩, h⟩
      exact ⟨m, hm, (wild_iff m).1 h⟩
  · constructor
    · rintro ⟨pre, m, post, rfl, h1, h2, h3⟩
      refine ⟨pre.map said, said m, post.map said, by simp, fun h => h1 ((wild_iff m).1 h),
        (compl_iff m).2 h2, ?_⟩
      rw [← List.map_append]
      intro x hx
      obtain ⟨y, hy, rfl⟩ := List.mem_map.1 hx
      exact (wild_iff y).2 (h3 y hy)
    · rintro ⟨pre, m, post, he, h1, h2, h3⟩
      obtain ⟨l1, l2, rfl, rfl, e2⟩ := List.map_eq_append_iff.1 he
      obtain ⟨y, l3, rfl, rfl, rfl⟩ := List.map_eq_cons_iff.1 e2
      refine ⟨l1, y, l3, rfl, fun h => h1 ((wild_iff y).2 h), (compl_iff y).1 h2, fun x hx => ?_⟩
      exact (wild_iff x).1 (h3 (said x) (by rw [← List.map_append]; exact List.mem_map_of_mem hx))

theorem reported_arg (m : CallItem) (sel : Arg) : ∀ (ms : List CallItem) (w seen : Bool),
    (.second m sel ∈ complementLoop w seen ms ∨ .noWildcard m sel ∈ complementLoop w seen ms) →
      ∃ x ∈ m.call.attrs, sel ∈ x.args ∧ sel.kind = .selector ∧ argIsComplement sel = true := by
  intro ms
  induction ms with
  | nil => intro w seen h; simp [complementLoop] at h
  | cons x ms ih =>
    intro w seen h
    unfold complementLoop at h
    cases hf : (argsByKind x.call.attrs .selector).find? argIsComplement with
    | none =>
      rw [hf] at h
      refine ih w seen ?_
      cases w <;> simpa using h
    | some s =>
      rw [hf] at h
      have hs : ∃ y ∈ x.call.attrs, s ∈ y.args ∧ s.kind = .selector ∧ argIsComplement s = true := by
        have h1 := List.mem_of_find?_eq_some hf
        have h2 := List.find?_some hf
        obtain ⟨y, hy, h3⟩ := List.mem_filterMap.1 h1
        exact ⟨y, hy, List.mem_of_find?_eq_some h3, by simpa using List.find?_some h3, h2⟩
      cases w <;> cases seen <;>
        simp only [Bool.false_eq_true, if_false, if_true, List.mem_cons, reduceCtorEq, false_or,
          ComplementDiag.second.injEq, ComplementDiag.noWildcard.injEq] at h
      · rcases h with h | ⟨rfl, rfl⟩ | h
        · exact ih _ _ (.inl h)
        · exact hs
        · exact ih _ _ (.inr h)
      · rcases h with h | ⟨rfl, rfl⟩ | h
        · exact ih _ _ (.inl h)
        · exact hs
        · exact ih _ _ (.inr h)
      · exact ih _ _ h
      · rcases h with (⟨rfl, rfl⟩ | h) | h
        · exact hs
        · exact ih _ _ (.inl h)
        · exact ih _ _ (.inr h)

theorem reported_sel (ms : List CallItem) (m : CallItem) (sel : Arg)
    (h : .second m sel ∈ wildcardComplement ms ∨ .noWildcard m sel ∈ wildcardComplement ms) :
    ∃ x ∈ m.call.attrs, sel ∈ x.args ∧ sel.kind = .selector ∧ argIsComplement sel = true := by
  unfold wildcardComplement at h
  dsimp only at h
  split at h
  · simp at h
  · split at h
    · simp at h
    · exact reported_arg _ _ _ _ _ h

theorem complement_fact (sel : Arg) (hk : sel.kind = .selector) (h : argIsComplement sel = true) :
    ∃ k t, (facts sel).2 = some (k, t) ∧ (k = .at ∨ asInt 4294967295 k t = some 0x9BAE9D5E) := by
  obtain ⟨v, hv, hc⟩ := (argIsComplement_iff sel hk).1 h
  exact ⟨v.kind, v.text, by simp [facts, hv], hc⟩

/-! ### The source -/

theorem at_ok (pe : ExprParser) (lead trail : List Elem) (h1 : AllTrivia lead) (h2 : AllTrivia trail) :
    (atWritten lead trail).Ok pe := by
  have hs : AllTrivia [Elem.tok .whitespace " "] := by
    intro e he
    rw [List.mem_singleton.1 he]
    rfl
  have hv : ValueIs pe (.tok .whitespace " " :: .tok .at "@" :: trail) .at "@" :=
    .at [.tok .whitespace " "] trail "@" hs h2
  have hc : ∀ e ∈ (Elem.tok .whitespace " " :: .tok .at "@" :: trail), e.isComma = false ∧
      e.isTrivia = true ∨ e = .tok .at "@" := by
    intro e he
    rcases List.mem_cons.1 he with rfl | he
    · exact .inl ⟨rfl, rfl⟩
    · rcases List.mem_cons.1 he with rfl | he
      · exact .inr rfl
      · have := h2 e he
        refine .inl ⟨?_, this⟩
        cases e with
        | tok k s => cases k <;> first | rfl | cases this
        | tree _ => rfl
        | error _ => rfl
  refine ⟨h1, ⟨"selector", .inl rfl⟩, hs, by simp, ⟨_, _, hv⟩, ?_, ?_⟩
  · intro e he
    rcases hc e he with h | rfl
    · cases e with
      | tok k s => cases k <;> first | exact ⟨rfl, rfl, rfl⟩ | cases h.2
      | tree _ => cases h.2
      | error _ => cases h.2
    · exact ⟨rfl, rfl, rfl⟩
  · intro e he
    rcases hc e he with h | rfl
    · exact h.1
    · rfl

theorem at_read (pe : ExprParser) (lead trail : List Elem) (h2 : AllTrivia trail) (o : Nat) (a : Arg)
    (h : IsRead pe (atWritten lead trail) o a) : facts a = atSelector := by
  obtain ⟨⟨-, h1⟩, -, -, v, hv, hx⟩ := h
  have hs : AllTrivia [Elem.tok .whitespace " "] := by
    intro e he
    rw [List.mem_singleton.1 he]
    rfl
  have hy : ValueIs pe (.tok .whitespace " " :: .tok .at "@" :: trail) .at "@" :=
    .at [.tok .whitespace " "] trail "@" hs h2
  have := valueIs_unique pe hx hy
  simp only [facts, h1, hv, Option.map_some, this.1, this.2, atSelector]
  rfl

/-- The range of a simple argument. -/
theorem arg_range (pe : ExprParser) (A : List Elem) (ws1 : List Written) (w : Written) (ws2 : List Written)
    (trailing : Bool) (hok : ∀ x ∈ ws1 ++ w :: ws2, x.Ok pe) (hs : Simple w)
    (ht : ∀ l n g q v, w = .keyed l n g q v → EndsTight w) (items : List Meta) (m : Meta)
    (hitems : (parenthesised (listSource trailing (ws1 ++ w :: ws2))).parse pe (Elem.lenList A) = some items)
    (hm : items[ws1.length]? = some m) :
    ∃ core, w.source = lead w ++ core ++ behindName w ∧ m.textRange =
      some (Elem.lenList (A ++ .tok .lParen "(" :: (listSource true ws1 ++ lead w)),
        Elem.lenList (A ++ .tok .lParen "(" :: (listSource true ws1 ++ lead w)) + Elem.lenList core) := by
  have hok1 : ∀ x ∈ ws1, x.Ok pe := fun x hx => hok x (by simp [hx])
  have hw : w.Ok pe := hok w (by simp)
  have hb := listSource_plain pe trailing _ hok
  obtain ⟨p1, -, p3⟩ := source_plain pe w hw
  obtain ⟨post, hp, hpost⟩ : ∃ post, listSource trailing (ws1 ++ w :: ws2) =
      listSource true ws1 ++ w.source ++ post ∧ (post = [] ∨ ∃ c p, post = .tok .comma c :: p) := by
    rw [RemoveRead.listSource_append]
    cases ws2 with
    | nil =>
      refine ⟨if trailing then [commaElem] else [], by simp [listSource], ?_⟩
      cases trailing
      · exact .inl rfl
      · exact .inr ⟨",", [], rfl⟩
    | cons x ws2 => exact ⟨commaElem :: listSource trailing (x :: ws2), by simp [listSource], .inr ⟨_, _, rfl⟩⟩
  rw [hp] at hb hitems
  obtain ⟨t1, t2, sep, hbuild⟩ := item_of_group pe (Elem.lenList A) (listSource true ws1) w.source post
    hb p1 p3 (listSource_true ws1) hpost items m ⟨hitems, by rw [runStarts_list pe ws1 hok1]; exact hm⟩
  have hX : Elem.lenList (A ++ .tok .lParen "(" :: (listSource true ws1 ++ lead w)) =
      Elem.lenList A + 1 + Elem.lenList (listSource true ws1) + Elem.lenList (lead w) := by
    simp only [lenList_append, Elem.lenList, show (Elem.tok .lParen "(").len = 1 from by decide]
    omega
  rw [hX]
  cases w with
  | flag l n tr =>
    have hm' := item_flag pe _ l tr n hw.1 hw.2.2 hw.2.1 t1 t2 sep m hbuild
    subst hm'
    refine ⟨[n], by simp [Written.source, lead, behindName], ?_⟩
    rw [(flag_range _ sep).1]
    simp [Placed.stop, lead, Elem.lenList]
  | keyed l n g q v =>
    have hm' := item_keyed pe _ l g v n q hw.1 hw.2.2.1 hw.2.1 t1 t2 sep m hbuild
    have hoff : Elem.lenList A + 1 + Elem.lenList (listSource true ws1) + Elem.lenList (l ++ n :: g) =
        Elem.lenList A + 1 + Elem.lenList (listSource true ws1) + Elem.lenList l + Elem.lenList (n :: g) := by
      rw [lenList_append]
      omega
    rw [hoff] at hm'
    obtain ⟨-, e, h2, -, h3⟩ := keyed_range pe _ n g v q sep m hm'
    refine ⟨n :: (g ++ .tok .eq q :: v), by simp [Written.source, lead, behindName], ?_⟩
    rw [h2, h3 (.inr (ht l n g q v rfl))]
    rfl
  | nest => exact absurd hs id
  | hollow => exact absurd hs id

/-! ## Theorems -/

/-- Applying quickfixes of the wildcard complement rule, one at a time and in any order, comes to an end:
there are at most as many steps as the messages have arguments, plus one for every message, plus one. Each
step counts, whichever report and place it is for. -/
theorem C107_ends (n : Nat) (ms ms' : List CallItem) (h : Run n ms ms') :
    n ≤ size ms + ms.length + 1 := by
  suffices key : n + steps (ms'.map said) ≤ steps (ms.map said) by
    have := steps_bound ms
    omega
  induction h with
  | done => omega
  | step c n ms ms' ms'' h _ ih =>
    have := step_steps h
    omega

/-- When there is no further quickfix, although there are a place for an argument in every message
attribute and a place for a new message, the contract meets the rule. -/
theorem C107_meets (c : Context) (ms : List CallItem) (hh : c.handler ≠ none)
    (hp : ∀ m ∈ ms, c.place m ≠ none) (h : ∀ d ∈ wildcardComplement ms, fix c ms d = none) :
    Rule (ms.map said) := by
  rw [← rule_iff]
  rcases hw : wildcardComplement ms with _ | ⟨d, ds⟩
  · rfl
  · exfalso
    have hd : d ∈ wildcardComplement ms := by rw [hw]; simp
    have hn := h d hd
    have hr := C41_reports ms d hd
    cases d with
    | noOther =>
      simp only [fix, Option.map_eq_none_iff] at hn
      exact hh hn
    | second m sel => cases hn
    | notComplement m =>
      have hr : m ∈ ms ∧ ¬ isWild m ∧ ¬ isCompl m ∧ ∃ w ∈ ms, isWild w := hr
      simp only [fix, messageFix] at hn
      split at hn
      · cases hn
      · split at hn
        · cases hn
        · simp only [Option.map_eq_none_iff] at hn
          exact hp m hr.1 hn
    | noWildcard m sel => cases hn

/-- Replacing an argument: the argument, and nothing else of the text, becomes `selector = @`; afterwards the
attribute is read with `selector = @` in the place of the argument and all others as before. Missing:
arguments with parentheses, and values with white space or comments behind them. -/
theorem C107_replaced_partial (pe : ExprParser) (A B : List Elem) (segments : List String)
    (ws1 : List Written) (w : Written) (ws2 : List Written) (trailing : Bool)
    (hok : ∀ x ∈ ws1 ++ w :: ws2, x.Ok pe) (hs : Simple w)
    (ht : ∀ l n g q v, w = .keyed l n g q v → EndsTight w) (args : List Arg)
    (hargs : parseInkArgs pe ⟨segments, some (parenthesised (listSource trailing (ws1 ++ w :: ws2)),
      Elem.lenList A)⟩ = some args)
    (sel : Arg) (ha : args[ws1.length]? = some sel) (r : Ranges) (hr : sel.item.textRange = some (r.arg sel))
    (m : CallItem) :
    ∃ new x y args',
      ((Fix.replaceSelector m sel).action r).edits = [⟨new.toList, x, y, none⟩] ∧
      Replaces (Elem.textList (inFile A (listSource trailing (ws1 ++ w :: ws2)) B)) (x, y) new
        (Elem.textList (inFile A (listSource trailing (ws1 ++ atWritten (lead w) (behindName w) :: ws2)) B)) ∧
      parseInkArgs pe ⟨segments, some (parenthesised (listSource trailing
        (ws1 ++ atWritten (lead w) (behindName w) :: ws2)), Elem.lenList A)⟩ = some args' ∧
      args'.map facts = (args.map facts).set ws1.length atSelector := by
  have hw : w.Ok pe := hok w (by simp)
  have hbt : AllTrivia (behindName w) := by
    cases w with
    | flag l n tr => exact hw.2.2
    | keyed => exact fun e he => nomatch he
    | nest => exact fun e he => nomatch he
    | hollow => exact fun e he => nomatch he
  have hok' : ∀ x ∈ ws1 ++ atWritten (lead w) (behindName w) :: ws2, x.Ok pe := by
    intro x hx
    rw [List.mem_append, List.mem_cons] at hx
    rcases hx with hx | rfl | hx
    · exact hok x (by simp [hx])
    · exact at_ok pe _ _ (lead_ok pe w hw) hbt
    · exact hok x (by simp [hx])
  obtain ⟨args', hp', hr'⟩ := C76_read_partial pe (Elem.lenList A) segments _ trailing hok'
  have hread : AreRead pe (ws1 ++ w :: ws2) (Elem.lenList A + 1) args := by
    obtain ⟨args0, hp, hr⟩ := C76_read_partial pe (Elem.lenList A) segments _ trailing hok
    rw [hargs] at hp
    cases hp
    exact hr
  obtain ⟨items, hitems, rfl⟩ : ∃ items, (parenthesised (listSource trailing (ws1 ++ w :: ws2))).parse pe
      (Elem.lenList A) = some items ∧ args = items.map Arg.ofMeta := by
    simp only [parseInkArgs, Option.map_eq_some_iff] at hargs
    obtain ⟨items, h1, h2⟩ := hargs
    exact ⟨items, h1, h2.symm⟩
  rw [List.getElem?_map, Option.map_eq_some_iff] at ha
  obtain ⟨mt, hm, rfl⟩ := ha
  obtain ⟨core, hc, hrange⟩ := arg_range pe A ws1 w ws2 trailing hok hs ht items mt hitems hm
  have hrange : (Arg.ofMeta mt).item.textRange = _ := hrange
  rw [hr, Option.some.injEq] at hrange
  refine ⟨"selector = @", _, _, args', rfl, ?_, hp', ?_⟩
  · have key : ∀ x : Written, ∃ post, listSource trailing (ws1 ++ x :: ws2) =
        listSource true ws1 ++ x.source ++ post ∧ ∀ y : Written, listSource trailing (ws1 ++ y :: ws2) =
        listSource true ws1 ++ y.source ++ post := by
      intro x
      cases ws2 with
      | nil => exact ⟨if trailing then [commaElem] else [], by simp [RemoveRead.listSource_append, listSource],
          fun y => by simp [RemoveRead.listSource_append, listSource]⟩
      | cons z ws2 => exact ⟨commaElem :: listSource trailing (z :: ws2),
          by simp [RemoveRead.listSource_append, listSource], fun y => by simp [RemoveRead.listSource_append, listSource]⟩
    obtain ⟨post, e1, e2⟩ := key w
    refine ⟨Elem.textList (A ++ .tok .lParen "(" :: (listSource true ws1 ++ lead w)), Elem.textList core,
      Elem.textList (behindName w ++ post ++ .tok .rParen ")" :: B), ?_, ?_⟩
    · refine deletes_of A _ B _ core _ ?_ _ ?_
      · rw [e1, hc]
        simp
      · show r.arg (Arg.ofMeta mt) = _
        rw [hrange, lenList_append _ core]
    · rw [inFile_text, e2]
      simp only [atWritten, Written.source, textList_append, Elem.textList, Elem.text, String.append_assoc,
        String.append_empty]
      rw [show ("selector = @" : String) = "selector" ++ (" " ++ ("=" ++ (" " ++ "@"))) from by decide]
      simp only [String.append_assoc]
  · obtain ⟨as1, as2, o2, e1, h1, b, t, rfl, -, h2⟩ := areRead_append pe ws1 _ _ _ hread
    obtain ⟨as1', as2', o2', rfl, h1', b', t', rfl, h3', h2'⟩ := areRead_append pe ws1 _ _ args' hr'
    have hl := areRead_length pe ws1 _ as1 h1
    rw [e1, List.map_append, List.map_append, facts_same pe ws1 _ _ _ _ h1 h1', List.map_cons, List.map_cons,
      at_read pe _ _ hbt _ _ h3', facts_same pe ws2 _ _ _ _ h2 h2']
    rw [show ws1.length = (as1.map facts).length from by rw [List.length_map, hl]]
    simp

/-- Adding an argument: `selector = @` becomes the last argument of the attribute, all others are read as
before. Missing: lists with white space behind a trailing comma, and lists of white space only
(`C79_negation_trailing`, `C79_negation_empty`). -/
theorem C107_added_partial (pe : ExprParser) (before gap after : List Elem) (trailing : Bool)
    (ws : List Written) (hws : ∀ w ∈ ws, w.Ok pe) (hshut : ∀ w ∈ ws, Shut w)
    (hfull : FullList (withArgs before gap after trailing ws).file = true) (r : Ranges) (m : CallItem) :
    ∃ p new x lead args args', argPlace (withArgs before gap after trailing ws) none = some p ∧
      ((Fix.addSelector m p).action r).edits = [⟨new.toList, x, x, none⟩] ∧
      Inserts (Elem.textList (withArgs before gap after trailing ws).file) (x, new)
        (Elem.textList (withArgs before gap after false (ws ++ [atWritten lead []])).file) ∧
      (withArgs before gap after trailing ws).args pe = some args ∧
      (withArgs before gap after false (ws ++ [atWritten lead []])).args pe = some args' ∧
      args'.map facts = args.map facts ++ [atSelector] := by
  have t0 : AllTrivia [] := fun e he => nomatch he
  have hns : ∀ w ∈ [atWritten [] []], w.Ok pe := by
    intro w hw
    rw [List.mem_singleton.1 hw]
    exact at_ok pe [] [] t0 t0
  obtain ⟨p, ns', h1, h2, h3, args', h4, h5⟩ := C79_last_partial pe before gap after trailing ws
    [atWritten [] []] hws hshut hns (by simp) hfull none (fun k hk => nomatch hk)
  obtain ⟨lead, rfl⟩ : ∃ lead, ns' = [atWritten lead []] := by
    rcases h2 with rfl | rfl
    · exact ⟨[], rfl⟩
    · exact ⟨[space], rfl⟩
  obtain ⟨args, h6, h7⟩ := C76_read_partial pe (withArgs before gap after trailing ws).treeStart [] ws
    trailing hws
  refine ⟨p, (p.insertion "selector = @").2, (p.insertion "selector = @").1, lead, args, args', h1, rfl, ?_,
    ?_, h4, ?_⟩
  · rw [show Elem.textList (listSource false [atWritten [] []]) = "selector = @" from by decide] at h3
    exact h3
  · exact h6
  · obtain ⟨as1, as2, o2, rfl, g1, b, t, rfl, g3, g2⟩ := areRead_append pe ws _ _ args' h5
    cases t with
    | nil =>
      rw [List.map_append, facts_same pe ws _ _ _ _ h7 g1, List.map_cons, at_read pe _ _ t0 _ _ g3]
      rfl
    | cons _ _ => cases g2

/-- The first line of the added message is an ink! attribute, which is read as a message with the
complement selector and no wildcard selector. -/
theorem C107_handler (pe : ExprParser) (used : List String) (o : Nat) :
    ∃ rest mid attr, (handlerInsertion used).plain = chars! "#[ink(" ++ (Elem.textList mid).toList ++
        chars! ")]\npub fn" ++ rest ∧
      castAttr pe ⟨["ink"], some (parenthesised mid, o)⟩ = some (some attr) ∧ attr.kind = .arg .message ∧
      ¬ Wild [attr.args.map facts] ∧ Compl [attr.args.map facts] := by
  refine ⟨chars! " my_message(&self) {\n    todo!()\n}", [.tok .ident "message", .tok .comma ",",
    .tok .whitespace " ", .tok .ident "selector", .tok .whitespace " ", .tok .eq "=",
    .tok .whitespace " ", .tok .at "@"], ?_⟩
  rw [handlerInsertion_eq]
  refine ⟨_, by decide +kernel, rfl, rfl, ?_, ?_⟩
  · rintro ⟨x, hx, t, ht⟩
    have hx : x ∈ [atSelector] := hx
    rw [List.mem_singleton.1 hx] at ht
    cases ht
  · exact ⟨atSelector, List.mem_singleton.2 rfl, .at, "@", rfl, .inl rfl⟩

/-- Where the reports are: at the declaration of the contract if every message has a wildcard selector, else at
a selector of a message, or at the declaration of a message that has none (the whole item, if it has no
declaration). -/
theorem C107_where (c : Context) (r : Ranges) (contract : Nat × Nat) (ms : List CallItem) (d : Diag)
    (hd : d ∈ diagnostics c r contract ms) :
    ((∀ m ∈ ms, Wild (said m)) ∧ d.range = contract) ∨
    ∃ m ∈ ms, (∃ x ∈ m.call.attrs, ∃ sel ∈ x.args, sel.kind = .selector ∧ d.range = r.arg sel) ∨
      ((∀ x ∈ m.call.attrs, ∀ y ∈ x.args, y.kind ≠ .selector) ∧
        (m.declRange = some d.range ∨ m.declRange = none ∧ d.range = m.nodeRange)) := by
  obtain ⟨e, he, rfl⟩ := List.mem_map.1 hd
  have hr := C41_reports ms e he
  cases e with
  | noOther => exact .inl ⟨fun m hm => (wild_iff m).2 (hr m hm), rfl⟩
  | second m sel =>
    obtain ⟨x, hx, h1, h2, -⟩ := reported_sel ms m sel (.inl he)
    exact .inr ⟨m, hr.1, .inl ⟨x, hx, sel, h1, h2, rfl⟩⟩
  | noWildcard m sel =>
    obtain ⟨x, hx, h1, h2, -⟩ := reported_sel ms m sel (.inr he)
    exact .inr ⟨m, hr.1, .inl ⟨x, hx, sel, h1, h2, rfl⟩⟩
  | notComplement m =>
    refine .inr ⟨m, hr.1, ?_⟩
    simp only [range]
    cases hs : Ir.argByKind m.call.attrs .selector with
    | some sel =>
      obtain ⟨x, hx, h1⟩ := List.exists_of_findSome?_eq_some hs
      exact .inl ⟨x, hx, sel, List.mem_of_find?_eq_some h1, by simpa using List.find?_some h1, rfl⟩
    | none =>
      refine .inr ⟨?_, ?_⟩
      · intro x hx y hy
        rw [Ir.argByKind, List.findSome?_eq_none_iff] at hs
        have := hs x hx
        rw [List.find?_eq_none] at this
        simpa using this y hy
      · simp only [Option.map_none, Option.getD_none, declaration]
        cases m.declRange <;> simp

theorem second_after (w : Bool) (m : CallItem) (sel : Arg) : ∀ (ms : List CallItem) (seen : Bool),
    ComplementDiag.second m sel ∈ complementLoop w seen ms →
    ∃ pre post, ms = pre ++ m :: post ∧ (seen = true ∨ ∃ x ∈ pre, hasComplement x = true) := by
  intro ms
  induction ms with
  | nil => intro seen h; simp [complementLoop] at h
  | cons x ms ih =>
    intro seen h
    have hc : hasComplement x = ((argsByKind x.call.attrs .selector).find? argIsComplement).isSome := by
      unfold hasComplement
      rw [Bool.eq_iff_iff, List.find?_isSome]
      simp
    unfold complementLoop at h
    have go (seen' : Bool) (hs : seen' = true → seen = true ∨ hasComplement x = true)
        (h : ComplementDiag.second m sel ∈ complementLoop w seen' ms) :
        ∃ pre post, x :: ms = pre ++ m :: post ∧ (seen = true ∨ ∃ y ∈ pre, hasComplement y = true) := by
      obtain ⟨pre, post, rfl, hp⟩ := ih seen' h
      refine ⟨x :: pre, post, rfl, ?_⟩
      rcases hp with h | ⟨y, hy, h⟩
      · exact (hs h).imp_right fun e => ⟨x, by simp, e⟩
      · exact .inr ⟨y, by simp [hy], h⟩
    cases hf : (argsByKind x.call.attrs .selector).find? argIsComplement <;>
      rw [hf] at h hc <;> cases w <;> cases seen <;>
      simp only [Bool.false_eq_true, if_false, if_true, List.mem_cons] at h <;>
      first
      | (rcases h with h | h
         · cases h
           exact ⟨[], ms, rfl, .inl rfl⟩
         · exact go _ (by simp [hc]) h)
      | (rcases h with h | h
         · cases h
         · exact go _ (by simp [hc]) h)
      | exact go _ (by simp [hc]) h

/-- What the reports say is so. A further message is asked for if all have a wildcard selector. At most one
complement selector is allowed: there is a wildcard selector, and another message with a complement selector
before this one. Exactly one other message is allowed and needs the complement selector: there is a wildcard
selector, and the message has neither selector. The complement selector needs a wildcard selector: there is
none. -/
theorem C107_says (c : Context) (r : Ranges) (contract : Nat × Nat) (ms : List CallItem) (d : Diag)
    (hd : d ∈ diagnostics c r contract ms) :
    (d.message = "An ink! contract that contains a wildcard (`_`) selector must also define exactly one \
        other message annotated with a wildcard complement (`@`) selector." ∧
      ms ≠ [] ∧ ∀ m ∈ ms, Wild (said m)) ∨
    (d.message = "At most one wildcard complement (`@`) selector can be defined in an ink! contract \
        that contains a wildcard (`_`) selector." ∧
      (∃ x ∈ ms, Wild (said x)) ∧ ∃ pre m post, ms = pre ++ m :: post ∧
        (¬ Wild (said m) ∧ Compl (said m)) ∧ ∃ x ∈ pre, ¬ Wild (said x) ∧ Compl (said x)) ∨
    (d.message = "Exactly one other message that must be annotated with a wildcard complement \
        (`@`) selector can be defined in an ink! contract that contains a wildcard (`_`) selector." ∧
      (∃ x ∈ ms, Wild (said x)) ∧ ∃ m ∈ ms, ¬ Wild (said m) ∧ ¬ Compl (said m)) ∨
    (d.message = "The wildcard complement (`@`) selector can only used if another message with a \
        wildcard (`_`) is defined." ∧
      (∀ x ∈ ms, ¬ Wild (said x)) ∧ ∃ m ∈ ms, Compl (said m)) := by
  obtain ⟨e, he, rfl⟩ := List.mem_map.1 hd
  have hr := C41_reports ms e he
  cases e with
  | noOther =>
    refine .inl ⟨rfl, ?_, fun m hm => (wild_iff m).2 (hr m hm)⟩
    rintro rfl
    exact absurd he (by simp [wildcardComplement])
  | second m sel =>
    obtain ⟨h1, h2, h3, w, hw, h4⟩ := hr
    refine .inr (.inl ⟨rfl, ⟨w, hw, (wild_iff w).2 h4⟩, ?_⟩)
    unfold wildcardComplement at he
    simp only at he
    split at he
    · simp at he
    · split at he
      · simp at he
      · obtain ⟨pre, post, hs, hx⟩ := second_after _ _ _ _ _ he
        rcases hx with hx | ⟨x, hx, hxc⟩
        · exact absurd hx (by decide)
        · obtain ⟨l1, l2, rfl, hl1, hl2⟩ := List.filter_eq_append_iff.1 hs
          obtain ⟨l3, l4, rfl, hl3, -, -⟩ := List.filter_eq_cons_iff.1 hl2
          have hxf : x ∈ l1.filter fun m => !hasWildcard m := hl1 ▸ hx
          rw [List.mem_filter] at hxf
          refine ⟨l1 ++ l3, m, l4, by simp, ⟨fun h => h2 ((wild_iff m).1 h), (compl_iff m).2 h3⟩,
            x, by simp [hxf.1], ?_, (compl_iff x).2 ((hasComplement_iff x).1 hxc)⟩
          intro h
          have := (hasWildcard_iff x).2 ((wild_iff x).1 h)
          rw [this] at hxf
          exact absurd hxf.2 (by decide)
  | noWildcard m sel =>
    exact .inr (.inr (.inr ⟨rfl, fun x hx h => hr.2.2 x hx ((wild_iff x).1 h), m, hr.1,
      (compl_iff m).2 hr.2.1⟩))
  | notComplement m =>
    obtain ⟨h1, h2, h3, w, hw, h4⟩ := hr
    exact .inr (.inr (.inl ⟨rfl, ⟨w, hw, (wild_iff w).2 h4⟩, m, h1,
      fun h => h2 ((wild_iff m).1 h), fun h => h3 ((compl_iff m).1 h)⟩))

/-- What the quickfixes act on. A message is added only if all have a wildcard selector; one is removed only if it
has none, while another message has, and some message has the complement selector; a selector argument is
replaced, or added, only where neither is present (replaced is the first selector, and none is there if one is
added); the complement selector is removed only if there is no wildcard selector. -/
theorem C107_acts (c : Context) (ms : List CallItem) (d : ComplementDiag) (hd : d ∈ wildcardComplement ms)
    (f : Fix) (hf : fix c ms d = some f) :
    match f with
    | .addMessage _ => ∀ m ∈ ms, Wild (said m)
    | .removeMessage m => m ∈ ms ∧ ¬ Wild (said m) ∧ (∃ x ∈ ms, Wild (said x)) ∧ ∃ x ∈ ms, Compl (said x)
    | .replaceSelector m sel => m ∈ ms ∧ ¬ Wild (said m) ∧ ¬ Compl (said m) ∧
        (∀ x ∈ ms, ¬ Compl (said x)) ∧ ∃ l1 l2, (m.call.attrs.flatMap InkAttr.args) = l1 ++ sel :: l2 ∧
          sel.kind = .selector ∧ ∀ x ∈ l1, x.kind ≠ .selector
    | .addSelector m p => m ∈ ms ∧ c.place m = some p ∧ (∀ x ∈ ms, ¬ Compl (said x)) ∧
        ∀ x ∈ m.call.attrs.flatMap InkAttr.args, x.kind ≠ .selector
    | .removeSelector m sel => m ∈ ms ∧ (∀ x ∈ ms, ¬ Wild (said x)) ∧
        sel ∈ m.call.attrs.flatMap InkAttr.args ∧ sel.kind = .selector ∧
        ∃ k t, (facts sel).2 = some (k, t) ∧ (k = .at ∨ asInt 4294967295 k t = some 0x9BAE9D5E) := by
  have hr := C41_reports ms d hd
  cases d with
  | noOther =>
    simp only [fix, Option.map_eq_some_iff] at hf
    obtain ⟨a, -, rfl⟩ := hf
    exact fun m hm => (wild_iff m).2 (hr m hm)
  | second m sel =>
    cases hf
    obtain ⟨h1, h2, h3, w, hw, h4⟩ := hr
    exact ⟨h1, fun h => h2 ((wild_iff m).1 h), ⟨w, hw, (wild_iff w).2 h4⟩, m, h1, (compl_iff m).2 h3⟩
  | noWildcard m sel =>
    cases hf
    obtain ⟨x, hx, h1, h2, h3⟩ := reported_sel ms m sel (.inr hd)
    exact ⟨hr.1, fun x hx h => hr.2.2 x hx ((wild_iff x).1 h), List.mem_flatMap.2 ⟨x, hx, h1⟩, h2,
      complement_fact sel h2 h3⟩
  | notComplement m =>
    obtain ⟨h1, h2, h3, w, hw, h4⟩ := hr
    simp only [fix, messageFix] at hf
    split at hf
    · rename_i hany
      cases hf
      obtain ⟨x, hx, h5⟩ := List.any_eq_true.1 hany
      exact ⟨h1, fun h => h2 ((wild_iff m).1 h), ⟨w, hw, (wild_iff w).2 h4⟩, x, hx,
        (compl_iff x).2 ((hasComplement_iff x).1 h5)⟩
    · rename_i hany
      have hno : ∀ x ∈ ms, ¬ Compl (said x) := fun x hx h => hany
        (List.any_eq_true.2 ⟨x, hx, (hasComplement_iff x).2 ((compl_iff x).1 h)⟩)
      split at hf
      · rename_i sel hs
        cases hf
        refine ⟨h1, fun h => h2 ((wild_iff m).1 h), hno m h1, hno, ?_⟩
        obtain ⟨p0, x0, q0, e0, f0, g0⟩ := List.findSome?_eq_some_iff.1 hs
        obtain ⟨hk, b1, b2, e1, g1⟩ := List.find?_eq_some_iff_append.1 f0
        refine ⟨p0.flatMap InkAttr.args ++ b1, b2 ++ q0.flatMap InkAttr.args, ?_, by simpa using hk, ?_⟩
        · rw [e0]
          simp [e1]
        · intro x hx
          rcases List.mem_append.1 hx with hx | hx
          · obtain ⟨y, hy, hx⟩ := List.mem_flatMap.1 hx
            have := g0 y hy
            rw [List.find?_eq_none] at this
            simpa using this x hx
          · simpa using g1 x hx
      · rename_i hs
        simp only [Option.map_eq_some_iff] at hf
        obtain ⟨p, hp, rfl⟩ := hf
        refine ⟨h1, hp, hno, ?_⟩
        intro y hy
        obtain ⟨x, hx, hy⟩ := List.mem_flatMap.1 hy
        rw [Ir.argByKind, List.findSome?_eq_none_iff] at hs
        have := hs x hx
        rw [List.find?_eq_none] at this
        simpa using this y hy

/-! ## Examples -/

/-- `message, selector = 1`: the second argument. -/
example : ∃ (pe : ExprParser) (w x : Written), (∀ y ∈ [w] ++ x :: [], y.Ok pe) ∧ Simple x ∧ EndsTight x ∧
    (∀ y ∈ [w, x], Shut y) ∧
    Elem.textList (listSource false ([w] ++ x :: [])) = "message, selector = 1" ∧
    ∃ args sel r, parseInkArgs pe ⟨["ink"], some (parenthesised (listSource false ([w] ++ x :: [])),
        Elem.lenList [.tok .other "#", .tok .other "[", .tok .ident "ink"])⟩ = some args ∧
      args[1]? = some sel ∧ sel.item.textRange = some r := by
  have t0 : AllTrivia [] := fun e he => nomatch he
  have t1 : AllTrivia [.tok .whitespace " "] := by
    intro e he
    rw [List.mem_singleton.1 he]
    rfl
  refine ⟨fun s => if s = " 1" then some (.intNumber, "1") else none,
    .flag [] (.tok .ident "message") [],
    .keyed [.tok .whitespace " "] (.tok .ident "selector") [.tok .whitespace " "] "="
      [.tok .whitespace " ", .tok .other "1"], ?_, trivial, ?_, ?_, by decide, ?_⟩
  · intro y hy
    simp only [List.cons_append, List.nil_append, List.mem_cons, List.not_mem_nil, or_false] at hy
    rcases hy with rfl | rfl
    · exact ⟨t0, ⟨_, .inl rfl⟩, t0⟩
    · refine ⟨t1, ⟨_, .inl rfl⟩, t1, by simp, ⟨.intNumber, "1", .expr _ _ _ ?_ ?_⟩, by decide, by decide⟩
      · intro e he t
        simp only [List.mem_cons, List.not_mem_nil, or_false] at he
        rcases he with rfl | rfl <;> exact ⟨(fun h => nomatch h), (fun h => nomatch h)⟩
      · decide +kernel
  · exact ⟨[.tok .whitespace " "], .tok .other "1", rfl, by decide⟩
  · intro y hy
    simp only [List.mem_cons, List.not_mem_nil, or_false] at hy
    rcases hy with rfl | rfl
    · trivial
    · exact ⟨by decide, by decide⟩
  · exact ⟨_, _, _, rfl, rfl, rfl⟩

/-- Places everywhere. -/
def exContext : Context := ⟨some ⟨"Add", .quickFix, (0, 0), []⟩, fun _ => some ⟨0, none, none⟩⟩

/-- A wildcard message. -/
def exWild : CallItem := exCall "w" [exSel .underscore "_"]

/-- A complement message. -/
def exCompl : CallItem := exCall "c" [exSel .at "@"]

/-- A message with a number. -/
def exNumber : CallItem := exCall "n" [exSel .intNumber "1"]

/-- Beside a wildcard message, the number of one message is replaced, then the other message removed. -/
example : Run 2 [exWild, exNumber, exNumber] [exWild, exCompl] ∧
    ∀ d ∈ wildcardComplement [exWild, exCompl], fix exContext [exWild, exCompl] d = none := by
  refine ⟨.step exContext 1 _ [exWild, exCompl, exNumber] _ ?_ (.step exContext 0 _ _ _ ?_ (.done _)), ?_⟩
  · exact ⟨.notComplement exNumber, by rw [show wildcardComplement [exWild, exNumber, exNumber] =
      [.notComplement exNumber, .notComplement exNumber] from rfl]; simp,
      .replaceSelector exNumber (exSel .intNumber "1"), rfl,
      .replaceSelector exNumber (exSel .intNumber "1") [exWild] [exNumber] [] [] [] [] rfl
        ⟨⟨.arg .message, none, rfl⟩, by simp, by simp⟩⟩
  · exact ⟨.notComplement exNumber, by rw [show wildcardComplement [exWild, exCompl, exNumber] =
      [.notComplement exNumber] from rfl]; simp,
      .removeMessage exNumber, rfl, .removeMessage exNumber [exWild, exCompl] [] rfl⟩
  · intro d hd
    rw [show wildcardComplement [exWild, exCompl] = [] from rfl] at hd
    cases hd

/-- All four messages occur. -/
example : ((wildcardComplement [exWild]).map text ++ (wildcardComplement [exWild, exCompl, exCompl]).map text ++
    (wildcardComplement [exWild, exNumber]).map text ++ (wildcardComplement [exCompl]).map text).length = 4 := by
  decide

/-! ## Negations -/

/-- Two messages beside a wildcard message: if the quickfixes of both reports are applied at once, both have the
complement selector and one of them is reported again, to be removed. -/
theorem C107_negation_together : ∃ (c : Context) (w a a' : CallItem),
    wildcardComplement [w, a, a] = [.notComplement a, .notComplement a] ∧
    (∃ f, fix c [w, a, a] (.notComplement a) = some f ∧ Applied [a] f [said a']) ∧
    ¬ Rule ([w, a', a'].map said) ∧
    ∃ sel, wildcardComplement [w, a', a'] = [.second a' sel] ∧
      fix c [w, a', a'] (.second a' sel) = some (.removeMessage a') := by
  refine ⟨exContext, exWild, exNumber, exCompl, rfl, ⟨.replaceSelector exNumber (exSel .intNumber "1"), rfl,
    .replaceSelector exNumber (exSel .intNumber "1") [] [] [] [] [] [] rfl
      ⟨⟨.arg .message, none, rfl⟩, by simp, by simp⟩⟩, ?_, exSel .at "@", rfl, rfl⟩
  rw [← rule_iff]
  exact fun h => nomatch h

/-- A message with both selectors counts as complement when the quickfix is chosen, and as wildcard when the
rule is checked. So the only other message is to be removed, although the complement selector there would do. -/
theorem C107_negation_both : ∃ (c : Context) (w a a' : CallItem),
    fix c [w, a] (.notComplement a) = some (.removeMessage a) ∧
    wildcardComplement [w, a] = [.notComplement a] ∧ wildcardComplement [w] = [.noOther] ∧
    Applied [a] (.addSelector a ⟨0, none, none⟩) [said a'] ∧ Rule ([w, a'].map said) := by
  refine ⟨exContext, ⟨⟨[⟨.arg .message, [exSel .underscore "_"], none⟩, ⟨.arg .selector, [exSel .at "@"], none⟩],
    some "w", none⟩, (1, 2), none, (0, 9)⟩, exCall "a" [], exCompl, rfl, rfl, rfl, ?_, ?_⟩
  · exact .addSelector (exCall "a" []) ⟨0, none, none⟩ [] [] [] ⟨.arg .message, [], none⟩ [] rfl rfl
  · rw [← rule_iff]
    rfl

/-- Removing the complement selector where it is the only argument leaves `#[ink()]`, an attribute of unknown
kind. -/
theorem C107_negation_hollow (pe : ExprParser) (o : Nat) :
    ∃ attr, castAttr pe ⟨["ink"], some (parenthesised [], o)⟩ = some (some attr) ∧
      attr.kind = .arg .unknown ∧ attr.args = [] :=
  ⟨_, rfl, rfl, rfl⟩

end Verif.Analyzer.Complement
