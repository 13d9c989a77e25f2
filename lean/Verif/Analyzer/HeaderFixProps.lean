import Mathlib.Data.List.Count
import Verif.Analyzer.HeaderProps

/-!
# C74: the quick fixes of the header rules

Continues `HeaderProps`: what every quick fix does to the header.
-/

namespace Verif.Analyzer.Header

open Verif.Ir.Token (bytes splitAt bytes_append splitAt_spec)

/-! ## Specification -/

/-- An edit of the file `before ++ header ++ after` turns the header `h` into `h'`: the new header is
well-formed, the violation is gone, there are no more violations of any other rule, and the parts
that have nothing to do with the rule are unchanged. -/
structure Fixed (k : Kind) (before after : List Char) (h : List Part) (e : Edit) (r : Rule)
    (h' : List Part) : Prop where
  text : applyEdit (before ++ render h ++ after) e = some (before ++ render h' ++ after)
  wf : Wf k h'
  less : times k h' r + 1 = times k h r
  others : ∀ r', times k h' r' ≤ times k h r'
  same : ∀ role, role ∉ touched r → sel h' role = sel h role

/-- The fixes of these headers are covered by the theorems: functions in traits have no body (or
another kind of item is meant), and messages have no receiver by value. -/
structure Covered (k : Kind) (h : List Part) : Prop where
  body : ¬ Violates k h .body
  value : (∃ w, k = .message w) → ¬ Has h .selfVal

/-- One quick fix of one report is applied in a file. -/
def Step (k : Kind) (before after : List Char) (h h' : List Part) : Prop :=
  ∃ x ∈ reports k (bytes before) h, ∃ e ∈ x.fixes,
    applyEdit (before ++ render h ++ after) e = some (before ++ render h' ++ after) ∧
      Fixed k before after h e x.rule h'

/-- `n` quick fixes are applied, each to the result of the one before. -/
def Steps (k : Kind) (before after : List Char) : Nat → List Part → List Part → Prop
  | 0, h, h' => h = h'
  | n + 1, h, h' => ∃ g, Step k before after h g ∧ Steps k before after n g h'

/-! ## Lemmas -/

theorem apply_cut (pre mid post : List Char) (e : Edit) (h1 : e.start = bytes pre)
    (h2 : e.stop = bytes pre + bytes mid) :
    applyEdit (pre ++ (mid ++ post)) e = some (pre ++ e.text ++ post) := by
  unfold applyEdit
  rw [h1, h2, splitAt_spec _ pre (mid ++ post) rfl, ← bytes_append, ← List.append_assoc,
    splitAt_spec _ (pre ++ mid) post rfl]
  simp only
  rw [if_pos (by rw [bytes_append]; omega)]

theorem render_append (A B : List Part) : render (A ++ B) = render A ++ render B := by
  simp [render]

theorem render_nil : render [] = [] := rfl

theorem render_cons (p : Part) (B : List Part) : render (p :: B) = p.text ++ p.gap ++ render B := by
  simp [render]

theorem mem_post (h A B : List Part) (p q : Part) (ho : (h.map Part.role).Pairwise Before)
    (e : h = A ++ p :: B) (hq : q ∈ h) (hr : rank p.role < rank q.role) : q ∈ B := by
  rw [e] at hq ho
  rcases List.mem_append.1 hq with hq | hq
  · rw [List.map_append, List.pairwise_append] at ho
    have := ho.2.2 q.role (List.mem_map.2 ⟨q, hq, rfl⟩) p.role (by simp)
    rcases this with h1 | h1
    · omega
    · omega
  · rcases List.mem_cons.1 hq with rfl | hq
    · omega
    · exact hq

theorem mem_pre (h A B : List Part) (p q : Part) (ho : (h.map Part.role).Pairwise Before)
    (e : h = A ++ p :: B) (hq : q ∈ h) (hr : rank q.role < rank p.role) : q ∈ A := by
  rw [e] at hq ho
  rcases List.mem_append.1 hq with hq | hq
  · exact hq
  · rcases List.mem_cons.1 hq with rfl | hq
    · omega
    · rw [List.map_append, List.pairwise_append, List.map_cons, List.pairwise_cons] at ho
      have := ho.2.1.1 q.role (List.mem_map.2 ⟨q, hq, rfl⟩)
      rcases this with h1 | h1
      · omega
      · omega

theorem has_roles (h : List Part) (r : Role) : Has h r ↔ r ∈ h.map Part.role := by
  simp [Has]

/-- The roles that a function or another item cannot do without. -/
def needed (r : Role) : Bool :=
  r == .kw || r == .lparen || r == .rparen || r == .body || r == .semi

theorem shaped_gap (a : Part) (g : List Char) (h : Shaped a) : Shaped { a with gap := g } := h

theorem wf_of_sublist (k : Kind) (h h' : List Part) (hw : Wf k h)
    (hc : h'.IsChain (Fit k)) (hs : ∀ p ∈ h', Shaped p)
    (hr : (h'.map Part.role).Sublist (h.map Part.role))
    (hn : ∀ r, needed r = true → Has h r → Has h' r) : Wf k h' where
  chain := hc
  ordered := hw.ordered.sublist hr
  shaped := hs
  kw := hn _ rfl hw.kw
  mods p hp h7 := by
    have h1 : p.role ∈ h.map Part.role := hr.subset (List.mem_map.2 ⟨p, hp, rfl⟩)
    obtain ⟨q, hq, hq2⟩ := List.mem_map.1 h1
    rw [← hq2] at h7 ⊢
    exact hw.mods q hq h7
  oneSelf := Nat.le_trans (hr.filter _).length_le hw.oneSelf
  fn hk := by
    obtain ⟨h1, h2, h3⟩ := hw.fn hk
    refine ⟨hn _ rfl h1, hn _ rfl h2, ?_⟩
    rcases h3 with h3 | h3
    · exact .inl (hn _ rfl h3)
    · exact .inr (hn _ rfl h3)

/-- Removing the parts `M` after `a`. -/
theorem wf_cut (k : Kind) (A0 M B : List Part) (a : Part) (g : List Char)
    (hw : Wf k (A0 ++ a :: (M ++ B))) (hM : ∀ m ∈ M, needed m.role = false)
    (hb : ∀ b ∈ B.head?, Fit k { a with gap := g } b) :
    Wf k (A0 ++ { a with gap := g } :: B) := by
  apply wf_of_sublist k _ _ hw
  · have hc := hw.chain
    rw [List.isChain_append] at hc ⊢
    obtain ⟨h1, h2, h3⟩ := hc
    refine ⟨h1, ?_, ?_⟩
    · rw [List.isChain_cons]
      refine ⟨hb, ?_⟩
      rw [← List.cons_append, List.isChain_append] at h2
      exact h2.2.1
    · intro x hx y hy
      simp only [List.head?_cons, Option.mem_def, Option.some.injEq] at hy
      have := h3 x hx a (by simp)
      rw [← hy]
      exact ⟨this.order, this.glue⟩
  · intro p hp
    rcases List.mem_append.1 hp with hp | hp
    · exact hw.shaped p (by simp [hp])
    · rcases List.mem_cons.1 hp with rfl | hp
      · exact shaped_gap a g (hw.shaped a (by simp))
      · exact hw.shaped p (by simp [hp])
  · simp only [List.map_append, List.map_cons]
    exact (List.Sublist.refl _).append ((List.sublist_append_right _ _).cons_cons _)
  · intro r hr h1
    rw [has_roles] at h1 ⊢
    simp only [List.map_append, List.map_cons, List.mem_append, List.mem_cons] at h1 ⊢
    rcases h1 with h1 | h1 | h1 | h1
    · exact .inl h1
    · exact .inr (.inl h1)
    · obtain ⟨m, hm, rfl⟩ := List.mem_map.1 h1
      rw [hM m hm] at hr
      exact (nomatch hr)
    · exact .inr (.inr h1)

/-- Removing the parts `M` at the start. -/
theorem wf_cut0 (k : Kind) (M B : List Part) (hw : Wf k (M ++ B))
    (hM : ∀ m ∈ M, needed m.role = false) : Wf k B := by
  apply wf_of_sublist k _ _ hw
  · have hc := hw.chain
    rw [List.isChain_append] at hc
    exact hc.2.1
  · intro p hp
    exact hw.shaped p (by simp [hp])
  · rw [List.map_append]
    exact List.sublist_append_right _ _
  · intro r hr h1
    rw [has_roles] at h1 ⊢
    rw [List.map_append, List.mem_append] at h1
    rcases h1 with h1 | h1
    · obtain ⟨m, hm, rfl⟩ := List.mem_map.1 h1
      rw [hM m hm] at hr
      exact (nomatch hr)
    · exact h1

theorem fit_pair (k : Kind) (A0 B : List Part) (a b : Part)
    (hc : (A0 ++ a :: b :: B).IsChain (Fit k)) : Fit k a b := by
  rw [List.isChain_append] at hc
  have := hc.2.1
  rw [List.isChain_cons] at this
  exact this.1 b (by simp)

/-- The modifiers in front of the keyword. -/
def modifier : Role → Bool
  | .vis | .kDefault | .kConst | .kAsync | .kUnsafe | .kAuto | .abi => true
  | _ => false

theorem modifier_rank (r : Role) : modifier r = true → rank r < 7 := by
  cases r <;> decide

theorem follows_from (r q : Role) : modifier r = true → follows r q = follows .vis q := by
  cases r <;> first | (intro _; rfl) | (intro h; simp [modifier] at h)

theorem follows_to (a r : Role) : modifier r = true → follows a r = follows a .vis := by
  cases r <;> first | (intro _; cases a <;> rfl) | (intro h; simp [modifier] at h)

theorem follows_vis (a b : Role) : follows a .vis = true → follows .vis b = true →
    follows a b = true := by
  cases a <;> first | (cases b <;> decide)

theorem modifier_needed (r : Role) : modifier r = true → needed r = false := by
  cases r <;> decide

theorem follows_to_modifier (a r b : Role) (h : modifier r = true) (h1 : follows a r = true)
    (h2 : follows r b = true) : follows a b = true :=
  follows_vis a b (follows_to a r h ▸ h1) (follows_from r b h ▸ h2)

/-- Removing a modifier with the trivia after it. -/
theorem wf_modifier (k : Kind) (A B : List Part) (p : Part) (hw : Wf k (A ++ p :: B))
    (hp : modifier p.role = true) : Wf k (A ++ B) := by
  rcases List.eq_nil_or_concat A with rfl | ⟨A0, a, rfl⟩
  · exact wf_cut0 k [p] B hw (by simp [modifier_needed _ hp])
  · have hw' : Wf k (A0 ++ a :: ([p] ++ B)) := by simpa using hw
    have : A0.concat a ++ B = A0 ++ { a with gap := a.gap } :: B := by simp
    rw [this]
    apply wf_cut k A0 [p] B a a.gap hw' (by simp [modifier_needed _ hp])
    intro b hb
    have f1 : Fit k a p := fit_pair k A0 B a p (by simpa using hw.chain)
    cases B with
    | nil => exact (nomatch hb)
    | cons b' B' =>
      have hb' : b' = b := by simpa using hb
      subst hb'
      have f2 : Fit k p b' := fit_pair k (A0 ++ [a]) B' p b' (by simpa using hw.chain)
      refine ⟨follows_to_modifier _ _ _ hp f1.order f2.order, fun h1 h2 => f1.glue h1 ?_⟩
      have := hw.shaped p (by simp)
      unfold Shaped at this
      revert this hp
      cases p.role <;> simp [modifier]

/-- A part together with the trivia after it. -/
theorem apply_trivia (before after : List Char) (A B : List Part) (p : Part) (hB : B ≠ []) :
    applyEdit (before ++ render (A ++ p :: B) ++ after)
      (delete (Loc.triviaRange (bytes before) ⟨A, p, B⟩)) =
      some (before ++ render (A ++ B) ++ after) := by
  have e1 : before ++ render (A ++ p :: B) ++ after =
      (before ++ render A) ++ ((p.text ++ p.gap) ++ (render B ++ after)) := by
    simp [render_append, render_cons]
  have hb : B.isEmpty = false := by cases B <;> simp_all
  rw [e1, apply_cut _ (p.text ++ p.gap)]
  · simp [delete, render_append]
  · simp [delete, Loc.triviaRange, Loc.start, bytes_append]
  · simp [delete, Loc.triviaRange, Loc.start, bytes_append, hb]
    omega

/-- Only the part. -/
theorem apply_bare (before after : List Char) (A0 B : List Part) (a p : Part) :
    applyEdit (before ++ render (A0 ++ a :: p :: B) ++ after)
      (delete (Loc.range (bytes before) ⟨A0 ++ [a], p, B⟩)) =
      some (before ++ render (A0 ++ { a with gap := a.gap ++ p.gap } :: B) ++ after) := by
  have e1 : before ++ render (A0 ++ a :: p :: B) ++ after =
      (before ++ render (A0 ++ [a])) ++ (p.text ++ (p.gap ++ render B ++ after)) := by
    simp [render_append, render_cons, render_nil]
  rw [e1, apply_cut _ p.text]
  · simp [delete, render_append, render_cons, render_nil]
  · simp [delete, Loc.range, Loc.start, bytes_append]
  · simp [delete, Loc.range, Loc.start, bytes_append]

/-! ### Counting -/

/-- The parts with those of one role replaced. -/
def upd (f : Role → List (List Char × List Char)) (r0 : Role) (v : List (List Char × List Char)) :
    Role → List (List Char × List Char) := fun r => if r = r0 then v else f r

/-- One violation less, and no more of the others. -/
def Counts (k : Kind) (f f' : Role → List (List Char × List Char)) (r : Rule) : Prop :=
  (ruleList k f').count r + 1 = (ruleList k f).count r ∧
    ∀ r', (ruleList k f').count r' ≤ (ruleList k f).count r'

theorem ruleList_congr (k : Kind) (f g : Role → List (List Char × List Char))
    (h : ∀ r, r ≠ .comma → f r = g r) : ruleList k f = ruleList k g := by
  have h' : ∀ r, (r == .comma) = false → f r = g r := fun r hr => h r (by simpa using hr)
  simp only [ruleList, h' .generics rfl, h' .kConst rfl, h' .kAsync rfl, h' .kUnsafe rfl,
    h' .abi rfl, h' .dots rfl, h' .vis rfl, h' .body rfl, h' .selfRef rfl, h' .selfVal rfl,
    h' .ret rfl, h' .kAuto rfl, h' .supers rfl, h' .kDefault rfl, h' .typeArgs rfl]

theorem times_eq (k : Kind) (h : List Part) (hw : Wf k h) (r : Rule) :
    times k h r = (ruleList k (sel h)).count r := by
  rw [times, rules_eq k 0 h hw.oneSelf]

theorem fixed_of (k : Kind) (before after : List Char) (h h' : List Part) (e : Edit) (r : Rule)
    (hw : Wf k h)
    (text : applyEdit (before ++ render h ++ after) e = some (before ++ render h' ++ after))
    (wf : Wf k h') (hc : Counts k (sel h) (sel h') r)
    (same : ∀ role, role ∉ touched r → sel h' role = sel h role) :
    Fixed k before after h e r h' where
  text := text
  wf := wf
  less := by rw [times_eq k h hw, times_eq k h' wf]; exact hc.1
  others r' := by rw [times_eq k h hw, times_eq k h' wf]; exact hc.2 r'
  same := same

/-- Counting the reports when one role is changed. -/
macro "counts_tac" h:term : tactic => `(tactic| (
  simp only [Counts, ruleList, upd, reduceCtorEq, if_false, if_true, $h:term, List.isEmpty_nil,
    List.isEmpty_cons, Bool.false_eq_true, List.append_nil, Bool.and_self, Bool.and_true,
    List.head?_nil, Option.any_none, List.head?_cons, Option.any_some, beq_self_eq_true]
  constructor
  · simp only [List.count_append, List.count_singleton_self, List.count_nil] <;> omega
  · intro r'; simp only [List.count_append, List.count_nil] <;> omega))

theorem counts_fn (k : Kind) (f : Role → List (List Char × List Char)) (r0 : Role) (x : Rule)
    (hk : k.isFn = true)
    (hx : (r0, x) ∈ [(Role.generics, Rule.generics), (.kConst, .const), (.kAsync, .async),
      (.kUnsafe, .unsafe), (.abi, .abi)])
    (h : (f r0).isEmpty = false) : Counts k f (upd f r0 []) x := by
  simp only [List.mem_cons, Prod.mk.injEq, List.not_mem_nil, or_false] at hx
  rcases hx with ⟨rfl, rfl⟩ | ⟨rfl, rfl⟩ | ⟨rfl, rfl⟩ | ⟨rfl, rfl⟩ | ⟨rfl, rfl⟩
  all_goals
    cases k with
    | message w => counts_tac h
    | constructor w => counts_tac h
    | extension => counts_tac h
    | _ => simp [Kind.isFn] at hk

theorem counts_trait (f : Role → List (List Char × List Char)) (r0 : Role) (x : Rule)
    (hx : (r0, x) ∈ [(Role.generics, Rule.generics), (.kUnsafe, .unsafe), (.kAuto, .auto),
      (.supers, .supertraits)])
    (h : (f r0).isEmpty = false) : Counts .trait f (upd f r0 []) x := by
  simp only [List.mem_cons, Prod.mk.injEq, List.not_mem_nil, or_false] at hx
  rcases hx with ⟨rfl, rfl⟩ | ⟨rfl, rfl⟩ | ⟨rfl, rfl⟩ | ⟨rfl, rfl⟩ <;> counts_tac h

theorem counts_impl (f : Role → List (List Char × List Char)) (r0 : Role) (x : Rule)
    (hx : (r0, x) ∈ [(Role.generics, Rule.generics), (.kUnsafe, .unsafe), (.kDefault, .default)])
    (h : (f r0).isEmpty = false) : Counts .impl f (upd f r0 []) x := by
  simp only [List.mem_cons, Prod.mk.injEq, List.not_mem_nil, or_false] at hx
  rcases hx with ⟨rfl, rfl⟩ | ⟨rfl, rfl⟩ | ⟨rfl, rfl⟩ <;> counts_tac h

theorem count_map_const (l : List (List Char × List Char)) (x r : Rule) :
    (l.map fun _ => x).count r = if x = r then l.length else 0 := by
  induction l with
  | nil => simp
  | cons a l ih =>
    rw [List.map_cons, List.count_cons, ih]
    by_cases h : x = r <;> simp [h]

theorem counts_dots (k : Kind) (f : Role → List (List Char × List Char)) (hk : k.isFn = true)
    (v : List (List Char × List Char)) (h : v.length + 1 = (f .dots).length) :
    Counts k f (upd f .dots v) .variadic := by
  cases k with
  | message w | constructor w | extension =>
    simp only [Counts, ruleList, upd, reduceCtorEq, if_false, if_true]
    constructor
    · simp only [List.count_append, count_map_const, if_true]; omega
    · intro r'
      have : (if Rule.variadic = r' then v.length else 0) ≤
          (if Rule.variadic = r' then (f .dots).length else 0) := by split <;> omega
      simp only [List.count_append, count_map_const]; omega
  | _ => simp [Kind.isFn] at hk

theorem counts_typeArgs (f : Role → List (List Char × List Char))
    (v : List (List Char × List Char)) (h : v.length + 1 = (f .typeArgs).length) :
    Counts .impl f (upd f .typeArgs v) .typeArgs := by
  simp only [Counts, ruleList, upd, reduceCtorEq, if_false, if_true]
  constructor
  · simp only [List.count_append, count_map_const, if_true]; omega
  · intro r'
    have : (if Rule.typeArgs = r' then v.length else 0) ≤
        (if Rule.typeArgs = r' then (f .typeArgs).length else 0) := by split <;> omega
    simp only [List.count_append, count_map_const]; omega

theorem counts_ret (w : Place) (f : Role → List (List Char × List Char))
    (h : ((f .ret).head?.any fun t => t.2 == selfType) = true) :
    Counts (.message w) f (upd f .ret []) .returnsSelf := by
  counts_tac h

theorem counts_addRet (w : Place) (f : Role → List (List Char × List Char))
    (h : (f .ret).isEmpty = true) (t : List Char × List Char) :
    Counts (.constructor w) f (upd f .ret [t]) .returnType := by
  counts_tac h

theorem counts_addSelf (w : Place) (f : Role → List (List Char × List Char))
    (h : (f .selfRef).isEmpty = true) (t : List Char × List Char) :
    Counts (.message w) f (upd f .selfRef [t]) .selfRef := by
  counts_tac h

theorem counts_self (k : Kind) (f : Role → List (List Char × List Char))
    (hk : (∃ w, k = .constructor w) ∨ k = .extension)
    (h : ((f .selfRef).isEmpty && (f .selfVal).isEmpty) = false) :
    Counts k f (upd (upd f .selfRef []) .selfVal []) .selfReceiver := by
  rcases hk with ⟨w, rfl⟩ | rfl <;> counts_tac h

/-- Counting the reports when the visibility is changed. -/
macro "counts_vis" h:term:max h2:term:max : tactic => `(tactic| (
  simp only [Counts, ruleList, upd, reduceCtorEq, if_false, if_true, $h:term, $h2:term,
    List.isEmpty_nil, List.isEmpty_cons, Bool.false_eq_true, List.append_nil,
    List.head?_nil, Option.any_none, List.head?_cons, Option.any_some, beq_self_eq_true]
  constructor
  · simp only [List.count_append, List.count_singleton_self, List.count_nil, List.count_cons,
      beq_iff_eq, reduceCtorEq, if_false, if_true] <;> omega
  · intro r'; simp only [List.count_append, List.count_nil] <;> omega))

theorem counts_inherited (k : Kind) (f : Role → List (List Char × List Char))
    (hk : k.place = some .traitImpl) (h : (f .vis).isEmpty = false) :
    Counts k f (upd f .vis []) .inheritedVis := by
  cases k with
  | message w | constructor w =>
    cases Option.some.inj hk
    cases h2 : ((f .vis).head?.any fun t => t.1 == pubText) <;> counts_vis h h2
  | _ => simp [Kind.place] at hk

theorem counts_removeVis (k : Kind) (f : Role → List (List Char × List Char))
    (hk : k.isCallable = true) (h : (f .vis).isEmpty = false)
    (h2 : ((f .vis).head?.any fun t => t.1 == pubText) = false) :
    Counts k f (upd f .vis []) .pubOrInherited := by
  cases k with
  | message w | constructor w => cases w <;> counts_vis h h2
  | _ => simp [Kind.isCallable] at hk

theorem counts_pub (k : Kind) (f : Role → List (List Char × List Char))
    (hk : k.isCallable = true) (h : (f .vis).isEmpty = false)
    (h2 : ((f .vis).head?.any fun t => t.1 == pubText) = false) (ty : List Char) :
    Counts k f (upd f .vis [(pubText, ty)]) .pubOrInherited := by
  cases k with
  | message w | constructor w => cases w <;> counts_vis h h2
  | _ => simp [Kind.isCallable] at hk

theorem counts_pubVis (k : Kind) (f : Role → List (List Char × List Char))
    (hk : k.place = some .inherentImpl)
    (h2 : ((f .vis).head?.any fun t => t.1 == pubText) = false) (ty : List Char) :
    Counts k f (upd f .vis [(pubText, ty)]) .pubVis := by
  cases k with
  | message w | constructor w =>
    cases Option.some.inj hk
    cases h : (f .vis).isEmpty <;> counts_vis h h2
  | _ => simp [Kind.place] at hk

theorem counts_pubItem (k : Kind) (f : Role → List (List Char × List Char))
    (hk : k = .trait ∨ k = .struct)
    (h2 : ((f .vis).head?.any fun t => t.1 == pubText) = false) (ty : List Char) :
    Counts k f (upd f .vis [(pubText, ty)]) .pub := by
  rcases hk with rfl | rfl
  · cases h : (f .vis).isEmpty <;> counts_vis h h2
  · cases h : (f .vis).isEmpty <;> counts_vis h h2

/-! ### The fixes -/

theorem sel_upd (h : List Part) (ho : (h.map Part.role).Pairwise Before) (r : Role)
    (hr : rank r ≠ 11) (A B : List Part) (p : Part) (e : h = A ++ p :: B) (hp : p.role = r) :
    sel (A ++ B) = upd (sel h) r [] := by
  funext r'
  unfold upd
  by_cases h1 : r' = r
  · rw [if_pos h1, h1, (sel_unique h ho r hr A B p e hp).2]
  · rw [if_neg h1, e, sel_append, sel_append, sel_cons, if_neg (by rw [hp]; exact fun h => h1 h.symm)]
    simp

theorem upd_other (f : Role → List (List Char × List Char)) (r0 : Role)
    (v : List (List Char × List Char)) (r : Role) (h : r ∉ [r0]) : upd f r0 v r = f r := by
  unfold upd
  rw [if_neg (by simpa using h)]

theorem sel_gap (A B : List Part) (a : Part) (g : List Char) :
    sel (A ++ { a with gap := g } :: B) = sel (A ++ a :: B) := by
  funext r
  simp [sel_append, sel_cons]

theorem modifier_rank11 (r : Role) : modifier r = true → rank r ≠ 11 := by
  cases r <;> decide

/-- The fix that removes a modifier. -/
theorem fix_modifier (k : Kind) (before after : List Char) (h : List Part) (hw : Wf k h) (l : Loc)
    (r0 : Role) (x : Rule) (hl : firstLoc r0 h = some l) (hm : modifier r0 = true)
    (ht : touched x = [r0])
    (hc : (sel h r0).isEmpty = false → Counts k (sel h) (upd (sel h) r0 []) x) :
    ∃ h', Fixed k before after h (delete (l.triviaRange (bytes before))) x h' := by
  obtain ⟨h1, h2⟩ := firstLoc_some r0 h l hl
  have hsel := sel_upd h hw.ordered r0 (modifier_rank11 _ hm) _ _ _ h1 h2
  obtain ⟨q, hq, hq2⟩ := hw.kw
  have hB : l.post ≠ [] := by
    have := mem_post h _ _ _ q hw.ordered h1 hq (by
      rw [h2, hq2]; exact modifier_rank _ hm)
    intro hn
    rw [hn] at this
    exact (nomatch this)
  refine ⟨l.pre ++ l.post, fixed_of k before after h _ _ x hw ?_ ?_ ?_ ?_⟩
  · conv_lhs => rw [h1]
    exact apply_trivia before after l.pre l.post l.part hB
  · exact wf_modifier k _ _ l.part (h1 ▸ hw) (by rw [h2]; exact hm)
  · rw [hsel]
    apply hc
    rw [isEmpty_iff_has]
    exact ⟨l.part, by rw [h1]; simp, h2⟩
  · intro role hr
    rw [hsel]
    exact upd_other _ _ _ _ (ht ▸ hr)

/-- A part of a rank above the keyword is not the first one. -/
theorem pre_concat (k : Kind) (h A B : List Part) (p : Part) (hw : Wf k h) (e : h = A ++ p :: B)
    (hr : 7 < rank p.role) : ∃ A0 a, A = A0 ++ [a] := by
  obtain ⟨q, hq, hq2⟩ := hw.kw
  have := mem_pre h _ _ _ q hw.ordered e hq (by rw [hq2]; exact hr)
  rcases List.eq_nil_or_concat A with rfl | ⟨A0, a, rfl⟩
  · exact (nomatch this)
  · exact ⟨A0, a, by simp⟩

/-- The parts that are removed without the trivia after them. -/
def bare : Role → Bool
  | .generics | .supers | .typeArgs => true
  | _ => false

theorem bare_facts (r : Role) (a b : Role) : bare r = true → follows a r = true →
    follows r b = true → follows a b = true ∧ needed r = false ∧ 7 < rank r := by
  cases r <;> first
    | (intro h; simp [bare] at h; done)
    | (cases a <;> first | (intro _ h; simp [follows, isParam] at h; done) | (cases b <;> decide))

theorem needed_comma : needed .comma = false := rfl

theorem bare_rank (r : Role) : bare r = true → 7 < rank r ∧ needed r = false := by
  cases r <;> decide

theorem bare_spaced (k : Kind) (r : Role) : bare r = true → spaced k r = true := by
  cases r <;> first | (intro _; rfl) | (intro h; simp [bare] at h)

/-- Removing a part without the trivia after it. -/
theorem wf_bare (k : Kind) (A0 B : List Part) (a p : Part) (hw : Wf k (A0 ++ a :: p :: B))
    (hp : bare p.role = true) : Wf k (A0 ++ { a with gap := a.gap ++ p.gap } :: B) := by
  apply wf_cut k A0 [p] B a _ (by simpa using hw) (by simp [(bare_rank _ hp).2])
  intro b hb
  have f1 : Fit k a p := fit_pair k A0 B a p hw.chain
  cases B with
  | nil => exact (nomatch hb)
  | cons b' B' =>
    have hb' : b' = b := by simpa using hb
    subst hb'
    have f2 : Fit k p b' := fit_pair k (A0 ++ [a]) B' p b' (by simpa using hw.chain)
    refine ⟨(bare_facts _ _ _ hp f1.order f2.order).1, fun h1 h2 => ?_⟩
    have := f2.glue (List.append_eq_nil_iff.1 h1).2 h2
    rw [bare_spaced k _ hp] at this
    exact (nomatch this.2)

/-- The fix that removes only a part. -/
theorem fix_bare (k : Kind) (before after : List Char) (h : List Part) (hw : Wf k h) (l : Loc)
    (x : Rule) (h1 : h = l.pre ++ l.part :: l.post) (hb : bare l.part.role = true)
    (v : List (List Char × List Char))
    (hsel : sel (l.pre ++ l.post) = upd (sel h) l.part.role v)
    (ht : touched x = [l.part.role])
    (hc : Counts k (sel h) (upd (sel h) l.part.role v) x) :
    ∃ h', Fixed k before after h (delete (l.range (bytes before))) x h' := by
  obtain ⟨A0, a, hA⟩ := pre_concat k h _ _ _ hw h1 (bare_rank _ hb).1
  have h1' : h = A0 ++ a :: l.part :: l.post := by rw [h1, hA]; simp
  have hsel' : sel (A0 ++ { a with gap := a.gap ++ l.part.gap } :: l.post) =
      upd (sel h) l.part.role v := by
    rw [sel_gap, ← hsel, hA]
    simp
  refine ⟨A0 ++ { a with gap := a.gap ++ l.part.gap } :: l.post,
    fixed_of k before after h _ _ x hw ?_ ?_ ?_ ?_⟩
  · have := apply_bare before after A0 l.post a l.part
    rw [← hA] at this
    rw [← this, h1']
  · exact wf_bare k A0 l.post a l.part (h1' ▸ hw) hb
  · rw [hsel']
    exact hc
  · intro role hr
    rw [hsel']
    exact upd_other _ _ _ _ (ht ▸ hr)

theorem param_pred (a r : Role) : isParam r = true → follows a r = true → a = .lparen ∨ a = .comma := by
  cases a <;> cases r <;> decide

theorem param_succ (r b : Role) : isParam r = true → follows r b = true → b = .comma ∨ b = .rparen := by
  cases r <;> cases b <;> decide

theorem follows_open (a b : Role) (h : a = .lparen ∨ a = .comma) :
    follows .comma b = follows a b := by
  rcases h with rfl | rfl <;> rfl

theorem comma_pred (a : Role) : follows a .comma = true → isParam a = true := by
  cases a <;> decide

theorem param_rparen (a : Role) : isParam a = true → follows a .rparen = true := by
  cases a <;> decide

theorem shaped_open (a : Part) (ha : Shaped a) (h : a.role = .lparen ∨ a.role = .comma) (k : Kind) :
    endsWord a.text = false ∧ spaced k a.role = false := by
  unfold Shaped at ha
  rcases h with h | h <;> rw [h] at ha ⊢ <;> simp only at ha <;> rw [ha] <;> exact ⟨by decide, rfl⟩

theorem shaped_close (a : Part) (ha : Shaped a) (h : a.role = .rparen ∨ a.role = .comma) :
    startsWord a.text = false := by
  unfold Shaped at ha
  rcases h with h | h <;> rw [h] at ha <;> simp only at ha <;> rw [ha] <;> decide

/-- Removing a parameter together with a comma. -/
theorem fix_delim (k : Kind) (before after : List Char) (h : List Part) (hw : Wf k h) (l : Loc)
    (h1 : h = l.pre ++ l.part :: l.post) (hp : isParam l.part.role = true) :
    ∃ h', applyEdit (before ++ render h ++ after) (delete (l.delimRange (bytes before))) =
        some (before ++ render h' ++ after) ∧ Wf k h' ∧
      ∀ r, r ≠ .comma → sel h' r = sel (l.pre ++ l.post) r := by
  have hrank : rank l.part.role = 11 := by
    revert hp; cases l.part.role <;> decide
  have hneed : needed l.part.role = false := by
    revert hp; cases l.part.role <;> decide
  obtain ⟨A0, a, hA⟩ := pre_concat k h _ _ _ hw h1 (by omega)
  have h1' : h = A0 ++ a :: l.part :: l.post := by rw [h1, hA]; simp
  have hch := hw.chain
  rw [h1'] at hch
  have f1 : Fit k a l.part := fit_pair k A0 l.post a l.part hch
  have ha := param_pred _ _ hp f1.order
  have hsa := hw.shaped a (by rw [h1']; simp)
  cases hB : l.post with
  | nil =>
    -- impossible for functions, but harmless: only the part is removed
    by_cases hcm : a.role = .comma
    · obtain ⟨A1, a0, hA0⟩ := pre_concat k h A0 (l.part :: l.post) a hw h1' (by rw [hcm]; decide)
      have h2 : h = A1 ++ a0 :: ([a, l.part] ++ []) := by rw [h1', hA0, hB]; simp
      refine ⟨A1 ++ { a0 with gap := a0.gap ++ l.part.gap } :: [], ?_, ?_, ?_⟩
      · have e1 : before ++ render h ++ after = (before ++ render (A1 ++ [a0])) ++
            ((a.text ++ a.gap ++ l.part.text) ++ (l.part.gap ++ after)) := by
          rw [h2]; simp [render_append, render_cons, render_nil]
        rw [e1, apply_cut _ (a.text ++ a.gap ++ l.part.text)]
        · simp [delete, render_append, render_cons, render_nil]
        · simp [delete, Loc.delimRange, Loc.delimRange.prevCase, hB, hA, hcm, hA0, bytes_append]
        · simp [delete, Loc.delimRange, Loc.delimRange.prevCase, Loc.start, hB, hA, hcm, hA0,
            bytes_append, render_append, render_cons, render_nil]
          omega
      · exact wf_cut k A1 [a, l.part] [] a0 _ (h2 ▸ hw) (by simp [hneed, hcm, needed_comma])
          (by simp)
      · intro r hr
        rw [sel_gap, hA, hA0]
        simp [sel_append, sel_cons, hcm, Ne.symm hr]
    · refine ⟨A0 ++ { a with gap := a.gap ++ l.part.gap } :: [], ?_, ?_, ?_⟩
      · have := apply_bare before after A0 [] a l.part
        rw [h1', hB, ← this]
        congr 2
        simp [Loc.delimRange, Loc.delimRange.prevCase, Loc.range, Loc.start, hB, hA, hcm]
      · exact wf_cut k A0 [l.part] [] a _ (by simpa [h1', hB] using hw) (by simp [hneed])
          (by simp)
      · intro r hr
        rw [sel_gap, hA]
        simp
  | cons b B =>
    have h1b : h = A0 ++ a :: l.part :: b :: B := by rw [h1', hB]
    have f2 : Fit k l.part b := fit_pair k (A0 ++ [a]) B l.part b (by
      have := hw.chain; rw [h1b] at this; simpa using this)
    have hb := param_succ _ _ hp f2.order
    by_cases hbc : b.role = .comma
    · refine ⟨A0 ++ { a with gap := a.gap ++ b.gap } :: B, ?_, ?_, ?_⟩
      · have e1 : before ++ render h ++ after = (before ++ render (A0 ++ [a])) ++
            ((l.part.text ++ l.part.gap ++ b.text) ++ (b.gap ++ render B ++ after)) := by
          rw [h1b]; simp [render_append, render_cons, render_nil]
        rw [e1, apply_cut _ (l.part.text ++ l.part.gap ++ b.text)]
        · simp [delete, render_append, render_cons, render_nil]
        · simp [delete, Loc.delimRange, Loc.start, hB, hA, hbc, bytes_append]
        · simp [delete, Loc.delimRange, Loc.start, hB, hA, hbc, bytes_append]
          omega
      · apply wf_cut k A0 [l.part, b] B a _ (by rw [h1b] at hw; simpa using hw)
          (by simp [hneed, hbc, needed_comma])
        intro c hc
        cases B with
        | nil => exact (nomatch hc)
        | cons c' B' =>
          have hc' : c' = c := by simpa using hc
          subst hc'
          have f3 : Fit k b c' := fit_pair k (A0 ++ [a, l.part]) B' b c' (by
            have := hw.chain; rw [h1b] at this; simpa using this)
          have h3 := f3.order
          rw [hbc, follows_open a.role _ ha] at h3
          exact ⟨h3, fun _ _ => shaped_open a hsa ha k⟩
      · intro r hr
        rw [sel_gap, hA]
        simp [sel_append, sel_cons, hbc, Ne.symm hr]
    · have hbr : b.role = .rparen := hb.resolve_left hbc
      have hsb := shaped_close b (hw.shaped b (by rw [h1b]; simp)) (.inl hbr)
      by_cases hcm : a.role = .comma
      · obtain ⟨A1, a0, hA0⟩ := pre_concat k h A0 (l.part :: l.post) a hw h1' (by rw [hcm]; decide)
        have h2 : h = A1 ++ a0 :: ([a, l.part] ++ b :: B) := by rw [h1b, hA0]; simp
        refine ⟨A1 ++ { a0 with gap := a0.gap ++ l.part.gap } :: b :: B, ?_, ?_, ?_⟩
        · have e1 : before ++ render h ++ after = (before ++ render (A1 ++ [a0])) ++
              ((a.text ++ a.gap ++ l.part.text) ++ (l.part.gap ++ render (b :: B) ++ after)) := by
            rw [h2]; simp [render_append, render_cons, render_nil]
          rw [e1, apply_cut _ (a.text ++ a.gap ++ l.part.text)]
          · simp [delete, render_append, render_cons, render_nil]
          · simp [delete, Loc.delimRange, Loc.delimRange.prevCase, hB, hA, hcm, hA0, hbc,
              bytes_append]
          · simp [delete, Loc.delimRange, Loc.delimRange.prevCase, Loc.start, hB, hA, hcm, hA0, hbc,
              bytes_append, render_append, render_cons, render_nil]
            omega
        · apply wf_cut k A1 [a, l.part] (b :: B) a0 _ (h2 ▸ hw) (by simp [hneed, hcm, needed_comma])
          intro c hc
          have hc' : b = c := by simpa using hc
          subst hc'
          have f3 : Fit k a0 a := fit_pair k A1 (l.part :: b :: B) a0 a (by
            have := hw.chain; rw [h2] at this; simpa using this)
          have h3 := f3.order
          rw [hcm] at h3
          refine ⟨?_, fun _ h => ?_⟩
          · rw [hbr]; exact param_rparen _ (comma_pred _ h3)
          · rw [hsb] at h; exact (nomatch h)
        · intro r hr
          rw [sel_gap, hA, hA0]
          simp [sel_append, sel_cons, hcm, Ne.symm hr]
      · refine ⟨A0 ++ { a with gap := a.gap ++ l.part.gap } :: b :: B, ?_, ?_, ?_⟩
        · have := apply_bare before after A0 (b :: B) a l.part
          rw [h1b, ← this]
          congr 2
          simp [Loc.delimRange, Loc.delimRange.prevCase, Loc.range, Loc.start, hB, hA, hcm, hbc]
        · apply wf_cut k A0 [l.part] (b :: B) a _ (by simpa [h1b] using hw) (by simp [hneed])
          intro c hc
          have hc' : b = c := by simpa using hc
          subst hc'
          refine ⟨?_, fun _ h => ?_⟩
          · rw [hbr, ha.resolve_right hcm]; rfl
          · rw [hsb] at h; exact (nomatch h)
        · intro r hr
          rw [sel_gap, hA]
          simp

theorem ret_pred (a : Role) : follows a .ret = true → a = .rparen := by
  cases a <;> decide

theorem ret_succ (b : Role) : follows .ret b = true → follows .rparen b = true := by
  cases b <;> decide

/-- The fix that removes a return type. -/
theorem fix_ret (w : Place) (before after : List Char) (h : List Part)
    (hw : Wf (.message w) h) (l : Loc) (hl : firstLoc .ret h = some l)
    (hty : l.part.ty = selfType) :
    ∃ h', Fixed (.message w) before after h (delete (l.triviaRange (bytes before))) .returnsSelf
      h' := by
  obtain ⟨h1, h2⟩ := firstLoc_some .ret h l hl
  have hsel := sel_upd h hw.ordered .ret (by decide) _ _ _ h1 h2
  have hB : l.post ≠ [] := by
    obtain ⟨-, -, hbs⟩ := hw.fn rfl
    rcases hbs with ⟨q, hq, hq2⟩ | ⟨q, hq, hq2⟩
    · have := mem_post h _ _ _ q hw.ordered h1 hq (by rw [h2, hq2]; decide)
      intro hn; rw [hn] at this; exact (nomatch this)
    · have := mem_post h _ _ _ q hw.ordered h1 hq (by rw [h2, hq2]; decide)
      intro hn; rw [hn] at this; exact (nomatch this)
  obtain ⟨A0, a, hA⟩ := pre_concat _ h _ _ _ hw h1 (by rw [h2]; decide)
  have h1' : h = A0 ++ a :: l.part :: l.post := by rw [h1, hA]; simp
  have f1 : Fit _ a l.part := fit_pair _ A0 l.post a l.part (by
    have := hw.chain; rw [h1'] at this; exact this)
  have ha : a.role = .rparen := ret_pred _ (by rw [← h2]; exact f1.order)
  refine ⟨l.pre ++ l.post, fixed_of _ before after h _ _ _ hw ?_ ?_ ?_ ?_⟩
  · conv_lhs => rw [h1]
    exact apply_trivia before after l.pre l.post l.part hB
  · have e : l.pre ++ l.post = A0 ++ { a with gap := a.gap } :: l.post := by rw [hA]; simp
    rw [e]
    apply wf_cut _ A0 [l.part] l.post a a.gap (by simpa [h1'] using hw) (by simp [h2, needed])
    intro b hb
    cases hp : l.post with
    | nil => exact absurd hp hB
    | cons b' B' =>
      rw [hp] at hb
      have hb' : b' = b := by simpa using hb
      subst hb'
      have f2 : Fit _ l.part b' := fit_pair _ (A0 ++ [a]) B' l.part b' (by
        have := hw.chain; rw [h1', hp] at this; simpa using this)
      have h3 := f2.order
      rw [h2] at h3
      refine ⟨by rw [ha]; exact ret_succ _ h3, fun _ _ => ?_⟩
      have hs := hw.shaped a (by rw [h1']; simp)
      unfold Shaped at hs
      rw [ha] at hs
      simp only at hs
      rw [hs, ha]
      exact ⟨by decide, rfl⟩
  · rw [hsel]
    apply counts_ret
    rw [(sel_unique h hw.ordered .ret (by decide) _ _ _ h1 h2).1]
    simp [hty]
  · intro role hr
    rw [hsel]
    exact upd_other _ _ _ _ hr

theorem before_vis (r : Role) : ¬ Before r .vis := by
  rintro (h | h)
  · exact absurd h (Nat.not_lt_zero _)
  · exact absurd h.2 (by decide)

/-- The visibility comes first. -/
theorem vis_first (h A B : List Part) (p : Part) (ho : (h.map Part.role).Pairwise Before)
    (e : h = A ++ p :: B) (hp : p.role = .vis) : A = [] := by
  cases A with
  | nil => rfl
  | cons a A =>
    rw [e, List.cons_append, List.map_cons, List.pairwise_cons] at ho
    have := ho.1 p.role (by simp)
    rw [hp] at this
    exact absurd this (before_vis _)

/-- The fix that replaces the visibility by `pub`. -/
theorem fix_vis (k : Kind) (before after : List Char) (h : List Part) (hw : Wf k h) (l : Loc)
    (x : Rule) (hl : firstLoc .vis h = some l) (ht : touched x = [.vis])
    (hc : Counts k (sel h) (upd (sel h) .vis [(pubText, l.part.ty)]) x) :
    ∃ h', Fixed k before after h
      ⟨pubText, (l.range (bytes before)).1, (l.range (bytes before)).2, none⟩ x h' := by
  obtain ⟨h1, h2⟩ := firstLoc_some .vis h l hl
  have hA := vis_first h _ _ _ hw.ordered h1 h2
  have h1' : h = l.part :: l.post := by rw [h1, hA]; rfl
  have hsel : sel ({ l.part with text := pubText } :: l.post) =
      upd (sel h) .vis [(pubText, l.part.ty)] := by
    funext r
    unfold upd
    obtain ⟨-, hu⟩ := unique_role h hw.ordered .vis (by decide) _ _ _ h1 h2
    by_cases hr : r = .vis
    · rw [if_pos hr, hr, sel_cons, sel_nil_of _ _ hu]
      simp [h2]
    · rw [if_neg hr, h1', sel_cons, sel_cons]
      simp [h2, Ne.symm hr]
  refine ⟨{ l.part with text := pubText } :: l.post, fixed_of k before after h _ _ x hw ?_ ?_ ?_ ?_⟩
  · have e1 : before ++ render h ++ after = before ++ (l.part.text ++
        (l.part.gap ++ render l.post ++ after)) := by
      rw [h1']; simp [render_cons]
    rw [e1, apply_cut _ l.part.text]
    · simp [render_cons]
    · simp [Loc.range, Loc.start, hA, render_nil, bytes]
    · simp [Loc.range, Loc.start, hA, render_nil, bytes]
  · apply wf_of_sublist k h _ hw
    · have hch := hw.chain
      rw [h1', List.isChain_cons] at hch
      rw [List.isChain_cons]
      refine ⟨fun b hb => ?_, hch.2⟩
      have := hch.1 b hb
      refine ⟨this.order, fun hg hs => ?_⟩
      have := (this.glue hg hs).2
      rw [h2] at this
      exact (nomatch this)
    · intro p hp
      rcases List.mem_cons.1 hp with rfl | hp
      · unfold Shaped
        simp only [h2]
        decide
      · exact hw.shaped p (by rw [h1']; simp [hp])
    · rw [h1']
      simp
    · intro r hr hh
      rw [has_roles] at hh ⊢
      rw [h1'] at hh
      simpa using hh
  · rw [hsel]; exact hc
  · intro role hr
    rw [hsel]
    exact upd_other _ _ _ _ (ht ▸ hr)

theorem firstLoc_none (r : Role) (h : List Part) (hn : ∀ p ∈ h, p.role ≠ r) :
    firstLoc r h = none := by
  have := firstLoc_part r h
  rw [List.find?_eq_none.2 (by simpa using hn)] at this
  exact Option.map_eq_none_iff.1 this

/-- The first part is found, if the roles are tried in the order of the grammar. -/
theorem find_head (order : List Role) (q : Part) (t : List Part)
    (ho : ((q :: t).map Part.role).Pairwise Before) (hq : q.role ∈ order)
    (hs : order.Pairwise fun a b => rank a < rank b) :
    order.findSome? (fun r => firstLoc r (q :: t)) = some ⟨[], q, t⟩ := by
  induction order with
  | nil => exact (nomatch hq)
  | cons r rs ih =>
    rw [List.findSome?_cons]
    by_cases hr : q.role = r
    · have : firstLoc r (q :: t) = some ⟨[], q, t⟩ := by simp [firstLoc, locs, hr]
      rw [this]
    · rw [List.pairwise_cons] at hs
      have hq' : q.role ∈ rs := by
        rcases List.mem_cons.1 hq with h | h
        · exact absurd h hr
        · exact h
      have hlt := hs.1 _ hq'
      have : firstLoc r (q :: t) = none := firstLoc_none _ _ fun p hp hpr => by
        rcases List.mem_cons.1 hp with rfl | hp
        · exact hr hpr
        · rw [List.map_cons, List.pairwise_cons] at ho
          have := ho.1 p.role (List.mem_map.2 ⟨p, hp, rfl⟩)
          rw [hpr] at this
          rcases this with h | h <;> omega
      rw [this]
      exact ih hq' hs.2

theorem head_rank (k : Kind) (q : Part) (t : List Part) (hw : Wf k (q :: t)) :
    rank q.role < 7 ∨ q.role = .kw := by
  obtain ⟨p, hp, hp2⟩ := hw.kw
  rcases List.mem_cons.1 hp with rfl | hp
  · exact .inr hp2
  · have := hw.ordered
    rw [List.map_cons, List.pairwise_cons] at this
    have := this.1 p.role (List.mem_map.2 ⟨p, hp, rfl⟩)
    rw [hp2] at this
    rcases this with h | h
    · exact .inl h
    · exact absurd h.2 (by decide)

theorem follows_vis_head (r : Role) : (rank r < 7 ∨ r = .kw) → follows .vis r = true := by
  cases r <;> decide

/-- The fix that inserts `pub`. -/
theorem fix_pub (k : Kind) (before after : List Char) (h : List Part) (hw : Wf k h) (l : Loc)
    (x : Rule) (order : List Role) (hv : firstLoc .vis h = none)
    (hl : order.findSome? (fun r => firstLoc r h) = some l)
    (ho : order.Pairwise fun a b => rank a < rank b)
    (hall : ∀ r, r ≠ .vis → (rank r < 7 ∧ allowed k r = true) ∨ r = .kw → r ∈ order)
    (ha : allowed k .vis = true)
    (ht : touched x = [.vis])
    (hc : Counts k (sel h) (upd (sel h) .vis [(pubText, [])]) x) :
    ∃ h', Fixed k before after h
      ⟨pubText ++ [' '], l.start (bytes before), l.start (bytes before), none⟩ x h' := by
  have hnv : ∀ p ∈ h, p.role ≠ .vis := by
    have := firstLoc_isSome .vis h
    rw [hv] at this
    have h2 : (sel h .vis).isEmpty = true := by
      cases hs : (sel h .vis).isEmpty <;> simp_all
    exact (sel_isEmpty _ _).1 h2
  cases h with
  | nil => obtain ⟨p, hp, -⟩ := hw.kw; exact (nomatch hp)
  | cons q t =>
    have hq : q.role ∈ order := by
      apply hall _ (hnv q (by simp))
      rcases head_rank k q t hw with h | h
      · exact .inl ⟨h, hw.mods q (by simp) h⟩
      · exact .inr h
    rw [find_head order q t hw.ordered hq ho] at hl
    have hl' := Option.some.inj hl
    subst hl'
    have hsel : sel (⟨.vis, pubText, [' '], []⟩ :: q :: t) =
        upd (sel (q :: t)) .vis [(pubText, [])] := by
      funext r
      unfold upd
      rw [sel_cons]
      by_cases hr : r = .vis
      · rw [if_pos hr, if_pos hr.symm, hr, sel_nil_of _ _ hnv]
        rfl
      · rw [if_neg hr, if_neg (Ne.symm hr)]
        rfl
    refine ⟨⟨.vis, pubText, [' '], []⟩ :: q :: t, fixed_of k before after _ _ _ x hw ?_ ?_ ?_ ?_⟩
    · have e1 : before ++ render (q :: t) ++ after = before ++ ([] ++ (render (q :: t) ++ after)) := by
        simp
      rw [e1, apply_cut _ []]
      · simp [render_cons]
      · simp [Loc.start, render_nil, bytes]
      · simp [Loc.start, render_nil, bytes]
    · constructor
      · rw [List.isChain_cons]
        refine ⟨fun b hb => ?_, hw.chain⟩
        have hb' : q = b := by simpa using hb
        subst hb'
        refine ⟨follows_vis_head _ (head_rank k q t hw), fun hg => ?_⟩
        simp at hg
      · rw [List.map_cons, List.pairwise_cons]
        refine ⟨fun r hr => ?_, hw.ordered⟩
        obtain ⟨p, hp, rfl⟩ := List.mem_map.1 hr
        left
        have := hnv p hp
        revert this
        cases p.role <;> decide
      · intro p hp
        rcases List.mem_cons.1 hp with rfl | hp
        · show startsWord pubText = true
          decide
        · exact hw.shaped p hp
      · obtain ⟨p, hp, hp2⟩ := hw.kw
        exact ⟨p, List.mem_cons_of_mem _ hp, hp2⟩
      · intro p hp h7
        rcases List.mem_cons.1 hp with rfl | hp
        · exact ha
        · exact hw.mods p hp h7
      · have := hw.oneSelf
        rw [List.map_cons, List.filter_cons]
        simpa using this
      · intro hk
        obtain ⟨⟨p1, h1, h1'⟩, ⟨p2, h2, h2'⟩, h3⟩ := hw.fn hk
        refine ⟨⟨p1, List.mem_cons_of_mem _ h1, h1'⟩, ⟨p2, List.mem_cons_of_mem _ h2, h2'⟩, ?_⟩
        rcases h3 with ⟨p3, h3, h3'⟩ | ⟨p3, h3, h3'⟩
        · exact .inl ⟨p3, List.mem_cons_of_mem _ h3, h3'⟩
        · exact .inr ⟨p3, List.mem_cons_of_mem _ h3, h3'⟩
    · rw [hsel]; exact hc
    · intro role hr
      rw [hsel]
      exact upd_other _ _ _ _ (ht ▸ hr)

/-- Inserting the parts `S` after `a`. -/
theorem wf_insert (k : Kind) (A S B : List Part) (a : Part) (g : List Char)
    (hw : Wf k (A ++ a :: B))
    (hc : ({ a with gap := g } :: (S ++ B)).IsChain (Fit k))
    (h1 : ∀ x ∈ (A ++ [a]).map Part.role, ∀ s ∈ S.map Part.role, Before x s)
    (h2 : ∀ s ∈ S.map Part.role, ∀ b ∈ B.map Part.role, Before s b)
    (h3 : (S.map Part.role).Pairwise Before)
    (hs : ∀ p ∈ S, Shaped p) (h7 : ∀ p ∈ S, 7 ≤ rank p.role)
    (hone : (((A ++ a :: B).map Part.role).filter fun r => r == .selfRef || r == .selfVal) = [] ∨
      ∀ p ∈ S, (p.role == .selfRef || p.role == .selfVal) = false)
    (hone' : ((S.map Part.role).filter fun r => r == .selfRef || r == .selfVal).length ≤ 1) :
    Wf k (A ++ { a with gap := g } :: (S ++ B)) := by
  have hsub : ∀ r, Has (A ++ a :: B) r → Has (A ++ { a with gap := g } :: (S ++ B)) r := by
    intro r hr
    rw [has_roles] at hr ⊢
    simp only [List.map_append, List.map_cons, List.mem_append, List.mem_cons] at hr ⊢
    rcases hr with h | h | h
    · exact .inl h
    · exact .inr (.inl h)
    · exact .inr (.inr (.inr h))
  constructor
  · have := hw.chain
    rw [List.isChain_append] at this ⊢
    refine ⟨this.1, hc, fun x hx y hy => ?_⟩
    simp only [List.head?_cons, Option.mem_def, Option.some.injEq] at hy
    have := this.2.2 x hx a (by simp)
    rw [← hy]
    exact ⟨this.order, this.glue⟩
  · have ho := hw.ordered
    simp only [List.map_append, List.map_cons, List.pairwise_append, List.pairwise_cons] at ho ⊢
    obtain ⟨o1, ⟨o2, o3⟩, o4⟩ := ho
    refine ⟨o1, ⟨?_, h3, o3, h2⟩, ?_⟩
    · intro r hr
      rcases List.mem_append.1 hr with hr | hr
      · exact h1 a.role (by simp) r hr
      · exact o2 r hr
    · intro x hx r hr
      rcases List.mem_cons.1 hr with rfl | hr
      · exact o4 x hx _ (by simp)
      · rcases List.mem_append.1 hr with hr | hr
        · exact h1 x (by rw [List.map_append]; exact List.mem_append_left _ hx) r hr
        · exact o4 x hx r (by simp [hr])
  · intro p hp
    simp only [List.mem_append, List.mem_cons] at hp
    rcases hp with hp | rfl | hp | hp
    · exact hw.shaped p (by simp [hp])
    · exact shaped_gap a g (hw.shaped a (by simp))
    · exact hs p hp
    · exact hw.shaped p (by simp [hp])
  · exact hsub _ hw.kw
  · intro p hp h
    simp only [List.mem_append, List.mem_cons] at hp
    rcases hp with hp | rfl | hp | hp
    · exact hw.mods p (by simp [hp]) h
    · exact hw.mods a (by simp) h
    · exact absurd (h7 p hp) (by omega)
    · exact hw.mods p (by simp [hp]) h
  · have ho := hw.oneSelf
    rcases hone with he | he
    · simp only [List.map_append, List.map_cons, List.filter_append, List.filter_cons,
        List.append_eq_nil_iff] at he ⊢
      obtain ⟨e1, e2⟩ := he
      split at e2
      · exact (nomatch e2)
      · rename_i hn
        rw [e1, if_neg hn, e2]
        simpa using hone'
    · have : ((S.map Part.role).filter fun r => r == .selfRef || r == .selfVal) = [] := by
        rw [List.filter_eq_nil_iff]
        intro r hr
        obtain ⟨p, hp, rfl⟩ := List.mem_map.1 hr
        rw [he p hp]
        simp
      simp only [List.map_append, List.map_cons, List.filter_append, List.filter_cons] at ho ⊢
      rw [this]
      simpa using ho
  · intro hk
    obtain ⟨f1, f2, f3⟩ := hw.fn hk
    refine ⟨hsub _ f1, hsub _ f2, ?_⟩
    rcases f3 with f3 | f3
    · exact .inl (hsub _ f3)
    · exact .inr (hsub _ f3)

theorem before_all (h A B : List Part) (p : Part) (ho : (h.map Part.role).Pairwise Before)
    (e : h = A ++ p :: B) :
    (∀ x ∈ A.map Part.role, Before x p.role) ∧ ∀ x ∈ B.map Part.role, Before p.role x := by
  rw [e, List.map_append, List.map_cons, List.pairwise_append, List.pairwise_cons] at ho
  exact ⟨fun x hx => ho.2.2 x hx _ (by simp), ho.2.1.1⟩

theorem apply_insert (before after t g : List Char) (A B S : List Part) (a : Part) (sn : Option (List Char))
    (ht : t ++ a.gap = g ++ render S) :
    applyEdit (before ++ render (A ++ a :: B) ++ after)
      ⟨t, (Loc.range (bytes before) ⟨A, a, B⟩).2, (Loc.range (bytes before) ⟨A, a, B⟩).2, sn⟩ =
      some (before ++ render (A ++ { a with gap := g } :: (S ++ B)) ++ after) := by
  have e1 : before ++ render (A ++ a :: B) ++ after = (before ++ render A ++ a.text) ++
      ([] ++ (a.gap ++ render B ++ after)) := by
    simp [render_append, render_cons]
  rw [e1, apply_cut _ []]
  · have : before ++ render A ++ a.text ++ t ++ (a.gap ++ render B ++ after) =
        before ++ render A ++ a.text ++ (t ++ a.gap) ++ (render B ++ after) := by simp
    rw [this, ht]
    simp [render_append, render_cons]
  · simp [Loc.range, Loc.start, bytes_append]; omega
  · simp [Loc.range, Loc.start, bytes_append, bytes]; omega

/-- The fix that adds a return type. -/
theorem fix_addRet (w : Place) (before after : List Char) (h : List Part)
    (hw : Wf (.constructor w) h) (l : Loc) (hl : firstLoc .rparen h = some l)
    (hn : (sel h .ret).isEmpty = true) :
    ∃ h', Fixed (.constructor w) before after h
      ⟨retText, (l.range (bytes before)).2, (l.range (bytes before)).2, some retSnippet⟩
      .returnType h' := by
  obtain ⟨h1, h2⟩ := firstLoc_some .rparen h l hl
  have hnr := (sel_isEmpty _ _).1 hn
  obtain ⟨b1, b2⟩ := before_all h _ _ _ hw.ordered h1
  rw [h2] at b1 b2
  let S : List Part := [⟨.ret, ['-', '>', ' ', 'S', 'e', 'l', 'f'], l.part.gap, selfType⟩]
  have hsel : sel (l.pre ++ { l.part with gap := [' '] } :: (S ++ l.post)) =
      upd (sel h) .ret [(['-', '>', ' ', 'S', 'e', 'l', 'f'], selfType)] := by
    rw [sel_gap]
    funext r
    unfold upd
    by_cases hr : r = .ret
    · rw [if_pos hr, hr]
      have hA := sel_nil_of l.pre .ret fun q hq => hnr q (by rw [h1]; simp [hq])
      have hB := sel_nil_of l.post .ret fun q hq => hnr q (by rw [h1]; simp [hq])
      simp [sel_append, sel_cons, hA, hB, h2, S]
    · rw [if_neg hr, h1]
      simp [sel_append, sel_cons, Ne.symm hr, S]
  refine ⟨l.pre ++ { l.part with gap := [' '] } :: (S ++ l.post),
    fixed_of _ before after h _ _ _ hw ?_ ?_ ?_ ?_⟩
  · conv_lhs => rw [h1]
    exact apply_insert before after retText [' '] l.pre l.post S l.part _ (by
      simp [S, render_cons, render_nil, retText])
  · have hw' := hw
    rw [h1] at hw'
    apply wf_insert _ _ _ _ _ _ hw'
    · rw [List.isChain_cons]
      refine ⟨fun s hs => ?_, ?_⟩
      · simp [S] at hs
        subst hs
        exact ⟨by rw [h2]; rfl, fun h => by simp at h⟩
      · show List.IsChain _ (_ :: l.post)
        rw [List.isChain_cons]
        have hch := hw'.chain
        rw [List.isChain_append, List.isChain_cons] at hch
        refine ⟨fun b hb => ?_, hch.2.1.2⟩
        have f := hch.2.1.1 b hb
        have hbm : b ∈ l.post := List.mem_of_mem_head? hb
        have hb2 := b2 b.role (List.mem_map.2 ⟨b, hbm, rfl⟩)
        have hb3 := hnr b (by rw [h1]; simp [hbm])
        refine ⟨?_, fun hg hsw => ?_⟩
        · have hfo := f.order
          rw [h2] at hfo
          revert hfo hb2 hb3
          show Before .rparen b.role → b.role ≠ .ret → follows .rparen b.role = true →
            follows .ret b.role = true
          unfold Before
          cases b.role <;> decide
        · have := (f.glue hg hsw).2
          rw [h2] at this
          exact (nomatch this)
    · intro x hx s hs
      have hs' : s = .ret := by simpa [S] using hs
      rw [hs']
      rw [List.map_append, List.mem_append] at hx
      have hx' : x = .rparen ∨ Before x .rparen := by
        rcases hx with hx | hx
        · exact .inr (b1 x hx)
        · left; simpa [h2] using hx
      rcases hx' with rfl | hx'
      · left; decide
      · rcases hx' with hx' | hx'
        · left; exact Nat.lt_trans hx' (by decide)
        · exact absurd hx'.2 (by decide)
    · intro s hs b hb
      have hs' : s = .ret := by simpa [S] using hs
      rw [hs']
      have h3 := b2 b hb
      obtain ⟨q, hq, rfl⟩ := List.mem_map.1 hb
      have h4 := hnr q (by rw [h1]; simp [hq])
      revert h3 h4
      unfold Before
      cases q.role <;> decide
    · simp [S]
    · intro p hp
      have : p = ⟨.ret, ['-', '>', ' ', 'S', 'e', 'l', 'f'], l.part.gap, selfType⟩ := by
        simpa [S] using hp
      rw [this]
      exact trivial
    · intro p hp
      have : p = ⟨.ret, ['-', '>', ' ', 'S', 'e', 'l', 'f'], l.part.gap, selfType⟩ := by
        simpa [S] using hp
      rw [this]
      show 7 ≤ rank .ret
      decide
    · right
      intro p hp
      have : p = ⟨.ret, ['-', '>', ' ', 'S', 'e', 'l', 'f'], l.part.gap, selfType⟩ := by
        simpa [S] using hp
      rw [this]
      rfl
    · simp [S]
  · rw [hsel]
    exact counts_addRet w _ hn _
  · intro role hr
    rw [hsel]
    exact upd_other _ _ _ _ hr

/-- The receiver in the text. -/
def selfText (mutable : Bool) : List Char :=
  if mutable then ['&', 'm', 'u', 't', ' ', 's', 'e', 'l', 'f'] else ['&', 's', 'e', 'l', 'f']

/-- The parts that are inserted with a receiver. -/
def selfParts (mutable params : Bool) (gap : List Char) : List Part :=
  if params then [⟨.selfRef, selfText mutable, [], []⟩, ⟨.comma, [','], ' ' :: gap, []⟩]
  else [⟨.selfRef, selfText mutable, gap, []⟩]

/-- The fix that adds a receiver. -/
theorem fix_addSelf (w : Place) (before after : List Char) (h : List Part)
    (hw : Wf (.message w) h) (l : Loc) (hl : firstLoc .lparen h = some l)
    (hn : (sel h .selfRef).isEmpty = true) (hv : (sel h .selfVal).isEmpty = true) (m : Bool) :
    ∃ h', Fixed (.message w) before after h
      ⟨receiverText m h, (l.range (bytes before)).2, (l.range (bytes before)).2, none⟩
      .selfRef h' := by
  obtain ⟨h1, h2⟩ := firstLoc_some .lparen h l hl
  have hns := (sel_isEmpty _ _).1 hn
  have hnv := (sel_isEmpty _ _).1 hv
  obtain ⟨b1, b2⟩ := before_all h _ _ _ hw.ordered h1
  rw [h2] at b1 b2
  have hSr : ∀ s ∈ (selfParts m (hasParams h) l.part.gap).map Part.role,
      s = .selfRef ∨ s = .comma := by
    intro s hs
    unfold selfParts at hs
    revert hs
    cases hasParams h
    · simp
      exact fun h => .inl h
    · simp
  have hsel : ∀ r, r ≠ .comma →
      sel (l.pre ++ { l.part with gap := [] } :: (selfParts m (hasParams h) l.part.gap ++ l.post))
        r = upd (sel h) .selfRef [(selfText m, [])] r := by
    intro r hrc
    rw [sel_gap]
    unfold upd
    by_cases hr : r = .selfRef
    · rw [if_pos hr, hr]
      have hA := sel_nil_of l.pre .selfRef fun q hq => hns q (by rw [h1]; simp [hq])
      have hB := sel_nil_of l.post .selfRef fun q hq => hns q (by rw [h1]; simp [hq])
      unfold selfParts
      cases hasParams h <;> simp [sel_append, sel_cons, hA, hB, h2]
    · rw [if_neg hr]
      conv_rhs => rw [h1]
      unfold selfParts
      cases hasParams h <;> simp [sel_append, sel_cons, Ne.symm hr, Ne.symm hrc]
  have hw' := hw
  rw [h1] at hw'
  have hch := hw'.chain
  rw [List.isChain_append, List.isChain_cons] at hch
  have hsl := shaped_open l.part (hw.shaped l.part (by rw [h1]; simp)) (.inl h2) (.message w)
  refine ⟨l.pre ++ { l.part with gap := [] } :: (selfParts m (hasParams h) l.part.gap ++ l.post),
    fixed_of _ before after h _ _ _ hw ?_ ?_ ?_ ?_⟩
  · have := apply_insert before after (receiverText m h) [] l.pre l.post
      (selfParts m (hasParams h) l.part.gap) l.part none (by
        unfold receiverText selfParts selfText
        cases hasParams h <;> cases m <;> simp [render_cons, render_nil])
    rw [← h1] at this
    exact this
  · apply wf_insert _ _ _ _ _ _ hw'
    · cases hp : hasParams h with
      | true =>
        show List.IsChain _ ({ l.part with gap := [] } :: _ :: _ :: l.post)
        rw [List.isChain_cons, List.isChain_cons, List.isChain_cons]
        refine ⟨fun s hs => ?_, fun s hs => ?_, fun b hb => ?_, hch.2.1.2⟩
        · simp at hs
          rw [← hs]
          exact ⟨by rw [h2]; rfl, fun _ _ => hsl⟩
        · simp at hs
          rw [← hs]
          exact ⟨rfl, fun _ h => absurd h (by show ¬ startsWord [','] = true; decide)⟩
        · have f := hch.2.1.1 b hb
          have := f.order
          rw [h2] at this
          refine ⟨this, fun h => by simp at h⟩
      | false =>
        show List.IsChain _ ({ l.part with gap := [] } :: _ :: l.post)
        rw [List.isChain_cons, List.isChain_cons]
        refine ⟨fun s hs => ?_, fun b hb => ?_, hch.2.1.2⟩
        · simp at hs
          rw [← hs]
          exact ⟨by rw [h2]; rfl, fun _ _ => hsl⟩
        · have f := hch.2.1.1 b hb
          have hbm : b ∈ h := by rw [h1]; simp [List.mem_of_mem_head? hb]
          have hbr : b.role = .rparen := by
            have h3 := f.order
            rw [h2] at h3
            have h4 := hns b hbm
            have h5 := hnv b hbm
            have h6 : ¬ (b.role == .param || b.role == .paramHead || b.role == .dots) = true := by
              intro hc
              have : hasParams h = true := List.any_eq_true.2 ⟨b, hbm, hc⟩
              rw [hp] at this
              exact (nomatch this)
            revert h3 h4 h5 h6
            cases b.role <;> decide
          refine ⟨by rw [hbr]; rfl, fun _ hs => ?_⟩
          rw [shaped_close b (hw.shaped b hbm) (.inl hbr)] at hs
          exact (nomatch hs)
    · intro x hx s hs
      have hs' := hSr s hs
      have hx' : x = .lparen ∨ Before x .lparen := by
        rw [List.map_append, List.mem_append] at hx
        rcases hx with hx | hx
        · exact .inr (b1 x hx)
        · left; simpa [h2] using hx
      have h10 : rank x ≤ 10 := by
        rcases hx' with rfl | hx' | hx'
        · decide
        · exact Nat.le_of_lt hx'
        · exact absurd hx'.2 (by decide)
      left
      rcases hs' with rfl | rfl
      · exact Nat.lt_of_le_of_lt h10 (by decide)
      · exact Nat.lt_of_le_of_lt h10 (by decide)
    · intro s hs b hb
      have hs' := hSr s hs
      have h3 := b2 b hb
      rcases hs' with rfl | rfl
      · revert h3
        unfold Before
        cases b <;> decide
      · revert h3
        unfold Before
        cases b <;> decide
    · unfold selfParts
      cases hasParams h
      · simp
      · simp [Before, rank]
    · intro p hp
      unfold selfParts at hp
      revert hp
      cases hasParams h
      · intro hp
        have : p = ⟨.selfRef, selfText m, l.part.gap, []⟩ := by simpa using hp
        rw [this]
        exact trivial
      · intro hp
        have : p = ⟨.selfRef, selfText m, [], []⟩ ∨ p = ⟨.comma, [','], ' ' :: l.part.gap, []⟩ := by
          simpa using hp
        rcases this with rfl | rfl
        · exact trivial
        · exact (rfl : ([','] : List Char) = [','])
    · intro p hp
      have := hSr p.role (List.mem_map.2 ⟨p, hp, rfl⟩)
      rcases this with h | h <;> rw [h] <;> decide
    · left
      rw [← h1, List.filter_eq_nil_iff]
      intro r hr
      obtain ⟨p, hp, rfl⟩ := List.mem_map.1 hr
      have := hns p hp
      have := hnv p hp
      simp_all
    · unfold selfParts
      cases hasParams h <;> simp
  · have hc := counts_addSelf w (sel h) hn (selfText m, [])
    unfold Counts at hc ⊢
    rw [ruleList_congr _ _ _ hsel]
    exact hc
  · intro role hr
    have : role ≠ .selfRef ∧ role ≠ .comma := by simpa [touched] using hr
    rw [hsel role this.2]
    exact upd_other _ _ _ _ (by simpa using this.1)

/-! ### All fixes -/

theorem mem_forbid (x : Report) (r : Rule) (role : Role) (o : Nat) (h : List Part)
    (hx : x ∈ forbid r role o h) : ∃ l, firstLoc role h = some l ∧ x.rule = r ∧
      x.fixes = [delete (l.triviaRange o)] := by
  unfold forbid at hx
  cases hl : firstLoc role h with
  | none => rw [hl] at hx; simp at hx
  | some l =>
    rw [hl] at hx
    have : x = ⟨r, some (l.range o), [delete (l.triviaRange o)]⟩ := by simpa using hx
    exact ⟨l, rfl, by rw [this], by rw [this]⟩

theorem mem_forbidBare (x : Report) (r : Rule) (role : Role) (o : Nat) (h : List Part)
    (hx : x ∈ forbidBare r role o h) : ∃ l, firstLoc role h = some l ∧ x.rule = r ∧
      x.fixes = [delete (l.range o)] := by
  unfold forbidBare at hx
  cases hl : firstLoc role h with
  | none => rw [hl] at hx; simp at hx
  | some l =>
    rw [hl] at hx
    have : x = ⟨r, some (l.range o), [delete (l.range o)]⟩ := by simpa using hx
    exact ⟨l, rfl, by rw [this], by rw [this]⟩

theorem fixes_forbid (k : Kind) (before after : List Char) (h : List Part) (hw : Wf k h)
    (x : Report) (r : Rule) (role : Role) (hx : x ∈ forbid r role (bytes before) h) (e : Edit)
    (he : e ∈ x.fixes) (hm : modifier role = true) (ht : touched r = [role])
    (hc : (sel h role).isEmpty = false → Counts k (sel h) (upd (sel h) role []) r) :
    ∃ h', Fixed k before after h e x.rule h' := by
  obtain ⟨l, h1, h2, h3⟩ := mem_forbid x r role _ h hx
  rw [h3, List.mem_singleton] at he
  rw [he, h2]
  exact fix_modifier k before after h hw l role r h1 hm ht hc

theorem firstLoc_ne (role : Role) (h : List Part) (l : Loc) (hl : firstLoc role h = some l) :
    (sel h role).isEmpty = false := by
  have := firstLoc_isSome role h
  rw [hl] at this
  cases hs : (sel h role).isEmpty <;> simp_all

theorem fixes_bare (k : Kind) (before after : List Char) (h : List Part) (hw : Wf k h)
    (x : Report) (r : Rule) (role : Role) (hx : x ∈ forbidBare r role (bytes before) h) (e : Edit)
    (he : e ∈ x.fixes) (hm : bare role = true) (hr : rank role ≠ 11) (ht : touched r = [role])
    (hc : (sel h role).isEmpty = false → Counts k (sel h) (upd (sel h) role []) r) :
    ∃ h', Fixed k before after h e x.rule h' := by
  obtain ⟨l, h1, h2, h3⟩ := mem_forbidBare x r role _ h hx
  rw [h3, List.mem_singleton] at he
  obtain ⟨h4, h5⟩ := firstLoc_some role h l h1
  rw [he, h2]
  refine fix_bare k before after h hw l r h4 (by rw [h5]; exact hm) [] ?_ (by rw [h5]; exact ht) ?_
  · rw [h5]; exact sel_upd h hw.ordered role hr _ _ _ h4 h5
  · rw [h5]; exact hc (firstLoc_ne role h l h1)

theorem sel_length (h A B : List Part) (p : Part) (e : h = A ++ p :: B) :
    (sel (A ++ B) p.role).length + 1 = (sel h p.role).length := by
  rw [e, sel_append, sel_append, sel_cons]
  simp
  omega

theorem fixes_variadic (k : Kind) (before after : List Char) (h : List Part) (hw : Wf k h)
    (hk : k.isFn = true) (x : Report) (hx : x ∈ variadic (bytes before) h) (e : Edit)
    (he : e ∈ x.fixes) : ∃ h', Fixed k before after h e x.rule h' := by
  unfold variadic at hx
  obtain ⟨l, hl, rfl⟩ := List.mem_map.1 hx
  obtain ⟨hl1, hl2⟩ := List.mem_filter.1 hl
  have hr : l.part.role = .dots := by simpa using hl2
  obtain ⟨A, B, h1, h2, h3⟩ := (locs_mem _ _ _).1 hl1
  have h4 : h = l.pre ++ l.part :: l.post := by rw [h2, h3]; exact h1
  have he' : e = delete (l.delimRange (bytes before)) := by simpa using he
  subst he'
  obtain ⟨h', ht, hwf, hs⟩ := fix_delim k before after h hw l h4 (by rw [hr]; rfl)
  refine ⟨h', fixed_of k before after h h' _ _ hw ht hwf ?_ ?_⟩
  · have hc := counts_dots k (sel h) hk (sel (l.pre ++ l.post) .dots) (by
      have := sel_length h _ _ _ h4
      rwa [hr] at this)
    have hcg := ruleList_congr k (sel h') (upd (sel h) .dots (sel (l.pre ++ l.post) .dots)) (by
      intro r hrc
      rw [hs r hrc]
      unfold upd
      by_cases hd : r = .dots
      · rw [if_pos hd, hd]
      · rw [if_neg hd, h4, sel_append, sel_append, sel_cons]
        simp [hr, Ne.symm hd])
    unfold Counts at hc ⊢
    rw [hcg]
    exact hc
  · intro role hrole
    have : role ≠ .dots ∧ role ≠ .comma := by simpa [touched] using hrole
    rw [hs role this.2, h4, sel_append, sel_append, sel_cons]
    simp [hr, Ne.symm this.1]

theorem fixes_noSelf (k : Kind) (before after : List Char) (h : List Part) (hw : Wf k h)
    (hk : (∃ w, k = .constructor w) ∨ k = .extension) (x : Report)
    (hx : x ∈ noSelfReceiver (bytes before) h) (e : Edit)
    (he : e ∈ x.fixes) : ∃ h', Fixed k before after h e x.rule h' := by
  have hx' : x ∈ ((selfLoc h).map fun l => (⟨.selfReceiver, some (l.range (bytes before)),
      [delete (l.delimRange (bytes before))]⟩ : Report)).toList := hx
  cases hl : selfLoc h with
  | none => rw [hl] at hx'; simp at hx'
  | some l =>
    rw [hl] at hx'
    have hxe : x = ⟨.selfReceiver, some (l.range (bytes before)),
      [delete (l.delimRange (bytes before))]⟩ := by simpa using hx'
    subst hxe
    have he' : e = delete (l.delimRange (bytes before)) := by simpa using he
    subst he'
    obtain ⟨h4, hr⟩ := selfLoc_some h l hl
    obtain ⟨h', ht, hwf, hs⟩ := fix_delim k before after h hw l h4 (by
      rcases hr with hr | hr <;> rw [hr] <;> rfl)
    have hnone : ∀ r, (r = .selfRef ∨ r = .selfVal) → sel (l.pre ++ l.post) r = [] := by
      intro r hr2
      apply sel_nil_of
      intro q hq hqr
      have ho := hw.oneSelf
      rw [h4] at ho
      have hpos : q.role ∈ ((l.pre ++ l.post).map Part.role).filter
          (fun r => r == .selfRef || r == .selfVal) :=
        List.mem_filter.2 ⟨List.mem_map.2 ⟨q, hq, rfl⟩, by rw [hqr]; rcases hr2 with rfl | rfl <;> rfl⟩
      have hp2 := List.length_pos_of_mem hpos
      have h5 : (l.part.role == .selfRef || l.part.role == .selfVal) = true := by
        rcases hr with hr | hr <;> rw [hr] <;> rfl
      simp only [List.map_append, List.map_cons, List.filter_append, List.filter_cons, h5, if_true,
        List.length_append, List.length_cons] at ho hp2
      omega
    refine ⟨h', fixed_of k before after h h' _ _ hw ht hwf ?_ ?_⟩
    · have hc := counts_self k (sel h) hk (by
        have := selfLoc_isSome h
        rw [hl] at this
        cases hh : ((sel h .selfRef).isEmpty && (sel h .selfVal).isEmpty) <;> simp_all)
      have hcg := ruleList_congr k (sel h') (upd (upd (sel h) .selfRef []) .selfVal []) (by
        intro r hrc
        rw [hs r hrc]
        unfold upd
        by_cases h5 : r = .selfVal
        · rw [if_pos h5, hnone r (.inr h5)]
        · rw [if_neg h5]
          by_cases h6 : r = .selfRef
          · rw [if_pos h6, hnone r (.inl h6)]
          · rw [if_neg h6]
            conv_rhs => rw [h4]
            rw [sel_append, sel_append, sel_cons]
            rcases hr with hr | hr <;> simp [hr, Ne.symm h5, Ne.symm h6])
      unfold Counts at hc ⊢
      rw [hcg]
      exact hc
    · intro role hrole
      have : role ≠ .selfRef ∧ role ≠ .selfVal ∧ role ≠ .comma := by simpa [touched] using hrole
      rw [hs role this.2.2]
      conv_rhs => rw [h4]
      rw [sel_append, sel_append, sel_cons]
      rcases hr with hr | hr <;> simp [hr, Ne.symm this.1, Ne.symm this.2.1]

theorem fixes_fn (k : Kind) (before after : List Char) (h : List Part) (hw : Wf k h)
    (hk : k.isFn = true) (x : Report) (hx : x ∈ fnInvariants (bytes before) h) (e : Edit)
    (he : e ∈ x.fixes) : ∃ h', Fixed k before after h e x.rule h' := by
  simp only [fnInvariants, List.mem_append] at hx
  rcases hx with ((((hx | hx) | hx) | hx) | hx) | hx
  · exact fixes_bare k before after h hw x _ _ hx e he rfl (by decide) rfl
      (counts_fn k _ _ _ hk (by simp))
  · exact fixes_forbid k before after h hw x _ _ hx e he rfl rfl (counts_fn k _ _ _ hk (by simp))
  · exact fixes_forbid k before after h hw x _ _ hx e he rfl rfl (counts_fn k _ _ _ hk (by simp))
  · exact fixes_forbid k before after h hw x _ _ hx e he rfl rfl (counts_fn k _ _ _ hk (by simp))
  · exact fixes_forbid k before after h hw x _ _ hx e he rfl rfl (counts_fn k _ _ _ hk (by simp))
  · exact fixes_variadic k before after h hw hk x hx e he

theorem head_not_pub (h : List Part) (l : Loc) (hl : firstLoc .vis h = some l)
    (hp : l.part.text ≠ pubText) :
    ((sel h .vis).head?.any fun t => t.1 == pubText) = false := by
  rw [← firstLoc_text, hl]
  simpa using hp

theorem fixes_callable (k : Kind) (before after : List Char) (h : List Part) (hw : Wf k h)
    (hk : k.isCallable = true) (hk' : k.isFn = true) (x : Report)
    (hx : x ∈ callableInvariants (bytes before) h) (e : Edit)
    (he : e ∈ x.fixes) : ∃ h', Fixed k before after h e x.rule h' := by
  rw [callableInvariants, List.mem_append] at hx
  rcases hx with hx | hx
  · unfold callableVis at hx
    cases hl : firstLoc .vis h with
    | none => rw [hl] at hx; exact (nomatch hx)
    | some l =>
      rw [hl] at hx
      simp only at hx
      split at hx
      · exact (nomatch hx)
      · rename_i hp
        rw [List.mem_singleton] at hx
        subst hx
        simp only [List.mem_cons, List.not_mem_nil, or_false] at he
        have hne := firstLoc_ne _ _ _ hl
        rcases he with rfl | rfl
        · exact fix_vis k before after h hw l _ hl rfl
            (counts_pub k _ hk hne (head_not_pub h l hl hp) _)
        · exact fix_modifier k before after h hw l .vis _ hl rfl rfl fun _ =>
            counts_removeVis k _ hk hne (head_not_pub h l hl hp)
  · exact fixes_fn k before after h hw hk' x hx e he

theorem fixes_requirePub (k : Kind) (before after : List Char) (h : List Part) (hw : Wf k h)
    (x : Report) (r : Rule) (order : List Role)
    (hx : x ∈ requirePub r order (bytes before) h) (e : Edit) (he : e ∈ x.fixes)
    (ho : order.Pairwise fun a b => rank a < rank b)
    (hall : ∀ r, r ≠ .vis → (rank r < 7 ∧ allowed k r = true) ∨ r = .kw → r ∈ order)
    (ha : allowed k .vis = true) (ht : touched r = [.vis])
    (hc : ∀ ty, ((sel h .vis).head?.any fun t => t.1 == pubText) = false →
      Counts k (sel h) (upd (sel h) .vis [(pubText, ty)]) r) :
    ∃ h', Fixed k before after h e x.rule h' := by
  unfold requirePub at hx
  cases hl : firstLoc .vis h with
  | some l =>
    rw [hl] at hx
    simp only at hx
    split at hx
    · exact (nomatch hx)
    · rename_i hp
      rw [List.mem_singleton] at hx
      subst hx
      simp only [List.mem_cons, List.not_mem_nil, or_false] at he
      subst he
      exact fix_vis k before after h hw l _ hl ht (hc _ (head_not_pub h l hl hp))
  | none =>
    rw [hl] at hx
    simp only [List.mem_singleton] at hx
    subst hx
    cases hf : order.findSome? fun r => firstLoc r h with
    | none => rw [hf] at he; simp at he
    | some l =>
      rw [hf] at he
      have he' : e = ⟨pubText ++ [' '], l.start (bytes before), l.start (bytes before), none⟩ := by
        simpa using he
      rw [he']
      refine fix_pub k before after h hw l _ order hl hf ho hall ha ht (hc _ ?_)
      rw [← firstLoc_text, hl]
      rfl

theorem fixes_implVis (k : Kind) (before after : List Char) (h : List Part) (hw : Wf k h)
    (w : Place) (hk : k.place = some w) (x : Report)
    (hx : x ∈ implVis w (bytes before) h) (e : Edit) (he : e ∈ x.fixes) :
    ∃ h', Fixed k before after h e x.rule h' := by
  cases w with
  | traitItem => exact (nomatch hx)
  | traitImpl =>
    exact fixes_forbid k before after h hw x _ _ hx e he rfl rfl (counts_inherited k _ hk)
  | inherentImpl =>
    have hal : ∀ r, allowed k r = (r != .kAuto) := by
      intro r
      cases k with
      | message w | constructor w => rfl
      | _ => simp [Kind.place] at hk
    refine fixes_requirePub k before after h hw x _ _ hx e he (by decide) ?_ (by rw [hal]; rfl) rfl
      fun ty h2 => counts_pubVis k _ hk h2 ty
    intro r
    rw [hal]
    cases r <;> decide

theorem fixes_receiver (w : Place) (before after : List Char) (h : List Part)
    (hw : Wf (.message w) h) (hv : ¬ Has h .selfVal) (x : Report)
    (hx : x ∈ receiverSelfRef (bytes before) h) (e : Edit) (he : e ∈ x.fixes) :
    ∃ h', Fixed (.message w) before after h e x.rule h' := by
  have hr := receiver_rules (bytes before) h hw.oneSelf
  have hv' : (sel h .selfVal).isEmpty = true := by
    cases hh : (sel h .selfVal).isEmpty
    · exact absurd ((isEmpty_iff_has _ _).1 hh) hv
    · rfl
  have hn : (sel h .selfRef).isEmpty = true := by
    cases hh : (sel h .selfRef).isEmpty
    · rw [hh] at hr
      have := List.mem_map_of_mem (f := Report.rule) hx
      rw [hr] at this
      simp at this
    · rfl
  unfold receiverSelfRef at hx
  simp only at hx
  split at hx
  · exact (nomatch hx)
  · rw [List.mem_singleton] at hx
    subst hx
    cases hl : firstLoc .lparen h with
    | none => rw [hl] at he; simp at he
    | some l =>
      rw [hl] at he
      simp only [Option.map_some, Option.getD_some, List.mem_cons, List.not_mem_nil, or_false] at he
      rcases he with rfl | rfl
      · exact fix_addSelf w before after h hw l hl hn hv' false
      · exact fix_addSelf w before after h hw l hl hn hv' true

theorem fixes_notReturnSelf (w : Place) (before after : List Char) (h : List Part)
    (hw : Wf (.message w) h) (x : Report)
    (hx : x ∈ notReturnSelf (bytes before) h) (e : Edit) (he : e ∈ x.fixes) :
    ∃ h', Fixed (.message w) before after h e x.rule h' := by
  unfold notReturnSelf at hx
  cases hl : firstLoc .ret h with
  | none => rw [hl] at hx; exact (nomatch hx)
  | some l =>
    rw [hl] at hx
    simp only at hx
    split at hx
    · rename_i hty
      rw [List.mem_singleton] at hx
      subst hx
      simp only [List.mem_singleton] at he
      subst he
      exact fix_ret w before after h hw l hl hty
    · exact (nomatch hx)

theorem fixes_returnType (w : Place) (before after : List Char) (h : List Part)
    (hw : Wf (.constructor w) h) (x : Report)
    (hx : x ∈ requireReturnType (bytes before) h) (e : Edit) (he : e ∈ x.fixes) :
    ∃ h', Fixed (.constructor w) before after h e x.rule h' := by
  have hs := firstLoc_isSome .ret h
  unfold requireReturnType at hx
  cases hl : firstLoc .ret h with
  | some l => rw [hl] at hx; exact (nomatch hx)
  | none =>
    rw [hl] at hx hs
    simp only [List.mem_singleton] at hx
    subst hx
    have hn : (sel h .ret).isEmpty = true := by
      cases hh : (sel h .ret).isEmpty <;> simp_all
    cases hr : firstLoc .rparen h with
    | none => rw [hr] at he; simp at he
    | some l =>
      rw [hr] at he
      have he' : e = ⟨retText, (l.range (bytes before)).2, (l.range (bytes before)).2,
        some retSnippet⟩ := by simpa using he
      rw [he']
      exact fix_addRet w before after h hw l hr hn

theorem traitBody_nil (h : List Part) (w : Place) (o : Nat) (x : Report)
    (hx : x ∈ traitBody w o h) : w = .traitItem ∧ x.rule = .body ∧ Has h .body := by
  cases w with
  | traitItem =>
    obtain ⟨l, h1, h2, h3⟩ := mem_forbidBare x _ _ _ h hx
    obtain ⟨h4, h5⟩ := firstLoc_some _ _ _ h1
    exact ⟨rfl, h2, l.part, by rw [h4]; simp, h5⟩
  | _ => exact (nomatch hx)

/-! ## Theorems -/

/-- Every quick fix of every report about a header: the edit applied to the file gives the same file
with another well-formed header, where this violation is gone, no rule is violated more often than
before, and all parts that the rule is not about are the same.

Partial: not for the fix that removes the body of a function in a trait (which leaves a function
without body and semicolon, `C74_negation_body`) and not for messages with a receiver by value
(`C74_negation_value`). The header must be formatted (`spaced`) with no `name: ...` parameter;
see `C74_negation_glue` and `C74_negation_variadic`. -/
theorem C74_fix_partial (k : Kind) (before after : List Char) (h : List Part) (hw : Wf k h)
    (hc : Covered k h) (x : Report) (hx : x ∈ reports k (bytes before) h) (e : Edit)
    (he : e ∈ x.fixes) : ∃ h', Fixed k before after h e x.rule h' := by
  cases k with
  | message w =>
    simp only [reports, List.mem_append] at hx
    rcases hx with (((hx | hx) | hx) | hx) | hx
    · exact fixes_implVis _ before after h hw w rfl x hx e he
    · obtain ⟨h1, h2, h3⟩ := traitBody_nil h w _ x hx
      exact absurd ⟨.inl (by rw [h1]), h3⟩ hc.body
    · exact fixes_callable _ before after h hw rfl rfl x hx e he
    · exact fixes_receiver w before after h hw (hc.value ⟨w, rfl⟩) x hx e he
    · exact fixes_notReturnSelf w before after h hw x hx e he
  | constructor w =>
    simp only [reports, List.mem_append] at hx
    rcases hx with ((hx | hx) | hx) | hx
    · exact fixes_implVis _ before after h hw w rfl x hx e he
    · exact fixes_callable _ before after h hw rfl rfl x hx e he
    · exact fixes_noSelf _ before after h hw (.inl ⟨w, rfl⟩) x hx e he
    · exact fixes_returnType w before after h hw x hx e he
  | extension =>
    simp only [reports, List.mem_append] at hx
    rcases hx with (hx | hx) | hx
    · obtain ⟨h1, h2, h3⟩ := traitBody_nil h _ _ x hx
      exact absurd ⟨.inr rfl, h3⟩ hc.body
    · exact fixes_fn _ before after h hw rfl x hx e he
    · exact fixes_noSelf _ before after h hw (.inr rfl) x hx e he
  | trait =>
    simp only [reports, traitInvariants, List.mem_append] at hx
    rcases hx with (((hx | hx) | hx) | hx) | hx
    · exact fixes_forbid _ before after h hw x _ _ hx e he rfl rfl (counts_trait _ _ _ (by simp))
    · exact fixes_forbid _ before after h hw x _ _ hx e he rfl rfl (counts_trait _ _ _ (by simp))
    · exact fixes_bare _ before after h hw x _ _ hx e he rfl (by decide) rfl
        (counts_trait _ _ _ (by simp))
    · refine fixes_requirePub _ before after h hw x _ _ hx e he (by decide) ?_ rfl rfl
        fun ty h2 => counts_pubItem _ _ (.inl rfl) h2 ty
      intro r
      cases r <;> decide
    · exact fixes_bare _ before after h hw x _ _ hx e he rfl (by decide) rfl
        (counts_trait _ _ _ (by simp))
  | impl =>
    simp only [reports, implInvariants, List.mem_append] at hx
    rcases hx with ((hx | hx) | hx) | hx
    · exact fixes_forbid _ before after h hw x _ _ hx e he rfl rfl (counts_impl _ _ _ (by simp))
    · exact fixes_forbid _ before after h hw x _ _ hx e he rfl rfl (counts_impl _ _ _ (by simp))
    · exact fixes_bare _ before after h hw x _ _ hx e he rfl (by decide) rfl
        (counts_impl _ _ _ (by simp))
    · obtain ⟨l, hl, rfl⟩ := List.mem_map.1 hx
      obtain ⟨hl1, hl2⟩ := List.mem_filter.1 hl
      have hr : l.part.role = .typeArgs := by simpa using hl2
      obtain ⟨A, B, h1, h2, h3⟩ := (locs_mem _ _ _).1 hl1
      have h4 : h = l.pre ++ l.part :: l.post := by rw [h2, h3]; exact h1
      have he' : e = delete (l.range (bytes before)) := by simpa using he
      subst he'
      refine fix_bare _ before after h hw l _ h4 (by rw [hr]; rfl)
        (sel (l.pre ++ l.post) .typeArgs) ?_ (by rw [hr]; rfl) ?_
      · funext r
        unfold upd
        by_cases hd : r = .typeArgs
        · rw [hr, if_pos hd, hd]
        · rw [hr, if_neg hd]
          conv_rhs => rw [h4]
          rw [sel_append, sel_append, sel_cons]
          simp [hr, Ne.symm hd]
      · rw [hr]
        apply counts_typeArgs
        have := sel_length h _ _ _ h4
        rwa [hr] at this
  | struct =>
    refine fixes_requirePub _ before after h hw x _ _ hx e he (by decide) ?_ rfl rfl
      fun ty h2 => counts_pubItem _ _ (.inr rfl) h2 ty
    intro r
    cases r <;> decide

theorem firstLoc_of_has (r : Role) (h : List Part) (hh : Has h r) :
    ∃ l, firstLoc r h = some l := by
  have := firstLoc_isSome r h
  rw [(isEmpty_iff_has h r).2 hh] at this
  exact Option.isSome_iff_exists.1 this

/-- Every report about a well-formed header has a quick fix. -/
theorem C74_fixable (k : Kind) (o : Nat) (h : List Part) (hw : Wf k h) (x : Report)
    (hx : x ∈ reports k o h) : x.fixes ≠ [] := by
  have hforbid : ∀ r role, x ∈ forbid r role o h → x.fixes ≠ [] := by
    intro r role hx
    obtain ⟨l, -, -, h3⟩ := mem_forbid x r role o h hx
    rw [h3]; simp
  have hbare : ∀ r role, x ∈ forbidBare r role o h → x.fixes ≠ [] := by
    intro r role hx
    obtain ⟨l, -, -, h3⟩ := mem_forbidBare x r role o h hx
    rw [h3]; simp
  have hpub : ∀ r order, Role.kw ∈ order → x ∈ requirePub r order o h → x.fixes ≠ [] := by
    intro r order hk hx
    unfold requirePub at hx
    split at hx
    · split at hx
      · exact (nomatch hx)
      · rw [List.mem_singleton] at hx
        rw [hx]; simp
    · rw [List.mem_singleton] at hx
      obtain ⟨l, hl⟩ := firstLoc_of_has .kw h hw.kw
      cases hf : order.findSome? fun r => firstLoc r h with
      | none =>
        rw [List.findSome?_eq_none_iff] at hf
        have := hf _ hk
        rw [hl] at this
        exact (nomatch this)
      | some l' => rw [hx, hf]; simp
  have hfn : x ∈ fnInvariants o h → x.fixes ≠ [] := by
    intro hx
    simp only [fnInvariants, List.mem_append] at hx
    rcases hx with ((((hx | hx) | hx) | hx) | hx) | hx
    · exact hbare _ _ hx
    · exact hforbid _ _ hx
    · exact hforbid _ _ hx
    · exact hforbid _ _ hx
    · exact hforbid _ _ hx
    · obtain ⟨l, -, rfl⟩ := List.mem_map.1 hx
      simp
  have hcall : x ∈ callableInvariants o h → x.fixes ≠ [] := by
    intro hx
    rcases List.mem_append.1 hx with hx | hx
    · unfold callableVis at hx
      split at hx
      · split at hx
        · exact (nomatch hx)
        · rw [List.mem_singleton] at hx
          rw [hx]; simp
      · exact (nomatch hx)
    · exact hfn hx
  have hvis : ∀ w, x ∈ implVis w o h → x.fixes ≠ [] := by
    intro w hx
    cases w with
    | traitItem => exact (nomatch hx)
    | traitImpl => exact hforbid _ _ hx
    | inherentImpl => exact hpub _ _ (by simp) hx
  have hbody : ∀ w, x ∈ traitBody w o h → x.fixes ≠ [] := by
    intro w hx
    cases w with
    | traitItem => exact hbare _ _ hx
    | _ => exact (nomatch hx)
  have hself : x ∈ noSelfReceiver o h → x.fixes ≠ [] := by
    intro hx
    unfold noSelfReceiver at hx
    rw [Option.mem_toList, Option.map_eq_some_iff] at hx
    obtain ⟨l, -, rfl⟩ := hx
    simp
  cases k with
  | message w =>
    obtain ⟨hlp, -, -⟩ := hw.fn rfl
    simp only [reports, List.mem_append] at hx
    rcases hx with (((hx | hx) | hx) | hx) | hx
    · exact hvis w hx
    · exact hbody w hx
    · exact hcall hx
    · unfold receiverSelfRef at hx
      simp only at hx
      split at hx
      · exact (nomatch hx)
      · rw [List.mem_singleton] at hx
        obtain ⟨l, hl⟩ := firstLoc_of_has _ h hlp
        rw [hx, hl]; simp
    · unfold notReturnSelf at hx
      split at hx
      · split at hx
        · rw [List.mem_singleton] at hx
          rw [hx]; simp
        · exact (nomatch hx)
      · exact (nomatch hx)
  | constructor w =>
    obtain ⟨-, hrp, -⟩ := hw.fn rfl
    simp only [reports, List.mem_append] at hx
    rcases hx with ((hx | hx) | hx) | hx
    · exact hvis w hx
    · exact hcall hx
    · exact hself hx
    · unfold requireReturnType at hx
      split at hx
      · exact (nomatch hx)
      · rw [List.mem_singleton] at hx
        obtain ⟨l, hl⟩ := firstLoc_of_has _ h hrp
        rw [hx, hl]; simp
  | extension =>
    simp only [reports, List.mem_append] at hx
    rcases hx with (hx | hx) | hx
    · exact hbody _ hx
    · exact hfn hx
    · exact hself hx
  | trait =>
    simp only [reports, traitInvariants, List.mem_append] at hx
    rcases hx with (((hx | hx) | hx) | hx) | hx
    · exact hforbid _ _ hx
    · exact hforbid _ _ hx
    · exact hbare _ _ hx
    · exact hpub _ _ (by simp) hx
    · exact hbare _ _ hx
  | impl =>
    simp only [reports, implInvariants, List.mem_append] at hx
    rcases hx with ((hx | hx) | hx) | hx
    · exact hforbid _ _ hx
    · exact hforbid _ _ hx
    · exact hbare _ _ hx
    · obtain ⟨l, -, rfl⟩ := List.mem_map.1 hx
      simp
  | struct => exact hpub _ _ (by simp) hx

theorem length_lt (l l' : List Rule) (r : Rule) (h1 : l'.count r + 1 = l.count r)
    (h2 : ∀ r', l'.count r' ≤ l.count r') : l'.length < l.length := by
  have : (r :: l').Subperm l := by
    rw [List.subperm_ext_iff]
    intro y _
    rw [List.count_cons]
    by_cases hy : r = y
    · subst hy; simp; omega
    · have := h2 y
      simpa [hy] using this
  exact this.length_le

theorem reports_offset (k : Kind) (o : Nat) (h : List Part) (hw : Wf k h) :
    (reports k o h).length = (reports k 0 h).length := by
  have h1 := rules_eq k o h hw.oneSelf
  rw [← rules_eq k 0 h hw.oneSelf] at h1
  simpa using congrArg List.length h1

theorem covered_step (k : Kind) (before after : List Char) (h h' : List Part) (hw : Wf k h)
    (hc : Covered k h) (x : Report) (hx : x ∈ reports k (bytes before) h) (e : Edit)
    (hf : Fixed k before after h e x.rule h') : Covered k h' := by
  have hr : x.rule ≠ .body := by
    intro hb
    exact hc.body ((C74_reports k _ h hw _).1 ⟨x, hx, hb⟩)
  have hbody : Role.body ∉ touched x.rule := by
    revert hr
    cases x.rule <;> decide
  constructor
  · intro hv
    apply hc.body
    refine ⟨hv.1, ?_⟩
    have := (isEmpty_iff_has h' .body).2 hv.2
    rw [hf.same _ hbody] at this
    exact (isEmpty_iff_has h .body).1 this
  · intro hm hv
    apply hc.value hm
    have h2 : x.rule ≠ .selfReceiver := by
      intro hb
      have := (C74_reports k _ h hw _).1 ⟨x, hx, hb⟩
      obtain ⟨w, rfl⟩ := hm
      rcases this.1 with ⟨w', h3⟩ | h3 <;> exact (nomatch h3)
    have h3 : Role.selfVal ∉ touched x.rule := by
      revert h2
      cases x.rule <;> decide
    have := (isEmpty_iff_has h' .selfVal).2 hv
    rw [hf.same _ h3] at this
    exact (isEmpty_iff_has h .selfVal).1 this

/-- Applying quick fixes one after another ends, in whatever order they are chosen: there are at most
as many as there are reports, as long as a report is left there is a next one, and without one the
header violates no rule. Partial for the same headers as `C74_fix_partial`. -/
theorem C74_all_partial (k : Kind) (before after : List Char) (h : List Part) (hw : Wf k h)
    (hc : Covered k h) (n : Nat) (h' : List Part) (hs : Steps k before after n h h') :
    n ≤ (reports k (bytes before) h).length ∧
      ((∃ r, Violates k h' r) ↔ ∃ g, Step k before after h' g) ∧
      ∃ m g, Steps k before after m h' g ∧ ∀ r, ¬ Violates k g r := by
  have hstep : ∀ h g, Wf k h → Covered k h → Step k before after h g →
      Wf k g ∧ Covered k g ∧
        (reports k (bytes before) g).length < (reports k (bytes before) h).length := by
    rintro h g hw hc ⟨x, hx, e, he, -, hf⟩
    refine ⟨hf.wf, covered_step k before after h g hw hc x hx e hf, ?_⟩
    rw [reports_offset k _ h hw, reports_offset k _ g hf.wf]
    have := length_lt ((reports k 0 h).map Report.rule) ((reports k 0 g).map Report.rule) x.rule
      hf.less hf.others
    simpa using this
  have hnext : ∀ h, Wf k h → Covered k h →
      ((∃ r, Violates k h r) ↔ ∃ g, Step k before after h g) := by
    intro h hw hc
    constructor
    · rintro ⟨r, hr⟩
      obtain ⟨x, hx, -⟩ := (C74_reports k (bytes before) h hw r).2 hr
      obtain ⟨e, he⟩ := List.exists_mem_of_ne_nil _ (C74_fixable k _ h hw x hx)
      obtain ⟨g, hg⟩ := C74_fix_partial k before after h hw hc x hx e he
      exact ⟨g, x, hx, e, he, hg.text, hg⟩
    · rintro ⟨g, x, hx, -⟩
      exact ⟨x.rule, (C74_reports k (bytes before) h hw _).1 ⟨x, hx, rfl⟩⟩
  have hend : ∀ N h, Wf k h → Covered k h → (reports k (bytes before) h).length ≤ N →
      ∃ m g, Steps k before after m h g ∧ ∀ r, ¬ Violates k g r := by
    intro N
    induction N with
    | zero =>
      intro h hw hc hN
      refine ⟨0, h, rfl, fun r hr => ?_⟩
      obtain ⟨x, hx, -⟩ := (C74_reports k (bytes before) h hw r).2 hr
      have := List.length_pos_of_mem hx
      omega
    | succ N ih =>
      intro h hw hc hN
      by_cases hv : ∃ r, Violates k h r
      · obtain ⟨g, hg⟩ := (hnext h hw hc).1 hv
        obtain ⟨h1, h2, h3⟩ := hstep h g hw hc hg
        obtain ⟨m, g', h4, h5⟩ := ih g h1 h2 (by omega)
        exact ⟨m + 1, g', ⟨g, hg, h4⟩, h5⟩
      · exact ⟨0, h, rfl, fun r hr => hv ⟨r, hr⟩⟩
  have hall : ∀ n h, Wf k h → Covered k h → Steps k before after n h h' →
      n ≤ (reports k (bytes before) h).length ∧ Wf k h' ∧ Covered k h' := by
    intro n
    induction n with
    | zero =>
      intro h hw hc hs
      subst hs
      exact ⟨Nat.zero_le _, hw, hc⟩
    | succ n ih =>
      rintro h hw hc ⟨g, hg, hs⟩
      obtain ⟨h1, h2, h3⟩ := hstep h g hw hc hg
      obtain ⟨h4, h5⟩ := ih g h1 h2 hs
      exact ⟨by omega, h5⟩
  obtain ⟨h1, h2, h3⟩ := hall n h hw hc hs
  exact ⟨h1, hnext h' h2 h3, hend _ h' h2 h3 (Nat.le_refl _)⟩

/-! ## Examples and counterexamples -/

/-- `pub(crate) async fn new<T>(&mut self, a: u8) {}`. -/
def badNew : List Part :=
  [⟨.vis, "pub(crate)".toList, [' '], []⟩, ⟨.kAsync, "async".toList, [' '], []⟩,
   ⟨.kw, "fn".toList, [' '], []⟩, ⟨.name, "new".toList, [], []⟩, ⟨.generics, "<T>".toList, [], []⟩,
   ⟨.lparen, ['('], [], []⟩, ⟨.selfRef, "&mut self".toList, [], []⟩, ⟨.comma, [','], [' '], []⟩,
   ⟨.param, "a: u8".toList, [], []⟩, ⟨.rparen, [')'], [' '], []⟩, ⟨.body, "{}".toList, [], []⟩]

/-- `pub fn new(a: u8) -> Self {}`. -/
def goodNew : List Part :=
  [⟨.vis, "pub".toList, [' '], []⟩,
   ⟨.kw, "fn".toList, [' '], []⟩, ⟨.name, "new".toList, [], []⟩,
   ⟨.lparen, ['('], [], []⟩,
   ⟨.param, "a: u8".toList, [], []⟩, ⟨.rparen, [')'], [' '], []⟩,
   ⟨.ret, "-> Self".toList, [' '], "Self".toList⟩, ⟨.body, "{}".toList, [], []⟩]

/-- A test for `Wf`. -/
def wfTest (k : Kind) (h : List Part) : Bool :=
  (h.zip (h.drop 1)).all (fun (p, q) => follows p.role q.role &&
    (!(p.gap.isEmpty && startsWord q.text) || (!endsWord p.text && !spaced k p.role))) &&
  decide ((h.map Part.role).Pairwise fun a b => rank a < rank b ∨ (rank a = 11 ∧ rank b = 11)) &&
  h.all (fun p => match p.role with
    | .lparen => p.text == ['(']
    | .rparen => p.text == [')']
    | .comma => p.text == [',']
    | .vis | .kDefault | .kConst | .kAsync | .kUnsafe | .kAuto | .abi => startsWord p.text
    | _ => true) &&
  h.any (fun p => p.role == .kw) &&
  h.all (fun p => !(decide (rank p.role < 7)) || allowed k p.role) &&
  decide (((h.map Part.role).filter fun r => r == .selfRef || r == .selfVal).length ≤ 1) &&
  (!k.isFn || (h.any (fun p => p.role == .lparen) && h.any (fun p => p.role == .rparen) &&
    (h.any (fun p => p.role == .body) || h.any (fun p => p.role == .semi))))

theorem chain_of_zip (k : Kind) (h : List Part)
    (hz : ∀ pq ∈ h.zip (h.drop 1), Fit k pq.1 pq.2) : h.IsChain (Fit k) := by
  induction h with
  | nil => exact .nil
  | cons p h ih =>
    cases h with
    | nil => exact .singleton _
    | cons q h =>
      refine .cons_cons (hz (p, q) (by simp)) (ih fun pq hpq => hz pq ?_)
      simp only [List.drop_one, List.tail_cons, List.zip_cons_cons, List.mem_cons] at hpq ⊢
      exact .inr hpq

theorem wf_of_test (k : Kind) (h : List Part) (ht : wfTest k h = true) : Wf k h := by
  simp only [wfTest, Bool.and_eq_true, decide_eq_true_eq] at ht
  obtain ⟨⟨⟨⟨⟨⟨h1, h2⟩, h3⟩, h4⟩, h5⟩, h6⟩, h7⟩ := ht
  have hany : ∀ r, (h.any fun p => p.role == r) = true → Has h r := by
    intro r hr
    obtain ⟨p, hp, hp2⟩ := List.any_eq_true.1 hr
    exact ⟨p, hp, by simpa using hp2⟩
  refine ⟨chain_of_zip k h ?_, h2, ?_, hany _ h4, ?_, h6, ?_⟩
  · rintro ⟨p, q⟩ hpq
    have := List.all_eq_true.1 h1 _ hpq
    simp only [Bool.and_eq_true] at this
    refine ⟨this.1, fun hg hs => ?_⟩
    have h8 := this.2
    rw [hg, hs] at h8
    simpa using h8
  · intro p hp
    have := List.all_eq_true.1 h3 p hp
    unfold Shaped
    cases hr : p.role <;> rw [hr] at this <;> simp_all
  · intro p hp hr
    have := List.all_eq_true.1 h5 p hp
    simpa [hr] using this
  · intro hk
    rw [hk] at h7
    simp only [Bool.not_true, Bool.false_or, Bool.and_eq_true, Bool.or_eq_true] at h7
    exact ⟨hany _ h7.1.1, hany _ h7.1.2, h7.2.imp (hany _) (hany _)⟩

/-- A constructor with six reports, and the correct constructor that a choice of their fixes makes
of it. -/
example : Wf (.constructor .inherentImpl) badNew ∧ Covered (.constructor .inherentImpl) badNew ∧
    (reports (.constructor .inherentImpl) 3 badNew).map Report.rule =
      [.pubVis, .pubOrInherited, .generics, .async, .selfReceiver, .returnType] ∧
    Wf (.constructor .inherentImpl) goodNew ∧
    reports (.constructor .inherentImpl) 3 goodNew = [] :=
  ⟨wf_of_test _ _ (by decide), ⟨by rintro ⟨h | h, -⟩ <;> exact (nomatch h),
    by rintro ⟨w, h⟩; exact (nomatch h)⟩, by decide, wf_of_test _ _ (by decide), by decide⟩

/-- `fn get(&self) {}` in a trait. -/
def bodyHeader : List Part :=
  [⟨.kw, "fn".toList, [' '], []⟩, ⟨.name, "get".toList, [], []⟩, ⟨.lparen, ['('], [], []⟩,
   ⟨.selfRef, "&self".toList, [], []⟩, ⟨.rparen, [')'], [' '], []⟩, ⟨.body, "{}".toList, [], []⟩]

/-- The fix that removes the body of a trait function leaves neither a body nor a semicolon. -/
theorem C74_negation_body : Wf (.message .traitItem) bodyHeader ∧
    ∃ x ∈ reports (.message .traitItem) 0 bodyHeader, x.rule = .body ∧ ∃ e, x.fixes = [e] ∧
      applyEdit (render bodyHeader) e = some "fn get(&self) ".toList :=
  ⟨wf_of_test _ _ (by decide), ⟨.body, some (14, 16), [⟨[], 14, 16, none⟩]⟩, by decide, rfl, _, rfl,
    by decide⟩

/-- `pub fn get(self) {}`. -/
def valueHeader : List Part :=
  [⟨.vis, "pub".toList, [' '], []⟩, ⟨.kw, "fn".toList, [' '], []⟩, ⟨.name, "get".toList, [], []⟩,
   ⟨.lparen, ['('], [], []⟩,
   ⟨.selfVal, "self".toList, [], []⟩, ⟨.rparen, [')'], [' '], []⟩, ⟨.body, "{}".toList, [], []⟩]

/-- The fix for a receiver by value keeps it, behind the new one. -/
theorem C74_negation_value : Wf (.message .inherentImpl) valueHeader ∧
    ∃ x ∈ reports (.message .inherentImpl) 0 valueHeader, x.rule = .selfRef ∧ ∃ e ∈ x.fixes,
      applyEdit (render valueHeader) e = some "pub fn get(&selfself) {}".toList :=
  ⟨wf_of_test _ _ (by decide), ⟨.selfRef, none, [⟨"&self".toList, 11, 11, none⟩,
    ⟨"&mut self".toList, 11, 11, none⟩]⟩, by decide, rfl, ⟨"&self".toList, 11, 11, none⟩, by decide,
    by decide⟩

/-- `fn f(args: ...);`. -/
def variadicHeader : List Part :=
  [⟨.kw, "fn".toList, [' '], []⟩, ⟨.name, "f".toList, [], []⟩, ⟨.lparen, ['('], [], []⟩,
   ⟨.paramHead, "args:".toList, [' '], []⟩, ⟨.dots, "...".toList, [], []⟩,
   ⟨.rparen, [')'], [], []⟩, ⟨.semi, [';'], [], []⟩]

/-- The fix for a named variadic parameter leaves its name and colon. -/
theorem C74_negation_variadic : ∃ x ∈ reports .extension 0 variadicHeader, x.rule = .variadic ∧
    ∃ e, x.fixes = [e] ∧ applyEdit (render variadicHeader) e = some "fn f(args: );".toList :=
  ⟨⟨.variadic, some (11, 14), [⟨[], 11, 14, none⟩]⟩, by decide, rfl, _, rfl, by decide⟩

/-- `pub(crate)fn get(&self) {}`. -/
def glueHeader : List Part :=
  [⟨.vis, "pub(crate)".toList, [], []⟩, ⟨.kw, "fn".toList, [' '], []⟩,
   ⟨.name, "get".toList, [], []⟩, ⟨.lparen, ['('], [], []⟩,
   ⟨.selfRef, "&self".toList, [], []⟩, ⟨.rparen, [')'], [' '], []⟩, ⟨.body, "{}".toList, [], []⟩]

/-- The fix for a visibility that is directly followed by `fn` joins the two keywords. -/
theorem C74_negation_glue : ∃ x ∈ reports (.message .inherentImpl) 0 glueHeader,
    x.rule = .pubVis ∧ ∃ e, x.fixes = [e] ∧
      applyEdit (render glueHeader) e = some "pubfn get(&self) {}".toList :=
  ⟨⟨.pubVis, some (0, 10), [⟨"pub".toList, 0, 10, none⟩]⟩, by decide, rfl, _, rfl, by decide⟩

end Verif.Analyzer.Header
