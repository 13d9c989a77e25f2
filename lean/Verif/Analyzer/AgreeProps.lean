import Verif.Analyzer.AttrActionsProps
import Verif.Analyzer.CompleteArgProps
import Verif.Analyzer.CompleteProps
import Verif.Analyzer.SignatureDocProps

/-!
# C124: completions, actions and signature help agree

The arguments that can be completed in an attribute are those which the actions on the attribute can
add, and they are shown by signature help.
-/

namespace Verif.Analyzer.Agree

open Verif.Ir Verif.Analyzer.CompleteArg Verif.Analyzer.InsertText

/-! ## Specification -/

/-- The completion is the one of this argument (the text next to its label). -/
def IsOf (it : ArgItem) (q : ArgKind) : Prop := it.detail = "ink! " ++ q.name ++ " attribute argument."

/-- The cursor is not in an argument (like `selector` or `backend`) which takes other arguments. -/
def Flat (off : Nat) (args : List Arg) : Prop :=
  ∀ a, CompleteArg.focusedArg off args = some (some a) → ∀ q, ¬ NestsIn a.kind q

/-- Signature help is asked for the attribute of kind `k`, on an item of kind `itemKind` with the
attributes `attrs` in the scope `scope`. -/
structure About (ctx : SigContext) (attrs : List AttrV) (k : AttrKind) (itemKind : Option ItemKind)
    (scope : List AttrKind) : Prop where
  kind : ctx.kind = k
  item : ctx.item = itemKind
  primary : ∀ a, ctx.primary = some a → ∃ p P, IsPrimary attrs p P ∧ P.kind = a
  scope : ∀ s, ctx.scope = some s → s = scope

/-- The label of a signature, a list of arguments with their types, shows the argument. -/
def ShowsArg (v : Version) (s : SigHelp) (q : ArgKind) : Prop :=
  ∃ kinds : List ArgKind, q ∈ kinds ∧
    s.label = joined (kinds.map (paramSpec v (decide (.constructor ∈ kinds))))

/-! ## Lemmas -/

theorem name_inj (a b : ArgKind) (h : a.name = b.name) : a = b := by
  have key : ∀ a ∈ ArgKind.all, ∀ b ∈ ArgKind.all, a.name = b.name → a = b := by decide +kernel
  exact key a a.mem_all b b.mem_all h

theorem isOf_inj (it : ArgItem) (a b : ArgKind) (ha : IsOf it a) (hb : IsOf it b) : a = b := by
  unfold IsOf at ha hb
  rw [ha] at hb
  have := congrArg String.toList hb
  simp only [String.toList_append, List.append_assoc, List.append_cancel_left_eq,
    List.append_cancel_right_eq] at this
  exact name_inj a b (String.toList_inj.1 this)

theorem item_isOf (hash : String → Vector UInt8 32) (c : ArgCursor) (nested : Option (Nat × Nat))
    (site : Site) (a : ArgKind) (it : ArgItem) (h : argItem hash c nested site a = some it) :
    IsOf it a := by
  unfold argItem at h
  obtain ⟨x, _, rfl⟩ := Option.map_eq_some_iff.1 h
  rfl

theorem flat_empty (off : Nat) (args : List Arg) (h : Flat off args) (f : Option Arg)
    (info : Option (ArgKind × String × Nat × Nat)) (hf : CompleteArg.focusedArg off args = some f)
    (hi : focusInfo f = some info) : nestedOf (info.map fun x => (x.1, x.2.1)) = [] := by
  cases f with
  | none =>
    unfold focusInfo at hi
    obtain rfl := Option.some.inj hi
    rfl
  | some a =>
    simp only [focusInfo] at hi
    split at hi
    · obtain ⟨r, _, rfl⟩ := Option.map_eq_some_iff.1 hi
      rw [List.eq_nil_iff_forall_not_mem]
      intro q hq
      exact h a hf q ((mem_nestedArgCompletions a.kind q).1 hq)
    · cases hi

/-- The completions outside of nested arguments. -/
theorem items_flat (hash : String → Vector UInt8 32) (v : Version) (c : ArgCursor) (off : Nat)
    (typed : Option String) (attrs : List AttrV) (k : AttrKind) (args : List Arg)
    (itemKind : Option ItemKind) (scope : List AttrKind) (site : Site) (items : List ArgItem)
    (h : argumentCompletions hash v c off typed attrs k args itemKind scope site = some items)
    (hn : Flat off args) (hc : AmongArgs c) (it : ArgItem) :
    it ∈ items ↔ ∃ a, (a ∈ topArgCompletions v attrs k itemKind scope ∧
        ∀ t, (if c.onParen || c.onComma then none else typed) = some t →
          a.name.startsWith t = true) ∧
      argItem hash c none site a = some it := by
  obtain ⟨f, info, hf, hi, hit⟩ := (C82_items hash v c off typed attrs k args itemKind scope site
    items h).2 hc
  have he := flat_empty off args hn f info hf hi
  rw [hit it]
  simp only [he, List.isEmpty_nil, if_true]
  have hno : ∀ f n k', info.map (fun x => (x.1, x.2.1)) = some (f, n) → ¬ NestsIn f k' := by
    intro f n k' h hk
    rw [h] at he
    have : k' ∈ nestedOf (some (f, n)) := (mem_nestedArgCompletions f k').2 hk
    rw [he] at this
    cases this
  constructor
  · rintro ⟨a, ha, hx⟩
    rcases (C28_completions v attrs k itemKind scope _ _ a).1 ha with ⟨f, n, h1, h2, _⟩ | ⟨_, h2, h3⟩
    · exact absurd h2 (hno f n a h1)
    · exact ⟨a, ⟨h2, h3⟩, hx⟩
  · rintro ⟨a, ⟨h1, h2⟩, hx⟩
    exact ⟨a, (C28_completions v attrs k itemKind scope _ _ a).2 (.inr ⟨hno, h1, h2⟩), hx⟩

theorem mapM_each {α β : Type} (f : α → Option β) (l : List α) (r : List β) (h : l.mapM f = some r)
    (x : α) (hx : x ∈ l) : ∃ y, f x = some y := by
  induction l generalizing r with
  | nil => cases hx
  | cons a l ih =>
    rw [List.mapM_cons] at h
    cases ha : f a with
    | none => simp [ha] at h
    | some b =>
      rcases List.mem_cons.1 hx with rfl | hx
      · exact ⟨b, ha⟩
      · cases hl : l.mapM f with
        | none => simp [ha, hl] at h
        | some bs => exact ih bs hl hx

/-- No completion is left out. -/
theorem items_each (hash : String → Vector UInt8 32) (v : Version) (c : ArgCursor) (off : Nat)
    (typed : Option String) (attrs : List AttrV) (k : AttrKind) (args : List Arg)
    (itemKind : Option ItemKind) (scope : List AttrKind) (site : Site) (items : List ArgItem)
    (h : argumentCompletions hash v c off typed attrs k args itemKind scope site = some items)
    (hn : Flat off args) (hc : c.onParen = true ∨ c.onComma = true) (q : ArgKind)
    (hq : q ∈ topArgCompletions v attrs k itemKind scope) :
    ∃ it, argItem hash c none site q = some it := by
  have hb : (c.onParen || c.onComma) = true := by rcases hc with hc | hc <;> simp [hc]
  have hin : c.inArgs = true := by
    unfold ArgCursor.inArgs
    rcases hc with hc | hc <;> simp [hc]
  unfold argumentCompletions at h
  rw [hin, if_pos rfl, Option.bind_eq_some_iff] at h
  obtain ⟨f, hf, h⟩ := h
  rw [Option.bind_eq_some_iff] at h
  obtain ⟨info, hi, h⟩ := h
  have he := flat_empty off args hn f info hf hi
  simp only [he, List.isEmpty_nil, if_true, hb] at h
  refine mapM_each _ _ _ h q ?_
  simp only [argCompletions, allArgCompletions, he, List.isEmpty_nil, if_true]
  exact hq

/-- What is left by the filters. -/
theorem combined_sub (v : Version) (attrs : List AttrV) (k : AttrKind) (scope : List AttrKind)
    (s : List ArgKind) (q : ArgKind) (h : q ∈ removeCombined v attrs k scope s) :
    q ∈ s ∧ (∀ p P, IsPrimary attrs p P → q ∈ validSiblings P.kind v) ∧
      ∀ a, k = .arg a → q ∈ removeForScope v scope s := by
  have ev : ∀ P s, q ∈ removeEventConflict v P attrs s → q ∈ s := by
    intro P s hq
    unfold removeEventConflict at hq
    simp only at hq
    split at hq
    · split at hq
      · exact (List.mem_filter.1 hq).1
      · exact hq
    · exact hq
  have conf : ∀ s, q ∈ removeConflictingArgs v attrs s → q ∈ s ∧
      ∀ p P, IsPrimary attrs p P → q ∈ validSiblings P.kind v := by
    intro s hq
    unfold removeConflictingArgs at hq
    split at hq
    · rename_i P i hP
      have := List.mem_filter.1 (ev _ _ hq)
      refine ⟨this.1, fun p P' hP' => ?_⟩
      rw [(C43_primary attrs P' p).2 hP'] at hP
      cases hP
      simpa using this.2
    · rename_i hnone
      refine ⟨hq, fun p P' hP' => ?_⟩
      rw [(C43_primary attrs P' p).2 hP'] at hnone
      cases hnone
  have dup : ∀ s, q ∈ removeDuplicateArgs attrs s → q ∈ s := fun s hq => (List.mem_filter.1 hq).1
  have sc : ∀ s s' : List ArgKind, (q ∈ s → q ∈ s') → q ∈ removeForScope v scope s →
      q ∈ removeForScope v scope s' := by
    intro s s' hs hq
    unfold removeForScope at hq ⊢
    simp only at hq ⊢
    split at hq
    · rename_i he
      rw [if_pos he]
      exact hs hq
    · rename_i he
      rw [if_neg he]
      rw [List.mem_filter] at hq ⊢
      exact ⟨hs hq.1, hq.2⟩
  have sub : ∀ s, q ∈ removeForScope v scope s → q ∈ s := by
    intro s hq
    unfold removeForScope at hq
    simp only at hq
    split at hq
    · exact hq
    · exact (List.mem_filter.1 hq).1
  unfold removeCombined at h
  cases k with
  | arg a =>
    have h1 := conf _ (sub _ h)
    exact ⟨dup _ h1.1, h1.2, fun _ _ => sc _ _ (fun hq => dup _ (conf _ hq).1) h⟩
  | «macro» m =>
    have h1 := conf _ h
    exact ⟨dup _ h1.1, h1.2, fun a ha => by cases ha⟩

/-- Among the arguments of a known argument that is not a primary one. -/
theorem around_sibling (v : Version) (k q : ArgKind) (hk : k.isEntityType = false) (hu : k ≠ .unknown)
    (hq : q ∈ validSiblings (.arg k) v) (hx : ¬ (k = .namespace ∧ q = .keepAttr)) :
    ∃ l, Around v k l ∧ q ∈ l := by
  have key : ∀ v ∈ [Version.v4, .v5], ∀ k ∈ ArgKind.all, k.isEntityType = false → k ≠ .unknown →
      ∀ q ∈ validSiblings (.arg k) v, ¬ (k = .namespace ∧ q = .keepAttr) →
      (∀ p ∈ validSiblings (.arg k) v, p.isEntityType = false) ∨
      ∃ p ∈ validSiblings (.arg k) v, p.isEntityType = true ∧ (q = p ∨ q ∈ validSiblings (.arg p) v) := by
    decide +kernel
  rcases key v (by cases v <;> simp) k k.mem_all hk hu q hq hx with h | ⟨p, hp, he, hqp⟩
  · exact ⟨_, .alone hk h, List.mem_cons_of_mem _ hq⟩
  · exact ⟨_, .related p hk hp he, by rcases hqp with rfl | h <;> simp [*]⟩

theorem shown_of_relevant (v : Version) (ctx : SigContext) (t : ParenTree)
    (sargs : List ((Nat × Nat) × FocusedArg)) (off : Nat) (hw : WithinParens t off) (l : List ArgKind)
    (hl : RelevantArgs v ctx (Analyzer.focusedArg sargs off) l) (q : ArgKind) (hq : q ∈ l) :
    ∃ s ∈ signatureHelp v ctx t sargs off, ShowsArg v s q := by
  obtain ⟨s, hs, kinds, h1, _, h3⟩ := C69_complete v ctx t sargs off _ (inFocus_focusedArg sargs off)
    hw l hl
  refine ⟨s, hs, kinds, h1.mem_iff.2 hq, ?_⟩
  have : decide (ArgKind.constructor ∈ kinds) = decide (ArgKind.constructor ∈ l) := by
    simp only [h1.mem_iff]
  rw [this, h3]

/-! ## Theorems -/

/-- Where an argument can be started, in a closed attribute of a known kind on an item which is not a
message of an implemented trait definition: an argument is completed iff an action on the attribute
offers to add it. -/
theorem C124_actions (hash : String → Vector UInt8 32) (v : Version) (t : AttrActions.Target)
    (P : AttrV) (p : Nat) (hP : IsPrimary (AttrActions.inkOf t.lead) p P) (hw : P.Wf)
    (k : AttrKind) (hk : Known k) (scope : List AttrKind)
    (c : ArgCursor) (hc : c.onParen = true ∨ c.onComma = true) (off : Nat) (typed : Option String)
    (args : List Arg) (hn : Flat off args) (itemKind : Option ItemKind) (site : Site)
    (items : List ArgItem)
    (h : argumentCompletions hash v c off typed (AttrActions.inkOf t.lead) k args itemKind scope site =
      some items)
    (around : AttrActions.Around) (l1 l2 : List AttrActions.Lead) (a : AttrActions.OwnAttr)
    (ha : a.closed = true) (acts : List AttrActions.Act)
    (h' : AttrActions.attrActions hash around v t (t.before ++ AttrActions.leadElems l1, a, l2) k false
      scope = some acts) (q : ArgKind) :
    (∃ it ∈ items, IsOf it q) ↔ ∃ e, (⟨.arg q, e⟩ : AttrActions.Act) ∈ acts := by
  have hc' : AmongArgs c := by
    rw [← inArgs_iff]
    unfold ArgCursor.inArgs
    rcases hc with hc | hc <;> simp [hc]
  have hno : (if c.onParen || c.onComma then none else typed) = none := by
    rcases hc with hc | hc <;> simp [hc]
  have hit := items_flat hash v c off typed _ k args itemKind scope site items h hn hc'
  rw [(AttrActions.C102_attr_offered hash around v t l1 l2 a k false scope acts h' P p hP hw).1 q]
  have htop := C28_top v _ P p hP hw k scope itemKind q
  constructor
  · rintro ⟨it, hi, ho⟩
    obtain ⟨b, ⟨hb, _⟩, hx⟩ := (hit it).1 hi
    obtain rfl := isOf_inj it b q (item_isOf hash c none site b it hx) ho
    obtain ⟨h1 | h1, h2⟩ := htop.1 hb
    · exact ⟨ha, rfl, h1.2, h2⟩
    · exact absurd hk h1.1
  · rintro ⟨_, _, h1, h2⟩
    have hq := htop.2 ⟨.inl ⟨hk, h1⟩, h2⟩
    obtain ⟨x, hx⟩ := items_each hash v c off typed _ k args itemKind scope site items h hn hc q hq
    exact ⟨x, (hit x).2 ⟨q, ⟨hq, by rw [hno]; simp⟩, hx⟩, item_isOf hash c none site q x hx⟩

/-- Every argument completed in an attribute is shown by signature help there (while a name is being
typed, if the whole name and not only the part before the cursor fits). Missing: `keep_attr` beside a
`namespace` (`C124_negation_namespace`), unknown attribute macros (`C124_negation_macro`) and unknown
attributes on nothing. -/
theorem C124_shown_partial (hash : String → Vector UInt8 32) (v : Version) (c : ArgCursor) (off : Nat)
    (typed : Option String) (attrs : List AttrV) (k : AttrKind) (args : List Arg)
    (itemKind : Option ItemKind) (scope : List AttrKind) (site : Site) (items : List ArgItem)
    (h : argumentCompletions hash v c off typed attrs k args itemKind scope site = some items)
    (hn : Flat off args) (hm : k ≠ .macro .unknown) (hi : k = .arg .unknown → itemKind ≠ none)
    (ctx : SigContext) (hctx : About ctx attrs k itemKind scope) (t : ParenTree)
    (hw : WithinParens t off) (sargs : List ((Nat × Nat) × FocusedArg)) (it : ArgItem)
    (hit : it ∈ items) :
    ∃ q, IsOf it q ∧
      ((∀ f n, InFocus sargs off (some f) → f.name = some n → n <+: q.name.toList) ∨ Known k →
        (k = .arg .namespace ∧ q = .keepAttr) ∨
        ∃ s ∈ signatureHelp v ctx t sargs off, ShowsArg v s q) := by
  have hc : AmongArgs c := Classical.byContradiction fun hc => by
    rw [(C82_items hash v c off typed attrs k args itemKind scope site items h).1 hc] at hit
    cases hit
  obtain ⟨q, ⟨hq, _⟩, hx⟩ := (items_flat hash v c off typed attrs k args itemKind scope site items h hn
    hc it).1 hit
  refine ⟨q, item_isOf hash c none site q it hx, fun htyped => ?_⟩
  unfold topArgCompletions at hq
  obtain ⟨h1, h2, h3⟩ := combined_sub v attrs k scope _ q hq
  have h1 := (mem_topArgs v k itemKind q).1 (by cases itemKind <;> exact h1)
  cases k with
  | «macro» m =>
    have hkn : Known (.macro m) := ⟨hm, by simp⟩
    rcases h1 with h1 | h1
    · exact .inr (shown_of_relevant v ctx t sargs off hw _
        (.macroArgs m hctx.kind (List.ne_nil_of_mem h1.2)) q h1.2)
    · exact absurd hkn h1.1
  | arg a =>
    cases he : a.isEntityType with
    | true =>
      have hkn : Known (.arg a) := ⟨by simp, by rintro ⟨⟩; cases he⟩
      rcases h1 with h1 | h1
      · exact .inr (shown_of_relevant v ctx t sargs off hw _ (.primary a hctx.kind he) q
          (List.mem_cons_of_mem _ h1.2))
      · exact absurd hkn h1.1
    | false =>
      by_cases hs : ∃ p, SeparatePrimary ctx p
      · obtain ⟨p, hp⟩ := hs
        obtain ⟨i, P, hP, hPk⟩ := hctx.primary _ hp.1
        have := h2 i P hP
        rw [hPk] at this
        exact .inr (shown_of_relevant v ctx t sargs off hw _ (.separate a p hctx.kind he hp) q
          (List.mem_cons_of_mem _ this))
      · have hs' : ∀ p, ¬ SeparatePrimary ctx p := fun p hp => hs ⟨p, hp⟩
        by_cases hu : a = .unknown
        · subst hu
          rcases h1 with h1 | h1
          · exact absurd rfl h1.1.2
          · obtain ⟨-, i, hi1, hi2⟩ := h1
            have hitem : itemKind = some i := by
              rcases hi1 with hi1 | hi1
              · exact absurd hi1 (hi rfl)
              · exact hi1
            subst hitem
            have htyped := htyped.resolve_right fun hkn => hkn.2 rfl
            have h4 := h3 .unknown rfl
            obtain ⟨s, hs, kinds, hk1, hk2⟩ := C69_typed v ctx t sargs off _
              (inFocus_focusedArg sargs off) hw hctx.kind hs' q
              ⟨⟨i, hctx.item, hi2, fun s hs => by
                  rw [hctx.scope s hs]
                  exact h4⟩, fun f n hf hn' => by
                  refine htyped f n ?_ hn'
                  rw [← hf]
                  exact inFocus_focusedArg sargs off⟩
            exact .inr ⟨s, hs, kinds, hk1, hk2⟩
        · rcases h1 with h1 | h1
          · by_cases hx : a = .namespace ∧ q = .keepAttr
            · exact .inl ⟨by rw [hx.1], hx.2⟩
            · obtain ⟨l, hl, hql⟩ := around_sibling v a q he hu h1.2 hx
              exact .inr (shown_of_relevant v ctx t sargs off hw l
                (.known a l hctx.kind he hs' hu hl) q hql)
          · exact absurd ⟨by simp, by rintro ⟨⟩; exact hu rfl⟩ h1.1

/-- At the start of an attribute of an item without ink! attributes, every macro is completed which an
action on the item offers to add, and the other way round, unless the macro is for tests and the item is
not in a scope compiled for them. Missing: those macros (`C124_negation_test`). -/
theorem C124_macros_partial (hash : String → Vector UInt8 32) (around : AttrActions.Around) (v : Version)
    (t : AttrActions.Target) (inItem onField onDecl : Bool) (kind : ItemKind) (ti tm : Bool)
    (scope : List AttrKind) (cfgTest cfgE2e : Bool) (acts : List AttrActions.Act)
    (h : AttrActions.itemActions hash around v t true false inItem onField onDecl kind ti tm scope
      cfgTest cfgE2e = some acts) (hd : inItem = true ∧ (onField = true ∨ onDecl = true))
    (hi : AttrActions.inkOf t.lead = []) (c : Complete.Cursor) (hc : Complete.AtStart c)
    (hp : ¬ Complete.InPath c) (s : Complete.MacroSite) (hs : s.otherInk = false)
    (hk : s.item = some kind) (hsc : s.scope = scope) (m : MacroKind) :
    ((∃ e, (⟨.macro m, e⟩ : AttrActions.Act) ∈ acts) →
      Complete.macroItem c m ∈ Complete.macroCompletions v c (some s)) ∧
    (Complete.macroItem c m ∈ Complete.macroCompletions v c (some s) →
      (m = .test → cfgTest = true) → (m = .e2eTest → cfgTest = true ∧ cfgE2e = true) →
      ∃ e, (⟨.macro m, e⟩ : AttrActions.Act) ∈ acts) := by
  rw [AttrActions.C102_macros_offered hash around v t true false inItem onField onDecl kind ti tm scope
    cfgTest cfgE2e acts h m, Complete.C81_offered]
  constructor
  · rintro ⟨_, _, h1, h2, _⟩
    exact ⟨.inl hc, hs, .inl ⟨kind, hk, h1⟩, fun h => absurd h.1 hp, fun h => absurd hc h.1,
      by rw [hsc]; exact h2⟩
  · rintro ⟨_, _, h1, _, _, h2⟩ h3 h4
    refine ⟨⟨rfl, rfl, hd⟩, hi, ?_, by rw [← hsc]; exact h2, h3, h4⟩
    rcases h1 with ⟨i, e, h1⟩ | ⟨e, _⟩
    · rw [hk] at e
      cases e
      exact h1
    · rw [hk] at e
      cases e

/-- On a function of a contract that is not compiled for tests, `ink::test` is completed, although no
action offers it (see C94). -/
theorem C124_negation_test : ∃ (c : Complete.Cursor) (s : Complete.MacroSite),
    s.item = some .fn ∧ Complete.AtStart c ∧
    Complete.macroItem c .test ∈ Complete.macroCompletions .v5 c (some s) ∧
    ∀ (hash : String → Vector UInt8 32) (around : AttrActions.Around) (t : AttrActions.Target)
      (focused inAttr inItem onField onDecl ti tm cfgE2e : Bool) (acts : List AttrActions.Act),
      AttrActions.itemActions hash around .v5 t focused inAttr inItem onField onDecl .fn ti tm s.scope
        false cfgE2e = some acts → ∀ e, (⟨.macro .test, e⟩ : AttrActions.Act) ∉ acts := by
  refine ⟨⟨[⟨.other, ['#']⟩], .lBrack, ['['], [], [⟨.other, [']']⟩]⟩,
    ⟨none, false, false, some .fn, [.macro .contract]⟩, rfl, .inl rfl, by decide +kernel, ?_⟩
  intro hash around t focused inAttr inItem onField onDecl ti tm cfgE2e acts h e he
  have := ((AttrActions.C102_macros_offered hash around .v5 t focused inAttr inItem onField onDecl .fn
    ti tm _ false cfgE2e acts h .test).1 ⟨e, he⟩).2.2.2.2.1 rfl
  cases this

/-- In `#[ink(namespace = "a", )]` the argument `keep_attr` is completed, but no signature shows it. -/
theorem C124_negation_namespace : ∃ (attrs : List AttrV) (ctx : SigContext) (t : ParenTree)
    (sargs : List ((Nat × Nat) × FocusedArg)) (off : Nat),
    About ctx attrs (.arg .namespace) (some .trait) [] ∧ WithinParens t off ∧
    .keepAttr ∈ argCompletions .v5 attrs (.arg .namespace) (some .trait) [] none none ∧
    (signatureHelp .v5 ctx t sargs off).map (·.label) =
      ["namespace: &str".toList, "impl, namespace: &str".toList] := by
  refine ⟨[⟨.arg .namespace, [.namespace]⟩], ⟨.arg .namespace, some (.arg .namespace), some .trait, some []⟩,
    ⟨5, 24, some 6, some 23⟩, [((6, 21), ⟨.namespace, some "namespace".toList⟩)], 22,
    ⟨rfl, rfl, ?_, by rintro s ⟨⟩; rfl⟩, ⟨by decide, ⟨6, rfl, by decide⟩, by rintro r ⟨⟩; decide⟩,
    by decide +kernel, by decide +kernel⟩
  rintro a ⟨⟩
  exact ⟨0, _, (C43_primary _ _ _).1 rfl, rfl⟩

/-- In `#[ink::foo()]` on a function, arguments are completed although the attribute can have none; no
signature shows them. -/
theorem C124_negation_macro (t : ParenTree) (sargs : List ((Nat × Nat) × FocusedArg)) (off : Nat) :
    ∃ (attrs : List AttrV) (ctx : SigContext),
      About ctx attrs (.macro .unknown) (some .fn) [] ∧
      .message ∈ argCompletions .v5 attrs (.macro .unknown) (some .fn) [] none none ∧
      signatureHelp .v5 ctx t sargs off = [] := by
  refine ⟨[⟨.macro .unknown, []⟩], ⟨.macro .unknown, none, some .fn, none⟩,
    ⟨rfl, rfl, by simp, by simp⟩, by decide +kernel, ?_⟩
  have : rawSignatures .v5 ⟨.macro .unknown, none, some .fn, none⟩ t sargs off = [] := by
    unfold rawSignatures
    split
    · rfl
    · rfl
  unfold signatureHelp
  rw [this]
  rfl

/-- On a message of an implemented trait definition `payable` is completed, although no action offers
to add it (what the message has must be what the trait definition says, C65). -/
theorem C124_negation_message : ∃ attrs : List AttrV,
    .payable ∈ argCompletions .v5 attrs (.arg .message) (some .fn) [.arg .impl] none none ∧
    ∀ (hash : String → Vector UInt8 32) (around : AttrActions.Around) (t : AttrActions.Target)
      (l1 l2 : List AttrActions.Lead) (a : AttrActions.OwnAttr) (acts : List AttrActions.Act),
      AttrActions.inkOf t.lead = attrs →
      AttrActions.attrActions hash around .v5 t (t.before ++ AttrActions.leadElems l1, a, l2)
        (.arg .message) true [.arg .impl] = some acts →
      ∀ q e, (⟨.arg q, e⟩ : AttrActions.Act) ∉ acts := by
  refine ⟨[⟨.arg .message, [.message]⟩], by decide +kernel, ?_⟩
  intro hash around t l1 l2 a acts hi h q e he
  have hP : IsPrimary (AttrActions.inkOf t.lead) 0 ⟨.arg .message, [.message]⟩ := by
    rw [hi]
    exact (C43_primary _ _ _).1 rfl
  have := ((AttrActions.C102_attr_offered hash around .v5 t l1 l2 a _ true _ acts h _ 0 hP (by
    rintro k ⟨⟩ _
    simp)).1 q).1 ⟨e, he⟩
  exact absurd this.2.1 (by decide)

/-! Non-vacuity: the arguments of `#[ink(message,)]`. -/

def messageArg : Arg := Arg.ofMeta (.mk (.ok ⟨.tok .ident "message", 6⟩) none .none none 6 none)

theorem messageArg_flat : Flat 14 [messageArg] := by
  intro a ha
  have : CompleteArg.focusedArg 14 [messageArg] = some none := by rfl
  rw [this] at ha
  cases ha

def messageCursor : ArgCursor :=
  cursorOn (inkStart ++ .tok .lParen "(" :: listSource false [.flag [] (.tok .ident "message") []])
    .comma ","

def messageSite : Site :=
  ⟨[⟨.other, 0, 1⟩, ⟨.other, 1, 2⟩, ⟨.ident, 2, 5⟩, ⟨.lParen, 5, 6⟩, ⟨.ident, 6, 13⟩, ⟨.comma, 13, 14⟩,
    ⟨.rParen, 14, 15⟩, ⟨.rBrack, 15, 16⟩], 0, 16, [.message], true, none, none, none, none⟩

/-- The hypotheses of `C124_shown_partial`. -/
example : ∃ items ctx t, argumentCompletions (fun _ => Vector.replicate 32 0) .v5 messageCursor 14 none
      [⟨.arg .message, [.message]⟩] (.arg .message) [messageArg] (some .fn) [.arg .impl] messageSite =
        some items ∧ (∃ it ∈ items, IsOf it .payable ∧ it.label = "payable") ∧
      About ctx [⟨.arg .message, [.message]⟩] (.arg .message) (some .fn) [.arg .impl] ∧
      WithinParens t 14 := by
  refine ⟨_, ⟨.arg .message, some (.arg .message), some .fn, some [.arg .impl]⟩,
    ⟨5, 15, some 6, some 14⟩, rfl,
    ⟨⟨"payable", " payable", 14, 14, none, "ink! payable attribute argument."⟩, by decide +kernel,
      rfl, rfl⟩, ⟨rfl, rfl, ?_, by rintro s ⟨⟩; rfl⟩,
    ⟨by decide, ⟨6, rfl, by decide⟩, by rintro r ⟨⟩; decide⟩⟩
  rintro a ⟨⟩
  exact ⟨0, _, (C43_primary _ _ _).1 rfl, rfl⟩

/-- The hypotheses of `C124_actions` about the item and the actions. -/
example : ∃ acts, AttrActions.attrActions (fun _ => Vector.replicate 32 0) AttrActions.nowhere .v5
      AttrActions.messageTarget (AttrActions.messageTarget.before ++ AttrActions.leadElems
        [.attr AttrActions.deriveAttr, .trivia .whitespace " "], AttrActions.messageAttr,
        [.trivia .whitespace "\n"]) (.arg .message) false [.arg .impl] = some acts ∧
    (∃ e, (⟨.arg .payable, e⟩ : AttrActions.Act) ∈ acts) ∧ AttrActions.messageAttr.closed = true ∧
    IsPrimary (AttrActions.inkOf AttrActions.messageTarget.lead) 0 ⟨.arg .message, [.message]⟩ ∧
    AttrV.Wf ⟨.arg .message, [.message]⟩ ∧ messageCursor.onComma = true :=
  ⟨_, rfl, ⟨some ⟨24, ", payable", none⟩, by decide⟩, rfl, (C43_primary _ _ _).1 (by decide),
    by rintro k ⟨⟩ _; simp, by decide⟩

/-- The hypotheses of `C124_macros_partial`: `#[]` on a function in a test module. -/
example : ∃ acts, AttrActions.itemActions (fun _ => Vector.replicate 32 0) AttrActions.nowhere .v5
      AttrActions.bareTarget true false true false true .fn false false [] true false = some acts ∧
    AttrActions.inkOf AttrActions.bareTarget.lead = [] ∧
    (⟨.macro .test, some ⟨16, "#[ink::test]", none⟩⟩ : AttrActions.Act) ∈ acts ∧
    ∃ c : Complete.Cursor, Complete.AtStart c ∧ ¬ Complete.InPath c ∧
      Complete.macroItem c .test ∈
        Complete.macroCompletions .v5 c (some ⟨none, false, false, some .fn, []⟩) := by
  refine ⟨_, rfl, rfl, by decide,
    ⟨[⟨.other, ['#']⟩], .lBrack, ['['], [], [⟨.other, [']']⟩]⟩, .inl rfl, ?_, by decide +kernel⟩
  rw [← Complete.inPath_iff]
  decide

end Verif.Analyzer.Agree
