import Verif.Analyzer.GenericLemmas
import Verif.Analyzer.MissingProps

/-!
# Every ink! attribute of a file is checked by the generic rules and must be on the right item (C101)

Specification: `InkAttr`, `Right` (`Verif.Analyzer.GenericLemmas`), `Marked`, `Bare`
(`Verif.Analyzer.MissingLemmas`) and, for where ink! expects an item, `Walk.Placed` of C84.
-/

namespace Verif.Analyzer.Generic

open Verif.Ir Verif.Ir.Token Verif.Analyzer.Move Verif.Analyzer.Missing

variable {R : Type}

/-! ## Specification -/

/-- The reports on the arguments of the attribute at `q`. -/
def argsOn (q : List Nat) (l : List (Found R)) : List R :=
  l.filterMap fun f => match f with
    | .arg q' r => if q' = q then some r else none
    | _ => none

/-- The reports on the attributes of the node at `q` taken together. -/
def groupOn (q : List Nat) (l : List (Found R)) : List R :=
  l.filterMap fun f => match f with
    | .group q' r => if q' = q then some r else none
    | _ => none

/-- The attributes reported as unknown. -/
def unknowns (l : List (Found R)) : List (List Nat) :=
  l.filterMap fun f => match f with
    | .unknown q => some q
    | _ => none

/-- `l` are the ink! attributes of the node at `q`, in their order. -/
def AttrsOf (root : Src) (q : List Nat) (l : List (List Nat)) : Prop :=
  ∃ is : List Nat, is.Pairwise (· < ·) ∧ (∀ i, i ∈ is ↔ ∃ k, InkAttr root (q ++ [i]) k) ∧
    l = is.map fun i => q ++ [i]

/-- The node at `q` is the first attribute of the kind of the node at `p`. -/
def FirstAttr (root : Src) (k : AttrKind) (p q : List Nat) : Prop :=
  ∃ i, q = p ++ [i] ∧ InkAttr root q k ∧ ∀ j < i, ¬ InkAttr root (p ++ [j]) k

/-- The file without the text of the node at `q`. (An empty token is left where the node was, so that
the paths of the other nodes stay.) -/
def without (root : Src) (q : List Nat) : Src := setAt root q (.tok true [])

/-! ## Lemmas -/

theorem attrsOf_own (root : Src) (q : List Nat) : AttrsOf root q (ownAttrs root q) := by
  unfold ownAttrs
  cases h : root.at? q with
  | none =>
    refine ⟨[], List.Pairwise.nil, fun i => ?_, rfl⟩
    simp only [List.not_mem_nil, false_iff]
    rintro ⟨k, hk⟩
    unfold InkAttr kindAt at hk
    rw [at_append, h] at hk
    cases hk
  | some n =>
    refine ⟨(List.range n.children.length).filter fun i => isInk (kindAt root (q ++ [i])),
      List.Pairwise.filter _ List.pairwise_lt_range, fun i => ?_, ?_⟩
    · rw [List.mem_filter, List.mem_range, isInk_iff]
      refine ⟨fun h => h.2, fun hk => ⟨?_, hk⟩⟩
      obtain ⟨k, hk⟩ := hk
      unfold InkAttr kindAt at hk
      rw [at_append, h, Option.bind_some, Src.at?] at hk
      cases hc : n.children[i]? with
      | none => rw [hc] at hk; cases hk
      | some c => exact (List.getElem?_eq_some_iff.1 hc).1
    · simp only [List.filter_map]
      rfl

theorem sorted_unique (a b : List Nat) (ha : a.Pairwise (· < ·)) (hb : b.Pairwise (· < ·))
    (h : ∀ i, i ∈ a ↔ i ∈ b) : a = b := by
  induction a generalizing b with
  | nil =>
    cases b with
    | nil => rfl
    | cons y b => exact absurd ((h y).2 (by simp)) (by simp)
  | cons x a ih =>
    cases b with
    | nil => exact absurd ((h x).1 (by simp)) (by simp)
    | cons y b =>
      rw [List.pairwise_cons] at ha hb
      have hxy : x = y := by
        rcases List.mem_cons.1 ((h x).1 (by simp)) with h1 | h1
        · exact h1
        · rcases List.mem_cons.1 ((h y).2 (by simp)) with h2 | h2
          · exact h2.symm
          · have := ha.1 _ h2
            have := hb.1 _ h1
            omega
      subst hxy
      rw [ih b ha.2 hb.2]
      intro i
      have := h i
      simp only [List.mem_cons] at this
      constructor
      · intro hi
        rcases this.1 (.inr hi) with h1 | h1
        · have := ha.1 _ hi
          omega
        · exact h1
      · intro hi
        rcases this.2 (.inr hi) with h1 | h1
        · have := hb.1 _ hi
          omega
        · exact h1

theorem attrsOf_unique (root : Src) (q : List Nat) (l : List (List Nat)) (h : AttrsOf root q l) :
    ownAttrs root q = l := by
  obtain ⟨a, ha, ha', h1⟩ := attrsOf_own root q
  obtain ⟨b, hb, hb', rfl⟩ := h
  rw [h1, sorted_unique a b ha hb fun i => (ha' i).trans (hb' i).symm]

theorem pick_one (l : List (List Nat)) (hl : l.Nodup) (f : List Nat → List R) (q : List Nat) :
    (l.flatMap fun x => if x = q then f x else []) = if q ∈ l then f q else [] := by
  induction l with
  | nil => simp
  | cons x l ih =>
    rw [List.nodup_cons] at hl
    rw [List.flatMap_cons, ih hl.2]
    by_cases hx : x = q
    · subst hx
      simp [hl.1]
    · have : ¬ q = x := fun h => hx h.symm
      simp [hx, this]

theorem filterMap_if_eq (c : Prop) [Decidable c] (l : List R) :
    (l.filterMap fun r => if c then some r else none) = if c then l else [] := by
  split
  · exact List.filterMap_some
  · induction l with
    | nil => rfl
    | cons a l ih => simp

theorem argsOn_generic (argRule : List Nat → List R) (groupRule : List (List Nat) → List R)
    (root : Src) (p q : List Nat) :
    argsOn q (generic argRule groupRule root p) = if q ∈ inScope root p then argRule q else [] := by
  unfold argsOn generic
  rw [List.filterMap_append, List.filterMap_append, List.filterMap_map, List.filterMap_flatMap,
    List.filterMap_flatMap]
  rw [List.filterMap_eq_nil_iff.2 (by intro a _; rfl), List.nil_append]
  rw [List.flatMap_eq_nil_iff (l := parents root p) |>.2 (by
    intro a _
    rw [List.filterMap_map]
    exact List.filterMap_eq_nil_iff.2 (by intro _ _; rfl)), List.append_nil]
  refine Eq.trans ?_ (pick_one (inScope root p) (inScope_nodup root p) argRule q)
  congr 1
  funext x
  rw [List.filterMap_map]
  exact filterMap_if_eq (x = q) (argRule x)

theorem groupOn_generic (argRule : List Nat → List R) (groupRule : List (List Nat) → List R)
    (root : Src) (p q : List Nat) :
    groupOn q (generic argRule groupRule root p) =
      if q ∈ parents root p then groupRule (ownAttrs root q) else [] := by
  unfold groupOn generic
  rw [List.filterMap_append, List.filterMap_append, List.filterMap_map, List.filterMap_flatMap,
    List.filterMap_flatMap]
  rw [List.filterMap_eq_nil_iff.2 (by intro a _; rfl), List.nil_append]
  rw [List.flatMap_eq_nil_iff.2 (by
    intro a _
    rw [List.filterMap_map]
    exact List.filterMap_eq_nil_iff.2 (by intro _ _; rfl)), List.nil_append]
  refine Eq.trans ?_ (pick_one (parents root p) (parents_nodup root p)
    (fun q => groupRule (ownAttrs root q)) q)
  congr 1
  funext x
  rw [List.filterMap_map]
  exact filterMap_if_eq (x = q) (groupRule (ownAttrs root x))

theorem unknowns_generic (argRule : List Nat → List R) (groupRule : List (List Nat) → List R)
    (root : Src) (p : List Nat) :
    unknowns (generic argRule groupRule root p) =
      (inScope root p).filter fun q => isUnknown (kindAt root q) := by
  unfold unknowns generic
  rw [List.filterMap_append, List.filterMap_append, List.filterMap_map, List.filterMap_flatMap,
    List.filterMap_flatMap]
  rw [List.flatMap_eq_nil_iff.2 (by
    intro a _
    rw [List.filterMap_map]
    exact List.filterMap_eq_nil_iff.2 (by intro _ _; rfl)), List.append_nil]
  rw [List.flatMap_eq_nil_iff.2 (by
    intro a _
    rw [List.filterMap_map]
    exact List.filterMap_eq_nil_iff.2 (by intro _ _; rfl)), List.append_nil]
  exact List.filterMap_some

theorem isUnknown_iff (root : Src) (q : List Nat) : isUnknown (kindAt root q) = true ↔
    InkAttr root q (.macro .unknown) ∨ InkAttr root q (.arg .unknown) := by
  unfold InkAttr
  cases kindAt root q with
  | none => simp [isUnknown]
  | some k =>
    cases k with
    | attr a =>
      cases a with
      | none => simp [isUnknown]
      | some a =>
        cases a with
        | «macro» m => cases m <;> simp [isUnknown]
        | arg m => cases m <;> simp [isUnknown]
    | _ => simp [isUnknown]

theorem inScope_file (root : Src) (hpl : PlainAttrs root) (hroot : kindAt root [] = some .other)
    (q : List Nat) : q ∈ inScope root [] ↔ ∃ k, InkAttr root q k := by
  rw [mem_inScope root [] q hpl]
  refine ⟨fun h => h.1, fun h => ⟨h, List.nil_prefix, ?_⟩⟩
  rintro rfl
  obtain ⟨k, hk⟩ := h
  unfold InkAttr at hk
  rw [hroot] at hk
  cases hk

theorem carries_placed (v : Version) (root : Src) (k : AttrKind) (p : List Nat)
    (h : Walk.Placed id shape v (toNode root) k p) : Marked root k p := by
  rw [← carries_iff]
  cases h <;> assumption

theorem kindAt_without (root : Src) (q r : List Nat) (h : ¬ q <+: r) :
    kindAt (without root q) r = kindAt root r := kindAt_setAt root q r _ h

theorem without_self (root : Src) (q : List Nat) (hq : root.at? q ≠ none) :
    kindAt (without root q) q = none := by
  unfold without
  induction q generalizing root with
  | nil => rfl
  | cons i q ih =>
    cases root with
    | tok w t => simp [Src.at?, Src.children] at hq
    | node k cs =>
      rw [setAt, kindAt_child]
      simp only [Src.children, List.getElem?_modify, if_true]
      simp only [Src.at?, Src.children] at hq
      cases hc : cs[i]? with
      | none => rfl
      | some c =>
        rw [hc] at hq
        exact ih c hq

theorem apply_remove (root : Src) (q : List Nat) (hq : root.at? q ≠ none) :
    applyEdit root.text (removeNode root q) = some (without root q).text := by
  cases hx : root.at? q with
  | none => exact absurd hx hq
  | some x =>
    obtain ⟨A, B, h1, h2, h3⟩ := at_split root q x hx
    unfold without
    rw [h3, h1, List.append_assoc, Header.apply_cut A x.text B (removeNode root q) ?_ ?_]
    · simp [removeNode, Src.text]
    · simp [removeNode, rangeOf, h2]
    · simp [removeNode, rangeOf, h2, hx]

theorem inkAttr_iff (root : Src) (k : AttrKind) (p q : List Nat) :
    inkAttr root k p = some q ↔ FirstAttr root k p q := by
  obtain ⟨is, hs, hm, hl⟩ := attrsOf_own root p
  unfold inkAttr FirstAttr
  rw [hl, List.find?_map]
  constructor
  · intro h
    obtain ⟨i, hi, rfl⟩ := Option.map_eq_some_iff.1 h
    obtain ⟨hp, as, bs, rfl, hb⟩ := List.find?_eq_some_iff_append.1 hi
    have hk : InkAttr root (p ++ [i]) k := by simpa [InkAttr] using hp
    refine ⟨i, rfl, hk, fun j hj hkj => ?_⟩
    have hmem := (hm j).2 ⟨k, hkj⟩
    rw [List.pairwise_append] at hs
    rcases List.mem_append.1 hmem with h | h
    · have := hb j h
      have hkj' : kindAt root (p ++ [j]) = some (.attr (some k)) := hkj
      simp [hkj'] at this
    · rcases List.mem_cons.1 h with h | h
      · omega
      · have := (List.pairwise_cons.1 hs.2.1).1 j h
        omega
  · rintro ⟨i, rfl, hk, hfirst⟩
    have hmem := (hm i).2 ⟨k, hk⟩
    obtain ⟨as, bs, rfl⟩ := List.append_of_mem hmem
    refine Option.map_eq_some_iff.2 ⟨i, ?_, rfl⟩
    refine List.find?_eq_some_iff_append.2 ⟨by simpa [InkAttr] using hk, as, bs, rfl, fun j hj => ?_⟩
    rw [List.pairwise_append] at hs
    have := hs.2.2 j hj i (by simp)
    have := hfirst j this
    simpa [InkAttr] using this

theorem marked_first (root : Src) (k : AttrKind) (p : List Nat) (h : Marked root k p) :
    ∃ q, inkAttr root k p = some q := by
  obtain ⟨i, hi⟩ := h
  unfold inkAttr
  have : ((ownAttrs root p).find? fun q => kindAt root q == some (.attr (some k))).isSome := by
    rw [List.find?_isSome]
    exact ⟨p ++ [i], (mem_ownAttrs root p _).2 ⟨i, k, rfl, hi⟩, by simp [hi]⟩
  exact Option.isSome_iff_exists.1 this

theorem hasAst_iff (test : IKind → Bool) (root : Src) (p : List Nat) :
    hasAst test root p = true ↔ ∃ i, test i = true ∧ kindAt root p = some (.item i) := by
  unfold hasAst
  cases kindAt root p with
  | none => simp
  | some k =>
    cases k with
    | item i => simp
    | _ => simp

theorem ensureItem_none (test : IKind → Bool) (root : Src) (k : AttrKind) (p : List Nat) :
    ensureItem test root k p = none ↔ ∃ i, test i = true ∧ kindAt root p = some (.item i) := by
  unfold ensureItem
  rw [← hasAst_iff]
  split <;> simp_all

theorem ensureModule_none (root : Src) (p : List Nat) :
    ensureModule root p = none ↔ ∃ i, (i == IKind.module) = true ∧ kindAt root p = some (.item i) := by
  unfold ensureModule
  rw [← hasAst_iff (· == IKind.module)]
  split
  · simp_all
  · split <;> simp_all

theorem right_iff (root : Src) (k : AttrKind) (p : List Nat) (is : List IKind) (test : IKind → Bool)
    (hk : ∀ js, (k, js) ∈ rightItems ↔ js = is) (ht : ∀ i, test i = true ↔ i ∈ is) :
    (∃ i, test i = true ∧ kindAt root p = some (.item i)) ↔ Right root k p := by
  unfold Right
  constructor
  · rintro ⟨i, hi, h⟩
    exact ⟨is, i, (hk is).2 rfl, (ht i).1 hi, h⟩
  · rintro ⟨js, i, hj, hi, h⟩
    rw [(hk js).1 hj] at hi
    exact ⟨i, (ht i).2 hi, h⟩

theorem wrongItem_none (root : Src) (k : AttrKind) (p : List Nat) (hk : k ∈ rightItems.map (·.1)) :
    wrongItem root k p = none ↔ Right root k p := by
  simp only [rightItems, List.map_cons, List.map_nil, List.mem_cons, List.not_mem_nil, or_false] at hk
  rcases hk with rfl | rfl | rfl | rfl | rfl | rfl | rfl | rfl | rfl | rfl | rfl | rfl | rfl | rfl
  · refine (ensureModule_none root p).trans (right_iff root _ p [.module] _ ?_ ?_)
    · intro js; simp [rightItems]
    · intro i; cases i <;> simp
  all_goals refine (ensureItem_none _ root _ p).trans (right_iff root _ p _ _
    (fun js => by simp [rightItems]; rfl) ?_)
  all_goals (intro i; cases i <;> simp [isTrait, isAdt, isStruct, isFn, isImplItem])

theorem placed_known (v : Version) (root : Src) (k : AttrKind) (p : List Nat)
    (h : Walk.Placed id shape v (toNode root) k p) (hk : k ≠ .arg .topic) :
    k ∈ rightItems.map (·.1) := by
  cases h with
  | top _ _ h =>
    exact (by decide : ∀ k ∈ ([.macro .contract, .macro .event, .macro .traitDefinition,
      .macro .chainExtension, .macro .storageItem, .macro .test, .macro .e2eTest] : List AttrKind),
      k ∈ rightItems.map (·.1)) _ h
  | contract _ _ _ _ _ h =>
    exact (by decide : ∀ k ∈ ([.arg .storage, .arg .event, .arg .constructor, .arg .message,
      .macro .event, .macro .traitDefinition, .macro .chainExtension, .macro .storageItem,
      .macro .test, .macro .e2eTest] : List AttrKind), k ∈ rightItems.map (·.1)) _ h
  | annotated => decide
  | impl _ _ _ _ _ _ _ _ h =>
    exact (by decide : ∀ k ∈ ([.arg .constructor, .arg .message] : List AttrKind),
      k ∈ rightItems.map (·.1)) _ h
  | topic => exact absurd rfl hk
  | trait => decide
  | extension => decide
  | member _ _ _ _ _ h =>
    rcases h with ⟨_, rfl⟩ | ⟨_, rfl⟩ <;> decide

theorem right_impl (root : Src) (p : List Nat) : Right root (.arg .impl) p ↔ IsImpl root p := by
  unfold Right IsImpl
  constructor
  · rintro ⟨is, i, hk, hi, h⟩
    simp only [rightItems, List.mem_cons, Prod.mk.injEq, reduceCtorEq, false_and, AttrKind.arg.injEq,
      List.not_mem_nil, or_false, false_or, true_and] at hk
    subst hk
    simp only [List.mem_cons, List.not_mem_nil, or_false] at hi
    rcases hi with rfl | rfl
    · exact ⟨_, h⟩
    · exact ⟨_, h⟩
  · rintro ⟨t, h⟩
    exact ⟨_, .impl t, by simp [rightItems]; rfl, by cases t <;> simp, h⟩

theorem wrongItem_topic (root : Src) (p : List Nat) : wrongItem root (.arg .topic) p = none := rfl

theorem visited_wrong (implements : List Nat → Bool) (v : Version) (root : Src) (k : AttrKind)
    (p : List Nat) (hr : ¬ Right root k p) :
    (k, p) ∈ Walk.visits id shape implements v (toNode root) ↔
      Walk.Placed id shape v (toNode root) k p := by
  by_cases hk : k = .arg .impl
  · subst hk
    rw [right_impl] at hr
    rw [Walk.C84_impls]
    constructor
    · rintro ⟨c, hc, h, h'⟩
      have hcar : (toNode root).Carries id (.arg .impl) p := by
        rcases h' with h' | ⟨h', -⟩
        · exact h'
        · exact absurd ((implKind_iff root p).1 h') hr
      rcases h with ⟨h, -⟩ | ⟨h1, -, h3⟩ | ⟨h, -⟩
      · exact absurd ((implKind_iff root p).1 h) hr
      · exact .annotated c p hc h1 hcar h3
      · exact absurd ((implKind_iff root p).1 h) hr
    · intro h
      exact (Walk.C84_impls id shape implements v (toNode root) p).1
        (by
          cases h with
          | top _ _ h => simp at h
          | contract _ _ _ _ _ h _ => simp at h
          | impl _ _ _ _ _ _ _ _ h _ => simp at h
          | annotated c' _ hc' h1 h2 h3 =>
            exact (Walk.C84_impls id shape implements v (toNode root) p).2
              ⟨c', hc', .inr (.inl ⟨h1, .inl h2, h3⟩), .inl h2⟩
          | member _ _ _ _ _ h _ => simp at h)
  · exact Walk.C84_checked id shape implements v (toNode root) k p hk

theorem mem_wrongItems (implements : List Nat → Bool) (v : Version) (root : Src) (k : AttrKind)
    (p : List Nat) (w : Wrong) : (k, p, w) ∈ wrongItems implements v root ↔
      (k, p) ∈ Walk.visits id shape implements v (toNode root) ∧ wrongItem root k p = some w := by
  unfold wrongItems
  rw [List.mem_filterMap]
  constructor
  · rintro ⟨e, he, h⟩
    obtain ⟨w', hw, h⟩ := Option.map_eq_some_iff.1 h
    cases h
    exact ⟨he, hw⟩
  · rintro ⟨h, hw⟩
    exact ⟨(k, p), h, by simp [hw]⟩

/-! ## What is reported -/

/-- The attributes of a file that are reported as unknown are the unknown ones, each of them once. -/
theorem C101_unknown (argRule : List Nat → List R) (groupRule : List (List Nat) → List R) (root : Src)
    (hpl : PlainAttrs root) (hroot : kindAt root [] = some .other) :
    (∀ q, q ∈ unknowns (generic argRule groupRule root []) ↔
      InkAttr root q (.macro .unknown) ∨ InkAttr root q (.arg .unknown)) ∧
    (unknowns (generic argRule groupRule root [])).Nodup := by
  rw [unknowns_generic]
  refine ⟨fun q => ?_, (inScope_nodup root []).sublist List.filter_sublist⟩
  rw [List.mem_filter, isUnknown_iff, inScope_file root hpl hroot]
  refine ⟨fun h => h.2, fun h => ⟨?_, h⟩⟩
  rcases h with h | h
  · exact ⟨_, h⟩
  · exact ⟨_, h⟩

/-- The reports on the arguments of an ink! attribute anywhere in a file are those of the rule, each of
them once, and there are no reports on the arguments of anything else. -/
theorem C101_arguments (argRule : List Nat → List R) (groupRule : List (List Nat) → List R)
    (root : Src) (hpl : PlainAttrs root) (hroot : kindAt root [] = some .other) (q : List Nat) :
    (∀ k, InkAttr root q k → argsOn q (generic argRule groupRule root []) = argRule q) ∧
    ((¬ ∃ k, InkAttr root q k) → argsOn q (generic argRule groupRule root []) = []) := by
  rw [argsOn_generic]
  constructor
  · intro k hk
    rw [if_pos ((inScope_file root hpl hroot q).2 ⟨k, hk⟩)]
  · intro h
    rw [if_neg fun h' => h ((inScope_file root hpl hroot q).1 h')]

/-- The reports on the ink! attributes of a node taken together are those of the rule for all of its
ink! attributes, each of them once, and there are none for nodes without ink! attributes. -/
theorem C101_group (argRule : List Nat → List R) (groupRule : List (List Nat) → List R)
    (root : Src) (hpl : PlainAttrs root) (q : List Nat) :
    (∀ l, l ≠ [] → AttrsOf root q l →
      groupOn q (generic argRule groupRule root []) = groupRule l) ∧
    (Bare root q → groupOn q (generic argRule groupRule root []) = []) := by
  rw [groupOn_generic]
  constructor
  · intro l hne hl
    have hb : ¬ Bare root q := by
      obtain ⟨is, -, hm, rfl⟩ := hl
      cases is with
      | nil => exact absurd rfl hne
      | cons i is =>
        obtain ⟨k, hk⟩ := (hm i).1 (by simp)
        exact fun h => h k ⟨i, hk⟩
    rw [if_pos ((mem_parents root [] q hpl).2 ⟨hb, List.nil_prefix⟩), attrsOf_unique root q l hl]
  · intro h
    rw [if_neg fun h' => ((mem_parents root [] q hpl).1 h').1 h]

/-- What the generic rules report for an item of a file, they report for the file. -/
theorem C101_nested (argRule : List Nat → List R) (groupRule : List (List Nat) → List R)
    (root : Src) (hpl : PlainAttrs root) (hroot : kindAt root [] = some .other) (p : List Nat)
    (f : Found R) (h : f ∈ generic argRule groupRule root p) :
    f ∈ generic argRule groupRule root [] := by
  have hs : ∀ q, q ∈ inScope root p → q ∈ inScope root [] := fun q hq =>
    (inScope_file root hpl hroot q).2 ((mem_inScope root p q hpl).1 hq).1
  have hp : ∀ q, q ∈ parents root p → q ∈ parents root [] := fun q hq =>
    (mem_parents root [] q hpl).2 ⟨((mem_parents root p q hpl).1 hq).1, List.nil_prefix⟩
  unfold generic at h ⊢
  simp only [List.mem_append, List.mem_map, List.mem_filter, List.mem_flatMap] at h ⊢
  rcases h with (⟨q, ⟨hq, hu⟩, rfl⟩ | ⟨q, hq, r, hr, rfl⟩) | ⟨q, hq, r, hr, rfl⟩
  · exact .inl (.inl ⟨q, ⟨hs q hq, hu⟩, rfl⟩)
  · exact .inl (.inr ⟨q, hs q hq, r, hr, rfl⟩)
  · exact .inr ⟨q, hp q hq, r, hr, rfl⟩

/-- Of the items that are annotated and stand where ink! expects them, those are reported that the
attribute is not for. (Topics are the subject of C95.) -/
theorem C101_wrong (implements : List Nat → Bool) (v : Version) (root : Src) (k : AttrKind)
    (p : List Nat) (hk : k ≠ .arg .topic) :
    (∃ w, (k, p, w) ∈ wrongItems implements v root) ↔
      Walk.Placed id shape v (toNode root) k p ∧ ¬ Right root k p := by
  simp only [mem_wrongItems]
  constructor
  · rintro ⟨w, hv, hw⟩
    have hr : ¬ Right root k p := by
      intro hr
      have hk' : k ∈ rightItems.map (·.1) := by
        obtain ⟨is, i, h, -⟩ := hr
        exact List.mem_map.2 ⟨_, h, rfl⟩
      rw [(wrongItem_none root k p hk').2 hr] at hw
      cases hw
    exact ⟨(visited_wrong implements v root k p hr).1 hv, hr⟩
  · rintro ⟨hp, hr⟩
    cases hw : wrongItem root k p with
    | none =>
      exact absurd ((wrongItem_none root k p (placed_known v root k p hp hk)).1 hw) hr
    | some w => exact ⟨w, (visited_wrong implements v root k p hr).2 hp, rfl⟩

/-! ## What the fixes do -/

theorem first_at (root : Src) (k : AttrKind) (p q : List Nat) (h : FirstAttr root k p q) :
    root.at? q ≠ none := by
  obtain ⟨i, rfl, h, -⟩ := h
  unfold InkAttr kindAt at h
  intro h'
  rw [h'] at h
  cases h

theorem wrong_fixes (root : Src) (k : AttrKind) (p : List Nat) (w : Wrong)
    (h : wrongItem root k p = some w) (hm : Marked root k p) :
    ∃ q, FirstAttr root k p q ∧ w.fixes = removeNode root q ::
      if k = .macro .contract ∧ kindAt root p ≠ some .list then [removeNode root p] else [] := by
  obtain ⟨q, hq⟩ := marked_first root k p hm
  refine ⟨q, (inkAttr_iff root k p q).1 hq, ?_⟩
  have hi : ∀ test, ensureItem test root k p = some w → w.fixes = [removeNode root q] := by
    intro test h
    unfold ensureItem at h
    split at h
    · cases h
    · cases h
      simp [hq]
  by_cases hk : k = .macro .contract
  · subst hk
    change ensureModule root p = some w at h
    unfold ensureModule at h
    split at h
    · cases h
    · split at h
      · rename_i hl
        cases h
        have hl' : kindAt root p = some .list := by simpa using hl
        simp [hq, hl']
      · rename_i hl
        cases h
        have hl' : ¬ kindAt root p = some .list := by simpa using hl
        simp [hq, hl']
  · rw [if_neg fun h => hk h.1]
    unfold wrongItem at h
    split at h
    · exact absurd rfl hk
    all_goals first
      | exact hi _ h
      | cases h

theorem at_setAt_apart (root : Src) (q r : List Nat) (y : Src) (h1 : ¬ q <+: r) (h2 : ¬ r <+: q) :
    (setAt root q y).at? r = root.at? r := by
  induction q generalizing root r with
  | nil => exact absurd List.nil_prefix h1
  | cons i q ih =>
    cases r with
    | nil => exact absurd List.nil_prefix h2
    | cons j r =>
      cases root with
      | tok w t => rfl
      | node k cs =>
        rw [setAt, Src.at?, Src.at?]
        simp only [Src.children, List.getElem?_modify]
        by_cases hij : i = j
        · subst hij
          simp only [if_true]
          cases cs[i]? with
          | none => rfl
          | some c =>
            exact ih c r (fun h => h1 (List.cons_prefix_cons.2 ⟨rfl, h⟩))
              (fun h => h2 (List.cons_prefix_cons.2 ⟨rfl, h⟩))
        · simp only [if_neg hij]
          cases cs[j]? <;> rfl

theorem without_below (root : Src) (q r : List Nat) (hq : root.at? q ≠ none) (h : q <+: r) :
    kindAt (without root q) r = none := by
  obtain ⟨s, rfl⟩ := h
  unfold without
  induction q generalizing root with
  | nil =>
    cases s with
    | nil => rfl
    | cons i s => rfl
  | cons i q ih =>
    cases root with
    | tok w t => simp [Src.at?, Src.children] at hq
    | node k cs =>
      rw [setAt, List.cons_append, kindAt_child]
      simp only [Src.children, List.getElem?_modify, if_true]
      simp only [Src.at?, Src.children] at hq
      cases hc : cs[i]? with
      | none => rfl
      | some c =>
        rw [hc] at hq
        exact ih c hq

theorem kindAt_without_iff (root : Src) (q r : List Nat) (hq : root.at? q ≠ none) (k : NKind) :
    kindAt (without root q) r = some k ↔ ¬ q <+: r ∧ kindAt root r = some k := by
  by_cases h : q <+: r
  · rw [without_below root q r hq h]
    simp [h]
  · rw [kindAt_without root q r h]
    simp [h]

theorem inkAttr_at (root : Src) (q : List Nat) (k : AttrKind) (h : InkAttr root q k) :
    ∃ cs, root.at? q = some (.node (.attr (some k)) cs) := by
  unfold InkAttr kindAt at h
  obtain ⟨n, hn, h⟩ := Option.bind_eq_some_iff.1 h
  cases n with
  | tok w t => cases h
  | node kd cs =>
    cases h
    exact ⟨cs, hn⟩

theorem plain_without (root : Src) (hpl : PlainAttrs root) (q : List Nat) (k : AttrKind)
    (hq : InkAttr root q k) : PlainAttrs (without root q) := by
  obtain ⟨ds, hat⟩ := inkAttr_at root q k hq
  have hne : root.at? q ≠ none := by rw [hat]; simp
  intro r a cs hr
  have hk : kindAt (without root q) r = some (.attr a) := by
    unfold kindAt
    rw [hr]
    rfl
  obtain ⟨h1, h2⟩ := (kindAt_without_iff root q r hne _).1 hk
  have hr' : ∃ cs', root.at? r = some (.node (.attr a) cs') := by
    unfold kindAt at h2
    obtain ⟨n, hn, h2⟩ := Option.bind_eq_some_iff.1 h2
    cases n with
    | tok w t => cases h2
    | node kd cs' => cases h2; exact ⟨cs', hn⟩
  obtain ⟨cs', hr'⟩ := hr'
  have h3 : ¬ r <+: q := by
    rintro ⟨s, rfl⟩
    by_cases hs : s = []
    · subst hs
      exact h1 (by simp)
    · exact (hpl r a cs' hr').2 s (some k) hs hq
  unfold without at hr
  rw [at_setAt_apart root q r _ h1 h3, hr'] at hr
  cases hr
  refine ⟨(hpl r a cs hr').1, fun s b hs hb => ?_⟩
  exact (hpl r a cs hr').2 s b hs ((kindAt_without_iff root q _ hne _).1 hb).2

/-- The fix for an unknown attribute takes out its text, and then it is reported no longer; the other
unknown attributes still are. -/
theorem C101_unknown_fix (argRule : List Nat → List R) (groupRule : List (List Nat) → List R)
    (root : Src) (hpl : PlainAttrs root) (hroot : kindAt root [] = some .other) (q : List Nat)
    (h : q ∈ unknowns (generic argRule groupRule root [])) :
    applyEdit root.text (unknownFix root q) = some (without root q).text ∧
    ∀ r, r ∈ unknowns (generic argRule groupRule (without root q) []) ↔
      r ≠ q ∧ r ∈ unknowns (generic argRule groupRule root []) := by
  have hu := ((C101_unknown argRule groupRule root hpl hroot).1 q).1 h
  obtain ⟨k, hq⟩ : ∃ k, InkAttr root q k := by
    rcases hu with h | h
    · exact ⟨_, h⟩
    · exact ⟨_, h⟩
  obtain ⟨ds, hat⟩ := inkAttr_at root q k hq
  have hne : root.at? q ≠ none := by rw [hat]; simp
  have hnil : q ≠ [] := by
    rintro rfl
    unfold InkAttr at hq
    rw [hroot] at hq
    cases hq
  refine ⟨apply_remove root q hne, fun r => ?_⟩
  have hroot' : kindAt (without root q) [] = some .other := by
    rw [kindAt_without_iff root q [] hne]
    exact ⟨fun h => hnil (List.prefix_nil.1 h), hroot⟩
  rw [(C101_unknown argRule groupRule _ (plain_without root hpl q k hq) hroot').1 r,
    (C101_unknown argRule groupRule root hpl hroot).1 r]
  have key : ∀ k', InkAttr (without root q) r k' ↔ r ≠ q ∧ InkAttr root r k' := by
    intro k'
    unfold InkAttr
    rw [kindAt_without_iff root q r hne]
    constructor
    · rintro ⟨h1, h2⟩
      exact ⟨fun h => h1 (by rw [h]; exact List.prefix_refl q), h2⟩
    · rintro ⟨h1, h2⟩
      refine ⟨?_, h2⟩
      rintro ⟨s, rfl⟩
      exact (hpl q _ ds hat).2 s (some k') (by rintro rfl; simp at h1) h2
  rw [key, key]
  exact ⟨fun h => h.elim (fun h => ⟨h.1, .inl h.2⟩) (fun h => ⟨h.1, .inr h.2⟩),
    fun h => h.2.elim (fun h' => .inl ⟨h.1, h'⟩) (fun h' => .inr ⟨h.1, h'⟩)⟩

/-- The first fix for an item that an attribute is not for takes out the text of the attribute. If it
was the only one of its kind there, the item is not reported any longer. A further fix, which takes out
the item, is offered only for contracts that are no lists of items; then nothing is reported there. -/
theorem C101_fix (implements : List Nat → Bool) (v : Version) (root : Src) (k : AttrKind)
    (p : List Nat) (w : Wrong) (h : (k, p, w) ∈ wrongItems implements v root) :
    ∃ e es q, w.fixes = e :: es ∧ FirstAttr root k p q ∧
      applyEdit root.text e = some (without root q).text ∧
      ((∀ j, InkAttr root (p ++ [j]) k → p ++ [j] = q) →
        ∀ implements' v' w', (k, p, w') ∉ wrongItems implements' v' (without root q)) ∧
      (es ≠ [] ↔ k = .macro .contract ∧ kindAt root p ≠ some .list) ∧
      ∀ e' ∈ es, applyEdit root.text e' = some (without root p).text ∧
        ∀ implements' v' k' w' r, p <+: r →
          (k', r, w') ∉ wrongItems implements' v' (without root p) := by
  have hk : k ≠ .arg .topic := by
    rintro rfl
    have := ((mem_wrongItems implements v root _ p w).1 h).2
    cases this
  obtain ⟨hp, hr⟩ := (C101_wrong implements v root k p hk).1 ⟨w, h⟩
  have hm := carries_placed v root k p hp
  obtain ⟨q, hq, hf⟩ := wrong_fixes root k p w ((mem_wrongItems implements v root k p w).1 h).2 hm
  have hqat := first_at root k p q hq
  have hpat : root.at? p ≠ none := by
    obtain ⟨i, rfl, -⟩ := hq
    rw [at_append] at hqat
    intro h
    rw [h] at hqat
    exact hqat rfl
  have gone : ∀ root' k' r w' implements' v', (k', r, w') ∈ wrongItems implements' v' root' →
      Marked root' k' r := by
    intro root' k' r w' implements' v' h'
    have hk' : k' ≠ .arg .topic := by
      rintro rfl
      have := ((mem_wrongItems implements' v' root' _ r w').1 h').2
      cases this
    exact carries_placed v' root' k' r ((C101_wrong implements' v' root' k' r hk').1 ⟨w', h'⟩).1
  refine ⟨_, _, q, hf, hq, apply_remove root q hqat, ?_, ?_, ?_⟩
  · intro hall implements' v' w' h'
    obtain ⟨j, hj⟩ := gone _ _ _ _ _ _ h'
    obtain ⟨h1, h2⟩ := (kindAt_without_iff root q _ hqat _).1 hj
    exact h1 (by rw [hall j h2]; exact List.prefix_refl q)
  · split
    · simp_all
    · simp_all
  · intro e' he'
    split at he'
    · rw [List.mem_singleton] at he'
      subst he'
      refine ⟨apply_remove root p hpat, fun implements' v' k' w' r hpr h' => ?_⟩
      obtain ⟨j, hj⟩ := gone _ _ _ _ _ _ h'
      exact ((kindAt_without_iff root p _ hpat _).1 hj).1 (hpr.trans (List.prefix_append _ _))
    · cases he'

/-! ## Examples -/

/-- An ink! attribute. -/
def exAttr (k : AttrKind) (t : String) : Src := .node (.attr (some k)) [.tok false t.toList]

/-- A contract with a function that is annotated as storage, and with an attribute that ink! does not
have. -/
def exWrong : Src := exModule
  [.node (.item .fn) [exAttr (.arg .storage) "#[ink(storage)]", .tok true [' '],
     exAttr (.arg .unknown) "#[ink(xyz)]", .tok true [' '], .tok false "fn f() {}".toList],
   .node (.item .struct) [exAttr (.arg .storage) "#[ink(storage)]", .tok true [' '],
     .tok false "pub struct A {}".toList]]

/-- The attributes of the tree have text and contain no other attributes, as a test. -/
def plainAttrs : Src → Bool
  | .tok _ _ => true
  | .node (.attr _) cs => !(texts cs).isEmpty && cs.all fun c => match c with
    | .tok _ _ => true
    | .node _ _ => false
  | .node _ cs => plainAll cs
where
  plainAll : List Src → Bool
    | [] => true
    | c :: cs => plainAttrs c && plainAll cs

theorem plain_of (root : Src) (h : plainAttrs root = true) : PlainAttrs root := by
  intro q a cs hq
  induction q generalizing root with
  | nil =>
    cases hq
    simp only [plainAttrs, Bool.and_eq_true, Bool.not_eq_true', List.isEmpty_eq_false_iff,
      List.all_eq_true] at h
    refine ⟨h.1, fun r b hr hb => ?_⟩
    cases r with
    | nil => exact hr rfl
    | cons i r =>
      rw [List.nil_append, kindAt_child] at hb
      obtain ⟨c, hc, hb⟩ := Option.bind_eq_some_iff.1 hb
      have := h.2 c (List.mem_of_getElem? hc)
      cases c with
      | tok w t => cases r <;> cases hb
      | node k ds => cases this
  | cons i q ih =>
    rw [Src.at?] at hq
    obtain ⟨c, hc, hq'⟩ := Option.bind_eq_some_iff.1 hq
    clear hq
    have hall : ∀ cs : List Src, plainAttrs.plainAll cs = true → ∀ c ∈ cs, plainAttrs c = true := by
      intro cs
      induction cs with
      | nil => simp
      | cons d cs ih =>
        intro h c hc
        simp only [plainAttrs.plainAll, Bool.and_eq_true] at h
        rcases List.mem_cons.1 hc with rfl | hc
        · exact h.1
        · exact ih h.2 c hc
    cases root with
    | tok w t => cases i <;> cases hc
    | node k ds =>
      cases k with
      | attr b =>
        simp only [plainAttrs, Bool.and_eq_true, List.all_eq_true] at h
        have := h.2 c (List.mem_of_getElem? hc)
        cases c with
        | tok w t => cases q <;> cases hq'
        | node k es => cases this
      | _ =>
        obtain ⟨h1, h2⟩ := ih c (hall ds h c (List.mem_of_getElem? hc)) hq'
        refine ⟨h1, fun r b hr hb => h2 r b hr ?_⟩
        rw [List.cons_append, kindAt_child, hc] at hb
        exact hb

example : PlainAttrs exWrong ∧ kindAt exWrong [] = some .other ∧
    unknowns (generic (R := Nat) (fun _ => [1]) (fun l => [l.length]) exWrong []) = [[0, 3, 2, 2]] ∧
    argsOn [0, 3, 2, 0] (generic (R := Nat) (fun _ => [1]) (fun l => [l.length]) exWrong []) = [1] ∧
    groupOn [0, 3, 2] (generic (R := Nat) (fun _ => [1]) (fun l => [l.length]) exWrong []) = [2] ∧
    groupOn [0, 3] (generic (R := Nat) (fun _ => [1]) (fun l => [l.length]) exWrong []) = [] ∧
    Bare exWrong [0, 3] ∧ AttrsOf exWrong [0, 3, 2] [[0, 3, 2, 0], [0, 3, 2, 2]] := by
  refine ⟨plain_of _ (by decide), by decide, by decide, by decide, by decide, by decide, ?_, ?_⟩
  · intro k
    rw [← carries_iff]
    rintro ⟨i, a, h, -⟩
    rw [inkAt_iff] at h
    match i, h with
    | 0, h => cases h
    | 1, h => cases h
    | 2, h => cases h
    | 3, h => cases h
    | 4, h => cases h
    | 5, h => cases h
    | _ + 6, h => cases h
  · have := attrsOf_own exWrong [0, 3, 2]
    rwa [show ownAttrs exWrong [0, 3, 2] = [[0, 3, 2, 0], [0, 3, 2, 2]] by decide] at this

/-- The function is reported and the first fix takes out the attribute; the struct is not reported. -/
example : (wrongItems exNoTrait .v5 exWrong).map (fun e => (e.1, e.2.1)) =
      [(.arg .storage, [0, 3, 2])] ∧
    ((wrongItem exWrong (.arg .storage) [0, 3, 2]).bind (·.fixes.head?)).bind
      (applyEdit exWrong.text) = some "#[ink::contract]
mod c {
     #[ink(xyz)] fn f() {}#[ink(storage)] pub struct A {}
}".toList ∧
    wrongItems exNoTrait .v5 (without exWrong [0, 3, 2, 0]) = [] ∧
    applyEdit exWrong.text (unknownFix exWrong [0, 3, 2, 2]) = some "#[ink::contract]
mod c {
    #[ink(storage)]  fn f() {}#[ink(storage)] pub struct A {}
}".toList := by
  refine ⟨by decide, by decide +kernel, by decide, by decide +kernel⟩

/-- A function that is annotated as a contract: both fixes are there. -/
def exFnContract : Src := .node .other [.node (.item .fn) [
  exAttr (.macro .contract) "#[ink::contract]", .tok true [' '], .tok false "fn f() {}".toList]]

example : ((wrongItems exNoTrait .v5 exFnContract).map fun e =>
    (e.1, e.2.1, e.2.2.fixes.map (applyEdit exFnContract.text))) =
      [(.macro .contract, [0], [some " fn f() {}".toList, some []])] := by
  decide +kernel

/-- If the attribute is given twice, applying the fix leaves the item reported. -/
theorem C101_negation_twice : ∃ root q, (∃ w, (AttrKind.arg .storage, [0, 3, 2], w) ∈
      wrongItems exNoTrait .v5 root) ∧ FirstAttr root (.arg .storage) [0, 3, 2] q ∧
    ∃ w, (AttrKind.arg .storage, [0, 3, 2], w) ∈ wrongItems exNoTrait .v5 (without root q) := by
  have h : ∀ root : Src, (wrongItems exNoTrait .v5 root).any
      (fun e => e.1 == .arg .storage && e.2.1 == [0, 3, 2]) = true →
      ∃ w, (AttrKind.arg .storage, [0, 3, 2], w) ∈ wrongItems exNoTrait .v5 root := by
    intro root h
    obtain ⟨⟨k, p, w⟩, hm, h⟩ := List.any_eq_true.1 h
    simp only [Bool.and_eq_true, beq_iff_eq] at h
    obtain ⟨rfl, rfl⟩ := h
    exact ⟨w, hm⟩
  refine ⟨exModule [.node (.item .fn) [exAttr (.arg .storage) "#[ink(storage)]", .tok true [' '],
    exAttr (.arg .storage) "#[ink(storage)]", .tok true [' '], .tok false "fn f() {}".toList]],
    [0, 3, 2, 0], h _ (by decide), (inkAttr_iff _ _ _ _).1 (by decide), h _ (by decide)⟩

end Verif.Analyzer.Generic
