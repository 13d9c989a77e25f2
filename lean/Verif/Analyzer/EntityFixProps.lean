import Verif.Analyzer.EntityFixLemmas
import Verif.Analyzer.RemoveReadProps

/-!
# C111: applying the quickfixes for the attributes of one item

The reports are those of C37 (repeated attributes and arguments), C43 (conflicts) and C71 (order,
completeness and what ink! 5 changed). Here: what their quickfixes leave of the item, that applying
them in any order comes to an end, with nothing left to report, and what they keep.
-/

namespace Verif.Analyzer.EntityFix

open Verif.Ir Verif.Analyzer

/-! ## Specification -/

/-- `next` is `item` without argument `q.2` of attribute `q.1`: the other arguments stay, a macro
loses its parentheses with its only argument, any other attribute goes away with it. -/
def DropArg (item : List Written) (q : Nat × Nat) (next : List Written) : Prop :=
  ∃ pre f as k bs post, item = pre ++ ⟨f, as ++ k :: bs⟩ :: post ∧ q = (pre.length, as.length) ∧
    (((as ++ bs ≠ [] ∨ ∃ m, f = .path m) ∧ next = pre ++ ⟨f, as ++ bs⟩ :: post) ∨
      ((as ++ bs = [] ∧ ∃ t, f = .ink t) ∧ next = pre ++ post))

/-- `next` is `item` without attribute `i`. -/
def DropAttr (item : List Written) (i : Nat) (next : List Written) : Prop :=
  ∃ pre w post, item = pre ++ w :: post ∧ i = pre.length ∧ next = pre ++ post

/-- What the quickfix for a repeated attribute or argument does: it goes. -/
def Undoubles (item : List Written) : DupDiag → List Written → Prop
  | .macro i, next => DropAttr item i next
  | .arg q, next => DropArg item q next

/-- What the quickfixes for the other reports do, if the main attribute has kind `P`. -/
def Mends (v : Version) (P : AttrKind) (item : List Written) : EntityDiag → List Written → Prop
  -- The argument goes.
  | .anonymousSignature q, next | .deprecatedAdditional q, next | .deprecatedKeepAttr q, next
  | .conflictArg q, next => DropArg item q next
  -- `extension` is added in front.
  | .missingExtension i, next => ∃ pre m as post, item = pre ++ ⟨.path m, as⟩ :: post ∧
      i = pre.length ∧ next = pre ++ ⟨.path m, .extension :: as⟩ :: post
  -- `extension` becomes `function`.
  | .deprecatedExtension q, next => ∃ pre f as bs post,
      item = pre ++ ⟨f, as ++ .extension :: bs⟩ :: post ∧ q = (pre.length, as.length) ∧
      next = pre ++ ⟨f, as ++ .function :: bs⟩ :: post
  -- The attribute moves to the front.
  | .notFirst i, next => ∃ pre w post, item = pre ++ w :: post ∧ i = pre.length ∧
      next = w :: (pre ++ post)
  -- The first argument of the attribute's kind moves to the front.
  | .argNotFirst i, next => ∃ pre f as k bs post, item = pre ++ ⟨f, as ++ k :: bs⟩ :: post ∧
      i = pre.length ∧ P = .arg k ∧ k ∉ as ∧ next = pre ++ ⟨f, k :: (as ++ bs)⟩ :: post
  -- A suggested argument is added in front, or the attribute becomes a suggested macro.
  | .needsPrimary i, next => ∃ pre t as post, item = pre ++ ⟨.ink t, as⟩ :: post ∧
      i = pre.length ∧ ((∃ k, .arg k ∈ primarySuggestions P v ∧
          next = pre ++ ⟨.ink true, k :: as⟩ :: post) ∨
        ∃ m, .macro m ∈ primarySuggestions P v ∧ next = pre ++ ⟨.path m, as⟩ :: post)
  -- Beside a macro, the attribute goes, and so does a macro. Otherwise the arguments that do not
  -- fit go, and the attribute with its last argument.
  | .conflictAttr i, next => ∃ pre w post, item = pre ++ w :: post ∧ i = pre.length ∧
      ((((∃ m, P = .macro m) ∨ (∃ m, w.kind = .macro m) ∨ ∀ k ∈ w.args, k ∉ validSiblings P v) ∧
          next = pre ++ post) ∨
        (((∃ k, P = .arg k) ∧ (∃ k, w.kind = .arg k) ∧ ∃ k ∈ w.args, k ∈ validSiblings P v) ∧
          next = pre ++ ⟨w.form, w.args.filter (· ∈ validSiblings P v)⟩ :: post))

/-- Applying one of the offered quickfixes for one of the reports turns `item` into `next`. -/
def Step (v : Version) (c : Bool) (item next : List Written) : Prop :=
  (∃ d ∈ duplicates (item.map Written.view), Undoubles item d next) ∨
  ∃ p P, IsPrimary (item.map Written.view) p P ∧
    ∃ d ∈ validateEntity v c (item.map Written.view), Mends v P.kind item d next

/-- Applying `n` quickfixes, one after the other. -/
inductive Steps (v : Version) (c : Bool) : Nat → List Written → List Written → Prop
  | done (item) : Steps v c 0 item item
  | step {n item mid next} : Step v c item mid → Steps v c n mid next → Steps v c (n + 1) item next

/-- The number of arguments of an item. -/
def argCount (item : List Written) : Nat := (item.map fun w => w.args.length).sum

/-- Attributes with an unknown macro (which have a report of their own) have no arguments. -/
def Plain (item : List Written) : Prop :=
  ∀ w ∈ item, w.kind = .macro .unknown → w.args = []

/-! ## The modelled quickfixes are the specified ones -/

theorem length_one_iff {as bs : List ArgKind} {k : ArgKind} :
    (as ++ k :: bs).length = 1 ↔ as ++ bs = [] := by
  simp only [List.length_append, List.length_cons, List.append_eq_nil_iff, ← List.length_eq_zero_iff]
  omega

theorem removeArg_iff {item next : List Written} {q : Nat × Nat} {k : ArgKind}
    (h : ∃ w, item[q.1]? = some w ∧ w.args[q.2]? = some k) :
    next = removeArg item q ↔ DropArg item q next := by
  obtain ⟨⟨f, l⟩, h1, h2⟩ := h
  obtain ⟨i, j⟩ := q
  obtain ⟨pre, post, rfl, hi⟩ := at_split.1 h1
  obtain ⟨as, bs, hl, hj⟩ := at_split.1 h2
  dsimp only at hl hj hi
  subst hl hj hi
  have hr : removeArg (pre ++ ⟨f, as ++ k :: bs⟩ :: post) (pre.length, as.length) =
      if as ++ bs = [] ∧ ∃ t, f = .ink t then pre ++ post else pre ++ ⟨f, as ++ bs⟩ :: post := by
    unfold removeArg
    rw [h1]
    dsimp only
    by_cases hn : as ++ bs = []
    · rw [if_pos (length_one_iff.2 hn)]
      obtain ⟨rfl, rfl⟩ := List.append_eq_nil_iff.1 hn
      cases f with
      | path m =>
        rw [if_neg (by rintro ⟨-, t, ht⟩; exact absurd ht (by simp))]
        simp [Written.kind]
      | ink t =>
        rw [if_pos ⟨rfl, t, rfl⟩]
        obtain ⟨k', -, he⟩ := ink_kind_exists t (l := [] ++ k :: []) (by simp)
        rw [he]
        exact erase_split _ _ _
    · rw [if_neg (fun e => hn (length_one_iff.1 e)), if_neg (fun e => hn e.1), set_split,
        erase_split]
  rw [hr]
  constructor
  · intro he
    refine ⟨pre, f, as, k, bs, post, rfl, rfl, ?_⟩
    split at he
    · rename_i hc
      exact .inr ⟨hc, he⟩
    · rename_i hc
      refine .inl ⟨?_, he⟩
      by_cases hn : as ++ bs = []
      · right
        cases f with
        | path m => exact ⟨m, rfl⟩
        | ink t => exact absurd ⟨hn, t, rfl⟩ hc
      · exact .inl hn
  · rintro ⟨pre', f', as', k', bs', post', he, hq, h⟩
    simp only [Prod.mk.injEq] at hq
    obtain ⟨rfl, hw, rfl⟩ := split_unique he hq.1
    injection hw with hf hw
    subst hf
    obtain ⟨rfl, rfl, rfl⟩ := split_unique hw hq.2
    rcases h with ⟨hc, hx⟩ | ⟨hc, hx⟩
    · rw [if_neg, hx]
      rintro ⟨hn, t, rfl⟩
      rcases hc with hc | ⟨m, hc⟩
      · exact hc hn
      · exact absurd hc (by simp)
    · rw [if_pos hc, hx]

theorem removeAttr_iff {item next : List Written} {i : Nat} (h : i < item.length) :
    next = removeAttr item i ↔ DropAttr item i next := by
  obtain ⟨w, hw⟩ : ∃ w, item[i]? = some w := ⟨item[i], by simp [h]⟩
  obtain ⟨pre, post, rfl, rfl⟩ := at_split.1 hw
  unfold removeAttr
  rw [erase_split]
  constructor
  · intro he
    exact ⟨pre, w, post, rfl, rfl, he⟩
  · rintro ⟨pre', w', post', he, hl, rfl⟩
    obtain ⟨rfl, rfl, rfl⟩ := split_unique he hl
    rfl

theorem argAt_view {item : List Written} {i j : Nat} {k : ArgKind} :
    ArgAt (item.map Written.view) i j k ↔ ∃ w, item[i]? = some w ∧ w.args[j]? = some k := by
  unfold ArgAt
  rw [List.getElem?_map]
  constructor
  · rintro ⟨a, h1, h2⟩
    obtain ⟨w, hw, rfl⟩ := Option.map_eq_some_iff.1 h1
    exact ⟨w, hw, h2⟩
  · rintro ⟨w, h1, h2⟩
    exact ⟨w.view, by rw [h1]; rfl, h2⟩

theorem macroAt_view {item : List Written} {i : Nat} {m : MacroKind} :
    MacroAt (item.map Written.view) i m ↔ ∃ w, item[i]? = some w ∧ w.kind = .macro m := by
  unfold MacroAt
  rw [List.getElem?_map]
  constructor
  · rintro ⟨a, h1, h2⟩
    obtain ⟨w, hw, rfl⟩ := Option.map_eq_some_iff.1 h1
    exact ⟨w, hw, h2⟩
  · rintro ⟨w, h1, h2⟩
    exact ⟨w.view, by rw [h1]; rfl, h2⟩

theorem dupFixes_iff {item next : List Written} {d : DupDiag}
    (hd : d ∈ duplicates (item.map Written.view)) :
    next ∈ dupFixes item d ↔ Undoubles item d next := by
  cases d with
  | «macro» i =>
    obtain ⟨m, hm, -⟩ := (C37_macros _ _).1 hd
    obtain ⟨w, hw, -⟩ := macroAt_view.1 hm
    simp only [dupFixes, List.mem_singleton, Undoubles]
    exact removeAttr_iff (List.getElem?_eq_some_iff.1 hw).1
  | arg q =>
    obtain ⟨k, hk, -⟩ := (C37_args _ q.1 q.2).1 hd
    simp only [dupFixes, List.mem_singleton, Undoubles]
    exact removeArg_iff (argAt_view.1 hk)

theorem not_deprecated_of_order {v : Version} {c : Bool} {attrs : List AttrV} {P : AttrV} {p : Nat}
    (h : IsPrimary attrs p P) (hw : P.Wf) {d : EntityDiag}
    (hd : d ∈ validateEntity v c attrs) (ho : d.isVersioned = false) :
    ¬ DeprecatedPrimary v c P.kind := by
  intro hdep
  rw [validateEntity_eq v c attrs P p ((C43_primary attrs P p).2 h),
    if_pos ((bail_iff v c attrs P p h hw).2 hdep)] at hd
  unfold preChecks at hd
  split at hd
  · rw [v5Checks_isVersioned _ _ _ _ d hd] at ho
    exact absurd ho (by decide)
  · exact absurd hd (by simp)

theorem first_split {l : List ArgKind} {k : ArgKind} (h : k ∈ l) :
    ∃ as bs, l = as ++ k :: bs ∧ k ∉ as ∧ l.findIdx? (· == k) = some as.length := by
  obtain ⟨as, bs, rfl, hn⟩ := List.eq_append_cons_of_mem h
  refine ⟨as, bs, rfl, hn, ?_⟩
  clear h
  induction as with
  | nil => simp [List.findIdx?_cons]
  | cons x xs ih =>
    rw [List.cons_append, List.findIdx?_cons, if_neg]
    · rw [ih (fun e => hn (List.mem_cons_of_mem _ e))]; rfl
    · intro e
      have : x = k := by simpa using e
      exact hn (this ▸ List.mem_cons_self)

theorem split_first_unique {as bs as' bs' : List ArgKind} {k : ArgKind}
    (h : as ++ k :: bs = as' ++ k :: bs') (hn : k ∉ as) (hn' : k ∉ as') : as = as' ∧ bs = bs' := by
  induction as generalizing as' with
  | nil =>
    cases as' with
    | nil => simpa using h
    | cons y ys =>
      rw [List.nil_append, List.cons_append] at h
      injection h with h1 h2
      exact absurd (h1 ▸ List.mem_cons_self) hn'
  | cons x xs ih =>
    cases as' with
    | nil =>
      rw [List.nil_append, List.cons_append] at h
      injection h with h1 h2
      exact absurd (h1 ▸ List.mem_cons_self) hn
    | cons y ys =>
      rw [List.cons_append, List.cons_append] at h
      injection h with h1 h2
      obtain ⟨rfl, rfl⟩ := ih h2 (fun e => hn (List.mem_cons_of_mem _ e))
        (fun e => hn' (List.mem_cons_of_mem _ e))
      exact ⟨by rw [h1], rfl⟩

theorem conflictArg_at {v : Version} {c : Bool} {attrs : List AttrV} {P : AttrV} {p : Nat}
    (h : IsPrimary attrs p P) {i j : Nat}
    (hd : EntityDiag.conflictArg (i, j) ∈ validateEntity v c attrs) :
    ∃ a k, attrs[i]? = some a ∧ a.args[j]? = some k ∧ a.kind ≠ .arg k ∧
      k ∉ validSiblings P.kind v := by
  obtain ⟨-, i', a, ha', hm⟩ := (conflict_mem v c attrs P p ((C43_primary _ _ _).2 h) _ rfl).1 hd
  obtain ⟨rfl, -, k, hk', h1, h2, -⟩ := (conflictArg_mem _ _ _ _ _ _ _).1 hm
  exact ⟨a, k, ha', hk', h1, h2⟩

theorem conflictAttr_at {v : Version} {c : Bool} {attrs : List AttrV} {P : AttrV} {p : Nat}
    (h : IsPrimary attrs p P) {i : Nat}
    (hd : EntityDiag.conflictAttr i ∈ validateEntity v c attrs) :
    ∃ a, attrs[i]? = some a ∧ i ≠ p ∧ isValidSiblingAttr v P.kind a.kind = false := by
  obtain ⟨-, i', a, ha', hm⟩ := (conflict_mem v c attrs P p ((C43_primary _ _ _).2 h) _ rfl).1 hd
  obtain ⟨rfl, h1, -, h3⟩ := (conflictAttr_mem _ _ _ _ _ _).1 hm
  exact ⟨a, ha', h1, h3⟩

theorem argAt_of_first {item : List Written} {k : ArgKind} {q : Nat × Nat}
    (h : FirstArgAt (item.map Written.view) k q) :
    ∃ w, item[q.1]? = some w ∧ w.args[q.2]? = some k :=
  argAt_view.1 h.1

theorem ink_of_arg {w : Written} {k : ArgKind} (h : w.kind = .arg k) : ∃ t, w.form = .ink t := by
  obtain ⟨f, l⟩ := w
  cases f with
  | path m => exact absurd h (by simp [Written.kind])
  | ink t => exact ⟨t, rfl⟩

theorem path_of_macro {w : Written} {m : MacroKind} (h : w.kind = .macro m) (hm : m ≠ .unknown) :
    w.form = .path m := by
  obtain ⟨f, l⟩ := w
  cases f with
  | path m' =>
    have : AttrKind.macro m' = .macro m := h
    injection this with this
    rw [this]
  | ink t =>
    by_cases hl : l = []
    · subst hl
      cases t
      · have : AttrKind.macro .unknown = .macro m := h
        injection this with this
        exact absurd this.symm hm
      · exact absurd h (by simp [Written.kind, Util.sortBy])
    · obtain ⟨k, -, he⟩ := ink_kind_exists t hl
      rw [he] at h
      exact absurd h (by simp)

theorem filter_all {l : List ArgKind} {p : ArgKind → Bool} :
    (l.filter fun k => !p k).length = l.length ↔ ∀ k ∈ l, p k = false := by
  rw [List.length_filter_eq_length_iff]
  simp

theorem entityFixes_iff {v : Version} {c : Bool} {item next : List Written} {p : Nat} {P : AttrV}
    {d : EntityDiag} (h : IsPrimary (item.map Written.view) p P)
    (hd : d ∈ validateEntity v c (item.map Written.view)) :
    next ∈ entityFixes v P.kind item d ↔ Mends v P.kind item d next := by
  obtain ⟨V1, V2, V3, V4, V5⟩ := C71_versioned v c _ P p h
  obtain ⟨pre, w, post, rfl, rfl, rfl, hmain⟩ := main_of_primary h
  have hat : (pre ++ w :: post)[pre.length]? = some w := by simp
  cases d with
  | anonymousSignature q =>
    obtain ⟨-, -, a, s, ha, hs, hq⟩ := (V1 q).1 hd
    simp only [entityFixes, List.mem_singleton, Mends]
    rcases hq with ⟨rfl, -⟩ | ⟨rfl, -⟩
    · exact removeArg_iff (argAt_of_first hs)
    · exact removeArg_iff (argAt_of_first ha)
  | deprecatedAdditional q =>
    obtain ⟨-, -, hq⟩ := (V4 q).1 hd
    simp only [entityFixes, List.mem_singleton, Mends]
    exact removeArg_iff (argAt_of_first hq)
  | deprecatedKeepAttr q =>
    obtain ⟨-, -, hq⟩ := (V5 q).1 hd
    simp only [entityFixes, List.mem_singleton, Mends]
    exact removeArg_iff (argAt_of_first hq)
  | conflictArg q =>
    obtain ⟨i, j⟩ := q
    obtain ⟨a, k, ha, hk, -⟩ := conflictArg_at h hd
    simp only [entityFixes, List.mem_singleton, Mends]
    exact removeArg_iff (argAt_view.1 ⟨a, ha, hk⟩)
  | missingExtension i =>
    obtain ⟨-, rfl, hk, -⟩ := (V2 i).1 hd
    have hf := path_of_macro hk (by decide)
    obtain ⟨f, l⟩ := w
    dsimp only at hf
    subst hf
    simp only [entityFixes, Mends, hat, Option.toList_some, List.map_cons, List.map_nil,
      List.mem_singleton, insertFirst, set_split]
    constructor
    · intro he
      exact ⟨pre, _, l, post, rfl, rfl, he⟩
    · rintro ⟨pre', m, as, post', he, hl, rfl⟩
      obtain ⟨rfl, hw, rfl⟩ := split_unique he hl
      injection hw with h1 h2
      rw [h1, h2]
  | deprecatedExtension q =>
    obtain ⟨-, -, -, hq⟩ := (V3 q).1 hd
    obtain ⟨⟨f, l⟩, h1, h2⟩ := argAt_of_first hq
    obtain ⟨i, j⟩ := q
    obtain ⟨pre', post', he, rfl⟩ := at_split.1 h1
    obtain ⟨as, bs, hl, hj⟩ := at_split.1 h2
    dsimp only at hl hj
    subst hl hj
    simp only [entityFixes, Mends, h1, Option.toList_some, List.map_cons, List.map_nil,
      List.mem_singleton]
    simp only [he, set_split]
    constructor
    · intro he
      exact ⟨pre', f, as, bs, post', rfl, rfl, he⟩
    · rintro ⟨pre2, f2, as2, bs2, post2, he2, hl, rfl⟩
      simp only [Prod.mk.injEq] at hl
      obtain ⟨rfl, hw, rfl⟩ := split_unique he2 hl.1
      injection hw with h3 h4
      obtain ⟨rfl, -, rfl⟩ := split_unique h4 hl.2
      rw [h3]
  | notFirst i =>
    have hnd := not_deprecated_of_order h (wf_view w) hd rfl
    obtain ⟨rfl, -⟩ := ((C71_order v c _ _ _ h (wf_view w) hnd).1 i).1 hd
    simp only [entityFixes, Mends, hat, Option.toList_some, List.map_cons, List.map_nil,
      List.mem_singleton, erase_split]
    constructor
    · intro he
      exact ⟨pre, w, post, rfl, rfl, he⟩
    · rintro ⟨pre', w', post', he, hl, rfl⟩
      obtain ⟨rfl, rfl, rfl⟩ := split_unique he hl
      rfl
  | argNotFirst i =>
    have hnd := not_deprecated_of_order h (wf_view w) hd rfl
    obtain ⟨rfl, -, k, hk, -⟩ := ((C71_order v c _ _ _ h (wf_view w) hnd).2.1 i).1 hd
    have hu : k ≠ .unknown := fun e => h.known.2 (by rw [hk, e])
    obtain ⟨as, bs, hl, hn, hfi⟩ := first_split (wf_view w k hk hu)
    obtain ⟨f, l⟩ := w
    have hk' : Written.kind ⟨f, l⟩ = .arg k := hk
    have hl : l = as ++ k :: bs := hl
    have hfi : l.findIdx? (· == k) = some as.length := hfi
    simp only [entityFixes, Mends, hat, Option.toList_some, List.flatMap_cons, List.flatMap_nil,
      List.append_nil, hk', moveArgFirst, hfi, List.map_cons, List.map_nil, List.mem_singleton,
      set_split]
    subst hl
    rw [erase_split]
    constructor
    · intro he
      exact ⟨pre, f, as, k, bs, post, rfl, rfl, hk, hn, he⟩
    · rintro ⟨pre', f', as', k', bs', post', he, hl, hP, hn', rfl⟩
      obtain ⟨rfl, hw, rfl⟩ := split_unique he hl
      have hkk : AttrKind.arg k = .arg k' := hk'.symm.trans hP
      injection hkk with hkk
      subst hkk
      injection hw with h1 h2
      obtain ⟨rfl, rfl⟩ := split_first_unique h2 hn hn'
      rw [h1]
  | needsPrimary i =>
    have hnd := not_deprecated_of_order h (wf_view w) hd rfl
    obtain ⟨rfl, hq, -⟩ := ((C71_order v c _ _ _ h (wf_view w) hnd).2.2 i).1 hd
    obtain ⟨a, -, hka⟩ := hq
    have hka : w.kind = .arg a := hka
    obtain ⟨t, hf⟩ := ink_of_arg hka
    obtain ⟨f, l⟩ := w
    dsimp only at hf
    subst hf
    simp only [entityFixes, Mends, hat, Option.toList_some, List.flatMap_cons, List.flatMap_nil,
      List.append_nil, List.mem_map]
    constructor
    · rintro ⟨s, hs, rfl⟩
      refine ⟨pre, t, l, post, rfl, rfl, ?_⟩
      cases s with
      | arg k => exact .inl ⟨k, hs, by simp [primaryFix, insertFirst]⟩
      | «macro» m => exact .inr ⟨m, hs, by simp [primaryFix, hka]⟩
    · rintro ⟨pre', t', as', post', he, hl, hx⟩
      obtain ⟨rfl, hw, rfl⟩ := split_unique he hl
      injection hw with h1 h2
      subst h2
      rcases hx with ⟨k, hs, rfl⟩ | ⟨m, hs, rfl⟩
      · exact ⟨_, hs, by simp [primaryFix, insertFirst]⟩
      · exact ⟨_, hs, by simp [primaryFix, hka]⟩
  | conflictAttr i =>
    obtain ⟨a, ha, -⟩ := conflictAttr_at h hd
    rw [List.getElem?_map] at ha
    obtain ⟨x, hx, rfl⟩ := Option.map_eq_some_iff.1 ha
    obtain ⟨pre', post', he, rfl⟩ := at_split.1 hx
    simp only [entityFixes, Mends, hx, Option.toList_some, List.map_cons, List.map_nil,
      List.mem_singleton]
    simp only [he]
    classical
    have hc : conflictFix v w.kind (pre' ++ x :: post') x pre'.length =
        if (∃ k, w.kind = .arg k) ∧ (∃ k, x.kind = .arg k) ∧
            ∃ k ∈ x.args, k ∈ validSiblings w.kind v then
          pre' ++ ⟨x.form, x.args.filter (· ∈ validSiblings w.kind v)⟩ :: post'
        else pre' ++ post' := by
      unfold conflictFix removeAttr
      rw [erase_split, set_split]
      split
      · rename_i e1 e2
        by_cases hall : ∀ k ∈ x.args, k ∉ validSiblings w.kind v
        · rw [if_pos (filter_all.2 (by simpa [e1] using hall)), if_neg]
          rintro ⟨-, -, k, hk1, hk2⟩
          exact hall k hk1 hk2
        · rw [if_neg (fun e => hall (by simpa [e1] using filter_all.1 e)), if_pos, e1]
          refine ⟨⟨_, e1⟩, ⟨_, e2⟩, ?_⟩
          exact Classical.byContradiction fun hno => hall fun k h1 h2 => hno ⟨k, h1, h2⟩
      · rename_i hno
        rw [if_neg]
        rintro ⟨⟨k, hk⟩, ⟨k', hk'⟩, -⟩
        exact hno k k' hk hk'
    have hv : (w.view).kind = w.kind := rfl
    rw [hv, hc]
    have hmac : ∀ κ : AttrKind, (∃ m, κ = .macro m) ∨ ∃ k, κ = .arg k := by
      intro κ; cases κ with
      | «macro» m => exact .inl ⟨m, rfl⟩
      | arg k => exact .inr ⟨k, rfl⟩
    constructor
    · intro hx
      refine ⟨pre', x, post', rfl, rfl, ?_⟩
      split at hx
      · rename_i hc; exact .inr ⟨hc, hx⟩
      · rename_i hc
        refine .inl ⟨?_, hx⟩
        rcases hmac w.kind with h1 | h1
        · exact .inl h1
        · rcases hmac x.kind with h2 | h2
          · exact .inr (.inl h2)
          · exact .inr (.inr fun k h3 h4 => hc ⟨h1, h2, k, h3, h4⟩)
    · rintro ⟨pre2, x2, post2, he2, hl, hx2⟩
      obtain ⟨rfl, rfl, rfl⟩ := split_unique he2 hl
      rcases hx2 with ⟨hc, rfl⟩ | ⟨hc, rfl⟩
      · rw [if_neg]
        rintro ⟨⟨k1, h1⟩, ⟨k2, h2⟩, k, h3, h4⟩
        rcases hc with ⟨m, hc⟩ | ⟨m, hc⟩ | hc
        · rw [h1] at hc; exact absurd hc (by simp)
        · rw [h2] at hc; exact absurd hc (by simp)
        · exact hc k h3 h4
      · rw [if_pos hc]

/-! ## What is left to do -/

/-- One if the proposition holds. -/
noncomputable def ind (p : Prop) : Nat := by
  classical exact if p then 1 else 0

theorem ind_le {p q : Prop} (h : p → q) : ind p ≤ ind q := by
  unfold ind
  split
  · rename_i hp; rw [if_pos (h hp)]; exact Nat.le_refl _
  · exact Nat.zero_le _

theorem ind_one {p : Prop} (h : p) : ind p = 1 := by unfold ind; exact if_pos h
theorem ind_zero {p : Prop} (h : ¬ p) : ind p = 0 := by unfold ind; exact if_neg h
theorem ind_le_one (p : Prop) : ind p ≤ 1 := by unfold ind; split <;> omega

/-- `extension` is still to be added or replaced (ink! 5). -/
def Extends (v : Version) (c : Bool) (P : AttrKind) (item : List Written) : Prop :=
  v = .v5 ∧ ((P = .arg .extension ∧ c = true) ∨
    (P = .macro .chainExtension ∧ ∀ a ∈ item, ArgKind.extension ∉ a.args))

/-- The argument that gives the attribute its kind is not the first one. -/
def Late (w : Written) : Prop := ∃ k, w.kind = .arg k ∧ w.args.head? ≠ some k

/-- Five for every attribute and three for every argument. -/
def weight (item : List Written) : Nat := 5 * item.length + 3 * argCount item

/-- What the main attribute adds. -/
noncomputable def extra (v : Version) (c : Bool) (pre : List Written) (w : Written)
    (post : List Written) : Nat :=
  8 * ind (attrPriority w.kind = 2) + 4 * ind (Extends v c w.kind (pre ++ w :: post)) +
    ind (pre ≠ []) + ind (Late w)

/-- A bound on the number of quickfixes. -/
def Pot (v : Version) (c : Bool) (item : List Written) (n : Nat) : Prop :=
  (∃ pre w post, item = pre ++ w :: post ∧ Main pre w post ∧
    n = weight item + extra v c pre w post) ∨
  ((∀ p P, ¬ IsPrimary (item.map Written.view) p P) ∧ n = weight item)

theorem argCount_append (a b : List Written) : argCount (a ++ b) = argCount a + argCount b := by
  simp [argCount]

theorem argCount_cons (w : Written) (a : List Written) :
    argCount (w :: a) = w.args.length + argCount a := by simp [argCount]

theorem pot_exists (v : Version) (c : Bool) (item : List Written) : ∃ n, Pot v c item n := by
  by_cases h : ∃ p P, IsPrimary (item.map Written.view) p P
  · obtain ⟨p, P, h⟩ := h
    obtain ⟨pre, w, post, he, -, -, hm⟩ := main_of_primary h
    exact ⟨_, .inl ⟨pre, w, post, he, hm, rfl⟩⟩
  · exact ⟨_, .inr ⟨fun p P hp => h ⟨p, P, hp⟩, rfl⟩⟩

theorem extra_le (v : Version) (c : Bool) (pre : List Written) (w : Written)
    (post : List Written) : extra v c pre w post ≤ 14 := by
  unfold extra
  have := ind_le_one (attrPriority w.kind = 2)
  have := ind_le_one (Extends v c w.kind (pre ++ w :: post))
  have := ind_le_one (pre ≠ [])
  have := ind_le_one (Late w)
  omega

theorem pot_le {v : Version} {c : Bool} {item : List Written} {n : Nat} (h : Pot v c item n) :
    n ≤ weight item + 14 := by
  rcases h with ⟨pre, w, post, -, -, rfl⟩ | ⟨-, rfl⟩
  · have := extra_le v c pre w post; omega
  · omega

theorem plain_shrink {f : Form} {l l' : List ArgKind} (hs : ∀ k ∈ l', k ∈ l)
    (h : Written.kind ⟨f, l⟩ = .macro .unknown → l = []) :
    Written.kind ⟨f, l'⟩ = .macro .unknown → l' = [] := by
  intro hk
  refine Classical.byContradiction fun hl => ?_
  cases f with
  | path m =>
    have := h hk
    subst this
    obtain ⟨x, hx⟩ := List.exists_mem_of_ne_nil _ hl
    exact absurd (hs x hx) (by simp)
  | ink t =>
    obtain ⟨k, -, he⟩ := ink_kind_exists t hl
    rw [he] at hk
    exact absurd hk (by simp)

/-- `R` is what is left of the attribute `a`: nothing, or the attribute with some of its arguments. -/
def Remains (a : Written) (R : List Written) : Prop :=
  R = [] ∨ ∃ l, R = [⟨a.form, l⟩] ∧ ∀ k ∈ l, k ∈ a.args

theorem remains_known {a : Written} {R : List Written} (h : Remains a R) :
    ∀ r ∈ R, Known r.kind → Known a.kind ∧ attrPriority a.kind ≤ attrPriority r.kind := by
  rcases h with rfl | ⟨l, rfl, hs⟩
  · intro r hr; exact absurd hr (by simp)
  · intro r hr hk
    rw [List.mem_singleton.1 hr] at hk ⊢
    exact kind_shrink (f := a.form) (l := a.args) hs hk

theorem remains_plain {P1 P2 R : List Written} {a : Written} (h : Remains a R)
    (hp : Plain (P1 ++ a :: P2)) : Plain (P1 ++ (R ++ P2)) := by
  intro w hw
  rcases List.mem_append.1 hw with hw | hw
  · exact hp w (List.mem_append_left _ hw)
  rcases List.mem_append.1 hw with hw | hw
  · rcases h with rfl | ⟨l, rfl, hs⟩
    · exact absurd hw (by simp)
    · rw [List.mem_singleton.1 hw]
      exact plain_shrink (l := a.args) hs (hp a (by simp))
  · exact hp w (List.mem_append_right _ (List.mem_cons_of_mem _ hw))

/-- Reducing an attribute other than the main one leaves the main one. -/
theorem others {pre post P1 P2 R : List Written} {w a : Written} (hm : Main pre w post)
    (he : pre ++ w :: post = P1 ++ a :: P2) (hl : P1.length ≠ pre.length) (hR : Remains a R) :
    ∃ pre' post', P1 ++ (R ++ P2) = pre' ++ w :: post' ∧ Main pre' w post' ∧
      (pre = [] → pre' = []) := by
  have hk := remains_known hR
  rcases Nat.lt_or_gt_of_ne hl with hlt | hgt
  · -- before the main attribute
    rcases List.append_eq_append_iff.1 he with ⟨X, h1, h2⟩ | ⟨X, h1, h2⟩
    · have := congrArg List.length h1
      simp only [List.length_append] at this
      omega
    · cases X with
      | nil =>
        have := congrArg List.length h1
        simp only [List.length_append, List.length_nil] at this
        omega
      | cons x X =>
        rw [List.cons_append] at h2
        injection h2 with h2 h3
        subst h2 h1 h3
        refine ⟨P1 ++ (R ++ X), post, by simp, ?_, fun e => absurd e (by simp)⟩
        refine main_keep hm ⟨hm.1, Nat.le_refl _⟩ (fun b hb hkb => ?_)
          (fun b hb hkb => ⟨b, List.mem_append_right _ hb, hkb, Nat.le_refl _⟩)
        rcases List.mem_append.1 hb with hb | hb
        · exact ⟨b, by simp [hb], hkb, Nat.le_refl _⟩
        rcases List.mem_append.1 hb with hb | hb
        · obtain ⟨h1, h2⟩ := hk b hb hkb
          exact ⟨a, by simp, h1, h2⟩
        · exact ⟨b, by simp [hb], hkb, Nat.le_refl _⟩
  · -- behind the main attribute
    rcases List.append_eq_append_iff.1 he with ⟨X, h1, h2⟩ | ⟨X, h1, h2⟩
    · cases X with
      | nil =>
        have := congrArg List.length h1
        simp only [List.length_append, List.length_nil] at this
        omega
      | cons x X =>
        rw [List.cons_append] at h2
        injection h2 with h2 h3
        subst h2 h1 h3
        refine ⟨pre, X ++ (R ++ P2), by simp, ?_, id⟩
        refine main_keep hm ⟨hm.1, Nat.le_refl _⟩
          (fun b hb hkb => ⟨b, hb, hkb, Nat.le_refl _⟩) (fun b hb hkb => ?_)
        rcases List.mem_append.1 hb with hb | hb
        · exact ⟨b, by simp [hb], hkb, Nat.le_refl _⟩
        rcases List.mem_append.1 hb with hb | hb
        · obtain ⟨h1, h2⟩ := hk b hb hkb
          exact ⟨a, by simp, h1, h2⟩
        · exact ⟨b, by simp [hb], hkb, Nat.le_refl _⟩
    · have := congrArg List.length h1
      simp only [List.length_append] at this
      omega

/-- The main attribute is kept, and less is left to do. -/
def Kept (v : Version) (c : Bool) (pre : List Written) (w : Written) (post next : List Written) :
    Prop :=
  ∃ pre' w' post', next = pre' ++ w' :: post' ∧ Main pre' w' post' ∧ w'.kind = w.kind ∧
    weight next + extra v c pre' w' post' <
      weight (pre ++ w :: post) + extra v c pre w post

theorem kept_others {v : Version} {c : Bool} {pre post P1 P2 R : List Written} {w a : Written}
    (hm : Main pre w post) (he : pre ++ w :: post = P1 ++ a :: P2) (hl : P1.length ≠ pre.length)
    (hR : Remains a R)
    (hw : R = [] ∨ (weight R < weight [a] ∧ (Extends v c w.kind (P1 ++ (R ++ P2)) →
      Extends v c w.kind (pre ++ w :: post)))) :
    Kept v c pre w post (P1 ++ (R ++ P2)) := by
  obtain ⟨pre', post', h1, h2, h3⟩ := others hm he hl hR
  refine ⟨pre', w, post', h1, h2, rfl, ?_⟩
  have hn : ind (pre' ≠ []) ≤ ind (pre ≠ []) := ind_le fun h e => h (h3 e)
  have e1 : weight (P1 ++ (R ++ P2)) = weight P1 + weight R + weight P2 := by
    simp only [weight, List.length_append, argCount_append]; omega
  have e2 : weight (pre ++ w :: post) = weight P1 + weight [a] + weight P2 := by
    rw [he]
    simp only [weight, List.length_append, argCount_append, argCount_cons, List.length_cons,
      List.length_nil]
    simp only [argCount, List.map_nil, List.sum_nil]; omega
  unfold extra
  rw [e1, e2, ← h1]
  rcases hw with rfl | ⟨hw, hx⟩
  · have h4 : weight [a] ≥ 5 := by simp only [weight, List.length_cons, List.length_nil]; omega
    have h5 : weight [] = 0 := rfl
    have h6 := ind_le_one (Extends v c w.kind (P1 ++ ([] ++ P2)))
    omega
  · have h7 := ind_le hx
    omega

theorem drop_remains {item next : List Written} {q : Nat × Nat} (h : DropArg item q next) :
    ∃ P1 f as k bs P2 R, item = P1 ++ ⟨f, as ++ k :: bs⟩ :: P2 ∧ q = (P1.length, as.length) ∧
      next = P1 ++ (R ++ P2) ∧ Remains ⟨f, as ++ k :: bs⟩ R ∧
      (R = [⟨f, as ++ bs⟩] ∨ (R = [] ∧ as ++ bs = [] ∧ ∃ t, f = .ink t)) := by
  obtain ⟨P1, f, as, k, bs, P2, rfl, rfl, h⟩ := h
  rcases h with ⟨-, rfl⟩ | ⟨hc, rfl⟩
  · refine ⟨P1, f, as, k, bs, P2, [⟨f, as ++ bs⟩], rfl, rfl, rfl, .inr ⟨_, rfl, ?_⟩, .inl rfl⟩
    intro x hx
    rcases List.mem_append.1 hx with hx | hx
    · simp [hx]
    · simp [hx]
  · exact ⟨P1, f, as, k, bs, P2, [], rfl, rfl, rfl, .inl rfl, .inr ⟨rfl, hc⟩⟩

theorem weight_remains {f : Form} {as bs : List ArgKind} {k : ArgKind} :
    weight [⟨f, as ++ bs⟩] + 3 = weight [⟨f, as ++ k :: bs⟩] := by
  simp only [weight, argCount_cons, List.length_append, List.length_cons, List.length_nil]
  omega

/-- Removing an argument that does not give the main attribute its kind. -/
theorem drop_kept {v : Version} {c : Bool} {pre post next : List Written} {w : Written}
    {q : Nat × Nat} {k : ArgKind} (hm : Main pre w post)
    (hk : ∃ a, (pre ++ w :: post)[q.1]? = some a ∧ a.args[q.2]? = some k)
    (hd : DropArg (pre ++ w :: post) q next)
    (h1 : q.1 = pre.length → w.kind ≠ .arg k ∨ k ∈ w.args.take q.2)
    (h2 : v = .v5 → w.kind = .macro .chainExtension → k = .extension →
      ∃ a ∈ next, ArgKind.extension ∈ a.args) :
    Kept v c pre w post next := by
  obtain ⟨P1, f, as, k', bs, P2, R, he, rfl, rfl, hR, hRR⟩ := drop_remains hd
  have hkk : k' = k := by
    obtain ⟨a, ha, hak⟩ := hk
    rw [he] at ha
    simp only [List.getElem?_append_right (Nat.le_refl _), Nat.sub_self, List.getElem?_cons_zero,
      Option.some.injEq] at ha
    subst ha
    simpa using hak
  subst hkk
  have hext : Extends v c w.kind (P1 ++ (R ++ P2)) → Extends v c w.kind (pre ++ w :: post) := by
    rintro ⟨hv, h | ⟨h, hno⟩⟩
    · exact ⟨hv, .inl h⟩
    · refine ⟨hv, .inr ⟨h, fun a ha hx => ?_⟩⟩
      rw [he] at ha
      by_cases hka : k' = .extension
      · obtain ⟨b, hb, hbx⟩ := h2 hv h hka
        exact hno b hb hbx
      · rcases List.mem_append.1 ha with ha | ha
        · exact hno a (List.mem_append_left _ ha) hx
        rcases List.mem_cons.1 ha with rfl | ha
        · rcases hRR with rfl | ⟨rfl, hn, -⟩
          · refine hno ⟨f, as ++ bs⟩ (by simp) ?_
            rcases List.mem_append.1 hx with hx | hx
            · simp [hx]
            · rcases List.mem_cons.1 hx with hx | hx
              · exact absurd hx.symm hka
              · simp [hx]
          · obtain ⟨rfl, rfl⟩ := List.append_eq_nil_iff.1 hn
            have : ArgKind.extension = k' := by simpa using hx
            exact absurd this.symm hka
        · exact hno a (List.mem_append_right _ (List.mem_append_right _ ha)) hx
  by_cases hl : P1.length = pre.length
  · -- the main attribute itself
    replace h1 := h1 hl
    obtain ⟨h5, h6, h7⟩ := split_unique he.symm hl
    subst h5 h6 h7
    simp only [List.take_left'] at h1
    have hkind := kind_remove (f := f) (as := as) (bs := bs) (k := k') h1
    rcases hRR with rfl | ⟨rfl, hn, t, rfl⟩
    · refine ⟨P1, ⟨f, as ++ bs⟩, P2, rfl, ?_, hkind, ?_⟩
      · refine main_keep hm ⟨by rw [hkind]; exact hm.1, by rw [hkind]; exact Nat.le_refl _⟩
          (fun b hb hkb => ⟨b, hb, hkb, Nat.le_refl _⟩)
          (fun b hb hkb => ⟨b, List.mem_append_right _ hb, hkb, Nat.le_refl _⟩)
      · have hlate : Late ⟨f, as ++ bs⟩ → Late ⟨f, as ++ k' :: bs⟩ := by
          rintro ⟨k0, hk0, hh⟩
          rw [hkind] at hk0
          refine ⟨k0, hk0, fun e => hh ?_⟩
          cases as with
          | nil =>
            have : k' = k0 := by simpa using e
            subst this
            rcases h1 with h1 | h1
            · exact absurd hk0 h1
            · exact absurd h1 (by simp)
          | cons x xs => simpa using e
        have e1 := ind_le hlate
        have e2 := ind_le hext
        have e3 := weight_remains (f := f) (as := as) (bs := bs) (k := k')
        simp only [weight, argCount_cons, argCount_append, List.length_append, List.length_cons,
          List.length_nil] at e3 ⊢
        simp only [extra, hkind, List.singleton_append] at e2 ⊢
        have e4 : argCount [] = 0 := rfl
        omega
    · obtain ⟨rfl, rfl⟩ := List.append_eq_nil_iff.1 hn
      rcases h1 with h1 | h1
      · obtain ⟨x, hx, he⟩ := ink_kind_exists t (l := [] ++ k' :: []) (by simp)
        have : x = k' := by simpa using hx
        exact absurd (this ▸ he) h1
      · exact absurd h1 (by simp)
  · refine kept_others hm he hl hR ?_
    rcases hRR with rfl | ⟨rfl, -⟩
    · exact .inr ⟨by have := weight_remains (f := f) (as := as) (bs := bs) (k := k'); omega, hext⟩
    · exact .inl rfl

/-- No argument in front of the main attribute is as good as its kind. -/
theorem not_before {pre post : List Written} {w : Written} (hm : Main pre w post)
    (hp : Plain (pre ++ w :: post)) {k k' : ArgKind} (hk : w.kind = .arg k)
    (hu : k' ≠ .unknown) (hs : k'.sortOrder ≤ k.sortOrder) {a : Written} (ha : a ∈ pre)
    (hka : k' ∈ a.args) : False := by
  obtain ⟨h1, h2⟩ := kind_best hka hu (hp a (List.mem_append_left _ ha))
  have h3 := hm.2.1 a ha h1
  have hku : k ≠ .unknown := fun e => hm.1.2 (by rw [hk, e])
  rw [hk, prio_arg _ hku] at h3
  rw [prio_arg _ hu] at h2
  omega

theorem mem_pre_of_lt {pre post : List Written} {w a : Written} {i : Nat}
    (h : (pre ++ w :: post)[i]? = some a) (hi : i < pre.length) : a ∈ pre := by
  rw [List.getElem?_append_left hi] at h
  exact List.mem_of_getElem? h

theorem eq_of_at {pre post : List Written} {w a : Written}
    (h : (pre ++ w :: post)[pre.length]? = some a) : a = w := by
  simpa using h.symm

/-- The argument of the main attribute's kind that comes first is not behind one that is as good. -/
theorem first_kind {pre post : List Written} {w : Written} (hm : Main pre w post)
    (hp : Plain (pre ++ w :: post)) {k k' : ArgKind} {q q' : Nat × Nat}
    (hq : FirstArgAt ((pre ++ w :: post).map Written.view) k q) (hi : q.1 = pre.length)
    (hk : w.kind = .arg k)
    (hq' : ∃ a, (pre ++ w :: post)[q'.1]? = some a ∧ a.args[q'.2]? = some k')
    (hlt : Precedes q' q) (hu : k' ≠ .unknown) (hs : k'.sortOrder = k.sortOrder) :
    False := by
  obtain ⟨a, ha, hak⟩ := hq'
  rcases hlt with hlt | ⟨heq, hlt⟩
  · exact not_before hm hp hk hu (by omega) (mem_pre_of_lt ha (by omega)) (List.mem_of_getElem? hak)
  · rw [heq, hi] at ha
    obtain rfl := eq_of_at ha
    obtain ⟨b, hb, hbk⟩ := argAt_of_first hq
    rw [hi] at hb
    obtain rfl := eq_of_at hb
    obtain ⟨t, hf⟩ := ink_of_arg hk
    obtain ⟨f, l⟩ := b
    dsimp only at hf hak hbk
    subst hf
    obtain ⟨as, bs, rfl, hj⟩ := at_split.1 hbk
    obtain ⟨-, h2⟩ := ink_kind_inv (by simp) hk
    have hk' : k' ∈ as := by
      rw [List.getElem?_append_left (by omega)] at hak
      exact List.mem_of_getElem? hak
    rw [List.filter_append] at h2
    cases hfl : as.filter (fun y => y.sortOrder == k.sortOrder) with
    | nil =>
      have : k' ∈ as.filter (fun y => y.sortOrder == k.sortOrder) :=
        List.mem_filter.2 ⟨hk', by simp [hs]⟩
      rw [hfl] at this
      exact absurd this (by simp)
    | cons x xs =>
      rw [hfl] at h2
      have hx : x = k := by simpa using h2
      have hxa : x ∈ as := (List.mem_filter.1 (by rw [hfl]; exact List.mem_cons_self)).1
      rw [hx] at hxa
      obtain ⟨j, hj'⟩ := List.mem_iff_getElem?.1 hxa
      have hjl := (List.getElem?_eq_some_iff.1 hj').1
      have := hq.2 (pre.length, j) (argAt_view.2 ⟨⟨.ink t, as ++ k :: bs⟩, by simp, by
        simp only [List.getElem?_append_left hjl, hj']⟩)
      rcases this with this | this
      · have := congrArg Prod.snd this
        dsimp only at this
        omega
      · rcases this with this | ⟨-, this⟩
        · dsimp only at this
          omega
        · dsimp only at this
          omega

/-- Removing any argument of an item whose main attribute has the least priority. -/
theorem drop_any {v : Version} {c : Bool} {pre post next : List Written} {w : Written}
    {q : Nat × Nat} (hm : Main pre w post) (h2 : attrPriority w.kind = 2)
    (hd : DropArg (pre ++ w :: post) q next) :
    ∃ n, Pot v c next n ∧ n < weight (pre ++ w :: post) + extra v c pre w post := by
  obtain ⟨P1, f, as, k, bs, P2, R, he, rfl, rfl, hR, hRR⟩ := drop_remains hd
  obtain ⟨n, hn⟩ := pot_exists v c (P1 ++ (R ++ P2))
  refine ⟨n, hn, ?_⟩
  have hw : weight (P1 ++ (R ++ P2)) + 3 ≤ weight (pre ++ w :: post) := by
    rw [he]
    rcases hRR with rfl | ⟨rfl, -⟩ <;>
    · simp only [weight, List.length_append, argCount_append, argCount_cons, List.length_cons,
        List.length_nil]
      simp only [argCount, List.map_nil, List.sum_nil]; omega
  have hx : extra v c pre w post ≥ 8 := by unfold extra; rw [ind_one h2]; omega
  rcases hn with ⟨pre', w', post', he', hm', rfl⟩ | ⟨-, rfl⟩
  · have hbest : ∀ b ∈ pre ++ w :: post, Known b.kind → 2 ≤ attrPriority b.kind := by
      intro b hb hkb
      rcases List.mem_append.1 hb with hb | hb
      · have := hm.2.1 b hb hkb; omega
      rcases List.mem_cons.1 hb with rfl | hb
      · omega
      · have := hm.2.2 b hb hkb; omega
    have hp' : 2 ≤ attrPriority w'.kind := by
      have hw' : w' ∈ P1 ++ (R ++ P2) := by rw [he']; simp
      rw [he] at hbest
      rcases List.mem_append.1 hw' with hw' | hw'
      · exact hbest w' (List.mem_append_left _ hw') hm'.1
      rcases List.mem_append.1 hw' with hw' | hw'
      · obtain ⟨h3, h4⟩ := remains_known hR w' hw' hm'.1
        have := hbest _ (by simp) h3
        omega
      · exact hbest w' (List.mem_append_right _ (List.mem_cons_of_mem _ hw')) hm'.1
    have hne : ¬ Extends v c w'.kind (pre' ++ w' :: post') := by
      rintro ⟨-, ⟨h, -⟩ | ⟨h, -⟩⟩
      · rw [h] at hp'; exact absurd hp' (by decide)
      · rw [h] at hp'; exact absurd hp' (by decide)
    have hx' : extra v c pre' w' post' ≤ 10 := by
      unfold extra
      rw [ind_zero hne]
      have := ind_le_one (attrPriority w'.kind = 2)
      have := ind_le_one (pre' ≠ [])
      have := ind_le_one (Late w')
      omega
    omega
  · omega


/-- What a quickfix does: the main attribute is kept and less is left to do, or it is changed
because it is deprecated or lacks something. -/
def Outcome (v : Version) (c : Bool) (pre : List Written) (w : Written) (post next : List Written) :
    Prop :=
  Plain next ∧ (Kept v c pre w post next ∨
    ((DeprecatedPrimary v c w.kind ∨ (Qualifying v w.kind ∧ w.kind ≠ .arg .namespace)) ∧
      ∃ n, Pot v c next n ∧ n < weight (pre ++ w :: post) + extra v c pre w post))

theorem drop_plain {item next : List Written} {q : Nat × Nat} (hp : Plain item)
    (h : DropArg item q next) : Plain next := by
  obtain ⟨P1, f, as, k, bs, P2, R, rfl, rfl, rfl, hR, -⟩ := drop_remains h
  exact remains_plain hR hp

theorem dup_outcome {v : Version} {c : Bool} {pre post next : List Written} {w : Written}
    (hm : Main pre w post) (hp : Plain (pre ++ w :: post)) {d : DupDiag}
    (hd : d ∈ duplicates ((pre ++ w :: post).map Written.view))
    (h : Undoubles (pre ++ w :: post) d next) : Outcome v c pre w post next := by
  cases d with
  | «macro» i =>
    obtain ⟨m, hmi, hu, i', hlt, hm'⟩ := (C37_macros _ _).1 hd
    obtain ⟨a, ha, hak⟩ := macroAt_view.1 hmi
    obtain ⟨b, hb, hbk⟩ := macroAt_view.1 hm'
    obtain ⟨P1, a', P2, he, rfl, rfl⟩ := h
    have hne : P1.length ≠ pre.length := by
      intro e
      have := hm.2.1 b (mem_pre_of_lt hb (by omega))
        ⟨by rw [hbk]; simpa using hu, by rw [hbk]; simp⟩
      rw [hbk] at this
      exact absurd this (by simp [attrPriority])
    refine ⟨?_, .inl (kept_others (R := []) hm he hne (.inl rfl) (.inl rfl))⟩
    rw [he] at hp
    exact remains_plain (R := []) (.inl rfl) hp
  | arg q =>
    refine ⟨drop_plain hp h, .inl ?_⟩
    obtain ⟨i, j⟩ := q
    obtain ⟨k, hk, hu, i', j', hlt, hk'⟩ := (C37_args _ i j).1 hd
    obtain ⟨b, hb, hbk⟩ := argAt_view.1 hk'
    refine drop_kept hm (argAt_view.1 hk) h (fun hi => ?_) (fun _ _ hx => ?_)
    · by_cases hw : w.kind = .arg k
      · right
        have hi : i = pre.length := hi
        rcases hlt with hlt | ⟨rfl, hlt⟩
        · exact (not_before hm hp hw hu (Nat.le_refl _) (mem_pre_of_lt hb (by omega))
            (List.mem_of_getElem? hbk)).elim
        · subst hi
          obtain rfl := eq_of_at hb
          obtain ⟨hl, he⟩ := List.getElem?_eq_some_iff.1 hbk
          exact List.mem_take_iff_getElem.2 ⟨j', by
            obtain ⟨x, hx, hxk⟩ := argAt_view.1 hk
            obtain rfl := eq_of_at hx
            have := (List.getElem?_eq_some_iff.1 hxk).1
            omega, he⟩
      · exact .inl hw
    · subst hx
      obtain ⟨P1, f, as, k', bs, P2, R, he, hq, rfl, -, hRR⟩ := drop_remains h
      simp only [Prod.mk.injEq] at hq
      obtain ⟨rfl, rfl⟩ := hq
      rw [he] at hb
      rcases hlt with hlt | ⟨rfl, hlt⟩
      · exact ⟨b, List.mem_append_left _ (mem_pre_of_lt hb hlt), List.mem_of_getElem? hbk⟩
      · obtain rfl := eq_of_at hb
        have hmem : ArgKind.extension ∈ as := by
          dsimp only at hbk
          rw [List.getElem?_append_left hlt] at hbk
          exact List.mem_of_getElem? hbk
        rcases hRR with rfl | ⟨-, hn, -⟩
        · exact ⟨⟨f, as ++ bs⟩, by simp, by simp [hmem]⟩
        · rw [(List.append_eq_nil_iff.1 hn).1] at hmem
          exact absurd hmem (by simp)

theorem qualifying_prio {v : Version} {k : AttrKind} (h : Qualifying v k) : attrPriority k = 2 := by
  have : ∀ v ∈ [Version.v4, .v5], ∀ k ∈ AttrKind.all, Qualifying v k → attrPriority k = 2 := by
    decide +kernel
  exact this v (by cases v <;> decide) k k.mem_all h

theorem suggestion_arg {v : Version} {P : AttrKind} {k : ArgKind}
    (h : .arg k ∈ primarySuggestions P v) : k.sortOrder = 0 := by
  have : ∀ v ∈ [Version.v4, .v5], ∀ P ∈ AttrKind.all, ∀ s ∈ primarySuggestions P v,
      ∀ k ∈ ArgKind.all, s = .arg k → k.sortOrder = 0 := by
    decide +kernel
  exact this v (by cases v <;> decide) P P.mem_all _ h k (by cases k <;> decide) rfl

theorem suggestion_macro {v : Version} {P : AttrKind} {m : MacroKind}
    (h : .macro m ∈ primarySuggestions P v) : m ≠ .unknown ∧ m ≠ .chainExtension := by
  have : ∀ v ∈ [Version.v4, .v5], ∀ P ∈ AttrKind.all, ∀ s ∈ primarySuggestions P v,
      s ≠ .macro .unknown ∧ s ≠ .macro .chainExtension := by
    decide +kernel
  obtain ⟨h1, h2⟩ := this v (by cases v <;> decide) P P.mem_all _ h
  exact ⟨fun e => h1 (by rw [e]), fun e => h2 (by rw [e])⟩

theorem plain_set {pre post : List Written} {w w' : Written} (hp : Plain (pre ++ w :: post))
    (hk : w'.kind ≠ .macro .unknown) : Plain (pre ++ w' :: post) := by
  intro a ha
  rcases List.mem_append.1 ha with ha | ha
  · exact hp a (List.mem_append_left _ ha)
  rcases List.mem_cons.1 ha with rfl | ha
  · exact fun e => absurd e hk
  · exact hp a (List.mem_append_right _ (List.mem_cons_of_mem _ ha))

theorem main_set {pre post : List Written} {w w' : Written} (hm : Main pre w post)
    (hw : Known w'.kind ∧ attrPriority w'.kind ≤ attrPriority w.kind) : Main pre w' post :=
  main_keep hm hw (fun b hb hkb => ⟨b, hb, hkb, Nat.le_refl _⟩)
    (fun b hb hkb => ⟨b, List.mem_append_right _ hb, hkb, Nat.le_refl _⟩)

theorem so_known {k : ArgKind} (h : k.sortOrder = 0) : k ≠ .unknown ∧ attrPriority (.arg k) = 1 := by
  have hu : k ≠ .unknown := by rintro rfl; exact absurd h (by decide)
  exact ⟨hu, by rw [prio_arg _ hu, h]⟩

theorem entity_outcome {v : Version} {c : Bool} {pre post next : List Written} {w : Written}
    (hm : Main pre w post) (hp : Plain (pre ++ w :: post)) {d : EntityDiag}
    (hd : d ∈ validateEntity v c ((pre ++ w :: post).map Written.view))
    (h : Mends v w.kind (pre ++ w :: post) d next) : Outcome v c pre w post next := by
  have hpr := (main_iff pre w post).1 hm
  obtain ⟨V1, V2, V3, V4, V5⟩ := C71_versioned v c _ _ _ hpr
  have hv : w.view.kind = w.kind := rfl
  rw [hv] at V1 V2 V3 V4 V5
  cases d with
  | anonymousSignature q =>
    obtain ⟨-, hk, a, s, ha, hs, hq⟩ := (V1 q).1 hd
    have hne : w.kind ≠ .macro .chainExtension := by rintro e; rw [e] at hk; simp at hk
    refine ⟨drop_plain hp h, .inl ?_⟩
    rcases hq with ⟨rfl, hlt⟩ | ⟨rfl, hlt⟩
    · refine drop_kept hm (argAt_of_first hs) h (fun hi => ?_) (fun _ e => absurd e hne)
      refine .inl fun hw => first_kind hm hp hs hi hw (argAt_of_first ha) hlt (by decide) (by decide)
    · refine drop_kept hm (argAt_of_first ha) h (fun hi => ?_) (fun _ e => absurd e hne)
      refine .inl fun hw => first_kind hm hp ha hi hw (argAt_of_first hs) hlt (by decide) (by decide)
  | deprecatedAdditional q =>
    obtain ⟨hv5, hk, hq⟩ := (V4 q).1 hd
    refine ⟨drop_plain hp h, ?_⟩
    rcases hk with hk | hk
    · exact .inl (drop_kept hm (argAt_of_first hq) h (fun _ => .inl (by rw [hk]; simp))
        (fun _ e => absurd (hk.symm.trans e) (by decide)))
    · exact .inr ⟨.inl ⟨hv5, .inr hk⟩, drop_any hm (by rw [hk]; decide) h⟩
  | deprecatedKeepAttr q =>
    obtain ⟨-, hk, hq⟩ := (V5 q).1 hd
    exact ⟨drop_plain hp h, .inl (drop_kept hm (argAt_of_first hq) h
      (fun _ => .inl (by rw [hk]; simp)) (fun _ e => absurd (hk.symm.trans e) (by decide)))⟩
  | conflictArg q =>
    obtain ⟨i, j⟩ := q
    obtain ⟨a, k, ha, hak, h1, h2⟩ := conflictArg_at hpr hd
    obtain ⟨x, hx, hxk⟩ := argAt_view.1 ⟨a, ha, hak⟩
    have hax : a = x.view := by
      rw [List.getElem?_map] at ha
      have hx : (pre ++ w :: post)[i]? = some x := hx
      rw [hx] at ha
      exact (Option.some.inj ha).symm
    refine ⟨drop_plain hp h, .inl (drop_kept hm ⟨x, hx, hxk⟩ h (fun hi => .inl ?_)
      (fun hv5 e hk => ?_))⟩
    · have hi : i = pre.length := hi
      subst hi
      obtain rfl := eq_of_at hx
      rw [hax] at h1
      exact h1
    · rw [hv, e, hv5, hk] at h2
      exact absurd h2 (by decide)
  | missingExtension i =>
    obtain ⟨hv5, hi, hk, hno⟩ := (V2 i).1 hd
    obtain ⟨P1, m, as, P2, he, hl, rfl⟩ := h
    obtain ⟨rfl, rfl, rfl⟩ := split_unique he (by omega)
    refine ⟨plain_set hp (by rw [show Written.kind ⟨.path m, .extension :: as⟩ =
      Written.kind ⟨.path m, as⟩ from rfl, hk]; simp), .inl ⟨pre, _, post, rfl, ?_, rfl, ?_⟩⟩
    · exact main_set hm ⟨hm.1, Nat.le_refl _⟩
    · have h1 : Extends v c (Written.kind ⟨.path m, as⟩) (pre ++ ⟨.path m, as⟩ :: post) :=
        ⟨hv5, .inr ⟨hk, fun a ha => hno a.view (List.mem_map_of_mem ha)⟩⟩
      have h2 : ¬ Extends v c (Written.kind ⟨.path m, .extension :: as⟩)
          (pre ++ ⟨.path m, .extension :: as⟩ :: post) := by
        have hk' : Written.kind ⟨.path m, .extension :: as⟩ = .macro .chainExtension := hk
        rw [hk']
        rintro ⟨-, ⟨e, -⟩ | ⟨-, e⟩⟩
        · exact absurd e (by simp)
        · exact e ⟨.path m, .extension :: as⟩ (by simp) (by simp)
      have h3 : ¬ Late ⟨.path m, .extension :: as⟩ := by
        rintro ⟨k, hk, -⟩; exact absurd hk (by simp [Written.kind])
      have h4 : attrPriority (Written.kind ⟨.path m, .extension :: as⟩) =
        attrPriority (Written.kind ⟨.path m, as⟩) := rfl
      simp only [extra, ind_one h1, ind_zero h2, ind_zero h3, h4, weight, argCount_append,
        argCount_cons, List.length_append, List.length_cons]
      omega
  | deprecatedExtension q =>
    obtain ⟨hv5, hk, hc, hq⟩ := (V3 q).1 hd
    obtain ⟨P1, f, as, bs, P2, he, rfl, rfl⟩ := h
    have hmem : ArgKind.extension ∈ w.args := wf_view w _ hk (by decide)
    have hl : P1.length = pre.length := by
      rcases Nat.lt_trichotomy P1.length pre.length with hlt | heq | hgt
      · have ha : (pre ++ w :: post)[P1.length]? = some ⟨f, as ++ .extension :: bs⟩ := by
          rw [he]; simp
        exact (not_before hm hp hk (by decide) (Nat.le_refl _) (mem_pre_of_lt ha hlt)
          (by simp)).elim
      · exact heq
      · obtain ⟨j, hj⟩ := List.mem_iff_getElem?.1 hmem
        have := hq.2 (pre.length, j) (argAt_view.2 ⟨w, by simp, hj⟩)
        rcases this with this | this | ⟨this, -⟩
        · have := congrArg Prod.fst this
          dsimp only at this
          omega
        · dsimp only at this
          omega
        · dsimp only at this
          omega
    obtain ⟨rfl, rfl, rfl⟩ := split_unique he hl.symm
    have hn : ArgKind.extension ∉ as := by
      intro hin
      obtain ⟨j, hj⟩ := List.mem_iff_getElem?.1 hin
      have hjl := (List.getElem?_eq_some_iff.1 hj).1
      have := hq.2 (pre.length, j) (argAt_view.2 ⟨⟨f, as ++ .extension :: bs⟩, by simp, by
        simp only [List.getElem?_append_left hjl, hj]⟩)
      rcases this with this | this | ⟨-, this⟩
      · have := congrArg Prod.snd this
        dsimp only at this
        omega
      · dsimp only at this
        omega
      · dsimp only at this
        omega
    have hk' := kind_rename hn hk
    have hmain : Main pre ⟨f, as ++ .function :: bs⟩ post :=
      main_set hm ⟨by rw [hk']; decide, by rw [hk', hk]; decide⟩
    refine ⟨plain_set hp (by rw [hk']; simp), .inr ⟨.inl ⟨hv5, .inl ⟨hk, hc⟩⟩, _,
      .inl ⟨pre, _, post, rfl, hmain, rfl⟩, ?_⟩⟩
    have h1 : Extends v c (Written.kind ⟨f, as ++ .extension :: bs⟩)
        (pre ++ ⟨f, as ++ .extension :: bs⟩ :: post) := ⟨hv5, .inl ⟨hk, hc⟩⟩
    have h2 : ¬ Extends v c (Written.kind ⟨f, as ++ .function :: bs⟩)
        (pre ++ ⟨f, as ++ .function :: bs⟩ :: post) := by
      rw [hk']
      rintro ⟨-, ⟨e, -⟩ | ⟨e, -⟩⟩ <;> exact absurd e (by simp)
    have h3 := ind_le_one (Late ⟨f, as ++ .function :: bs⟩)
    have h4 : attrPriority (Written.kind ⟨f, as ++ .function :: bs⟩) =
        attrPriority (Written.kind ⟨f, as ++ .extension :: bs⟩) := by rw [hk, hk']; rfl
    simp only [extra, ind_one h1, ind_zero h2, h4, weight, argCount_append, argCount_cons,
      List.length_append, List.length_cons]
    omega
  | notFirst i =>
    have hnd := not_deprecated_of_order hpr (wf_view w) hd rfl
    obtain ⟨hi, h0, -⟩ := ((C71_order v c _ _ _ hpr (wf_view w) hnd).1 i).1 hd
    obtain ⟨P1, x, P2, he, hl, rfl⟩ := h
    obtain ⟨rfl, rfl, rfl⟩ := split_unique he (by omega)
    refine ⟨fun a ha => hp a (by simp at ha ⊢; rcases ha with h | h | h <;> simp [h]),
      .inl ⟨[], w, pre ++ post, rfl, ?_, rfl, ?_⟩⟩
    · exact main_keep hm ⟨hm.1, Nat.le_refl _⟩ (fun b hb => absurd hb (by simp))
        (fun b hb hkb => ⟨b, hb, hkb, Nat.le_refl _⟩)
    · have h1 : pre ≠ [] := by rintro rfl; exact h0 rfl
      have h2 : Extends v c w.kind (w :: (pre ++ post)) → Extends v c w.kind (pre ++ w :: post) := by
        rintro ⟨hv5, e | ⟨e, hno⟩⟩
        · exact ⟨hv5, .inl e⟩
        · refine ⟨hv5, .inr ⟨e, fun a ha => hno a ?_⟩⟩
          simp at ha ⊢; rcases ha with h | h | h <;> simp [h]
      have h3 := ind_le h2
      simp only [extra, ind_one h1, ind_zero (p := ([] : List Written) ≠ []) (by simp), weight,
        argCount_append, argCount_cons, List.length_append, List.length_cons, List.nil_append]
        at h3 ⊢
      omega
  | argNotFirst i =>
    have hnd := not_deprecated_of_order hpr (wf_view w) hd rfl
    obtain ⟨hi, -, k0, hk0, hh⟩ := ((C71_order v c _ _ _ hpr (wf_view w) hnd).2.1 i).1 hd
    obtain ⟨P1, f, as, k, bs, P2, he, hl, hP, hn, rfl⟩ := h
    obtain ⟨rfl, rfl, rfl⟩ := split_unique he (by omega)
    have hkk : AttrKind.arg k0 = .arg k := hk0.symm.trans hP
    injection hkk with hkk
    subst hkk
    have hk' := kind_move hP
    refine ⟨plain_set hp (by rw [hk']; simp), .inl ⟨pre, _, post, rfl,
      main_set hm ⟨by rw [hk', ← hP]; exact hm.1, by rw [hk', ← hP]; exact Nat.le_refl _⟩,
      by rw [hk', hP], ?_⟩⟩
    have h1 : Late ⟨f, as ++ k0 :: bs⟩ := ⟨k0, hP, hh⟩
    have h2 : ¬ Late ⟨f, k0 :: (as ++ bs)⟩ := by
      rintro ⟨k1, hk1, hh1⟩
      rw [hk'] at hk1
      injection hk1 with hk1
      exact hh1 (by simp [hk1])
    have h3 : Extends v c (Written.kind ⟨f, k0 :: (as ++ bs)⟩)
        (pre ++ ⟨f, k0 :: (as ++ bs)⟩ :: post) →
        Extends v c (Written.kind ⟨f, as ++ k0 :: bs⟩) (pre ++ ⟨f, as ++ k0 :: bs⟩ :: post) := by
      rw [hk', hP]
      rintro ⟨hv5, e | ⟨e, -⟩⟩
      · exact ⟨hv5, .inl e⟩
      · exact absurd e (by simp)
    have h4 := ind_le h3
    have h5 : attrPriority (Written.kind ⟨f, k0 :: (as ++ bs)⟩) =
        attrPriority (Written.kind ⟨f, as ++ k0 :: bs⟩) := by rw [hk', hP]
    simp only [extra, ind_one h1, ind_zero h2, h5, weight, argCount_append, argCount_cons,
      List.length_append, List.length_cons]
    omega
  | needsPrimary i =>
    have hnd := not_deprecated_of_order hpr (wf_view w) hd rfl
    obtain ⟨hi, hq, hns⟩ := ((C71_order v c _ _ _ hpr (wf_view w) hnd).2.2 i).1 hd
    obtain ⟨P1, t, as, P2, he, hl, hx⟩ := h
    obtain ⟨rfl, rfl, rfl⟩ := split_unique he (by omega)
    have h2 : attrPriority (Written.kind ⟨.ink t, as⟩) = 2 := qualifying_prio hq
    rcases hx with ⟨k, hs, rfl⟩ | ⟨m, hs, rfl⟩
    · have hs0 := suggestion_arg hs
      have hk' : Written.kind ⟨.ink true, k :: as⟩ = .arg k := kind_insert hs0
      obtain ⟨hu, hpk⟩ := so_known hs0
      refine ⟨plain_set hp (by rw [hk']; simp), .inr ⟨.inr ⟨hq, hns⟩, _,
        .inl ⟨pre, _, post, rfl, main_set hm ⟨by rw [hk']; exact ⟨by simp, by simpa using hu⟩,
          by rw [hk', hpk]; omega⟩, rfl⟩, ?_⟩⟩
      have h3 : ¬ Late ⟨.ink true, k :: as⟩ := by
        rintro ⟨k1, hk1, hh1⟩
        rw [hk'] at hk1
        injection hk1 with hk1
        exact hh1 (by simp [hk1])
      have h4 : ¬ attrPriority (Written.kind ⟨.ink true, k :: as⟩) = 2 := by
        rw [hk', hpk]; omega
      have h5 := ind_le_one (Extends v c (Written.kind ⟨.ink true, k :: as⟩)
        (pre ++ ⟨.ink true, k :: as⟩ :: post))
      simp only [extra, ind_one h2, ind_zero h3, ind_zero h4, weight, argCount_append,
        argCount_cons, List.length_append, List.length_cons]
      omega
    · obtain ⟨hu, hne⟩ := suggestion_macro hs
      have hk' : Written.kind ⟨.path m, as⟩ = .macro m := rfl
      refine ⟨plain_set hp (by rw [hk']; simpa using hu), .inr ⟨.inr ⟨hq, hns⟩, _,
        .inl ⟨pre, _, post, rfl, main_set hm ⟨by rw [hk']; exact ⟨by simpa using hu, by simp⟩,
          Nat.zero_le _⟩, rfl⟩, ?_⟩⟩
      have h3 : ¬ Late ⟨.path m, as⟩ := by
        rintro ⟨k1, hk1, hh1⟩
        rw [hk'] at hk1
        exact absurd hk1 (by simp)
      have h4 : ¬ attrPriority (Written.kind ⟨.path m, as⟩) = 2 := by
        rw [hk']; simp [attrPriority]
      have h5 : ¬ Extends v c (Written.kind ⟨.path m, as⟩) (pre ++ ⟨.path m, as⟩ :: post) := by
        rw [hk']
        rintro ⟨-, ⟨e, -⟩ | ⟨e, -⟩⟩
        · exact absurd e (by simp)
        · injection e with e; exact hne e
      simp only [extra, ind_one h2, ind_zero h3, ind_zero h4, ind_zero h5, weight,
        argCount_append, argCount_cons, List.length_append, List.length_cons]
      omega
  | conflictAttr i =>
    obtain ⟨a, ha, hi, hns⟩ := conflictAttr_at hpr hd
    obtain ⟨P1, x, P2, he, rfl, hx⟩ := h
    have hax : a = x.view := by
      rw [List.getElem?_map, he] at ha
      simpa using ha.symm
    rcases hx with ⟨-, rfl⟩ | ⟨⟨⟨kp, hkp⟩, ⟨ka, hka⟩, kg, hkg, hgs⟩, rfl⟩
    · refine ⟨?_, .inl (kept_others (R := []) hm he hi (.inl rfl) (.inl rfl))⟩
      rw [he] at hp
      exact remains_plain (R := []) (.inl rfl) hp
    · have hR : Remains x [⟨x.form, x.args.filter (· ∈ validSiblings w.kind v)⟩] :=
        .inr ⟨_, rfl, fun k hk => (List.mem_filter.1 hk).1⟩
      refine ⟨?_, .inl (kept_others hm he hi hR (.inr ⟨?_, ?_⟩))⟩
      · rw [he] at hp
        exact remains_plain hR hp
      · have hbad : ka ∉ validSiblings w.kind v := by
          rw [hax, hv, hkp] at hns
          rw [hkp]
          have hka' : x.view.kind = .arg ka := hka
          rw [hka'] at hns
          unfold isValidSiblingAttr at hns
          simpa using hns
        have hmem : ka ∈ x.args := by
          obtain ⟨t, hf⟩ := ink_of_arg hka
          obtain ⟨f, l⟩ := x
          dsimp only at hf
          subst hf
          obtain ⟨k', hk', he'⟩ := ink_kind_exists t (l := l) (List.ne_nil_of_mem hkg)
          have : AttrKind.arg k' = .arg ka := he'.symm.trans hka
          injection this with this
          exact this ▸ hk'
        have hlt : (x.args.filter (· ∈ validSiblings w.kind v)).length < x.args.length := by
          rw [List.length_filter_lt_length_iff_exists]
          exact ⟨ka, hmem, by simpa using hbad⟩
        simp only [weight, argCount_cons, List.length_cons]
        omega
      · rintro ⟨hv5, e | ⟨e, -⟩⟩
        · exact ⟨hv5, .inl e⟩
        · rw [hkp] at e; exact absurd e (by simp)

theorem step_outcome {v : Version} {c : Bool} {pre post next : List Written} {w : Written}
    (hm : Main pre w post) (hp : Plain (pre ++ w :: post))
    (h : Step v c (pre ++ w :: post) next) : Outcome v c pre w post next := by
  rcases h with ⟨d, hd, h⟩ | ⟨p, P, hP, d, hd, h⟩
  · exact dup_outcome hm hp hd h
  · have h1 := (C43_primary _ _ _).2 hP
    have h2 := (C43_primary _ _ _).2 ((main_iff pre w post).1 hm)
    rw [h1] at h2
    have : P = w.view := congrArg Prod.fst (Option.some.inj h2)
    subst this
    exact entity_outcome hm hp hd h

theorem main_exists {item : List Written} {w : Written} (hw : w ∈ item) (hk : Known w.kind) :
    ∃ pre w post, item = pre ++ w :: post ∧ Main pre w post := by
  cases hc : primaryCandidate (item.map Written.view) with
  | none =>
    obtain ⟨i, hi⟩ := List.mem_iff_getElem?.1 hw
    have := primaryCandidate_none _ hc i w.view (by rw [List.getElem?_map, hi]; rfl)
    exact absurd (((known_iff _).2 hk).symm.trans this) (by decide)
  | some q =>
    obtain ⟨pre, w, post, he, -, -, hm⟩ := main_of_primary ((C43_primary _ q.1 q.2).1 hc)
    exact ⟨pre, w, post, he, hm⟩

theorem main_of_step {v : Version} {c : Bool} {item next : List Written} (hp : Plain item)
    (h : Step v c item next) : ∃ pre w post, item = pre ++ w :: post ∧ Main pre w post := by
  rcases h with ⟨d, hd, -⟩ | ⟨p, P, hP, -⟩
  · cases d with
    | «macro» i =>
      obtain ⟨m, hm, hu, -⟩ := (C37_macros _ _).1 hd
      obtain ⟨w, hw, hk⟩ := macroAt_view.1 hm
      exact main_exists (List.mem_of_getElem? hw) (by rw [hk]; exact ⟨by simpa using hu, by simp⟩)
    | arg q =>
      obtain ⟨k, hk, hu, -⟩ := (C37_args _ q.1 q.2).1 hd
      obtain ⟨w, hw, hwk⟩ := argAt_view.1 hk
      have hmem := List.mem_of_getElem? hw
      exact main_exists hmem (kind_best (List.mem_of_getElem? hwk) hu (hp w hmem)).1
  · obtain ⟨pre, w, post, he, -, -, hm⟩ := main_of_primary hP
    exact ⟨pre, w, post, he, hm⟩

theorem step_pot {v : Version} {c : Bool} {item next : List Written} (hp : Plain item)
    (h : Step v c item next) {n : Nat} (hn : Pot v c item n) :
    Plain next ∧ ∃ m, Pot v c next m ∧ m < n := by
  obtain ⟨pre, w, post, rfl, hm⟩ := main_of_step hp h
  have hnn : n = weight (pre ++ w :: post) + extra v c pre w post := by
    rcases hn with ⟨pre', w', post', he, hm', rfl⟩ | ⟨hno, -⟩
    · obtain ⟨rfl, rfl, rfl⟩ := main_unique hm hm' he
      rfl
    · exact absurd ((main_iff _ _ _).1 hm) (hno _ _)
  subst hnn
  obtain ⟨h1, h2⟩ := step_outcome hm hp h
  refine ⟨h1, ?_⟩
  rcases h2 with ⟨pre', w', post', rfl, hm', -, hlt⟩ | ⟨-, m, hm', hlt⟩
  · exact ⟨_, .inl ⟨pre', w', post', rfl, hm', rfl⟩, hlt⟩
  · exact ⟨m, hm', hlt⟩

/-! ## What stays -/

/-- Some attribute of the item has the argument. -/
def Has (item : List Written) (k : ArgKind) : Prop := ∃ w ∈ item, k ∈ w.args

theorem drop_has {item next : List Written} {q : Nat × Nat} {x : Written} {k l : ArgKind}
    (hat : item[q.1]? = some x) (hk : x.args[q.2]? = some k) (h : DropArg item q next)
    (hl : Has item l)
    (hne : l ≠ k ∨ ∃ i j y, item[i]? = some y ∧ y.args[j]? = some l ∧ (i, j) ≠ q) : Has next l := by
  have hoth : ∃ i j y, item[i]? = some y ∧ y.args[j]? = some l ∧ (i, j) ≠ q := by
    rcases hne with hne | h
    · obtain ⟨y, hy, hly⟩ := hl
      obtain ⟨i, hi⟩ := List.mem_iff_getElem?.1 hy
      obtain ⟨j, hj⟩ := List.mem_iff_getElem?.1 hly
      refine ⟨i, j, y, hi, hj, ?_⟩
      rintro rfl
      dsimp only at hat hk
      rw [hat] at hi
      obtain rfl := Option.some.inj hi
      rw [hk] at hj
      exact hne (Option.some.inj hj).symm
    · exact h
  obtain ⟨i, j, y, hi, hj, hq⟩ := hoth
  obtain ⟨pre, f, as, k', bs, post, rfl, rfl, h⟩ := h
  have hcase : (∃ z ∈ pre ++ post, l ∈ z.args) ∨ l ∈ as ++ bs := by
    rcases Nat.lt_trichotomy i pre.length with hlt | rfl | hgt
    · rw [List.getElem?_append_left hlt] at hi
      exact .inl ⟨y, List.mem_append_left _ (List.mem_of_getElem? hi), List.mem_of_getElem? hj⟩
    · right
      obtain rfl := eq_of_at hi
      dsimp only at hj
      rcases Nat.lt_trichotomy j as.length with hlt | rfl | hgt
      · rw [List.getElem?_append_left hlt] at hj
        exact List.mem_append_left _ (List.mem_of_getElem? hj)
      · exact absurd rfl hq
      · rw [List.getElem?_append_right (Nat.le_of_lt hgt)] at hj
        obtain ⟨d, hd⟩ : ∃ d, j - as.length = d + 1 := ⟨j - as.length - 1, by omega⟩
        rw [hd, List.getElem?_cons_succ] at hj
        exact List.mem_append_right _ (List.mem_of_getElem? hj)
    · rw [List.getElem?_append_right (Nat.le_of_lt hgt)] at hi
      obtain ⟨d, hd⟩ : ∃ d, i - pre.length = d + 1 := ⟨i - pre.length - 1, by omega⟩
      rw [hd, List.getElem?_cons_succ] at hi
      exact .inl ⟨y, List.mem_append_right _ (List.mem_of_getElem? hi), List.mem_of_getElem? hj⟩
  rcases h with ⟨-, rfl⟩ | ⟨⟨hn, -⟩, rfl⟩
  · rcases hcase with ⟨z, hz, hlz⟩ | hl
    · refine ⟨z, ?_, hlz⟩
      rcases List.mem_append.1 hz with hz | hz <;> simp [hz]
    · exact ⟨⟨f, as ++ bs⟩, by simp, hl⟩
  · rcases hcase with h | hl
    · exact h
    · rw [hn] at hl; exact absurd hl (by simp)

theorem step_has {v : Version} {c : Bool} {pre post next : List Written} {w : Written}
    {k0 l : ArgKind} (hm : Main pre w post) (hp : Plain (pre ++ w :: post))
    (hk0 : w.kind = .arg k0) (hd : ¬ DeprecatedPrimary v c w.kind)
    (hq : Qualifying v w.kind → w.kind = .arg .namespace)
    (hl : l ∈ validSiblings w.kind v) (hn : l ≠ .anonymous ∧ l ≠ .signatureTopic)
    (hin : Has (pre ++ w :: post) l) (h : Step v c (pre ++ w :: post) next) : Has next l := by
  rcases h with ⟨d, hdd, h⟩ | ⟨p, P, hP, d, hdd, h⟩
  · cases d with
    | «macro» i =>
      obtain ⟨m, hmi, hu, -⟩ := (C37_macros _ _).1 hdd
      obtain ⟨b, hb, hbk⟩ := macroAt_view.1 hmi
      have hkb : Known b.kind := by rw [hbk]; exact ⟨by simpa using hu, by simp⟩
      have hlt : attrPriority b.kind < attrPriority w.kind := by
        rw [hbk, hk0]
        have := prio_pos k0
        exact Nat.lt_of_lt_of_le (by simp [attrPriority]) this
      have hb := List.mem_of_getElem? hb
      rcases List.mem_append.1 hb with hb | hb
      · have := hm.2.1 b hb hkb; omega
      rcases List.mem_cons.1 hb with rfl | hb
      · omega
      · have := hm.2.2 b hb hkb; omega
    | arg q =>
      obtain ⟨k, hk, hu, i', j', hlt, hk'⟩ := (C37_args _ q.1 q.2).1 hdd
      obtain ⟨x, hx, hxk⟩ := argAt_view.1 hk
      obtain ⟨y, hy, hyk⟩ := argAt_view.1 hk'
      refine drop_has hx hxk h hin ?_
      by_cases e : l = k
      · subst e
        refine .inr ⟨i', j', y, hy, hyk, ?_⟩
        rintro rfl
        rcases hlt with hlt | ⟨-, hlt⟩ <;> exact absurd hlt (Nat.lt_irrefl _)
      · exact .inl e
  · have hpr := (main_iff pre w post).1 hm
    have h1 := (C43_primary _ _ _).2 hP
    have h2 := (C43_primary _ _ _).2 hpr
    rw [h1] at h2
    have : P = w.view := congrArg Prod.fst (Option.some.inj h2)
    subst this
    obtain ⟨V1, V2, V3, V4, V5⟩ := C71_versioned v c _ _ _ hpr
    have hv : w.view.kind = w.kind := rfl
    rw [hv] at V1 V2 V3 V4 V5 h
    obtain ⟨O1, O2, O3⟩ := C71_order v c _ _ _ hpr (wf_view w) hd
    cases d with
    | anonymousSignature q =>
      obtain ⟨-, -, a, s, ha, hs, hqq⟩ := (V1 q).1 hdd
      rcases hqq with ⟨rfl, -⟩ | ⟨rfl, -⟩
      · obtain ⟨x, hx, hxk⟩ := argAt_of_first hs
        exact drop_has hx hxk h hin (.inl hn.2)
      · obtain ⟨x, hx, hxk⟩ := argAt_of_first ha
        exact drop_has hx hxk h hin (.inl hn.1)
    | deprecatedAdditional q =>
      obtain ⟨hv5, hk, -⟩ := (V4 q).1 hdd
      rcases hk with hk | hk
      · rw [hk0] at hk; exact absurd hk (by simp)
      · exact absurd ⟨hv5, .inr hk⟩ hd
    | deprecatedKeepAttr q =>
      obtain ⟨-, hk, -⟩ := (V5 q).1 hdd
      rw [hk0] at hk; exact absurd hk (by simp)
    | missingExtension i =>
      obtain ⟨-, -, hk, -⟩ := (V2 i).1 hdd
      rw [hk0] at hk; exact absurd hk (by simp)
    | deprecatedExtension q =>
      obtain ⟨hv5, hk, hc, -⟩ := (V3 q).1 hdd
      exact absurd ⟨hv5, .inl ⟨hk, hc⟩⟩ hd
    | needsPrimary i =>
      obtain ⟨-, hqq, hns⟩ := (O3 i).1 hdd
      exact absurd (hq hqq) hns
    | conflictArg q =>
      obtain ⟨i, j⟩ := q
      obtain ⟨a, k, ha, hak, -, h2⟩ := conflictArg_at hpr hdd
      obtain ⟨x, hx, hxk⟩ := argAt_view.1 ⟨a, ha, hak⟩
      refine drop_has hx hxk h hin (.inl ?_)
      rintro rfl
      exact h2 hl
    | notFirst i =>
      obtain ⟨P1, x, P2, he, -, rfl⟩ := h
      rw [he] at hin
      obtain ⟨y, hy, hly⟩ := hin
      refine ⟨y, ?_, hly⟩
      simp at hy ⊢; rcases hy with h | h | h <;> simp [h]
    | argNotFirst i =>
      obtain ⟨P1, f, as, k, bs, P2, he, -, -, -, rfl⟩ := h
      rw [he] at hin
      obtain ⟨y, hy, hly⟩ := hin
      rcases List.mem_append.1 hy with hy | hy
      · exact ⟨y, by simp [hy], hly⟩
      rcases List.mem_cons.1 hy with rfl | hy
      · refine ⟨⟨f, k :: (as ++ bs)⟩, by simp, ?_⟩
        simp at hly ⊢; rcases hly with h | h | h <;> simp [h]
      · exact ⟨y, by simp [hy], hly⟩
    | conflictAttr i =>
      obtain ⟨a, ha, hi, hns⟩ := conflictAttr_at hpr hdd
      obtain ⟨P1, x, P2, he, rfl, hx⟩ := h
      rw [he] at hin hp
      obtain ⟨y, hy, hly⟩ := hin
      have hy' : y ∈ P1 ++ P2 ∨ y = x := by
        simp at hy ⊢; rcases hy with h | h | h <;> simp [h]
      rcases hx with ⟨hc, rfl⟩ | ⟨-, rfl⟩
      · rcases hy' with hy | rfl
        · exact ⟨y, hy, hly⟩
        · rcases hc with ⟨m, e⟩ | ⟨m, e⟩ | hc
          · rw [hk0] at e; exact absurd e (by simp)
          · by_cases hu : m = .unknown
            · subst hu
              rw [hp y (by simp) e] at hly
              exact absurd hly (by simp)
            · have hkb : Known y.kind := by rw [e]; exact ⟨by simpa using hu, by simp⟩
              have hlt : attrPriority y.kind < attrPriority w.kind := by
                rw [e, hk0]
                have := prio_pos k0
                exact Nat.lt_of_lt_of_le (by simp [attrPriority]) this
              have hb : y ∈ pre ++ w :: post := by rw [he]; simp
              rcases List.mem_append.1 hb with hb | hb
              · have := hm.2.1 y hb hkb; omega
              rcases List.mem_cons.1 hb with rfl | hb
              · omega
              · have := hm.2.2 y hb hkb; omega
          · exact absurd hl (hc l hly)
      · rcases hy' with hy | rfl
        · refine ⟨y, ?_, hly⟩
          rcases List.mem_append.1 hy with h | h <;> simp [h]
        · exact ⟨⟨y.form, y.args.filter (· ∈ validSiblings w.kind v)⟩, by simp,
            List.mem_filter.2 ⟨hly, by simpa using hl⟩⟩

/-- The main attribute is complete: not deprecated, and no argument that only adds to another one. -/
def Complete (v : Version) (c : Bool) (P : AttrKind) : Prop :=
  ¬ DeprecatedPrimary v c P ∧ (Qualifying v P → P = .arg .namespace)

theorem steps_keep {v : Version} {c : Bool} {n : Nat} {item next : List Written}
    (h : Steps v c n item next) : ∀ {pre w post}, item = pre ++ w :: post → Main pre w post →
    Plain item → Complete v c w.kind →
    ∃ pre' w' post', next = pre' ++ w' :: post' ∧ Main pre' w' post' ∧ w'.kind = w.kind ∧
      Plain next ∧
      ∀ k0 l, w.kind = .arg k0 → l ∈ validSiblings w.kind v →
        l ≠ .anonymous ∧ l ≠ .signatureTopic → Has item l → Has next l := by
  induction h with
  | done item =>
    intro pre w post he hm hp _
    exact ⟨pre, w, post, he, hm, rfl, hp, fun _ _ _ _ _ h => h⟩
  | step hs _ ih =>
    intro pre w post he hm hp hc
    subst he
    obtain ⟨h1, h2⟩ := step_outcome hm hp hs
    rcases h2 with ⟨pre', w', post', rfl, hm', hk', -⟩ | ⟨hno, -⟩
    · obtain ⟨pre2, w2, post2, he2, hm2, hk2, hp2, hl2⟩ := ih rfl hm' h1 (hk' ▸ hc)
      refine ⟨pre2, w2, post2, he2, hm2, hk2.trans hk', hp2, fun k0 l hk0 hl hn hin => ?_⟩
      exact hl2 k0 l (hk'.trans hk0) (hk' ▸ hl) hn
        (step_has hm hp hk0 hc.1 hc.2 hl hn hin hs)
    · rcases hno with hno | ⟨hq, hns⟩
      · exact absurd hno hc.1
      · exact absurd (hc.2 hq) hns

/-! ## Theorems -/

/-- The quickfixes offered for the reports about an item are the specified ones. -/
theorem C111_fixes (v : Version) (c : Bool) (item next : List Written) :
    (∃ fs ∈ itemFixes v c item, next ∈ fs) ↔ Step v c item next := by
  unfold itemFixes Step
  constructor
  · rintro ⟨fs, hfs, hn⟩
    rcases List.mem_append.1 hfs with hfs | hfs
    · obtain ⟨d, hd, rfl⟩ := List.mem_map.1 hfs
      exact .inl ⟨d, hd, (dupFixes_iff hd).1 hn⟩
    · cases hc : primaryCandidate (item.map Written.view) with
      | none => rw [hc] at hfs; exact absurd hfs (by simp)
      | some q =>
        obtain ⟨P, p⟩ := q
        rw [hc] at hfs
        obtain ⟨d, hd, rfl⟩ := List.mem_map.1 hfs
        have hP := (C43_primary _ _ _).1 hc
        exact .inr ⟨p, P, hP, d, hd, (entityFixes_iff hP hd).1 hn⟩
  · rintro (⟨d, hd, h⟩ | ⟨p, P, hP, d, hd, h⟩)
    · exact ⟨_, List.mem_append_left _ (List.mem_map_of_mem hd), (dupFixes_iff hd).2 h⟩
    · refine ⟨_, List.mem_append_right _ ?_, (entityFixes_iff hP hd).2 h⟩
      rw [(C43_primary _ _ _).2 hP]
      exact List.mem_map_of_mem hd

/-- Every report has a quickfix: an item to which no quickfix applies has no report. -/
theorem C111_offered (v : Version) (c : Bool) (item : List Written)
    (h : ∀ next, ¬ Step v c item next) :
    duplicates (item.map Written.view) = [] ∧ validateEntity v c (item.map Written.view) = [] := by
  refine ⟨List.eq_nil_iff_forall_not_mem.2 fun d hd => ?_,
    List.eq_nil_iff_forall_not_mem.2 fun d hd => ?_⟩
  · obtain ⟨next, hn⟩ : ∃ next, next ∈ dupFixes item d := by
      cases d <;> exact ⟨_, List.mem_singleton.2 rfl⟩
    exact h next (.inl ⟨d, hd, (dupFixes_iff hd).1 hn⟩)
  · cases hc : primaryCandidate (item.map Written.view) with
    | none => unfold validateEntity at hd; rw [hc] at hd; exact absurd hd (by simp)
    | some q =>
      obtain ⟨P, p⟩ := q
      have hP := (C43_primary _ _ _).1 hc
      suffices ∃ next, next ∈ entityFixes v P.kind item d by
        obtain ⟨next, hn⟩ := this
        exact h next (.inr ⟨p, P, hP, d, hd, (entityFixes_iff hP hd).1 hn⟩)
      obtain ⟨V1, V2, V3, V4, V5⟩ := C71_versioned v c _ P p hP
      obtain ⟨pre, w, post, rfl, rfl, rfl, hmain⟩ := main_of_primary hP
      have hat : (pre ++ w :: post)[pre.length]? = some w := by simp
      have hord : d.isVersioned = false → _ := fun e =>
        C71_order v c _ _ _ hP (wf_view w) (not_deprecated_of_order hP (wf_view w) hd e)
      cases d with
      | anonymousSignature q => exact ⟨_, List.mem_singleton.2 rfl⟩
      | deprecatedAdditional q => exact ⟨_, List.mem_singleton.2 rfl⟩
      | deprecatedKeepAttr q => exact ⟨_, List.mem_singleton.2 rfl⟩
      | conflictArg q => exact ⟨_, List.mem_singleton.2 rfl⟩
      | missingExtension i =>
        obtain ⟨-, rfl, -⟩ := (V2 i).1 hd
        exact ⟨_, by rw [entityFixes, hat]; exact List.mem_singleton.2 rfl⟩
      | deprecatedExtension q =>
        obtain ⟨-, -, -, hq⟩ := (V3 q).1 hd
        obtain ⟨x, hx, -⟩ := argAt_of_first hq
        exact ⟨_, by rw [entityFixes, hx]; exact List.mem_singleton.2 rfl⟩
      | notFirst i =>
        obtain ⟨rfl, -⟩ := ((hord rfl).1 i).1 hd
        exact ⟨_, by rw [entityFixes, hat]; exact List.mem_singleton.2 rfl⟩
      | argNotFirst i =>
        obtain ⟨rfl, -, k, hk, -⟩ := ((hord rfl).2.1 i).1 hd
        have hk : w.kind = .arg k := hk
        have hmem : k ∈ w.args := by
          by_cases hu : k = .unknown
          · subst hu; exact absurd hk hmain.1.2
          · exact wf_view w k hk hu
        cases hf : w.args.findIdx? (· == k) with
        | none =>
          have := List.findIdx?_eq_none_iff.1 hf k hmem
          simp at this
        | some j =>
          refine ⟨(pre ++ w :: post).set pre.length ⟨w.form, k :: w.args.eraseIdx j⟩, ?_⟩
          · rw [entityFixes, hat]
            simp only [Option.toList_some, List.flatMap_cons, List.flatMap_nil, List.append_nil, hk,
              moveArgFirst, hf, List.map_cons, List.map_nil]
            exact List.mem_singleton.2 rfl
      | needsPrimary i =>
        obtain ⟨rfl, hq, -⟩ := ((hord rfl).2.2 i).1 hd
        obtain ⟨s, ss, he⟩ := List.exists_cons_of_ne_nil ((qualifying_iff v _).2 hq)
        refine ⟨primaryFix (pre ++ w :: post) w pre.length s, ?_⟩
        · rw [entityFixes, hat]
          simp only [Option.toList_some, List.flatMap_cons, List.flatMap_nil, List.append_nil, he,
            List.map_cons]
          exact List.mem_cons_self
      | conflictAttr i =>
        obtain ⟨a, ha, -⟩ := conflictAttr_at hP hd
        rw [List.getElem?_map] at ha
        obtain ⟨x, hx, -⟩ := Option.map_eq_some_iff.1 ha
        exact ⟨_, by rw [entityFixes, hx]; exact List.mem_singleton.2 rfl⟩

/-- Applying quickfixes, in any order, comes to an end: after at most five times the number of the
attributes and three times the number of the arguments and fourteen of them. This needs that unknown
macros have no arguments (`C111_negation_cycle`). -/
theorem C111_ends_partial (v : Version) (c : Bool) (item next : List Written) (n : Nat)
    (hp : Plain item) (h : Steps v c n item next) :
    n ≤ 5 * item.length + 3 * argCount item + 14 := by
  obtain ⟨b, hb⟩ := pot_exists v c item
  have hle := pot_le hb
  suffices n ≤ b by unfold weight at hle; omega
  clear hle
  induction h generalizing b with
  | done => exact Nat.zero_le _
  | step hs _ ih =>
    obtain ⟨hp', m, hm, hlt⟩ := step_pot hp hs hb
    have := ih hp' m hm
    omega

/-- Whichever quickfixes are applied, some more of them (or none) lead to an item without reports. -/
theorem C111_clean_partial (v : Version) (c : Bool) (item mid : List Written) (n : Nat)
    (hp : Plain item) (h : Steps v c n item mid) :
    ∃ m next, Steps v c m mid next ∧ duplicates (next.map Written.view) = [] ∧
      validateEntity v c (next.map Written.view) = [] := by
  have hp' : Plain mid := by
    induction h with
    | done => exact hp
    | step hs _ ih =>
      obtain ⟨b, hb⟩ := pot_exists v c _
      exact ih (step_pot hp hs hb).1
  obtain ⟨b, hb⟩ := pot_exists v c mid
  clear h hp
  induction b using Nat.strongRecOn generalizing mid with
  | _ b ih =>
    by_cases hs : ∃ next, Step v c mid next
    · obtain ⟨next, hs⟩ := hs
      obtain ⟨hp2, m, hm, hlt⟩ := step_pot hp' hs hb
      obtain ⟨k, fin, h1, h2⟩ := ih m hlt next hp2 hm
      exact ⟨k + 1, fin, .step hs h1, h2⟩
    · exact ⟨0, mid, .done mid, C111_offered v c mid fun next hn => hs ⟨next, hn⟩⟩

/-- The main attribute keeps its kind, if it is not deprecated and no argument that only adds to
another one (those get the attribute they lack). -/
theorem C111_keeps_partial (v : Version) (c : Bool) (item next : List Written) (n p : Nat) (P : AttrV)
    (hp : Plain item) (hP : IsPrimary (item.map Written.view) p P) (hc : Complete v c P.kind)
    (h : Steps v c n item next) :
    ∃ p' P', IsPrimary (next.map Written.view) p' P' ∧ P'.kind = P.kind := by
  obtain ⟨pre, w, post, he, -, rfl, hm⟩ := main_of_primary hP
  obtain ⟨pre', w', post', rfl, hm', hk, -⟩ := steps_keep h he hm hp hc
  exact ⟨pre'.length, w'.view, (main_iff _ _ _).1 hm', hk⟩

/-- If the main attribute is an argument, then the arguments that fit it stay on the item, other than
`anonymous` and `signature_topic` (which exclude each other). Beside a macro they need not
(`C111_negation_lost`). -/
theorem C111_fitting_partial (v : Version) (c : Bool) (item next : List Written) (n p : Nat)
    (P : AttrV) (k l : ArgKind)
    (hp : Plain item) (hP : IsPrimary (item.map Written.view) p P) (hc : Complete v c P.kind)
    (hk : P.kind = .arg k) (hl : l ∈ validSiblings P.kind v)
    (hn : l ≠ .anonymous ∧ l ≠ .signatureTopic) (h : Steps v c n item next)
    (hin : ∃ w ∈ item, l ∈ w.args) : ∃ w ∈ next, l ∈ w.args := by
  obtain ⟨pre, w, post, he, -, rfl, hm⟩ := main_of_primary hP
  obtain ⟨-, -, -, -, -, -, -, hh⟩ := steps_keep h he hm hp hc
  exact hh k l hk hl hn hin

/-- With an unknown macro that has arguments, quickfixes can be applied without end: beside
`#[ink::foo(message)]`, `message` is added to `#[ink(payable)]` since it lacks it, and removed since it
is there twice. -/
theorem C111_negation_cycle (v : Version) (c : Bool) (n : Nat) :
    ∃ next, Steps v c n [⟨.path .unknown, [.message]⟩, ⟨.ink true, [.payable]⟩] next := by
  have h1 : Step v c [⟨.path .unknown, [.message]⟩, ⟨.ink true, [.payable]⟩]
      [⟨.path .unknown, [.message]⟩, ⟨.ink true, [.message, .payable]⟩] :=
    (C111_fixes _ _ _ _).1 (by cases v <;> cases c <;> decide +kernel)
  have h2 : Step v c [⟨.path .unknown, [.message]⟩, ⟨.ink true, [.message, .payable]⟩]
      [⟨.path .unknown, [.message]⟩, ⟨.ink true, [.payable]⟩] :=
    (C111_fixes _ _ _ _).1 (by cases v <;> cases c <;> decide +kernel)
  suffices (∃ next, Steps v c n [⟨.path .unknown, [.message]⟩, ⟨.ink true, [.payable]⟩] next) ∧
      ∃ next, Steps v c n [⟨.path .unknown, [.message]⟩, ⟨.ink true, [.message, .payable]⟩] next from
    this.1
  induction n with
  | zero => exact ⟨⟨_, .done _⟩, ⟨_, .done _⟩⟩
  | succ n ih =>
    obtain ⟨⟨a, ha⟩, b, hb⟩ := ih
    exact ⟨⟨b, .step h1 hb⟩, ⟨a, .step h2 ha⟩⟩

/-- `#[ink(keep_attr)] #[ink::contract(keep_attr)]`: if the second `keep_attr` goes first since it is
there twice, then the attribute with the other one goes after it since it conflicts with the macro, and
none is left. If the macro is moved to the front first, its `keep_attr` stays. -/
theorem C111_negation_lost (v : Version) (c : Bool) :
    Steps v c 3 [⟨.ink true, [.keepAttr]⟩, ⟨.path .contract, [.keepAttr]⟩] [⟨.path .contract, []⟩] ∧
    Steps v c 2 [⟨.ink true, [.keepAttr]⟩, ⟨.path .contract, [.keepAttr]⟩]
      [⟨.path .contract, [.keepAttr]⟩] ∧
    duplicates ([⟨.path .contract, [.keepAttr]⟩].map Written.view) = [] ∧
    validateEntity v c ([⟨.path .contract, [.keepAttr]⟩].map Written.view) = [] := by
  have h1 : Step v c [⟨.ink true, [.keepAttr]⟩, ⟨.path .contract, [.keepAttr]⟩]
      [⟨.ink true, [.keepAttr]⟩, ⟨.path .contract, []⟩] :=
    (C111_fixes _ _ _ _).1 (by cases v <;> cases c <;> decide +kernel)
  have h2 : Step v c [⟨.ink true, [.keepAttr]⟩, ⟨.path .contract, []⟩]
      [⟨.path .contract, []⟩, ⟨.ink true, [.keepAttr]⟩] :=
    (C111_fixes _ _ _ _).1 (by cases v <;> cases c <;> decide +kernel)
  have h3 : Step v c [⟨.path .contract, []⟩, ⟨.ink true, [.keepAttr]⟩] [⟨.path .contract, []⟩] :=
    (C111_fixes _ _ _ _).1 (by cases v <;> cases c <;> decide +kernel)
  have h4 : Step v c [⟨.ink true, [.keepAttr]⟩, ⟨.path .contract, [.keepAttr]⟩]
      [⟨.path .contract, [.keepAttr]⟩, ⟨.ink true, [.keepAttr]⟩] :=
    (C111_fixes _ _ _ _).1 (by cases v <;> cases c <;> decide +kernel)
  have h5 : Step v c [⟨.path .contract, [.keepAttr]⟩, ⟨.ink true, [.keepAttr]⟩]
      [⟨.path .contract, [.keepAttr]⟩] :=
    (C111_fixes _ _ _ _).1 (by cases v <;> cases c <;> decide +kernel)
  exact ⟨.step h1 (.step h2 (.step h3 (.done _))), .step h4 (.step h5 (.done _)),
    by decide +kernel, by cases v <;> cases c <;> decide +kernel⟩

/-- The arguments of `#[ink(anonymous, message, payable)]`. -/
def overlapSource : List Elem :=
  [.tok .ident "anonymous", .tok .comma ",", .tok .whitespace " ", .tok .ident "message",
    .tok .comma ",", .tok .whitespace " ", .tok .ident "payable"]

/-- Beside `#[ink(event)]`, the fix for `#[ink(anonymous, message, payable)]` deletes `message` with the
comma behind it and `payable` with the comma before it. That is the same comma: the two edits of one fix
overlap (editors refuse such edits). -/
theorem C111_negation_overlap (pe : ExprParser) (v : Version) (c : Bool) :
    EntityDiag.conflictAttr 1 ∈ validateEntity v c
      ([⟨.ink true, [.event]⟩, ⟨.ink true, [.anonymous, .message, .payable]⟩].map Written.view) ∧
    ∃ args, parseInkArgs pe ⟨["ink"], some (parenthesised overlapSource, 5)⟩ = some args ∧
      args.map Arg.kind = [.anonymous, .message, .payable] ∧
      ∃ r1 r2, conflictRanges (leavesList 0 (inFile [.tok .other "#", .tok .other "[",
          .tok .ident "ink"] overlapSource [.tok .rBrack "]"])) v (.arg .event) args
          ⟨3, false, some (5, 34), (0, 35)⟩ = some [r1, r2] ∧
        r1.1 < r2.2 ∧ r2.1 < r1.2 := by
  refine ⟨by cases v <;> cases c <;> decide +kernel, _, rfl, rfl, (17, 25), (24, 33), ?_, ?_⟩
  · cases v <;> rfl
  · decide

/-! ## Cases -/

/-- `#[ink(payable, message)] #[ink(event, selector)] #[ink(message)]`. -/
def caseItem : List Written :=
  [⟨.ink true, [.payable, .message]⟩, ⟨.ink true, [.event, .selector]⟩, ⟨.ink true, [.message]⟩]

/-- It meets the conditions, and `selector` fits `message`. Three quickfixes lead to
`#[ink(message, payable)] #[ink(selector)]`: `event` conflicts, `message` comes first and is there
twice. -/
example (v : Version) (c : Bool) : Plain caseItem ∧
    IsPrimary (caseItem.map Written.view) 0 (Written.view ⟨.ink true, [.payable, .message]⟩) ∧
    Complete v c (Written.kind ⟨.ink true, [.payable, .message]⟩) ∧
    Written.kind ⟨.ink true, [.payable, .message]⟩ = .arg .message ∧
    ArgKind.selector ∈ validSiblings (.arg .message) v ∧ (∃ w ∈ caseItem, ArgKind.selector ∈ w.args) ∧
    Steps v c 3 caseItem [⟨.ink true, [.message, .payable]⟩, ⟨.ink true, [.selector]⟩] ∧
    ∀ next, ¬ Step v c [⟨.ink true, [.message, .payable]⟩, ⟨.ink true, [.selector]⟩] next := by
  have h1 : Step v c caseItem
      [⟨.ink true, [.payable, .message]⟩, ⟨.ink true, [.event, .selector]⟩] :=
    (C111_fixes _ _ _ _).1 (by cases v <;> cases c <;> decide +kernel)
  have h2 : Step v c [⟨.ink true, [.payable, .message]⟩, ⟨.ink true, [.event, .selector]⟩]
      [⟨.ink true, [.payable, .message]⟩, ⟨.ink true, [.selector]⟩] :=
    (C111_fixes _ _ _ _).1 (by cases v <;> cases c <;> decide +kernel)
  have h3 : Step v c [⟨.ink true, [.payable, .message]⟩, ⟨.ink true, [.selector]⟩]
      [⟨.ink true, [.message, .payable]⟩, ⟨.ink true, [.selector]⟩] :=
    (C111_fixes _ _ _ _).1 (by cases v <;> cases c <;> decide +kernel)
  have hk : Written.kind ⟨.ink true, [.payable, .message]⟩ = .arg .message := by decide
  refine ⟨?_, (C43_primary _ _ _).1 (by decide), ⟨?_, ?_⟩, hk, by cases v <;> decide,
    ⟨⟨.ink true, [.event, .selector]⟩, by decide, by decide⟩,
    .step h1 (.step h2 (.step h3 (.done _))), ?_⟩
  · intro w hw
    simp only [caseItem, List.mem_cons, List.not_mem_nil, or_false] at hw
    rcases hw with rfl | rfl | rfl <;> exact fun e => absurd e (by decide)
  · rw [hk]; rintro ⟨-, ⟨e, -⟩ | e⟩ <;> exact absurd e (by decide)
  · rw [hk]; exact fun e => absurd e (by cases v <;> decide)
  · intro next hn
    obtain ⟨fs, hfs, -⟩ := (C111_fixes _ _ _ _).2 hn
    rw [show itemFixes v c [⟨.ink true, [.message, .payable]⟩, ⟨.ink true, [.selector]⟩] = [] by
      cases v <;> cases c <;> decide +kernel] at hfs
    exact absurd hfs (by simp)

/-- `#[ink(payable)]` on its own gets `message` or `constructor`, in the order of the suggestions. -/
example (c : Bool) : itemFixes .v5 c [⟨.ink true, [.payable]⟩] =
    [[[⟨.ink true, [.constructor, .payable]⟩], [⟨.ink true, [.message, .payable]⟩]]] := by
  cases c <;> decide +kernel

end Verif.Analyzer.EntityFix
