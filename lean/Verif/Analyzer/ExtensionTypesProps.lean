import Verif.Analyzer.ExtensionTypes

/-!
# Which types of a chain extension function are checked (C86)

Specification: a type *uses* a local type if it is a path that names one, or a path that names none
and uses one in a type argument, or if one of its parts uses it. The types of a signature are those
of its parameters and its return type.
-/

namespace Verif.Analyzer.ExtensionTypes

/-- A type uses a local type, as its author would say looking at it from the outside in. -/
inductive Uses {A : Type} (resolve : List Char → Option A) : Ty → A → Prop where
  | named {text : List Char} {args : Option (List Ty)} {a : A} (h : resolve text = some a) :
      Uses resolve (.path text args) a
  | arg {text : List Char} {args : List Ty} {t : Ty} {a : A} (h : resolve text = none)
      (ht : t ∈ args) (hu : Uses resolve t a) : Uses resolve (.path text (some args)) a
  | inside {t : Ty} {a : A} (hu : Uses resolve t a) : Uses resolve (.wrap t) a
  | field {ts : List Ty} {t : Ty} {a : A} (ht : t ∈ ts) (hu : Uses resolve t a) :
      Uses resolve (.tuple ts) a

/-- A path is written in a type, at any depth. -/
inductive Written : PathT → Ty → Prop where
  | here (text : List Char) (args : Option (List Ty)) : Written (text, args) (.path text args)
  | arg {p : PathT} {text : List Char} {args : List Ty} {t : Ty} (ht : t ∈ args)
      (hw : Written p t) : Written p (.path text (some args))
  | inside {p : PathT} {t : Ty} (hw : Written p t) : Written p (.wrap t)
  | field {p : PathT} {ts : List Ty} {t : Ty} (ht : t ∈ ts) (hw : Written p t) :
      Written p (.tuple ts)

/-- The types written in a signature. -/
def Sig.types (s : Sig) : List Ty := s.params.getD [] ++ s.ret.toList

/-- Paths with the same text are the same path (they are parsed alike). -/
def SameText (ts : List Ty) : Prop :=
  ∀ t ∈ ts, ∀ u ∈ ts, ∀ p q : PathT, Written p t → Written q u → p.1 = q.1 → p = q

theorem mem_customs (ts : List Ty) (p : PathT) :
    p ∈ customs ts ↔ ∃ t ∈ ts, p ∈ (custom t).getD [] := by
  induction ts with
  | nil => simp [customs]
  | cons t ts ih => simp [customs, ih]

mutual

/-- The extracted paths are written in the type. -/
theorem custom_written (t : Ty) (p : PathT) (h : p ∈ (custom t).getD []) : Written p t := by
  cases t with
  | path text args =>
    simp only [custom, Option.getD_some, List.mem_singleton] at h
    subst h
    exact .here _ _
  | wrap t =>
    simp only [custom] at h
    exact .inside (custom_written t p h)
  | tuple ts =>
    have hm : p ∈ customs ts := by
      simp only [custom] at h
      split at h
      · simp at h
      · simpa using h
    obtain ⟨t, ht, hw⟩ := customs_written ts p hm
    exact .field ht hw
  | other => simp [custom] at h

theorem customs_written (ts : List Ty) (p : PathT) (h : p ∈ customs ts) :
    ∃ t ∈ ts, Written p t := by
  cases ts with
  | nil => simp [customs] at h
  | cons t ts =>
    simp only [customs, List.mem_append] at h
    rcases h with h | h
    · exact ⟨t, by simp, custom_written t p h⟩
    · obtain ⟨u, hu, hw⟩ := customs_written ts p h
      exact ⟨u, by simp [hu], hw⟩

end

mutual

/-- A type uses what its extracted paths use. -/
theorem uses_custom {A : Type} (resolve : List Char → Option A) (a : A) (t : Ty) :
    Uses resolve t a ↔ ∃ p ∈ (custom t).getD [], Uses resolve (.path p.1 p.2) a := by
  cases t with
  | path text args => simp [custom]
  | wrap t =>
    simp only [custom]
    rw [← uses_custom resolve a t]
    constructor
    · intro h
      cases h with
      | inside h => exact h
    · exact .inside
  | tuple ts =>
    have h0 : (custom (.tuple ts)).getD [] = customs ts := by
      simp only [custom]
      split
      · rename_i h
        simp [List.isEmpty_iff.1 h]
      · rfl
    rw [h0, ← uses_customs resolve a ts]
    constructor
    · intro h
      cases h with
      | field ht hu => exact ⟨_, ht, hu⟩
    · rintro ⟨t, ht, hu⟩
      exact .field ht hu
  | other =>
    simp only [custom, Option.getD_none, List.not_mem_nil, false_and, exists_false, iff_false]
    intro h
    cases h

theorem uses_customs {A : Type} (resolve : List Char → Option A) (a : A) (ts : List Ty) :
    (∃ t ∈ ts, Uses resolve t a) ↔ ∃ p ∈ customs ts, Uses resolve (.path p.1 p.2) a := by
  cases ts with
  | nil => simp [customs]
  | cons t ts =>
    have h1 := uses_custom resolve a t
    have h2 := uses_customs resolve a ts
    simp only [customs, List.mem_append, List.mem_cons]
    constructor
    · rintro ⟨u, rfl | hu, h⟩
      · obtain ⟨p, hp, h⟩ := h1.1 h
        exact ⟨p, .inl hp, h⟩
      · obtain ⟨p, hp, h⟩ := h2.1 ⟨u, hu, h⟩
        exact ⟨p, .inr hp, h⟩
    · rintro ⟨p, hp | hp, h⟩
      · exact ⟨t, .inl rfl, h1.2 ⟨p, hp, h⟩⟩
      · obtain ⟨u, hu, h⟩ := h2.2 ⟨p, hp, h⟩
        exact ⟨u, .inr hu, h⟩

end

/-- Dropping repeated keys drops no element if the key determines it. -/
theorem mem_unique {α κ : Type} [DecidableEq κ] (key : α → κ) (l : List α)
    (inj : ∀ x ∈ l, ∀ y ∈ l, key x = key y → x = y) (x : α) :
    x ∈ Util.uniqueBy key l ↔ x ∈ l := by
  constructor
  · exact (Util.uniqueByFrom_sublist key [] l).mem
  · intro h
    obtain ⟨y, hy, hk⟩ := Util.uniqueByFrom_complete key [] l x h (by simp)
    have := inj y ((Util.uniqueByFrom_sublist key [] l).mem hy) x h hk
    subst this
    exact hy

theorem sameText_customs {ts : List Ty} (h : SameText ts) :
    ∀ p ∈ customs ts, ∀ q ∈ customs ts, p.1 = q.1 → p = q := by
  intro p hp q hq he
  obtain ⟨t, ht, hw⟩ := customs_written ts p hp
  obtain ⟨u, hu, hv⟩ := customs_written ts q hq
  exact h t ht u hu p q hw hv he

theorem mem_resolvable {A : Type} (resolve : List Char → Option A) (a : A) (n : Nat) (p : PathT)
    (hn : pathSize p ≤ n) (hs : SameText [.path p.1 p.2]) :
    a ∈ (resolvable resolve p).getD [] ↔ Uses resolve (.path p.1 p.2) a := by
  induction n generalizing p with
  | zero =>
    obtain ⟨t, args⟩ := p
    cases args <;> simp [pathSize, Ty.size] at hn
  | succ n ih =>
    obtain ⟨text, args⟩ := p
    rw [resolvable.eq_1]
    cases hr : resolve text with
    | some b =>
      simp only [hr, Option.getD_some, List.mem_singleton]
      constructor
      · rintro rfl
        exact .named hr
      · intro h
        cases h with
        | named h => rw [hr] at h; exact (Option.some.inj h).symm
        | arg h => rw [hr] at h; cases h
    | none =>
      cases args with
      | none =>
        simp only [hr, Option.getD_none, List.not_mem_nil, false_iff]
        intro h
        cases h with
        | named h => rw [hr] at h; cases h
      | some args =>
        have hsa : SameText args := by
          intro t ht u hu p q hp hq he
          exact hs _ (List.mem_singleton.2 rfl) _ (List.mem_singleton.2 rfl) p q (.arg ht hp) (.arg hu hq)
            he
        have hm := mem_unique (fun q : PathT => q.1) (customs args) (sameText_customs hsa)
        have hsz : ∀ q ∈ customs args, pathSize q ≤ n := by
          intro q hq
          have h1 := pathSize_customs args q hq
          simp only [pathSize, Ty.size] at hn
          omega
        have hsq : ∀ q ∈ customs args, SameText [.path q.1 q.2] := by
          intro q hq t ht u hu p p' hp hp' he
          simp only [List.mem_singleton] at ht hu
          subst ht
          subst hu
          have lift : ∀ r, Written r (.path q.1 q.2) → ∃ t ∈ args, Written r t := by
            intro r hr
            exact written_customs args q hq r hr
          obtain ⟨t, ht, hp⟩ := lift p hp
          obtain ⟨u, hu, hp'⟩ := lift p' hp'
          exact hsa t ht u hu p p' hp hp' he
        simp only [hr, Option.getD_some, List.mem_flatMap, List.mem_attach, true_and,
          Subtype.exists]
        constructor
        · rintro ⟨q, hq, h⟩
          have hq' := (hm q).1 hq
          have := (ih q (hsz q hq') (hsq q hq')).1 h
          obtain ⟨t, ht, hu⟩ := (uses_customs resolve a args).2 ⟨q, hq', this⟩
          exact .arg hr ht hu
        · intro h
          cases h with
          | named h => rw [hr] at h; cases h
          | arg h ht hu =>
            obtain ⟨q, hq, hu⟩ := (uses_customs resolve a args).1 ⟨_, ht, hu⟩
            exact ⟨q, (hm q).2 hq, (ih q (hsz q hq) (hsq q hq)).2 hu⟩
where
  written_custom (t : Ty) (q : PathT) (hq : q ∈ (custom t).getD []) (r : PathT)
      (hr : Written r (.path q.1 q.2)) : Written r t := by
    cases t with
    | path text args =>
      simp only [custom, Option.getD_some, List.mem_singleton] at hq
      subst hq
      exact hr
    | wrap t =>
      simp only [custom] at hq
      exact .inside (written_custom t q hq r hr)
    | tuple ts =>
      have hm : q ∈ customs ts := by
        simp only [custom] at hq
        split at hq
        · simp at hq
        · simpa using hq
      obtain ⟨t, ht, hw⟩ := written_customs ts q hm r hr
      exact .field ht hw
    | other => simp [custom] at hq
  written_customs (ts : List Ty) (q : PathT) (hq : q ∈ customs ts) (r : PathT)
      (hr : Written r (.path q.1 q.2)) : ∃ t ∈ ts, Written r t := by
    cases ts with
    | nil => simp [customs] at hq
    | cons t ts =>
      simp only [customs, List.mem_append] at hq
      rcases hq with h | h
      · exact ⟨t, by simp, written_custom t q h r hr⟩
      · obtain ⟨u, hu, hw⟩ := written_customs ts q h r hr
        exact ⟨u, by simp [hu], hw⟩

theorem customTypes_eq (s : Sig) : (customTypes s).getD [] = customs s.types := by
  have happ : ∀ a b : List Ty, customs (a ++ b) = customs a ++ customs b := by
    intro a b
    induction a with
    | nil => rfl
    | cons t a ih => simp [customs, ih]
  obtain ⟨params, ret⟩ := s
  cases params with
  | none =>
    cases ret with
    | none => rfl
    | some r => cases h : custom r <;> simp [customTypes, Sig.types, customs, h]
  | some ps =>
    cases ret with
    | none => simp [customTypes, Sig.types]
    | some r => cases h : custom r <;> simp [customTypes, Sig.types, customs, h, happ]

theorem checked_eq {A : Type} (resolve : List Char → Option A) (range : A → Nat × Nat) (s : Sig) :
    checked resolve range s = Util.uniqueBy range
      ((Util.uniqueBy (fun q : PathT => q.1) (customs s.types)).flatMap fun q =>
        (resolvable resolve q).getD []) := by
  rw [← customTypes_eq]
  unfold checked
  cases customTypes s <;> rfl

theorem mem_checked {A : Type} (resolve : List Char → Option A) (range : A → Nat × Nat) (s : Sig)
    (same : SameText s.types)
    (apart : ∀ x y t u, resolve t = some x → resolve u = some y → range x = range y → x = y)
    (a : A) :
    a ∈ checked resolve range s ↔ ∃ t ∈ s.types, Uses resolve t a := by
  have resolved : ∀ t a, Uses resolve t a → ∃ u, resolve u = some a := by
    intro t a h
    induction h with
    | named h => exact ⟨_, h⟩
    | arg _ _ _ ih => exact ih
    | inside _ ih => exact ih
    | field _ _ ih => exact ih
  have hm := mem_unique (fun q : PathT => q.1) (customs s.types) (sameText_customs same)
  have hsq : ∀ q ∈ customs s.types, SameText [.path q.1 q.2] := by
    intro q hq t ht u hu p p' hp hp' he
    simp only [List.mem_singleton] at ht hu
    subst ht
    subst hu
    obtain ⟨t, ht, hp⟩ := mem_resolvable.written_customs s.types q hq p hp
    obtain ⟨u, hu, hp'⟩ := mem_resolvable.written_customs s.types q hq p' hp'
    exact same t ht u hu p p' hp hp' he
  have mem : ∀ x, x ∈ (Util.uniqueBy (fun q : PathT => q.1) (customs s.types)).flatMap (fun q =>
      (resolvable resolve q).getD []) ↔ ∃ t ∈ s.types, Uses resolve t x := by
    intro x
    rw [uses_customs]
    simp only [List.mem_flatMap]
    constructor
    · rintro ⟨q, hq, h⟩
      have hq' := (hm q).1 hq
      exact ⟨q, hq', (mem_resolvable resolve x _ q (Nat.le_refl _) (hsq q hq')).1 h⟩
    · rintro ⟨q, hq, h⟩
      exact ⟨q, (hm q).2 hq, (mem_resolvable resolve x _ q (Nat.le_refl _) (hsq q hq)).2 h⟩
  rw [checked_eq, mem_unique, mem]
  intro x hx y hy he
  obtain ⟨_, _, h⟩ := (mem x).1 hx
  obtain ⟨_, _, h'⟩ := (mem y).1 hy
  obtain ⟨t, ht⟩ := resolved _ _ h
  obtain ⟨u, hu⟩ := resolved _ _ h'
  exact apart x y t u ht hu he

/-- A local type is reported exactly if a parameter or the return type uses it and it lacks the codec
traits. Two paths with the same text are the same and two local types have different ranges.
Partial: types are looked at from the outside in, see `C86_negation_inner`. -/
theorem C86_reported_partial {A : Type} (resolve : List Char → Option A) (range : A → Nat × Nat)
    (lacks : A → Bool) (s : Sig) (same : SameText s.types)
    (apart : ∀ x y t u, resolve t = some x → resolve u = some y → range x = range y → x = y)
    (a : A) :
    a ∈ reported resolve range lacks s ↔
      lacks a = true ∧ ∃ t, (t ∈ s.params.getD [] ∨ s.ret = some t) ∧ Uses resolve t a := by
  unfold reported
  rw [List.mem_filter, mem_checked resolve range s same apart, and_comm]
  refine and_congr_right fun _ => exists_congr fun t => and_congr_left fun _ => ?_
  simp [Sig.types]

/-- No local type is reported twice for one function. -/
theorem C86_once {A : Type} (resolve : List Char → Option A) (range : A → Nat × Nat)
    (lacks : A → Bool) (s : Sig) : (reported resolve range lacks s).Nodup := by
  have h : (checked resolve range s).Pairwise fun a b => range a ≠ range b := by
    rw [checked_eq]
    exact Util.uniqueByFrom_pairwise _ _ _
  refine List.Pairwise.sublist List.filter_sublist (h.imp ?_)
  intro a b hne he
  exact hne (by rw [he])

/-- Where the local types are named in the example: `A` and `B`. -/
def demoResolve : List Char → Option Nat
  | ['A'] => some 0
  | ['B'] => some 10
  | ['A', '<', 'B', '>'] => some 0
  | _ => none

/-- `fn f(&self, x: (V<A>, [A]), y: &V<A>) -> R<B, ()>`. -/
def demoSig : Sig where
  params := some [.tuple [.path "V<A>".toList (some [.path ['A'] none]), .wrap (.path ['A'] none)],
    .wrap (.path "V<A>".toList (some [.path ['A'] none]))]
  ret := some (.path "R<B, ()>".toList (some [.path ['B'] none, .tuple []]))

/-- All paths written in types. -/
def allPaths : List PathT :=
  [(['A'], none), (['B'], none), ("V<A>".toList, some [.path ['A'] none]),
    ("R<B, ()>".toList, some [.path ['B'] none, .tuple []])]

example : ∃ t, (t ∈ demoSig.params.getD [] ∨ demoSig.ret = some t) ∧ Uses demoResolve t 10 :=
  ⟨_, .inr rfl, .arg (by decide) (List.mem_cons_self ..) (.named (by decide))⟩

example : SameText demoSig.types := by
  have key : ∀ t ∈ demoSig.types, ∀ p, Written p t → p ∈ allPaths := by
    have hA : ∀ p, Written p (.path ['A'] none) → p ∈ allPaths := by
      intro p h
      cases h
      simp [allPaths]
    have hB : ∀ p, Written p (.path ['B'] none) → p ∈ allPaths := by
      intro p h
      cases h
      simp [allPaths]
    have hV : ∀ p, Written p (.path "V<A>".toList (some [.path ['A'] none])) → p ∈ allPaths := by
      intro p h
      cases h with
      | here => simp [allPaths]
      | arg ht hw =>
        simp only [List.mem_singleton] at ht
        subst ht
        exact hA p hw
    intro t ht p h
    simp only [Sig.types, demoSig, Option.getD_some, Option.toList_some, List.cons_append,
      List.nil_append, List.mem_cons, List.not_mem_nil, or_false] at ht
    rcases ht with rfl | rfl | rfl
    · cases h with
      | field ht hw =>
        simp only [List.mem_cons, List.not_mem_nil, or_false] at ht
        rcases ht with rfl | rfl
        · exact hV p hw
        · cases hw with
          | inside hw => exact hA p hw
    · cases h with
      | inside hw => exact hV p hw
    · cases h with
      | here => simp [allPaths]
      | arg ht hw =>
        simp only [List.mem_cons, List.not_mem_nil, or_false] at ht
        rcases ht with rfl | rfl
        · exact hB p hw
        · cases hw with
          | field ht => simp at ht
  intro t ht u hu p q hp hq he
  have h1 := key t ht p hp
  have h2 := key u hu q hq
  simp only [allPaths, List.mem_cons, List.not_mem_nil, or_false] at h1 h2
  rcases h1 with rfl | rfl | rfl | rfl <;> rcases h2 with rfl | rfl | rfl | rfl <;>
    first
      | rfl
      | (exfalso; revert he; decide)

/-- The type arguments of a local type are not looked at: for `fn f(&self, x: A<B>)` with local types
`A` and `B`, only `A` is checked, although `A<B>` can be encoded only if `B` can. -/
theorem C86_negation_inner :
    ¬ ∀ (resolve : List Char → Option Nat) (s : Sig) (p : PathT) (a : Nat) (t : Ty),
      t ∈ s.types → Written p t → resolve p.1 = some a →
        a ∈ reported resolve (fun n => (n, n)) (fun _ => true) s := by
  intro h
  have := h demoResolve ⟨some [.path "A<B>".toList (some [.path ['B'] none])], none⟩
    (['B'], none) 10 _ (List.mem_cons_self ..) (.arg (List.mem_cons_self ..) (.here _ _)) (by decide)
  have hr : resolvable demoResolve ("A<B>".toList, some [.path ['B'] none]) = some [0] := by
    rw [resolvable.eq_1]
    have : demoResolve "A<B>".toList = some 0 := by decide
    simp only [this]
  revert this
  simp only [reported, checked, customTypes, customs, custom, Option.map_some, Option.bind_none,
    Option.getD_some, List.append_nil, Option.or_none, Util.uniqueBy, Util.uniqueByFrom,
    List.not_mem_nil, if_false, List.flatMap_cons, List.flatMap_nil, hr]
  decide

end Verif.Analyzer.ExtensionTypes
