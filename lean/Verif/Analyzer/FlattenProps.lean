import Verif.Analyzer.Flatten

/-!
# C56: flattening attributes keeps every argument
-/

namespace Verif.Analyzer
open Verif.Ir

/-! ## Specification -/

/-- `primary` is the attribute that the action rewrites: the first one of the highest priority
(macros before arguments), `others` are the attributes before and after it. -/
def Primary (attrs : List FlatAttr) (primary : FlatAttr) (others : List FlatAttr) : Prop :=
  ∃ before after, attrs = before ++ primary :: after ∧ others = before ++ after ∧
    (∀ a ∈ before, primary.kind.rank < a.kind.rank) ∧
    (∀ a ∈ after, primary.kind.rank ≤ a.kind.rank)

/-- Attribute with the given path and arguments. -/
def attrText (path : List Char) (args : List FlatArg) : List Char :=
  "#[".toList ++ path ++ "(".toList ++ List.intercalate ", ".toList (args.map (·.text)) ++
    ")]".toList

/-- Priority of an argument in an attribute: entity arguments, then the others, then unknown
ones. -/
def argPriority (a : FlatArg) : Nat := a.kind.sortOrder

/-! ## Lemmas -/

theorem joinComma_eq (l : List (List Char)) : joinComma l = List.intercalate ", ".toList l := by
  induction l with
  | nil => rfl
  | cons x l ih =>
    cases l with
    | nil => simp [joinComma, List.intercalate]
    | cons y l =>
      rw [joinComma, ih]
      · simp [List.intercalate, List.intersperse]
      · simp

theorem insertBy_of_le (key : α → Nat) (x : α) (l : List α) (h : ∀ y ∈ l, key x ≤ key y) :
    Util.insertBy key x l = x :: l := by
  cases l with
  | nil => rfl
  | cons y l => rw [Util.insertBy, if_pos (h y (by simp))]

theorem sortBy_of_sorted (key : α → Nat) (l : List α)
    (h : l.Pairwise fun a b => key a ≤ key b) : Util.sortBy key l = l := by
  induction l with
  | nil => rfl
  | cons x l ih =>
    rw [List.pairwise_cons] at h
    rw [Util.sortBy, ih h.2, insertBy_of_le key x l h.1]

theorem sort_primary (attrs rest : List FlatAttr) (primary : FlatAttr)
    (h : Util.sortBy (fun a => a.kind.rank) attrs = primary :: rest) :
    ∃ others, Primary attrs primary others ∧ rest.Perm others := by
  obtain ⟨a, b, hl, ha, hb⟩ := Util.sortBy_head (fun a : FlatAttr => a.kind.rank) attrs primary
    (by rw [h]; rfl)
  refine ⟨a ++ b, ⟨a, b, hl, rfl, ha, hb⟩, ?_⟩
  have hp := Util.sortBy_perm (fun a : FlatAttr => a.kind.rank) attrs
  rw [h, hl] at hp
  exact (List.perm_cons primary).1 (hp.trans List.perm_middle)

theorem primary_unique (attrs : List FlatAttr) (p q : FlatAttr) (o r : List FlatAttr)
    (h : Primary attrs p o) (h' : Primary attrs q r) : p = q ∧ o = r := by
  obtain ⟨a, b, hl, rfl, ha, hb⟩ := h
  obtain ⟨c, d, hl', rfl, hc, hd⟩ := h'
  rw [hl] at hl'
  rcases List.append_eq_append_iff.1 hl' with ⟨e, he, hf⟩ | ⟨e, he, hf⟩
  · cases e with
    | nil =>
      simp at he hf
      exact ⟨hf.1, by rw [he, hf.2]⟩
    | cons x e =>
      simp at hf
      obtain ⟨rfl, rfl⟩ := hf
      have h1 := hc p (by rw [he]; simp)
      have h2 := hb q (by simp)
      omega
  · cases e with
    | nil =>
      simp at he hf
      exact ⟨hf.1.symm, by rw [he, hf.2]⟩
    | cons x e =>
      simp at hf
      obtain ⟨rfl, rfl⟩ := hf
      have h1 := ha q (by rw [he]; simp)
      have h2 := hd p (by simp)
      omega

/-! ## Theorems -/

/-- The action is offered iff an argument-based attribute is not the primary one. -/
theorem C56_offered (attrs : List FlatAttr) :
    (flattenAttrs attrs).isSome = true ↔
      ∃ primary others, Primary attrs primary others ∧ ∃ a ∈ others, ∃ k, a.kind = .arg k := by
  unfold flattenAttrs
  cases hs : Util.sortBy (fun a : FlatAttr => a.kind.rank) attrs with
  | nil =>
    have hlen := Util.sortBy_length (fun a : FlatAttr => a.kind.rank) attrs
    rw [hs] at hlen
    obtain rfl := List.length_eq_zero_iff.1 hlen.symm
    simp only [Option.isSome_none, Bool.false_eq_true, false_iff]
    rintro ⟨p, o, ⟨a, b, h, _⟩, _⟩
    simp at h
  | cons p rest =>
    obtain ⟨others, hp, hperm⟩ := sort_primary attrs rest p hs
    simp only
    constructor
    · intro h
      split at h
      · cases h
      · rename_i hne
        obtain ⟨a, ha⟩ := List.exists_mem_of_ne_nil (rest.filter (·.isArg))
          (fun he => hne (by rw [he]; rfl))
        rw [List.mem_filter] at ha
        refine ⟨p, others, hp, a, hperm.mem_iff.1 ha.1, ?_⟩
        have hk := ha.2
        unfold FlatAttr.isArg at hk
        cases hk' : a.kind with
        | arg k => exact ⟨k, rfl⟩
        | «macro» m => rw [hk'] at hk; cases hk
    · rintro ⟨p', o', hp', a, ha, k, hk⟩
      obtain ⟨rfl, rfl⟩ := primary_unique attrs _ _ _ _ hp hp'
      rw [if_neg]
      · rfl
      · intro he
        have : a ∈ rest.filter (·.isArg) :=
          List.mem_filter.2 ⟨hperm.mem_iff.2 ha, by unfold FlatAttr.isArg; rw [hk]⟩
        rw [List.isEmpty_iff.1 he] at this
        cases this

/-- The primary attribute is replaced by one attribute with exactly the arguments of the primary
and of all argument-based attributes, sorted by priority; exactly the other argument-based
attributes are deleted. -/
theorem C56_edits (attrs : List FlatAttr) (edits : List Edit)
    (h : flattenAttrs attrs = some edits) :
    ∃ primary others args, Primary attrs primary others ∧
      args.Perm (primary.args ++ (others.filter (·.isArg)).flatMap (·.args)) ∧
      args.Pairwise (fun a b => argPriority a ≤ argPriority b) ∧
      ∃ deletions, edits =
          ⟨attrText (flatPath primary.kind) args, primary.start, primary.stop, none⟩ ::
            deletions ∧
        deletions.Perm ((others.filter (·.isArg)).map fun a => ⟨[], a.start, a.stop, none⟩) := by
  unfold flattenAttrs at h
  cases hs : Util.sortBy (fun a : FlatAttr => a.kind.rank) attrs with
  | nil => rw [hs] at h; cases h
  | cons p rest =>
    rw [hs] at h
    obtain ⟨others, hp, hperm⟩ := sort_primary attrs rest p hs
    simp only at h
    split at h
    · cases h
    · obtain rfl := Option.some.inj h
      have hf := hperm.filter (fun a : FlatAttr => a.isArg)
      refine ⟨p, others, flatArgs p (rest.filter (·.isArg)), hp, ?_, ?_, _, ?_, hf.map _⟩
      · exact (Util.sortBy_perm _ _).trans ((hf.flatMap_right _).append_left _)
      · exact Util.sortBy_sorted _ _
      · unfold attrText
        rw [← joinComma_eq]

/-- The path of the new attribute is that of the primary one: `ink` for an argument-based attribute
and `ink::name` or `ink_e2e::test` for a known macro. -/
theorem C56_path :
    (∀ k, flatPath (.arg k) = "ink".toList) ∧
    ∀ m, m ≠ .unknown → flatPath (.macro m) =
      (if m = .e2eTest then "ink_e2e" else "ink").toList ++ "::".toList ++ m.macroName.toList := by
  refine ⟨fun k => rfl, fun m hm => ?_⟩
  cases m <;> first | exact absurd rfl hm | decide +kernel

/-- Macro attributes other than the primary one are left alone: if attributes do not overlap, no
edit touches them. -/
theorem C56_macros (attrs : List FlatAttr) (edits : List Edit)
    (h : flattenAttrs attrs = some edits)
    (hord : attrs.Pairwise fun a b => a.stop ≤ b.start)
    (primary : FlatAttr) (others : List FlatAttr) (hp : Primary attrs primary others)
    (m : FlatAttr) (hm : m ∈ others) (k : MacroKind) (hk : m.kind = .macro k) :
    ∀ e ∈ edits, e.stop ≤ m.start ∨ m.stop ≤ e.start := by
  obtain ⟨p, o, args, hp', _, _, dels, rfl, hd⟩ := C56_edits attrs edits h
  obtain ⟨rfl, rfl⟩ := primary_unique attrs _ _ _ _ hp hp'
  obtain ⟨before, after, hl, rfl, _, _⟩ := hp
  rw [hl] at hord
  have sep : ∀ a b : FlatAttr, a ∈ before ++ primary :: after → b ∈ before ++ primary :: after →
      a ≠ b → a.stop ≤ b.start ∨ b.stop ≤ a.start := by
    intro a b ha hb hab
    obtain ⟨i, hi⟩ := List.getElem?_of_mem ha
    obtain ⟨j, hj⟩ := List.getElem?_of_mem hb
    obtain ⟨hi1, hi2⟩ := List.getElem?_eq_some_iff.1 hi
    obtain ⟨hj1, hj2⟩ := List.getElem?_eq_some_iff.1 hj
    have hpw := List.pairwise_iff_getElem.1 hord
    rcases Nat.lt_trichotomy i j with hij | rfl | hij
    · left
      have := hpw i j hi1 hj1 hij
      rwa [hi2, hj2] at this
    · exact absurd (hi2.symm.trans hj2) hab
    · right
      have := hpw j i hj1 hi1 hij
      rwa [hi2, hj2] at this
  have hmall : m ∈ before ++ primary :: after := by
    rcases List.mem_append.1 hm with h | h <;> simp [h]
  intro e he
  rcases List.mem_cons.1 he with rfl | he
  · show primary.stop ≤ m.start ∨ m.stop ≤ primary.start
    -- the primary attribute and `m` are at different positions
    rcases List.mem_append.1 hm with hb | ha
    · right
      exact (List.pairwise_append.1 hord).2.2 m hb primary (by simp)
    · left
      exact (List.pairwise_cons.1 (List.pairwise_append.1 hord).2.1).1 m ha
  · obtain ⟨a, ha, rfl⟩ := List.mem_map.1 (hd.mem_iff.1 he)
    rw [List.mem_filter] at ha
    have hne' : a ≠ m := by
      rintro rfl
      have := ha.2
      unfold FlatAttr.isArg at this
      rw [hk] at this
      cases this
    have haall : a ∈ before ++ primary :: after := by
      rcases List.mem_append.1 ha.1 with h | h <;> simp [h]
    exact sep a m haall hmall hne'

/-- If the attributes are in order of priority, arguments of equal priority keep their source
order.

Missing for the full claim: an attribute of higher priority that comes later in the source moves
its arguments before those of earlier attributes (`C56_negation_order`). -/
theorem C56_order_partial (attrs : List FlatAttr) (edits : List Edit)
    (h : flattenAttrs attrs = some edits)
    (hsorted : attrs.Pairwise fun a b => a.kind.rank ≤ b.kind.rank) :
    ∃ primary others args tail, attrs = primary :: others ∧
      edits = ⟨attrText (flatPath primary.kind) args, primary.start, primary.stop, none⟩ ::
        tail ∧
      ∀ k, args.filter (fun a => argPriority a == k) =
        (primary.args ++ (others.filter (·.isArg)).flatMap (·.args)).filter
          (fun a => argPriority a == k) := by
  unfold flattenAttrs at h
  rw [sortBy_of_sorted _ _ hsorted] at h
  cases attrs with
  | nil => cases h
  | cons p rest =>
    simp only at h
    split at h
    · cases h
    · obtain rfl := Option.some.inj h
      refine ⟨p, rest, flatArgs p (rest.filter (·.isArg)),
        (rest.filter (·.isArg)).map fun a => ⟨[], a.start, a.stop, none⟩, rfl, ?_, ?_⟩
      · unfold attrText
        rw [← joinComma_eq]
      · exact fun k => Util.sortBy_stable _ _ k

/-- Ties are *not* in source order in general: `#[ink(selector = 1)] #[ink(message, default)]`
becomes `#[ink(message, default, selector = 1)]`. -/
theorem C56_negation_order :
    flattenAttrs [⟨.arg .selector, [⟨.selector, "selector = 1".toList⟩], 0, 20⟩,
      ⟨.arg .message, [⟨.message, "message".toList⟩, ⟨.default, "default".toList⟩], 21, 46⟩] =
    some [⟨"#[ink(message, default, selector = 1)]".toList, 21, 46, none⟩, ⟨[], 0, 20, none⟩] ∧
    argPriority ⟨.selector, "selector = 1".toList⟩ = argPriority ⟨.default, "default".toList⟩ := by
  decide +kernel

/-- The path of the primary attribute is *not* kept if it is an unknown macro:
`#[ink::xyz] #[ink(message)]` becomes `#[(message)]`, which is not an ink! attribute. -/
theorem C56_negation_unknown :
    flattenAttrs [⟨.macro .unknown, [], 0, 11⟩,
      ⟨.arg .message, [⟨.message, "message".toList⟩], 12, 27⟩] =
    some [⟨"#[(message)]".toList, 0, 11, none⟩, ⟨[], 12, 27, none⟩] := by
  decide +kernel

/-! Non-vacuity: `#[ink(payable)] #[ink::test] #[ink(message, selector = 1)]`. -/

/-- Sample attributes. -/
def sampleFlat : List FlatAttr :=
  [⟨.arg .payable, [⟨.payable, "payable".toList⟩], 0, 15⟩,
   ⟨.macro .test, [], 16, 28⟩,
   ⟨.macro .event, [⟨.anonymous, "anonymous".toList⟩], 29, 53⟩,
   ⟨.arg .message, [⟨.message, "message".toList⟩, ⟨.selector, "selector = 1".toList⟩], 54, 84⟩]

example : flattenAttrs sampleFlat =
    some [⟨"#[ink::test(message, selector = 1, payable)]".toList, 16, 28, none⟩,
      ⟨[], 54, 84, none⟩, ⟨[], 0, 15, none⟩] := by decide +kernel

example : Primary sampleFlat ⟨.macro .test, [], 16, 28⟩ (sampleFlat.eraseIdx 1) ∧
    sampleFlat.Pairwise (fun a b => a.stop ≤ b.start) :=
  ⟨⟨sampleFlat.take 1, sampleFlat.drop 2, by decide, by decide, by decide, by decide⟩, by decide⟩

example : (sampleFlat.drop 1).Pairwise (fun a b => a.kind.rank ≤ b.kind.rank) ∧
    (flattenAttrs (sampleFlat.drop 1)).isSome = true := by decide +kernel

end Verif.Analyzer
