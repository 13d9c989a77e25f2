import Verif.Analyzer.EntityLemmas

/-!
# C43: conflicting attributes are flagged, compatible ones are not

The specification below talks about an item's attributes by position: which one is the
primary attribute, and which kinds may stand beside it.
-/

namespace Verif.Analyzer

open Verif.Ir

/-- Priority of attributes, as documented: macros, then entity arguments, then other
arguments. -/
def attrPriority : AttrKind → Nat
  | .macro _ => 0
  | .arg k =>
    if k ∈ [.constructor, .event, .extension, .function, .impl, .message, .storage, .topic] then 1
    else 2

/-- A known attribute. -/
def Known (k : AttrKind) : Prop := k ≠ .macro .unknown ∧ k ≠ .arg .unknown

instance (k : AttrKind) : Decidable (Known k) := by unfold Known; infer_instance

/-- The primary attribute of an item: the first of the known attributes with the best
priority. -/
structure IsPrimary (attrs : List AttrV) (p : Nat) (P : AttrV) : Prop where
  at_ : attrs[p]? = some P
  known : Known P.kind
  before : ∀ i a, attrs[i]? = some a → Known a.kind → i < p →
    attrPriority P.kind < attrPriority a.kind
  after : ∀ i a, attrs[i]? = some a → Known a.kind → p < i →
    attrPriority P.kind ≤ attrPriority a.kind

/-- Attribute `k` may stand beside the primary attribute `P`: beside a macro only the pair
`scale_derive`, `storage_item` (ink! 5), beside an argument its valid siblings. -/
def Compatible (v : Version) (P k : AttrKind) : Prop :=
  match P, k with
  | .macro m, .macro m' => v = .v5 ∧ (m = .scaleDerive ∨ m = .storageItem) ∧
      (m' = .scaleDerive ∨ m' = .storageItem)
  | .arg _, .arg a => a ∈ validSiblings P v
  | _, _ => False

instance (v : Version) (P k : AttrKind) : Decidable (Compatible v P k) := by
  unfold Compatible; split <;> infer_instance

/-- An attribute whose kind is a (known) argument has that argument
(`InkAttribute::cast` takes the kind from the arguments, see C19). -/
def AttrV.Wf (a : AttrV) : Prop := ∀ k, a.kind = .arg k → k ≠ .unknown → k ∈ a.args

/-- Every attribute that `InkAttribute::cast` produces has this form. -/
theorem AttrV.ofInk_wf (pe : ExprParser) (s : AttrSyntax) (a : InkAttr)
    (h : castAttr pe s = some (some a)) : (AttrV.ofInk a).Wf := by
  unfold castAttr at h
  split at h
  · obtain ⟨args, -, he⟩ := Option.map_eq_some_iff.1 h
    have he := Option.some.inj he
    subst he
    intro k hk hu
    simp only [AttrV.ofInk] at hk ⊢
    split at hk
    · exact absurd hk (by simp)
    · exact absurd hk (by simp)
    · split at hk
      · rename_i primary hp
        have : primary ∈ args :=
          Util.mem_sortBy.1 (List.mem_of_head? hp)
        have hk : primary.kind = k := by simpa using hk
        rw [List.mem_map]
        exact ⟨primary, this, hk⟩
      · split at hk
        · have : ArgKind.unknown = k := by simpa using hk
          exact absurd this.symm hu
        · exact absurd hk (by simp)
  · exact absurd h (by simp)

/-- The primary attribute is itself deprecated (ink! 5): the `extension` argument of a chain
extension function, or `additional_contracts` on its own. It is reported as such, and nothing
else is. -/
def DeprecatedPrimary (v : Version) (inChainExt : Bool) (P : AttrKind) : Prop :=
  v = .v5 ∧ ((P = .arg .extension ∧ inChainExt = true) ∨ P = .arg .additionalContracts)

theorem known_iff (k : AttrKind) : k.isUnknown = false ↔ Known k := by
  have : ∀ k ∈ AttrKind.all, (k.isUnknown = false ↔ Known k) := by decide
  exact this k k.mem_all

theorem rank_lt (k k' : AttrKind) (h : Known k) (h' : Known k') :
    (k.rank < k'.rank ↔ attrPriority k < attrPriority k') ∧
    (k.rank ≤ k'.rank ↔ attrPriority k ≤ attrPriority k') := by
  have : ∀ k ∈ AttrKind.all, ∀ k' ∈ AttrKind.all, Known k → Known k' →
      (k.rank < k'.rank ↔ attrPriority k < attrPriority k') ∧
      (k.rank ≤ k'.rank ↔ attrPriority k ≤ attrPriority k') := by decide +kernel
  exact this k k.mem_all k' k'.mem_all h h'

/-- The attribute the checks compare with is the primary attribute. -/
theorem C43_primary (attrs : List AttrV) (P : AttrV) (p : Nat) :
    primaryCandidate attrs = some (P, p) ↔ IsPrimary attrs p P := by
  have key : ∀ P p, primaryCandidate attrs = some (P, p) → IsPrimary attrs p P := by
    intro P p h
    obtain ⟨h1, h2, h3, h4⟩ := primaryCandidate_some attrs P p h
    have hk := (known_iff _).1 h2
    exact ⟨h1, hk,
      fun i a ha hu hlt => (rank_lt _ _ hk hu).1.1 (h3 i a ha ((known_iff _).2 hu) hlt),
      fun i a ha hu hlt => (rank_lt _ _ hk hu).2.1 (h4 i a ha ((known_iff _).2 hu) hlt)⟩
  refine ⟨key P p, fun h => ?_⟩
  cases hc : primaryCandidate attrs with
  | none =>
    have := primaryCandidate_none attrs hc p P h.at_
    have hk := (known_iff _).2 h.known
    rw [hk] at this
    exact absurd this (by decide)
  | some q =>
    obtain ⟨P', p'⟩ := q
    have h' := key P' p' hc
    have hp : p = p' := by
      rcases Nat.lt_trichotomy p p' with hlt | he | hlt
      · have h1 := h.after p' P' h'.at_ h'.known hlt
        have h2 := h'.before p P h.at_ h.known hlt
        omega
      · exact he
      · have h1 := h'.after p P h.at_ h.known hlt
        have h2 := h.before p' P' h'.at_ h'.known hlt
        omega
    subst hp
    have := h.at_
    rw [h'.at_] at this
    rw [Option.some.inj this]

/-- An item without known attributes has no primary attribute and no entity report. -/
theorem C43_no_primary (v : Version) (c : Bool) (attrs : List AttrV)
    (h : ∀ a ∈ attrs, ¬ Known a.kind) : validateEntity v c attrs = [] := by
  unfold validateEntity
  cases hc : primaryCandidate attrs with
  | none => rfl
  | some q =>
    have h' := (C43_primary attrs q.1 q.2).1 hc
    exact absurd h'.known (h _ (List.mem_of_getElem? h'.at_))

theorem sibling_iff (v : Version) (attrs : List AttrV) (P : AttrV) (p : Nat)
    (h : IsPrimary attrs p P) (i : Nat) (a : AttrV) (ha : attrs[i]? = some a) (hi : i ≠ p) :
    isValidSiblingAttr v P.kind a.kind = true ↔ Compatible v P.kind a.kind := by
  cases hP : P.kind with
  | «macro» m =>
    have : ∀ k ∈ AttrKind.all, ∀ m ∈ MacroKind.all, ∀ v ∈ [Version.v4, .v5],
        (isValidSiblingAttr v (.macro m) k = true ↔ Compatible v (.macro m) k) := by
      decide +kernel
    exact this _ (AttrKind.mem_all _) m m.mem_all v (by cases v <;> simp)
  | arg b =>
    cases hk : a.kind with
    | arg k => cases v <;> simp [isValidSiblingAttr, Compatible]
    | «macro» m =>
      have hm : m = .unknown := by
        refine Classical.byContradiction fun hu => ?_
        have hka : Known a.kind := by
          rw [hk]
          exact ⟨fun e => hu (AttrKind.macro.inj e), by simp⟩
        have h1 : attrPriority P.kind ≤ attrPriority a.kind := by
          rcases Nat.lt_or_gt_of_ne hi with hlt | hlt
          · exact Nat.le_of_lt (h.before i a ha hka hlt)
          · exact h.after i a ha hka hlt
        rw [hP, hk] at h1
        have : 1 ≤ attrPriority (.arg b) := by cases b <;> decide
        have : attrPriority (.macro m) = 0 := rfl
        omega
      subst hm
      have : ∀ b ∈ ArgKind.all, ∀ v ∈ [Version.v4, .v5],
          (isValidSiblingAttr v (.arg b) (.macro .unknown) = true ↔
            Compatible v (.arg b) (.macro .unknown)) := by
        decide +kernel
      exact this b b.mem_all v (by cases v <;> simp)

theorem bail_iff (v : Version) (c : Bool) (attrs : List AttrV) (P : AttrV) (p : Nat)
    (h : IsPrimary attrs p P) (hw : P.Wf) :
    (preChecks v c P p attrs).2 = true ↔ DeprecatedPrimary v c P.kind := by
  have hf : ∀ k, k ≠ .unknown → P.kind = .arg k → (findArg attrs k).isSome = true := by
    intro k hu hk
    obtain ⟨j, hj, hjk⟩ := List.mem_iff_getElem.1 (hw k hk hu)
    exact (findArg_isSome _ _).2 ⟨p, j, P, h.at_, List.getElem?_eq_some_iff.2 ⟨hj, hjk⟩⟩
  cases v with
  | v4 => simp [preChecks, DeprecatedPrimary]
  | v5 =>
    show (v5Checks c P p attrs).2 = true ↔ _
    rw [v5Checks_bail]
    unfold DeprecatedPrimary
    constructor
    · rintro (⟨h1, h2, -⟩ | ⟨h1, -⟩)
      · exact ⟨rfl, .inl ⟨h1, h2⟩⟩
      · exact ⟨rfl, .inr h1⟩
    · rintro ⟨-, ⟨h1, h2⟩ | h1⟩
      · exact .inl ⟨h1, h2, hf _ (by decide) h1⟩
      · exact .inr ⟨h1, hf _ (by decide) h1⟩

/-- No conflict is reported when every other attribute is compatible with the primary one,
and every argument is either its attribute's own kind or a valid sibling of the primary. -/
theorem C43_compatible (v : Version) (c : Bool) (attrs : List AttrV) (P : AttrV) (p : Nat)
    (h : IsPrimary attrs p P)
    (ha : ∀ i a, attrs[i]? = some a → i ≠ p → Compatible v P.kind a.kind)
    (hk : ∀ a ∈ attrs, ∀ k ∈ a.args, a.kind = .arg k ∨ k ∈ validSiblings P.kind v) :
    (∀ i, EntityDiag.conflictAttr i ∉ validateEntity v c attrs) ∧
    (∀ q, EntityDiag.conflictArg q ∉ validateEntity v c attrs) := by
  have hc := (C43_primary attrs P p).2 h
  constructor
  · intro i hm
    obtain ⟨-, i', a, ha', hm⟩ := (conflict_mem v c attrs P p hc _ rfl).1 hm
    obtain ⟨rfl, h1, -, h3⟩ := (conflictAttr_mem _ _ _ _ _ _).1 hm
    rw [(sibling_iff v attrs P p h i a ha' h1).2 (ha i a ha' h1)] at h3
    exact absurd h3 (by decide)
  · intro q hm
    obtain ⟨i, j⟩ := q
    obtain ⟨-, i', a, ha', hm⟩ := (conflict_mem v c attrs P p hc _ rfl).1 hm
    obtain ⟨rfl, -, k, hk', h1, h2, -⟩ := (conflictArg_mem _ _ _ _ _ _ _).1 hm
    rcases hk a (List.mem_of_getElem? ha') k (List.mem_of_getElem? hk') with h3 | h3
    · exact h1 h3
    · exact h2 h3

/-- The hypotheses are met by `#[ink(payable)] #[ink(message, selector = 1)]`. -/
example : IsPrimary [⟨.arg .payable, [.payable]⟩, ⟨.arg .message, [.message, .selector]⟩] 1
      ⟨.arg .message, [.message, .selector]⟩ ∧
    Compatible .v4 (.arg .message) (.arg .payable) ∧
    validateEntity .v4 false
      [⟨.arg .payable, [.payable]⟩, ⟨.arg .message, [.message, .selector]⟩] = [.notFirst 1] := by
  refine ⟨(C43_primary _ _ _).1 (by decide), by decide, by decide⟩

/-- Exactly which attributes are reported as conflicting: those that are not compatible with
the primary attribute, except the very first attribute (which is never reported when it is
not the primary one).

Missing for the full claim: the first attribute, see `C43_negation_first`; what is reported
instead is `C43_reported`. -/
theorem C43_attr_partial (v : Version) (c : Bool) (attrs : List AttrV) (P : AttrV) (p : Nat)
    (h : IsPrimary attrs p P) (hw : P.Wf) (hd : ¬ DeprecatedPrimary v c P.kind)
    (i : Nat) (a : AttrV) (ha : attrs[i]? = some a) :
    EntityDiag.conflictAttr i ∈ validateEntity v c attrs ↔
      i ≠ p ∧ i ≠ 0 ∧ ¬ Compatible v P.kind a.kind := by
  have hc := (C43_primary attrs P p).2 h
  rw [conflict_mem v c attrs P p hc _ rfl]
  have hb : (preChecks v c P p attrs).2 = false := by
    cases hb : (preChecks v c P p attrs).2 with
    | true => exact absurd ((bail_iff v c attrs P p h hw).1 hb) hd
    | false => rfl
  simp only [hb, true_and, conflictAttr_mem]
  constructor
  · rintro ⟨i', a', ha', rfl, h1, h2, h3⟩
    rw [ha] at ha'
    obtain rfl := Option.some.inj ha'
    refine ⟨h1, fun e => h2 ⟨e, by omega⟩, fun hcomp => ?_⟩
    rw [(sibling_iff v attrs P p h i a ha h1).2 hcomp] at h3
    exact absurd h3 (by decide)
  · rintro ⟨h1, h2, h3⟩
    refine ⟨i, a, ha, rfl, h1, fun e => h2 e.1, ?_⟩
    cases hs : isValidSiblingAttr v P.kind a.kind with
    | true => exact absurd ((sibling_iff v attrs P p h i a ha h1).1 hs) h3
    | false => rfl

/-- The `additional_contracts` and `keep_attr` arguments of an ink! 5 end-to-end test, which
have a report of their own. -/
def DeprecatedArg (v : Version) (P : AttrKind) (k : ArgKind) : Prop :=
  v = .v5 ∧ P = .macro .e2eTest ∧ (k = .additionalContracts ∨ k = .keepAttr)

theorem deprecatedArg_iff (v : Version) (P : AttrKind) (k : ArgKind) :
    alreadyDeprecated v P k = true ↔ DeprecatedArg v P k := by
  unfold alreadyDeprecated DeprecatedArg
  simp [and_assoc]

/-- Exactly which arguments are reported as conflicting: in the primary attribute, in the
first one and in compatible ones, every argument that is neither its attribute's own kind nor
a valid sibling of the primary (deprecated ones excepted, which have their own report).

Missing for the full claim: nothing is said per argument inside an attribute that is itself
reported, and see `C43_negation_pair` for the arguments of a compatible second macro. -/
theorem C43_arg_partial (v : Version) (c : Bool) (attrs : List AttrV) (P : AttrV) (p : Nat)
    (h : IsPrimary attrs p P) (hw : P.Wf) (hd : ¬ DeprecatedPrimary v c P.kind)
    (i j : Nat) (a : AttrV) (k : ArgKind) (ha : attrs[i]? = some a) (hk : a.args[j]? = some k) :
    EntityDiag.conflictArg (i, j) ∈ validateEntity v c attrs ↔
      (i = p ∨ i = 0 ∨ Compatible v P.kind a.kind) ∧ a.kind ≠ .arg k ∧
      k ∉ validSiblings P.kind v ∧ ¬ DeprecatedArg v P.kind k := by
  have hc := (C43_primary attrs P p).2 h
  rw [conflict_mem v c attrs P p hc _ rfl]
  have hb : (preChecks v c P p attrs).2 = false := by
    cases hb : (preChecks v c P p attrs).2 with
    | true => exact absurd ((bail_iff v c attrs P p h hw).1 hb) hd
    | false => rfl
  have hdep : ∀ k, alreadyDeprecated v P.kind k = false ↔ ¬ DeprecatedArg v P.kind k := by
    intro k
    rw [← deprecatedArg_iff]
    simp
  simp only [hb, true_and, conflictArg_mem, hdep]
  constructor
  · rintro ⟨i', a', ha', rfl, h1, k', hk', h2, h3, h4⟩
    rw [ha] at ha'
    obtain rfl := Option.some.inj ha'
    rw [hk] at hk'
    obtain rfl := Option.some.inj hk'
    refine ⟨?_, h2, h3, h4⟩
    by_cases hi : i = p
    · exact .inl hi
    · rcases h1 with h1 | h1 | h1
      · exact .inl h1
      · exact .inr (.inl h1.1)
      · exact .inr (.inr ((sibling_iff v attrs P p h i a ha hi).1 h1))
  · rintro ⟨h1, h2, h3, h4⟩
    refine ⟨i, a, ha, rfl, ?_, k, hk, h2, h3, h4⟩
    by_cases hi : i = p
    · exact .inl hi
    · rcases h1 with h1 | h1 | h1
      · exact .inl h1
      · exact .inr (.inl ⟨h1, by omega⟩)
      · exact .inr (.inr ((sibling_iff v attrs P p h i a ha hi).2 h1))

/-- `#[ink(event)] #[ink(message, payable)]`: the second attribute conflicts. And
`#[ink(event, payable)]`: the second argument does. -/
example : validateEntity .v4 false
      [⟨.arg .event, [.event]⟩, ⟨.arg .message, [.message, .payable]⟩] = [.conflictAttr 1] ∧
    validateEntity .v4 false [⟨.arg .event, [.event, .payable]⟩] = [.conflictArg (0, 1)] := by
  decide

theorem orderChecks_ne_nil (v : Version) (P : AttrV) (p : Nat) (hp : p ≠ 0)
    (hn : P.kind ≠ .arg .namespace) : orderChecks v P p ≠ [] := by
  unfold orderChecks
  by_cases hs : primarySuggestions P.kind v = []
  · simp [hs, hp]
  · have : (P.kind == AttrKind.arg .namespace) = false := by simpa using hn
    simp [hs, this]

/-- An item with an incompatible attribute always gets a report: if the primary attribute has
an incompatible companion (known, or not the first), the checks report something. -/
theorem C43_reported (v : Version) (c : Bool) (attrs : List AttrV) (P : AttrV) (p : Nat)
    (h : IsPrimary attrs p P) (hw : P.Wf)
    (i : Nat) (a : AttrV) (ha : attrs[i]? = some a) (hi : i ≠ p)
    (hn : Known a.kind ∨ i ≠ 0) (hc : ¬ Compatible v P.kind a.kind) :
    validateEntity v c attrs ≠ [] := by
  have hpc := (C43_primary attrs P p).2 h
  by_cases hd : DeprecatedPrimary v c P.kind
  · have hb := (bail_iff v c attrs P p h hw).2 hd
    rw [validateEntity_eq v c attrs P p hpc, if_pos hb]
    have hv := hd.1
    subst hv
    exact v5Checks_bail_ne_nil c P p attrs hb
  · by_cases h0 : i = 0
    · subst h0
      have hb : ¬ ((preChecks v c P p attrs).2 = true) :=
        fun hb => hd ((bail_iff v c attrs P p h hw).1 hb)
      rw [validateEntity_eq v c attrs P p hpc, if_neg hb]
      have hp : p ≠ 0 := fun e => hi e.symm
      have hka : Known a.kind := hn.elim id (fun h => absurd rfl h)
      have hns : P.kind ≠ .arg .namespace := by
        intro e
        have h1 := h.before 0 a ha hka (by omega)
        rw [e] at h1
        have : ∀ k ∈ AttrKind.all, attrPriority k ≤ 2 := by decide
        have h2 := this a.kind (AttrKind.mem_all _)
        have h3 : attrPriority (.arg .namespace) = 2 := by decide
        omega
      intro he
      rw [List.append_eq_nil_iff, List.append_eq_nil_iff] at he
      exact orderChecks_ne_nil v P p hp hns he.1.2
    · have := (C43_attr_partial v c attrs P p h hw hd i a ha).2 ⟨hi, h0, hc⟩
      exact List.ne_nil_of_mem this

/-- An item with an argument that does not fit always gets a report. -/
theorem C43_reported_arg (v : Version) (c : Bool) (attrs : List AttrV) (P : AttrV) (p : Nat)
    (h : IsPrimary attrs p P) (hw : P.Wf)
    (i j : Nat) (a : AttrV) (k : ArgKind) (ha : attrs[i]? = some a) (hk : a.args[j]? = some k)
    (hown : a.kind ≠ .arg k) (hs : k ∉ validSiblings P.kind v) :
    validateEntity v c attrs ≠ [] := by
  have hpc := (C43_primary attrs P p).2 h
  by_cases hd : DeprecatedPrimary v c P.kind
  · have hb := (bail_iff v c attrs P p h hw).2 hd
    rw [validateEntity_eq v c attrs P p hpc, if_pos hb]
    have hv := hd.1
    subst hv
    exact v5Checks_bail_ne_nil c P p attrs hb
  · by_cases hda : DeprecatedArg v P.kind k
    · obtain ⟨rfl, hP, hkk⟩ := hda
      have hb : ¬ ((preChecks .v5 c P p attrs).2 = true) :=
        fun hb => hd ((bail_iff .v5 c attrs P p h hw).1 hb)
      rw [validateEntity_eq .v5 c attrs P p hpc, if_neg hb]
      have hf : (findArg attrs k).isSome = true := (findArg_isSome _ _).2 ⟨i, j, a, ha, hk⟩
      have := v5Checks_e2e c P p attrs hP (by
        rcases hkk with rfl | rfl
        · exact .inl hf
        · exact .inr hf)
      intro he
      rw [List.append_eq_nil_iff, List.append_eq_nil_iff] at he
      exact this he.1.1
    · by_cases hcomp : i = p ∨ i = 0 ∨ Compatible v P.kind a.kind
      · exact List.ne_nil_of_mem
          ((C43_arg_partial v c attrs P p h hw hd i j a k ha hk).2 ⟨hcomp, hown, hs, hda⟩)
      · have h1 : i ≠ p := fun e => hcomp (.inl e)
        have h2 : i ≠ 0 := fun e => hcomp (.inr (.inl e))
        have h3 : ¬ Compatible v P.kind a.kind := fun e => hcomp (.inr (.inr e))
        exact List.ne_nil_of_mem
          ((C43_attr_partial v c attrs P p h hw hd i a ha).2 ⟨h1, h2, h3⟩)

/-- The claim is false for the first attribute: in `#[ink(storage)] #[ink::contract]` the
`storage` attribute conflicts with `ink::contract`, but only "`#[ink::contract]` should be the
first ink! attribute" is reported. -/
theorem C43_negation_first :
    ∃ attrs p P i a, IsPrimary attrs p P ∧ attrs[i]? = some a ∧ i ≠ p ∧
      ¬ Compatible .v4 P.kind a.kind ∧
      EntityDiag.conflictAttr i ∉ validateEntity .v4 false attrs := by
  refine ⟨[⟨.arg .storage, [.storage]⟩, ⟨.macro .contract, []⟩], 1, ⟨.macro .contract, []⟩, 0,
    ⟨.arg .storage, [.storage]⟩, (C43_primary _ _ _).1 (by decide), rfl, by decide, by decide,
    by decide⟩

/-- False conflict: `#[ink::storage_item(derive = false)] #[ink::scale_derive(Encode)]` is
valid ink! 5 (each attribute alone is accepted and the two macros may be combined), yet
`Encode` is reported as conflicting with the `storage_item` macro. -/
theorem C43_negation_pair :
    ∃ a b : AttrV, Compatible .v5 a.kind b.kind ∧
      validateEntity .v5 false [a] = [] ∧ validateEntity .v5 false [b] = [] ∧
      validateEntity .v5 false [a, b] = [.conflictArg (1, 0)] :=
  ⟨⟨.macro .storageItem, [.derive]⟩, ⟨.macro .scaleDerive, [.encode]⟩, by decide, by decide,
    by decide, by decide⟩

end Verif.Analyzer
