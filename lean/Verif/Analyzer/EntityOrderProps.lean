import Verif.Analyzer.EntityProps

/-!
# C71: the order, completeness and deprecation reports of an item

The other half of the checks of C43: which item is told that its main attribute is not first,
that it has only a qualifying argument, or that it uses something that ink! 5 changed.
-/

namespace Verif.Analyzer

open Verif.Ir

/-- The arguments that only qualify another attribute, so that an item with nothing else is
incomplete, by version. -/
def qualifiers : Version → List ArgKind
  | .v4 => [.additionalContracts, .environment, .anonymous, .keepAttr, .handleStatus, .namespace,
      .payable, .default, .selector]
  | .v5 => [.backend, .environment, .anonymous, .signatureTopic, .encode, .decode, .typeInfo,
      .keepAttr, .handleStatus, .namespace, .payable, .default, .selector]

/-- The attribute kind is such a qualifying argument. -/
def Qualifying (v : Version) (k : AttrKind) : Prop := ∃ a ∈ qualifiers v, k = .arg a

instance (v : Version) (k : AttrKind) : Decidable (Qualifying v k) := by
  unfold Qualifying; infer_instance

theorem qualifying_iff (v : Version) (k : AttrKind) :
    primarySuggestions k v ≠ [] ↔ Qualifying v k := by
  have : ∀ v ∈ [Version.v4, .v5], ∀ k ∈ AttrKind.all,
      (primarySuggestions k v ≠ [] ↔ Qualifying v k) := by decide +kernel
  exact this v (by cases v <;> decide) k k.mem_all

/-- Argument `j` of attribute `i` stands before argument `j'` of attribute `i'`. -/
def Precedes (a b : Nat × Nat) : Prop := a.1 < b.1 ∨ (a.1 = b.1 ∧ a.2 < b.2)

/-- `pos` is the first place where the item has the argument `k`. -/
def FirstArgAt (attrs : List AttrV) (k : ArgKind) (pos : Nat × Nat) : Prop :=
  (∃ a, attrs[pos.1]? = some a ∧ a.args[pos.2]? = some k) ∧
  ∀ q, (∃ a, attrs[q.1]? = some a ∧ a.args[q.2]? = some k) → q = pos ∨ Precedes pos q

/-- The item has no argument `k`. -/
def HasNoArg (attrs : List AttrV) (k : ArgKind) : Prop := ∀ a ∈ attrs, k ∉ a.args

theorem posLt_iff (a b : Nat × Nat) : posLt a b = true ↔ Precedes a b := by
  unfold posLt Precedes
  simp

theorem precedes_asymm {a b : Nat × Nat} (h : Precedes a b) : ¬ Precedes b a := by
  unfold Precedes at *; omega

theorem zipIdx_pairwise (l : List α) (n : Nat) :
    (l.zipIdx n).Pairwise (fun a b => a.2 < b.2) := by
  have := zipIdx_filter_pairwise l n (fun _ => true)
  rwa [List.filter_eq_self.2 (fun _ _ => rfl)] at this

theorem argPositions_pairwise (attrs : List AttrV) :
    (argPositions attrs).Pairwise (fun a b => Precedes a.1 b.1) := by
  unfold argPositions
  rw [List.pairwise_flatMap]
  refine ⟨fun q _ => ?_, ?_⟩
  · rw [List.pairwise_map]
    exact (zipIdx_pairwise q.1.args 0).imp fun h => .inr ⟨rfl, h⟩
  · refine (zipIdx_pairwise attrs 0).imp fun {a b} h x hx y hy => ?_
    obtain ⟨r, -, rfl⟩ := List.mem_map.1 hx
    obtain ⟨r', -, rfl⟩ := List.mem_map.1 hy
    exact .inl h

theorem find?_pairwise {R : α → α → Prop} {l : List α} {p : α → Bool} {x : α}
    (hl : l.Pairwise R) (h : l.find? p = some x) : ∀ y ∈ l, p y = true → y = x ∨ R x y := by
  induction l with
  | nil => exact (nomatch h)
  | cons z zs ih =>
    rw [List.pairwise_cons] at hl
    rw [List.find?_cons] at h
    intro y hy hp
    cases hz : p z with
    | true =>
      rw [hz] at h
      have := Option.some.inj h
      subst this
      rcases List.mem_cons.1 hy with rfl | hy
      · exact .inl rfl
      · exact .inr (hl.1 y hy)
    | false =>
      rw [hz] at h
      rcases List.mem_cons.1 hy with rfl | hy
      · rw [hz] at hp; exact (nomatch hp)
      · exact ih hl.2 h y hy hp

theorem findArg_iff (attrs : List AttrV) (k : ArgKind) (pos : Nat × Nat) :
    findArg attrs k = some pos ↔ FirstArgAt attrs k pos := by
  have key : ∀ pos, findArg attrs k = some pos → FirstArgAt attrs k pos := by
    intro pos h
    refine ⟨findArg_some attrs k pos h, fun q hq => ?_⟩
    unfold findArg at h
    obtain ⟨r, hr, rfl⟩ := Option.map_eq_some_iff.1 h
    have hm := (mem_argPositions attrs q.1 q.2 k).2 hq
    rcases find?_pairwise (argPositions_pairwise attrs) hr _ hm (by simp) with h | h
    · exact .inl (by rw [← h])
    · exact .inr h
  refine ⟨key pos, fun h => ?_⟩
  cases hf : findArg attrs k with
  | none =>
    obtain ⟨a, h1, h2⟩ := h.1
    have := (findArg_isSome attrs k).2 ⟨_, _, a, h1, h2⟩
    rw [hf] at this
    exact (nomatch this)
  | some q =>
    have hq := key q hf
    rcases h.2 q hq.1 with h' | h'
    · rw [h']
    · rcases hq.2 pos h.1 with h'' | h''
      · rw [h'']
      · exact absurd h'' (precedes_asymm h')

theorem findArg_none_iff (attrs : List AttrV) (k : ArgKind) :
    findArg attrs k = none ↔ HasNoArg attrs k := by
  rw [← Option.not_isSome_iff_eq_none, findArg_isSome]
  constructor
  · intro h a ha hk
    obtain ⟨i, hi⟩ := List.mem_iff_getElem?.1 ha
    obtain ⟨j, hj⟩ := List.mem_iff_getElem?.1 hk
    exact h ⟨i, j, a, hi, hj⟩
  · rintro h ⟨i, j, a, hi, hj⟩
    exact h a (List.mem_of_getElem? hi) (List.mem_of_getElem? hj)

/-- Reports about what ink! 5 changed. -/
def EntityDiag.isVersioned : EntityDiag → Bool
  | .anonymousSignature _ | .missingExtension _ | .deprecatedExtension _ |
    .deprecatedAdditional _ | .deprecatedKeepAttr _ => true
  | _ => false

/-- Reports about order and completeness. -/
def EntityDiag.isOrder : EntityDiag → Bool
  | .notFirst _ | .argNotFirst _ | .needsPrimary _ => true
  | _ => false

theorem orderChecks_isOrder (v : Version) (P : AttrV) (p : Nat) :
    ∀ d ∈ orderChecks v P p, d.isOrder = true := by
  intro d hd
  unfold orderChecks at hd
  simp only [List.mem_append] at hd
  rcases hd with (hd | hd) | hd
  · split at hd
    · rw [List.mem_singleton.1 hd]; rfl
    · exact (nomatch hd)
  · split at hd
    · cases hk : P.kind with
      | «macro» m => rw [hk] at hd; exact (nomatch hd)
      | arg k =>
        rw [hk] at hd
        dsimp only at hd
        split at hd
        · exact (nomatch hd)
        · rw [List.mem_singleton.1 hd]; rfl
    · exact (nomatch hd)
  · split at hd
    · rw [List.mem_singleton.1 hd]; rfl
    · exact (nomatch hd)

theorem mem_v5Checks (c : Bool) (P : AttrV) (p : Nat) (attrs : List AttrV) (d : EntityDiag) :
    d ∈ (v5Checks c P p attrs).1 ↔
      d ∈ anonymousSignature P attrs ∨ d ∈ missingExtension P p attrs ∨
      d ∈ deprecatedExtension c P attrs ∨ d ∈ deprecatedAdditional P attrs ∨
      d ∈ deprecatedKeepAttr P attrs := by
  unfold v5Checks
  split
  · rename_i h
    obtain ⟨x, hx⟩ := ne_nil_iff_mem.1 h
    have hP := ((mem_deprecatedExtension c P attrs x).1 hx).1
    have h1 : d ∉ deprecatedAdditional P attrs := by
      rw [mem_deprecatedAdditional, hP]; simp
    have h2 : d ∉ deprecatedKeepAttr P attrs := by
      rw [mem_deprecatedKeepAttr, hP]; simp
    simp only [List.mem_append, or_assoc, h1, h2, or_false]
  · rename_i h
    have h : deprecatedExtension c P attrs = [] := Classical.byContradiction h
    split
    · rename_i h'
      have h2 : d ∉ deprecatedKeepAttr P attrs := by
        rw [mem_deprecatedKeepAttr, h'.2]; simp
      simp only [List.mem_append, or_assoc, h, h2, or_false, List.not_mem_nil, false_or]
    · simp only [List.mem_append, or_assoc, h, List.not_mem_nil, false_or]

theorem v5Checks_isVersioned (c : Bool) (P : AttrV) (p : Nat) (attrs : List AttrV) :
    ∀ d ∈ (v5Checks c P p attrs).1, d.isVersioned = true := by
  intro d hd
  rw [mem_v5Checks, mem_anonymousSignature, mem_missingExtension, mem_deprecatedExtension,
    mem_deprecatedAdditional, mem_deprecatedKeepAttr] at hd
  rcases hd with ⟨-, _, _, -, -, rfl⟩ | ⟨-, -, rfl⟩ | ⟨-, -, _, -, rfl⟩ | ⟨-, _, -, rfl⟩ |
    ⟨-, _, -, rfl⟩ <;> rfl

theorem versioned_mem (v : Version) (c : Bool) (attrs : List AttrV) (P : AttrV) (p : Nat)
    (h : IsPrimary attrs p P) (d : EntityDiag) (hd : d.isVersioned = true) :
    d ∈ validateEntity v c attrs ↔ v = .v5 ∧ (d ∈ anonymousSignature P attrs ∨
      d ∈ missingExtension P p attrs ∨ d ∈ deprecatedExtension c P attrs ∨
      d ∈ deprecatedAdditional P attrs ∨ d ∈ deprecatedKeepAttr P attrs) := by
  have hp : d ∈ (preChecks v c P p attrs).1 ↔ v = .v5 ∧ (d ∈ anonymousSignature P attrs ∨
      d ∈ missingExtension P p attrs ∨ d ∈ deprecatedExtension c P attrs ∨
      d ∈ deprecatedAdditional P attrs ∨ d ∈ deprecatedKeepAttr P attrs) := by
    unfold preChecks
    cases v with
    | v4 => simp
    | v5 => simp [mem_v5Checks]
  rw [validateEntity_eq v c attrs P p ((C43_primary attrs P p).2 h)]
  split
  · exact hp
  · rw [List.mem_append, List.mem_append, hp]
    constructor
    · rintro ((h1 | h1) | h1)
      · exact h1
      · have := orderChecks_isOrder v P p d h1
        cases d <;> simp [EntityDiag.isVersioned, EntityDiag.isOrder] at hd this
      · obtain ⟨q, -, hq⟩ := List.mem_flatMap.1 h1
        rcases mem_attrConflicts _ _ _ _ _ _ hq with rfl | ⟨j, rfl⟩ <;> exact (nomatch hd)
    · exact fun h1 => .inl (.inl h1)

/-- Which items get a report about what ink! 5 changed, and where:

* `anonymous` together with `signature_topic` on an event, at the later of the two;
* a chain extension without `extension`, at the attribute;
* `extension` on a chain extension function, and `additional_contracts` and `keep_attr` of an
  e2e test (or `additional_contracts` on its own), at the argument.

None of them is reported for ink! 4. -/
theorem C71_versioned (v : Version) (c : Bool) (attrs : List AttrV) (P : AttrV) (p : Nat)
    (h : IsPrimary attrs p P) :
    (∀ q, EntityDiag.anonymousSignature q ∈ validateEntity v c attrs ↔
      v = .v5 ∧ (P.kind = .macro .event ∨ P.kind = .arg .event ∨ P.kind = .arg .anonymous ∨
        P.kind = .arg .signatureTopic) ∧
      ∃ a s, FirstArgAt attrs .anonymous a ∧ FirstArgAt attrs .signatureTopic s ∧
        ((q = s ∧ Precedes a s) ∨ (q = a ∧ Precedes s a))) ∧
    (∀ i, EntityDiag.missingExtension i ∈ validateEntity v c attrs ↔
      v = .v5 ∧ i = p ∧ P.kind = .macro .chainExtension ∧ HasNoArg attrs .extension) ∧
    (∀ q, EntityDiag.deprecatedExtension q ∈ validateEntity v c attrs ↔
      v = .v5 ∧ P.kind = .arg .extension ∧ c = true ∧ FirstArgAt attrs .extension q) ∧
    (∀ q, EntityDiag.deprecatedAdditional q ∈ validateEntity v c attrs ↔
      v = .v5 ∧ (P.kind = .macro .e2eTest ∨ P.kind = .arg .additionalContracts) ∧
        FirstArgAt attrs .additionalContracts q) ∧
    (∀ q, EntityDiag.deprecatedKeepAttr q ∈ validateEntity v c attrs ↔
      v = .v5 ∧ P.kind = .macro .e2eTest ∧ FirstArgAt attrs .keepAttr q) := by
  refine ⟨fun q => ?_, fun i => ?_, fun q => ?_, fun q => ?_, fun q => ?_⟩ <;>
    rw [versioned_mem v c attrs P p h _ rfl, mem_anonymousSignature, mem_missingExtension,
      mem_deprecatedExtension, mem_deprecatedAdditional, mem_deprecatedKeepAttr] <;>
    refine and_congr_right fun _ => ?_ <;>
    simp only [reduceCtorEq, and_false, exists_false, or_false, false_or, findArg_iff,
      findArg_none_iff]
  · simp only [List.mem_cons, List.not_mem_nil, or_false]
    refine and_congr_right fun _ => ?_
    constructor
    · rintro ⟨a, s, ha, hs, hq⟩
      refine ⟨a, s, ha, hs, ?_⟩
      have hq : q = if posLt a s = true then s else a := by simpa using hq
      by_cases hl : Precedes a s
      · rw [if_pos ((posLt_iff a s).2 hl)] at hq
        exact .inl ⟨hq, hl⟩
      · rw [if_neg (fun e => hl ((posLt_iff a s).1 e))] at hq
        refine .inr ⟨hq, ?_⟩
        have hne : a ≠ s := by
          rintro rfl
          obtain ⟨x, h1, h2⟩ := ha.1
          obtain ⟨y, h3, h4⟩ := hs.1
          rw [h1] at h3
          obtain rfl := Option.some.inj h3
          rw [h2] at h4
          exact (nomatch h4)
        unfold Precedes at *
        rcases Nat.lt_trichotomy a.1 s.1 with h | h | h
        · exact absurd (.inl h) hl
        · rcases Nat.lt_trichotomy a.2 s.2 with h' | h' | h'
          · exact absurd (.inr ⟨h, h'⟩) hl
          · exact absurd (Prod.ext h h') hne
          · exact .inr ⟨h.symm, h'⟩
        · exact .inl h
    · rintro ⟨a, s, ha, hs, hq⟩
      refine ⟨a, s, ha, hs, ?_⟩
      rcases hq with ⟨rfl, hl⟩ | ⟨rfl, hl⟩
      · rw [if_pos ((posLt_iff _ _).2 hl)]
      · rw [if_neg (fun e => precedes_asymm hl ((posLt_iff _ _).1 e))]
  · simp only [EntityDiag.missingExtension.injEq]
    constructor
    · rintro ⟨h1, h2, h3⟩; exact ⟨h3, h1, h2⟩
    · rintro ⟨h3, h1, h2⟩; exact ⟨h1, h2, h3⟩
  · simp
  · simp
  · simp

/-- An event with both arguments, `signature_topic` in the second attribute: it is the one
reported. -/
example :
    IsPrimary [⟨.arg .event, [.event, .anonymous]⟩, ⟨.arg .signatureTopic, [.signatureTopic]⟩] 0
      ⟨.arg .event, [.event, .anonymous]⟩ ∧
    validateEntity .v5 false
      [⟨.arg .event, [.event, .anonymous]⟩, ⟨.arg .signatureTopic, [.signatureTopic]⟩] =
      [.anonymousSignature (1, 0)] :=
  ⟨(C43_primary _ _ _).1 (by decide), by decide⟩

theorem mem_orderChecks (v : Version) (c : Bool) (attrs : List AttrV) (P : AttrV) (p : Nat)
    (h : IsPrimary attrs p P) (hw : P.Wf) (hd : ¬ DeprecatedPrimary v c P.kind)
    (d : EntityDiag) (ho : d.isOrder = true) :
    d ∈ validateEntity v c attrs ↔ d ∈ orderChecks v P p := by
  have hb : ¬ ((preChecks v c P p attrs).2 = true) :=
    fun hb => hd ((bail_iff v c attrs P p h hw).1 hb)
  rw [validateEntity_eq v c attrs P p ((C43_primary attrs P p).2 h), if_neg hb,
    List.mem_append, List.mem_append]
  constructor
  · rintro ((h1 | h1) | h1)
    · unfold preChecks at h1
      split at h1
      · have := v5Checks_isVersioned _ _ _ _ d h1
        cases d <;> simp [EntityDiag.isVersioned, EntityDiag.isOrder] at ho this
      · exact (nomatch h1)
    · exact h1
    · obtain ⟨q, -, hq⟩ := List.mem_flatMap.1 h1
      rcases mem_attrConflicts _ _ _ _ _ _ hq with rfl | ⟨j, rfl⟩ <;> exact (nomatch ho)
  · exact fun h1 => .inl (.inr h1)

/-- Which items are told that their main attribute should come first (a complete one that is
not the first attribute), that the argument which gives the main attribute its meaning should
come first in it, or that a main attribute is missing (only a qualifying argument, except
`namespace`, which stands alone on implementation blocks). -/
theorem C71_order (v : Version) (c : Bool) (attrs : List AttrV) (P : AttrV) (p : Nat)
    (h : IsPrimary attrs p P) (hw : P.Wf) (hd : ¬ DeprecatedPrimary v c P.kind) :
    (∀ i, EntityDiag.notFirst i ∈ validateEntity v c attrs ↔
      i = p ∧ p ≠ 0 ∧ ¬ Qualifying v P.kind) ∧
    (∀ i, EntityDiag.argNotFirst i ∈ validateEntity v c attrs ↔
      i = p ∧ (¬ Qualifying v P.kind ∨ P.kind = .arg .namespace) ∧
        ∃ k, P.kind = .arg k ∧ P.args.head? ≠ some k) ∧
    (∀ i, EntityDiag.needsPrimary i ∈ validateEntity v c attrs ↔
      i = p ∧ Qualifying v P.kind ∧ P.kind ≠ .arg .namespace) := by
  have hq : primarySuggestions P.kind v = [] ↔ ¬ Qualifying v P.kind := by
    rw [← qualifying_iff]; simp
  refine ⟨fun i => ?_, fun i => ?_, fun i => ?_⟩ <;>
    rw [mem_orderChecks v c attrs P p h hw hd _ rfl] <;>
    unfold orderChecks <;>
    simp only [List.mem_append, hq, ne_eq]
  · constructor
    · rintro ((h1 | h1) | h1)
      · split at h1
        · rename_i hc
          simp only [List.mem_singleton, EntityDiag.notFirst.injEq] at h1
          exact ⟨h1, hc.1, hc.2⟩
        · exact (nomatch h1)
      · split at h1
        · cases hk : P.kind with
          | «macro» m => rw [hk] at h1; exact (nomatch h1)
          | arg k =>
            rw [hk] at h1
            dsimp only at h1
            split at h1
            · exact (nomatch h1)
            · exact (nomatch List.mem_singleton.1 h1)
        · exact (nomatch h1)
      · split at h1
        · exact (nomatch List.mem_singleton.1 h1)
        · exact (nomatch h1)
    · rintro ⟨rfl, h1, h2⟩
      exact .inl (.inl (by simp [h1, h2]))
  · constructor
    · rintro ((h1 | h1) | h1)
      · split at h1
        · exact (nomatch List.mem_singleton.1 h1)
        · exact (nomatch h1)
      · split at h1
        · rename_i hc
          cases hk : P.kind with
          | «macro» m => rw [hk] at h1; exact (nomatch h1)
          | arg k =>
            rw [hk] at h1 hc
            dsimp only at h1
            split at h1
            · exact (nomatch h1)
            · rename_i hh
              simp only [List.mem_singleton, EntityDiag.argNotFirst.injEq] at h1
              exact ⟨h1, by simpa using hc, k, rfl, hh⟩
        · exact (nomatch h1)
      · split at h1
        · exact (nomatch List.mem_singleton.1 h1)
        · exact (nomatch h1)
    · rintro ⟨rfl, h1, k, hk, hh⟩
      refine .inl (.inr ?_)
      rw [if_pos (by simpa using h1), hk]
      simp [hh]
  · constructor
    · rintro ((h1 | h1) | h1)
      · split at h1
        · exact (nomatch List.mem_singleton.1 h1)
        · exact (nomatch h1)
      · split at h1
        · cases hk : P.kind with
          | «macro» m => rw [hk] at h1; exact (nomatch h1)
          | arg k =>
            rw [hk] at h1
            dsimp only at h1
            split at h1
            · exact (nomatch h1)
            · exact (nomatch List.mem_singleton.1 h1)
        · exact (nomatch h1)
      · split at h1
        · rename_i hc
          simp only [List.mem_singleton, EntityDiag.needsPrimary.injEq] at h1
          exact ⟨h1, Classical.byContradiction hc.1, by simpa using hc.2⟩
        · exact (nomatch h1)
    · rintro ⟨rfl, h1, h2⟩
      refine .inr ?_
      rw [if_pos ⟨fun hn => hn h1, by simpa using h2⟩]
      exact List.mem_singleton.2 rfl

/-- `#[ink(payable)] #[ink(selector = 1, message)]`: the `message` attribute should be first, and
`message` should be first in it; `#[ink(payable)]` alone lacks a main attribute. -/
example :
    IsPrimary [⟨.arg .payable, [.payable]⟩, ⟨.arg .message, [.selector, .message]⟩] 1
      ⟨.arg .message, [.selector, .message]⟩ ∧
    AttrV.Wf ⟨.arg .message, [.selector, .message]⟩ ∧
    ¬ DeprecatedPrimary .v5 false (.arg .message) ∧
    validateEntity .v5 false
      [⟨.arg .payable, [.payable]⟩, ⟨.arg .message, [.selector, .message]⟩] =
      [.notFirst 1, .argNotFirst 1] ∧
    validateEntity .v5 false [⟨.arg .payable, [.payable]⟩] = [.needsPrimary 0] := by
  refine ⟨(C43_primary _ _ _).1 (by decide), ?_, ?_, by decide, by decide⟩
  · intro k hk _
    simp only [AttrKind.arg.injEq] at hk
    subst hk; simp
  · unfold DeprecatedPrimary; simp

end Verif.Analyzer
