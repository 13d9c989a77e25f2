import Verif.Analyzer.Suggest
import Verif.Analyzer.TablesProps
import Verif.Analyzer.EntityProps
import Verif.Analyzer.DupProps

/-!
# C28: argument suggestions are valid, non-duplicate and non-conflicting
# C61: macro suggestions fit the item and its scope
-/

namespace Verif.Analyzer

open Verif.Ir

/-! ## Specification -/

/-- The item carries an argument of kind `k`. -/
def HasArg (attrs : List AttrV) (k : ArgKind) : Prop := ∃ a ∈ attrs, k ∈ a.args

/-- The enclosing scope allows the argument. -/
def ScopeAllows (v : Version) (scope : List AttrKind) (k : ArgKind) : Prop :=
  ∃ s ∈ scope, k ∈ validDescendantArgs s v

/-- The enclosing scope allows some argument. -/
def ScopeOpen (v : Version) (scope : List AttrKind) : Prop := ∃ k, ScopeAllows v scope k

/-- Adding `k` would put `anonymous` and `signature_topic` side by side in ink! 5. -/
def EventClash (v : Version) (attrs : List AttrV) (k : ArgKind) : Prop :=
  v = .v5 ∧ ((k = .signatureTopic ∧ HasArg attrs .anonymous) ∨
    (k = .anonymous ∧ HasArg attrs .signatureTopic))

/-! ## Lemmas -/

theorem mem_existingArgs (attrs : List AttrV) (k : ArgKind) :
    k ∈ existingArgs attrs ↔ HasArg attrs k := by
  simp [existingArgs, HasArg, List.mem_flatMap]

theorem mem_removeDuplicateArgs (attrs : List AttrV) (s : List ArgKind) (k : ArgKind) :
    k ∈ removeDuplicateArgs attrs s ↔ k ∈ s ∧ ¬ HasArg attrs k := by
  simp [removeDuplicateArgs, List.mem_filter, mem_existingArgs]

theorem mem_removeForScope (v : Version) (scope : List AttrKind) (s : List ArgKind)
    (k : ArgKind) :
    k ∈ removeForScope v scope s ↔ k ∈ s ∧ (ScopeOpen v scope → ScopeAllows v scope k) := by
  have hm : ∀ k, k ∈ (scope.flatMap fun k => validDescendantArgs k v) ↔ ScopeAllows v scope k := by
    intro k
    simp [ScopeAllows, List.mem_flatMap]
  unfold removeForScope
  simp only
  split
  · rename_i h
    have hn : ¬ ScopeOpen v scope := by
      rintro ⟨k', hk'⟩
      have := (hm k').2 hk'
      rw [List.isEmpty_iff.1 h] at this
      exact absurd this (by simp)
    exact ⟨fun h' => ⟨h', fun ho => absurd ho hn⟩, fun h' => h'.1⟩
  · rename_i h
    have ho : ScopeOpen v scope := by
      obtain ⟨x, hx⟩ := List.exists_mem_of_ne_nil _ (fun e => h (List.isEmpty_iff.2 e))
      exact ⟨x, (hm x).1 hx⟩
    simp only [List.mem_filter, decide_eq_true_eq, hm]
    exact ⟨fun h' => ⟨h'.1, fun _ => h'.2⟩, fun h' => ⟨h'.1, h'.2 ho⟩⟩

theorem mem_removeForItem (t : Bool) (s : List ArgKind) (k : ArgKind) :
    k ∈ removeForItem t s ↔ k ∈ s ∧ ¬ (t = true ∧ k = .namespace) := by
  cases t <;> simp [removeForItem, List.mem_filter]

theorem mem_removeEventConflict (v : Version) (P : AttrV) (attrs : List AttrV)
    (hP : P ∈ attrs) (hw : P.Wf) (s : List ArgKind) (k : ArgKind)
    (hk : k ∈ validSiblings P.kind v) :
    k ∈ removeEventConflict v P.kind attrs s ↔ k ∈ s ∧ ¬ EventClash v attrs k := by
  have ha : P.kind = .arg .anonymous → HasArg attrs .anonymous :=
    fun e => ⟨P, hP, hw _ e (by decide)⟩
  have hs : P.kind = .arg .signatureTopic → HasArg attrs .signatureTopic :=
    fun e => ⟨P, hP, hw _ e (by decide)⟩
  have hev : k = .signatureTopic ∨ k = .anonymous → v = .v5 →
      P.kind ∈ [.macro .event, .arg .event, .arg .anonymous, .arg .signatureTopic] := by
    intro hkk hv
    subst hv
    have : ∀ k ∈ [ArgKind.signatureTopic, .anonymous], ∀ p ∈ AttrKind.all,
        k ∈ validSiblings p .v5 →
        p ∈ [.macro .event, .arg .event, .arg .anonymous, .arg .signatureTopic] := by
      decide +kernel
    exact this k (by rcases hkk with rfl | rfl <;> simp) P.kind (AttrKind.mem_all _) hk
  unfold removeEventConflict EventClash
  by_cases hc : v = .v5 ∧
      P.kind ∈ [.macro .event, .arg .event, .arg .anonymous, .arg .signatureTopic]
  · rw [if_pos hc]
    have hA : (P.kind == .arg .anonymous || decide (.anonymous ∈ existingArgs attrs)) = true ↔
        HasArg attrs .anonymous := by
      simp only [Bool.or_eq_true, beq_iff_eq, decide_eq_true_eq, mem_existingArgs]
      exact ⟨fun h => h.elim ha id, .inr⟩
    have hS : (P.kind == .arg .signatureTopic ||
        decide (.signatureTopic ∈ existingArgs attrs)) = true ↔ HasArg attrs .signatureTopic := by
      simp only [Bool.or_eq_true, beq_iff_eq, decide_eq_true_eq, mem_existingArgs]
      exact ⟨fun h => h.elim hs id, .inr⟩
    revert hA hS
    generalize (P.kind == .arg .anonymous || decide (.anonymous ∈ existingArgs attrs)) = A
    generalize (P.kind == .arg .signatureTopic ||
        decide (.signatureTopic ∈ existingArgs attrs)) = S
    intro hA hS
    rw [← hA, ← hS]
    simp only [hc.1, true_and]
    cases A <;> cases S <;> simp [List.mem_filter]
  · rw [if_neg hc]
    constructor
    · intro h
      refine ⟨h, ?_⟩
      rintro ⟨hv, ⟨rfl, -⟩ | ⟨rfl, -⟩⟩
      · exact hc ⟨hv, hev (.inl rfl) hv⟩
      · exact hc ⟨hv, hev (.inr rfl) hv⟩
    · exact fun h => h.1

theorem mem_removeConflictingArgs (v : Version) (attrs : List AttrV) (P : AttrV) (p : Nat)
    (h : IsPrimary attrs p P) (hw : P.Wf) (s : List ArgKind) (k : ArgKind) :
    k ∈ removeConflictingArgs v attrs s ↔
      k ∈ s ∧ k ∈ validSiblings P.kind v ∧ ¬ EventClash v attrs k := by
  unfold removeConflictingArgs
  rw [(C43_primary attrs P p).2 h]
  simp only
  by_cases hk : k ∈ validSiblings P.kind v
  · rw [mem_removeEventConflict v P attrs (List.mem_of_getElem? h.at_) hw _ k hk]
    simp [List.mem_filter, hk]
  · constructor
    · intro hm
      exfalso
      have : k ∈ (s.filter fun k => decide (k ∈ validSiblings P.kind v)) := by
        unfold removeEventConflict at hm
        split at hm
        · simp only at hm
          split at hm
          · exact (List.mem_filter.1 hm).1
          · exact hm
        · exact hm
      rw [List.mem_filter] at this
      exact hk (by simpa using this.2)
    · exact fun h' => absurd h'.2.1 hk

theorem no_primary (attrs : List AttrV) (h : ∀ a ∈ attrs, ¬ Known a.kind) :
    primaryCandidate attrs = none := by
  cases hc : primaryCandidate attrs with
  | none => rfl
  | some q =>
    have h' := (C43_primary attrs q.1 q.2).1 hc
    exact absurd h'.known (h _ (List.mem_of_getElem? h'.at_))

/-! ## C28 -/

/-- Code actions on an item with a primary attribute `P`: an argument is suggested iff it is
a valid sibling of the primary attribute, is not on the item, does not clash with an event
argument, is not `namespace` on a trait implementation, and (for a primary argument, inside a
scope that allows anything) is allowed by the scope. -/
theorem C28_item (v : Version) (attrs : List AttrV) (P : AttrV) (p : Nat)
    (h : IsPrimary attrs p P) (hw : P.Wf) (kind : ItemKind) (traitImpl : Bool)
    (scope : List AttrKind) (k : ArgKind) :
    k ∈ itemArgSuggestions v attrs kind traitImpl false scope ↔
      k ∈ validSiblings P.kind v ∧ ¬ HasArg attrs k ∧ ¬ EventClash v attrs k ∧
      ¬ (traitImpl = true ∧ k = .namespace) ∧
      ((∃ a, P.kind = .arg a) → ScopeOpen v scope → ScopeAllows v scope k) := by
  unfold itemArgSuggestions
  rw [(C43_primary attrs P p).2 h]
  simp only [Bool.false_eq_true, if_false]
  obtain ⟨kind', args⟩ := P
  cases kind' with
  | «macro» m =>
    simp only [mem_removeForItem, mem_removeConflictingArgs v attrs _ p h hw,
      mem_removeDuplicateArgs]
    constructor
    · rintro ⟨⟨⟨h1, h2⟩, -, h3⟩, h4⟩
      exact ⟨h1, h2, h3, h4, by simp⟩
    · rintro ⟨h1, h2, h3, h4, -⟩
      exact ⟨⟨⟨h1, h2⟩, h1, h3⟩, h4⟩
  | arg a =>
    simp only [mem_removeForItem, mem_removeConflictingArgs v attrs _ p h hw,
      mem_removeDuplicateArgs, mem_removeForScope]
    constructor
    · rintro ⟨⟨⟨⟨h1, h2⟩, -, h3⟩, h4⟩, h5⟩
      exact ⟨h1, h2, h3, h4, fun _ => h5⟩
    · rintro ⟨h1, h2, h3, h4, h5⟩
      exact ⟨⟨⟨⟨h1, h2⟩, h1, h3⟩, h4⟩, h5 ⟨a, rfl⟩⟩

/-- Code actions on an item without a known ink! attribute: suggestions fit the kind of item,
are not on the item, and are allowed by the scope (if that allows anything). -/
theorem C28_item_bare (v : Version) (attrs : List AttrV) (h : ∀ a ∈ attrs, ¬ Known a.kind)
    (kind : ItemKind) (traitImpl : Bool) (scope : List AttrKind) (k : ArgKind) :
    k ∈ itemArgSuggestions v attrs kind traitImpl false scope ↔
      k ∈ argsBySyntax kind v ∧ ¬ HasArg attrs k ∧ ¬ (traitImpl = true ∧ k = .namespace) ∧
      (ScopeOpen v scope → ScopeAllows v scope k) := by
  unfold itemArgSuggestions removeConflictingArgs
  rw [no_primary attrs h]
  simp only [Bool.false_eq_true, if_false, mem_removeForScope, mem_removeForItem,
    mem_removeDuplicateArgs]
  constructor
  · rintro ⟨⟨⟨h1, h2⟩, h3⟩, h4⟩
    exact ⟨h1, h2, h3, h4⟩
  · rintro ⟨h1, h2, h3, h4⟩
    exact ⟨⟨⟨h1, h2⟩, h3⟩, h4⟩

/-- The argument can stand on the kind of item (or, if the item is not known, on some kind). -/
def FitsItem (v : Version) (itemKind : Option ItemKind) (k : ArgKind) : Prop :=
  ∃ i, (itemKind = none ∨ itemKind = some i) ∧ k ∈ argsBySyntax i v

theorem mem_unknownItemArgs (v : Version) (k : ArgKind) :
    k ∈ unknownItemArgs v ↔ ∃ i, k ∈ argsBySyntax i v := by
  constructor
  · intro h
    have : ∀ k ∈ unknownItemArgs v, k ∈ argsBySyntax .fn v ∨ k ∈ argsBySyntax .struct v ∨
        k ∈ argsBySyntax .impl v ∨ k ∈ argsBySyntax .recordField v := by cases v <;> decide
    rcases this k h with h | h | h | h <;> exact ⟨_, h⟩
  · rintro ⟨i, h⟩
    have : ∀ k ∈ argsBySyntax i v, k ∈ unknownItemArgs v := by cases v <;> cases i <;> decide
    exact this k h

/-- What is completed for the kinds of attribute and item alone. -/
theorem mem_topArgs (v : Version) (k₀ : AttrKind) (itemKind : Option ItemKind) (k : ArgKind) :
    (k ∈ if k₀.isUnknown then
        match itemKind with
        | some i => argsBySyntax i v
        | none => unknownItemArgs v
      else validSiblings k₀ v) ↔
      (Known k₀ ∧ k ∈ validSiblings k₀ v) ∨ (¬ Known k₀ ∧ FitsItem v itemKind k) := by
  have hk := known_iff k₀
  cases hu : k₀.isUnknown with
  | false =>
    have : Known k₀ := hk.1 hu
    simp [this]
  | true =>
    have : ¬ Known k₀ := fun h => by rw [hk.2 h] at hu; cases hu
    cases itemKind with
    | none => simp [this, FitsItem, mem_unknownItemArgs]
    | some i => simp [this, FitsItem]

theorem mem_removeCombined (v : Version) (attrs : List AttrV) (P : AttrV) (p : Nat)
    (h : IsPrimary attrs p P) (hw : P.Wf) (k₀ : AttrKind) (scope : List AttrKind)
    (s : List ArgKind) (k : ArgKind) :
    k ∈ removeCombined v attrs k₀ scope s ↔
      k ∈ s ∧ k ∈ validSiblings P.kind v ∧ ¬ HasArg attrs k ∧ ¬ EventClash v attrs k ∧
      ((∃ a, k₀ = .arg a) → ScopeOpen v scope → ScopeAllows v scope k) := by
  unfold removeCombined
  cases k₀ with
  | «macro» m =>
    simp only [mem_removeConflictingArgs v attrs P p h hw, mem_removeDuplicateArgs]
    constructor
    · intro hm
      exact ⟨hm.1.1, hm.2.1, hm.1.2, hm.2.2, by simp⟩
    · rintro ⟨h1, h2, h3, h4, -⟩
      exact ⟨⟨h1, h3⟩, h2, h4⟩
  | arg a =>
    simp only [mem_removeConflictingArgs v attrs P p h hw, mem_removeDuplicateArgs,
      mem_removeForScope]
    constructor
    · intro hm
      exact ⟨hm.1.1.1, hm.1.2.1, hm.1.1.2, hm.1.2.2, fun _ => hm.2⟩
    · rintro ⟨h1, h2, h3, h4, h5⟩
      exact ⟨⟨⟨h1, h3⟩, h2, h4⟩, h5 ⟨a, rfl⟩⟩

/-- Code actions on a complete attribute of kind `k₀` of an item with primary attribute `P`
(that is no message of a trait definition's implementation): an argument is suggested iff it is
a valid sibling of both, is not on the item, does not clash, and is allowed by the scope. -/
theorem C28_attr (v : Version) (attrs : List AttrV) (P : AttrV) (p : Nat)
    (h : IsPrimary attrs p P) (hw : P.Wf) (k₀ : AttrKind) (closed msg : Bool)
    (scope : List AttrKind) (k : ArgKind) :
    k ∈ attrArgSuggestions v attrs k₀ closed msg scope ↔
      closed = true ∧ msg = false ∧ k ∈ validSiblings k₀ v ∧ k ∈ validSiblings P.kind v ∧
      ¬ HasArg attrs k ∧ ¬ EventClash v attrs k ∧
      ((∃ a, k₀ = .arg a) → ScopeOpen v scope → ScopeAllows v scope k) := by
  unfold attrArgSuggestions
  cases closed <;> cases msg <;> simp [mem_removeCombined v attrs P p h hw]

/-- Top-level completions inside an attribute of kind `k₀` of an item with primary attribute
`P`: the same for a known attribute; in an unknown one, the arguments that fit the item. -/
theorem C28_top (v : Version) (attrs : List AttrV) (P : AttrV) (p : Nat)
    (h : IsPrimary attrs p P) (hw : P.Wf) (k₀ : AttrKind) (scope : List AttrKind)
    (itemKind : Option ItemKind) (k : ArgKind) :
    k ∈ topArgCompletions v attrs k₀ itemKind scope ↔
      ((Known k₀ ∧ k ∈ validSiblings k₀ v) ∨ (¬ Known k₀ ∧ FitsItem v itemKind k)) ∧
      k ∈ validSiblings P.kind v ∧ ¬ HasArg attrs k ∧ ¬ EventClash v attrs k ∧
      ((∃ a, k₀ = .arg a) → ScopeOpen v scope → ScopeAllows v scope k) := by
  unfold topArgCompletions
  simp only [mem_removeCombined v attrs P p h hw]
  refine and_congr ?_ Iff.rfl
  have := mem_topArgs v k₀ itemKind k
  cases itemKind <;> exact this

/-- Top-level completions on an item without a known ink! attribute: the arguments that fit the
item, are not on it, and are allowed by the scope. -/
theorem C28_top_bare (v : Version) (attrs : List AttrV) (h : ∀ a ∈ attrs, ¬ Known a.kind)
    (k₀ : AttrKind) (h₀ : ¬ Known k₀) (scope : List AttrKind) (itemKind : Option ItemKind)
    (k : ArgKind) :
    k ∈ topArgCompletions v attrs k₀ itemKind scope ↔
      FitsItem v itemKind k ∧ ¬ HasArg attrs k ∧
      ((∃ a, k₀ = .arg a) → ScopeOpen v scope → ScopeAllows v scope k) := by
  have key : ∀ s, k ∈ removeCombined v attrs k₀ scope s ↔ k ∈ s ∧ ¬ HasArg attrs k ∧
      ((∃ a, k₀ = .arg a) → ScopeOpen v scope → ScopeAllows v scope k) := by
    intro s
    unfold removeCombined removeConflictingArgs
    rw [no_primary attrs h]
    cases k₀ with
    | «macro» m => simp [mem_removeDuplicateArgs]
    | arg a => simp [mem_removeDuplicateArgs, mem_removeForScope, and_assoc]
  unfold topArgCompletions
  simp only [key]
  refine and_congr ?_ Iff.rfl
  have := mem_topArgs v k₀ itemKind k
  simp only [h₀, false_and, not_false_eq_true, true_and, false_or] at this
  cases itemKind <;> exact this

/-- The argument can be nested in an argument of kind `f`. -/
def NestsIn (f k : ArgKind) : Prop :=
  (∃ b, ValueKind.ofArg f = .arg k b) ∨
    ∃ k' b, ValueKind.ofArg f = .choice k k' b ∨ ValueKind.ofArg f = .choice k' k b

theorem mem_nestedArgCompletions (f k : ArgKind) : k ∈ nestedArgCompletions f ↔ NestsIn f k := by
  unfold nestedArgCompletions NestsIn
  cases hv : ValueKind.ofArg f with
  | arg k₁ b =>
    simp only [List.mem_singleton, ValueKind.arg.injEq]
    constructor
    · rintro rfl
      exact .inl ⟨b, rfl, rfl⟩
    · rintro (⟨b', h, -⟩ | ⟨k', b', h | h⟩)
      · exact h.symm
      · cases h
      · cases h
  | choice k₁ k₂ b =>
    simp only [List.mem_cons, List.not_mem_nil, or_false]
    constructor
    · rintro (rfl | rfl)
      · exact .inr ⟨k₂, b, .inl rfl⟩
      · exact .inr ⟨k₁, b, .inr rfl⟩
    · rintro (⟨b', h⟩ | ⟨k', b', h | h⟩)
      · cases h
      · cases h; exact .inl rfl
      · cases h; exact .inr rfl
  | _ =>
    simp only [List.not_mem_nil, false_iff]
    rintro (⟨b', h⟩ | ⟨k', b', h | h⟩) <;> cases h

/-- Completions are the arguments that the focused argument accepts, or the top-level ones if
there are none; with a typed prefix, those whose name starts with it. Nested arguments are also
completed directly on the name of the argument that takes them. -/
theorem C28_completions (v : Version) (attrs : List AttrV) (k₀ : AttrKind)
    (itemKind : Option ItemKind) (scope : List AttrKind) (focused : Option (ArgKind × String))
    (pre : Option String) (k : ArgKind) :
    k ∈ argCompletions v attrs k₀ itemKind scope focused pre ↔
      ((∃ f n, focused = some (f, n) ∧ NestsIn f k ∧
          ∀ t, pre = some t → k.name.startsWith t = true ∨ t = n) ∨
       ((∀ f n k', focused = some (f, n) → ¬ NestsIn f k') ∧
          k ∈ topArgCompletions v attrs k₀ itemKind scope ∧
          ∀ t, pre = some t → k.name.startsWith t = true)) := by
  have hne : (nestedOf focused).isEmpty = true ↔ ∀ f n k', focused = some (f, n) → ¬ NestsIn f k' := by
    cases focused with
    | none => simp [nestedOf]
    | some fn =>
      obtain ⟨f, n⟩ := fn
      simp only [nestedOf, Option.some.injEq, Prod.mk.injEq]
      constructor
      · rintro h f' n' k' ⟨rfl, rfl⟩ hk
        have := (mem_nestedArgCompletions f k').2 hk
        rw [List.isEmpty_iff.1 h] at this
        exact absurd this (by simp)
      · intro h
        cases hl : nestedArgCompletions f with
        | nil => rfl
        | cons k' l =>
          exact absurd ((mem_nestedArgCompletions f k').1 (by simp [hl])) (h f n k' ⟨rfl, rfl⟩)
  by_cases he : (nestedOf focused).isEmpty = true
  · have hno := hne.1 he
    have hl : ¬ ∃ f n, focused = some (f, n) ∧ NestsIn f k ∧
        ∀ t, pre = some t → k.name.startsWith t = true ∨ t = n := by
      rintro ⟨f, n, h1, h2, -⟩
      exact hno f n k h1 h2
    simp only [hl, false_or]
    unfold argCompletions allArgCompletions
    cases pre with
    | none => simp [he]; exact fun _ => hno
    | some t => simp [he]; exact fun _ _ => hno
  · have hsome : ∃ f n k', focused = some (f, n) ∧ NestsIn f k' := by
      apply Classical.byContradiction
      intro hn
      exact he (hne.2 fun f n k' h1 h2 => hn ⟨f, n, k', h1, h2⟩)
    obtain ⟨f, n, k', rfl, hk'⟩ := hsome
    have hr : ¬ ∀ f' n' k', some (f, n) = some (f', n') → ¬ NestsIn f' k' :=
      fun h => h f n k' rfl hk'
    simp only [hr, false_and, or_false]
    have hf : (nestedOf (some (f, n))).isEmpty = false := by simpa using he
    have hm : k ∈ nestedOf (some (f, n)) ↔ NestsIn f k := mem_nestedArgCompletions f k
    have hg : (∃ f' n', some (f, n) = some (f', n') ∧ NestsIn f' k ∧
        ∀ t, pre = some t → k.name.startsWith t = true ∨ t = n') ↔
        NestsIn f k ∧ ∀ t, pre = some t → k.name.startsWith t = true ∨ t = n := by
      constructor
      · rintro ⟨f', n', h1, h2, h3⟩
        simp only [Option.some.injEq, Prod.mk.injEq] at h1
        obtain ⟨rfl, rfl⟩ := h1
        exact ⟨h2, h3⟩
      · rintro ⟨h2, h3⟩
        exact ⟨f, n, rfl, h2, h3⟩
    rw [hg]
    unfold argCompletions allArgCompletions
    cases pre with
    | none => simp [hf, hm]
    | some t =>
      simp only [hf, List.mem_filter, Bool.or_eq_true, beq_iff_eq, Bool.not_false, Bool.true_and,
        Option.some.injEq, forall_eq', Bool.false_eq_true, if_false, hm]
      rw [eq_comm (a := n)]

/-- An unknown attribute on a struct in a contract is
completed with the arguments of structs. -/
example : argCompletions .v5 [⟨.arg .unknown, []⟩] (.arg .unknown) (some .struct) [.macro .contract]
    none none = [.anonymous, .event, .signatureTopic, .storage] := by decide

theorem IsPrimary.set {attrs : List AttrV} {p : Nat} {P : AttrV} (h : IsPrimary attrs p P)
    (l : List ArgKind) :
    IsPrimary (attrs.set p { P with args := l }) p { P with args := l } := by
  have hp : p < attrs.length := (List.getElem?_eq_some_iff.1 h.at_).1
  refine ⟨by simp [hp], h.known, ?_, ?_⟩
  · intro i a ha hk hlt
    rw [List.getElem?_set_ne (by omega)] at ha
    exact h.before i a ha hk hlt
  · intro i a ha hk hlt
    rw [List.getElem?_set_ne (by omega)] at ha
    exact h.after i a ha hk hlt

/-- Accepting a suggested argument is harmless: on an item without conflicts, adding a
suggested argument to the primary attribute creates neither a conflict nor a duplicate of
that argument. -/
theorem C28_accept (v : Version) (c : Bool) (attrs : List AttrV) (P : AttrV) (p : Nat)
    (h : IsPrimary attrs p P) (hw : P.Wf)
    (ha : ∀ i a, attrs[i]? = some a → i ≠ p → Compatible v P.kind a.kind)
    (hk : ∀ a ∈ attrs, ∀ k ∈ a.args, a.kind = .arg k ∨ k ∈ validSiblings P.kind v)
    (kind : ItemKind) (traitImpl : Bool) (scope : List AttrKind) (k : ArgKind)
    (hs : k ∈ itemArgSuggestions v attrs kind traitImpl false scope) :
    (∀ i, .conflictAttr i ∉
      validateEntity v c (attrs.set p { P with args := P.args ++ [k] })) ∧
    (∀ q, .conflictArg q ∉
      validateEntity v c (attrs.set p { P with args := P.args ++ [k] })) ∧
    ∀ a ∈ attrs, k ∉ a.args := by
  obtain ⟨h1, h2, -⟩ := (C28_item v attrs P p h hw kind traitImpl scope k).1 hs
  have hp : p < attrs.length := (List.getElem?_eq_some_iff.1 h.at_).1
  have := C43_compatible v c _ _ p (h.set (P.args ++ [k])) (by
    intro i a hi hne
    rw [List.getElem?_set_ne (by omega)] at hi
    exact ha i a hi hne) (by
    intro a hm b hb
    rcases List.mem_or_eq_of_mem_set hm with hm | rfl
    · exact hk a hm b hb
    · rcases List.mem_append.1 hb with hb | hb
      · exact hk P (List.mem_of_getElem? h.at_) b hb
      · rw [List.mem_singleton.1 hb]
        exact .inr h1)
  exact ⟨this.1, this.2, fun a hm hb => h2 ⟨a, hm, hb⟩⟩

/-- `#[ink(message)]` on a function of a contract: everything but the arguments present is
suggested. -/
example : itemArgSuggestions .v5 [⟨.arg .message, [.message, .payable]⟩] .fn false false
      [.macro .contract] = [.default, .selector] ∧
    IsPrimary [⟨.arg .message, [.message, .payable]⟩] 0 ⟨.arg .message, [.message, .payable]⟩ :=
  ⟨by decide, (C43_primary _ _ _).1 (by decide)⟩

/-- For an item whose primary attribute stands on its own, a suggested argument never
conflicts with an accepted existing one: ink! documents both for the same attribute.

Missing for the full claim: primary arguments that do not stand on their own, see
`C28_negation_conflict`. -/
theorem C28_conflict_partial (v : Version) (attrs : List AttrV) (P : AttrV) (p : Nat)
    (h : IsPrimary attrs p P) (hw : P.Wf) (he : isEntity P.kind = true)
    (kind : ItemKind) (traitImpl : Bool) (scope : List AttrKind) (k b : ArgKind)
    (hs : k ∈ itemArgSuggestions v attrs kind traitImpl false scope)
    (hb : b ∈ validSiblings P.kind v) :
    documents v P.kind k ∧ documents v P.kind b := by
  obtain ⟨h1, -⟩ := (C28_item v attrs P p h hw kind traitImpl scope k).1 hs
  exact ⟨(C29_entities v _ he k).1 h1, (C29_entities v _ he b).1 hb⟩

/-- Two arguments can stand on one item: some attribute that stands on its own is documented
with both (or is one of them). -/
def Together (v : Version) (a b : ArgKind) : Prop :=
  ∃ e, isEntity e = true ∧ (documents v e a ∨ e = .arg a) ∧ (documents v e b ∨ e = .arg b)

/-- The claim is false for ambiguous primary arguments: on
`#[ink(namespace = "…", keep_attr = "…")]` (accepted without a conflict) the argument `impl`
is suggested, although no ink! attribute takes both `impl` and `keep_attr`. -/
theorem C28_negation_conflict :
    ∃ (a : AttrV) (k b : ArgKind),
      (∀ i, EntityDiag.conflictAttr i ∉ validateEntity .v4 false [a]) ∧
      (∀ q, EntityDiag.conflictArg q ∉ validateEntity .v4 false [a]) ∧
      k ∈ itemArgSuggestions .v4 [a] .impl false false [.macro .contract] ∧
      b ∈ a.args ∧ ¬ Together .v4 k b := by
  have hv : validateEntity .v4 false [⟨.arg .namespace, [.namespace, .keepAttr]⟩] = [] := by decide
  refine ⟨⟨.arg .namespace, [.namespace, .keepAttr]⟩, .impl, .keepAttr, ?_, ?_, by decide,
    by decide, ?_⟩
  · intro i; rw [hv]; simp
  · intro i; rw [hv]; simp
  · rintro ⟨e, h⟩
    have : ∀ e ∈ AttrKind.all, ¬ (isEntity e = true ∧
        (documents .v4 e .impl ∨ e = .arg .impl) ∧
        (documents .v4 e .keepAttr ∨ e = .arg .keepAttr)) := by decide +kernel
    exact this e e.mem_all h

/-- The scope clause is false for scopes that allow no ink! arguments: on an
`#[ink(event)]` struct inside an `#[ink(message)]` function, `anonymous` is suggested although
nothing is allowed there. -/
theorem C28_negation_scope :
    ∃ (attrs : List AttrV) (scope : List AttrKind) (k : ArgKind), scope ≠ [] ∧
      k ∈ itemArgSuggestions .v4 attrs .struct false false scope ∧ ¬ ScopeAllows .v4 scope k := by
  refine ⟨[⟨.arg .event, [.event]⟩], [.arg .message], .anonymous, by decide, by decide, ?_⟩
  rintro ⟨s, hs, hk⟩
  rw [List.mem_singleton.1 hs] at hk
  exact absurd hk (by decide)

/-- Attribute actions and completions do not look at the item: inside `#[ink(impl)]` on a
trait implementation `namespace` is suggested, which the code action on the item itself
rightly leaves out. -/
theorem C28_negation_trait_impl :
    ∃ attrs : List AttrV,
      .namespace ∈ attrArgSuggestions .v4 attrs (.arg .impl) true false [.macro .contract] ∧
      .namespace ∉ itemArgSuggestions .v4 attrs .impl true false [.macro .contract] :=
  ⟨[⟨.arg .impl, [.impl]⟩], by decide, by decide⟩

/-! ## C61 -/

/-- A macro is suggested for an item without ink! attributes iff it applies to that kind of
item, some attribute of the enclosing scope allows it (if there is a scope), and test macros
only under a test configuration. -/
theorem C61_macros (v : Version) (kind : ItemKind) (scope : List AttrKind)
    (cfgTest cfgE2e : Bool) (m : MacroKind) :
    m ∈ itemMacroSuggestions v [] kind scope cfgTest cfgE2e ↔
      m ∈ macrosBySyntax kind v ∧
      (scope ≠ [] → ∃ s ∈ scope, m ∈ validDescendantMacros s v) ∧
      (m = .test → cfgTest = true) ∧ (m = .e2eTest → cfgTest = true ∧ cfgE2e = true) := by
  have hs : ∀ s, m ∈ removeMacrosForScope v scope s ↔
      m ∈ s ∧ (scope ≠ [] → ∃ s ∈ scope, m ∈ validDescendantMacros s v) := by
    intro s
    unfold removeMacrosForScope
    split
    · rename_i h
      rw [List.isEmpty_iff] at h
      simp [h]
    · rename_i h
      have h : scope ≠ [] := fun e => h (List.isEmpty_iff.2 e)
      simp [List.mem_filter, List.mem_flatMap, h]
  have hc : ∀ s, m ∈ removeMacrosForCfg cfgTest cfgE2e s ↔
      m ∈ s ∧ (m = .test → cfgTest = true) ∧
        (m = .e2eTest → cfgTest = true ∧ cfgE2e = true) := by
    intro s
    unfold removeMacrosForCfg
    split
    · rw [List.mem_filter]
      constructor
      · rintro ⟨h1, h2⟩
        refine ⟨h1, ?_, ?_⟩
        · rintro rfl; simpa using h2
        · rintro rfl; simpa using h2
      · rintro ⟨h1, h2, h3⟩
        refine ⟨h1, ?_⟩
        cases m <;> simp_all
    · rename_i h
      constructor
      · intro h1
        refine ⟨h1, ?_, ?_⟩
        · rintro rfl; exact absurd (List.any_eq_true.2 ⟨_, h1, by decide⟩) h
        · rintro rfl; exact absurd (List.any_eq_true.2 ⟨_, h1, by decide⟩) h
      · exact fun h => h.1
  unfold itemMacroSuggestions
  rw [if_pos (by rfl), hc, hs]
  have : m ∈ removeDuplicateMacros [] (macrosBySyntax kind v) ↔ m ∈ macrosBySyntax kind v := by
    simp [removeDuplicateMacros]
  rw [this, and_assoc]

/-- No macro is suggested for an item that has an ink! attribute. -/
theorem C61_annotated (v : Version) (attrs : List AttrV) (h : attrs ≠ []) (kind : ItemKind)
    (scope : List AttrKind) (cfgTest cfgE2e : Bool) :
    itemMacroSuggestions v attrs kind scope cfgTest cfgE2e = [] := by
  unfold itemMacroSuggestions
  rw [if_neg (fun e => h (List.isEmpty_iff.1 e))]

/-- What ink! documents: contracts on modules, trait definitions and chain extensions on
traits, storage items and (ink! 5) scale codecs on types, events on structs (ink! 5), tests on
functions. -/
theorem C61_kinds (v : Version) (kind : ItemKind) (m : MacroKind) :
    m ∈ macrosBySyntax kind v ↔
      (kind = .module ∧ m = .contract) ∨
      (kind = .trait ∧ (m = .chainExtension ∨ m = .traitDefinition)) ∨
      (kind = .fn ∧ (m = .test ∨ m = .e2eTest)) ∨
      (kind = .struct ∧ v = .v5 ∧ m = .event) ∨
      ((kind = .struct ∨ kind = .enum ∨ kind = .union) ∧
        (m = .storageItem ∨ (v = .v5 ∧ m = .scaleDerive))) := by
  cases v <;> cases kind <;> cases m <;> decide

/-- A suggested macro applied to the item is never reported as misplaced or conflicting: the
item then has exactly that attribute. -/
theorem C61_accept (v : Version) (c : Bool) (kind : ItemKind) (scope : List AttrKind)
    (cfgTest cfgE2e : Bool) (m : MacroKind)
    (h : m ∈ itemMacroSuggestions v [] kind scope cfgTest cfgE2e) :
    validateEntity v c [⟨.macro m, []⟩] = [] ∨
      (v = .v5 ∧ m = .chainExtension ∧
        validateEntity v c [⟨.macro m, []⟩] = [.missingExtension 0]) := by
  have hm := ((C61_macros v kind scope cfgTest cfgE2e m).1 h).1
  have : m ≠ .unknown := by
    rintro rfl
    revert hm
    cases v <;> cases kind <;> decide
  revert this
  cases v <;> cases m <;> cases c <;> decide

example : itemMacroSuggestions .v5 [] .struct [.macro .contract] false false =
      [.event, .scaleDerive, .storageItem] ∧
    itemMacroSuggestions .v5 [] .fn [.macro .contract] true false = [.test] ∧
    itemMacroSuggestions .v5 [] .fn [.arg .message] false false = [] := by decide

end Verif.Analyzer
