import Verif.Analyzer.SignatureProps

/-!
# C69: which signatures are offered
-/

namespace Verif.Analyzer

open Verif.Ir

/-! ## Specification -/

/-- The cursor is within the token tree, after its opening and not after its closing parenthesis. -/
def WithinParens (t : ParenTree) (offset : Nat) : Prop :=
  (t.start ≤ offset ∧ offset < t.stop) ∧ (∃ l, t.lparen = some l ∧ l ≤ offset) ∧
    ∀ r, t.rparen = some r → offset ≤ r

/-- An argument touches the cursor. -/
def Touches (offset : Nat) (a : (Nat × Nat) × FocusedArg) : Prop :=
  a.1.1 ≤ offset ∧ offset ≤ a.1.2

/-- The argument in focus is the first one which touches the cursor. -/
def InFocus (args : List ((Nat × Nat) × FocusedArg)) (offset : Nat) : Option FocusedArg → Prop
  | none => ∀ a ∈ args, ¬ Touches offset a
  | some f => ∃ pre a post, args = pre ++ a :: post ∧ a.2 = f ∧ Touches offset a ∧
      ∀ b ∈ pre, ¬ Touches offset b

/-- The lists of arguments that belong together around an argument: a primary argument with its
siblings; for other arguments those of the related primary arguments or, if there are none, the
argument with its siblings. A namespace may also stand on its own. -/
inductive Around (v : Version) (k : ArgKind) : List ArgKind → Prop
  | primary : k.isEntityType = true → Around v k (k :: validSiblings (.arg k) v)
  | related (p : ArgKind) : k.isEntityType = false → p ∈ validSiblings (.arg k) v →
      p.isEntityType = true → Around v k (p :: validSiblings (.arg p) v)
  | alone : k.isEntityType = false → (∀ p ∈ validSiblings (.arg k) v, p.isEntityType = false) →
      Around v k (k :: validSiblings (.arg k) v)
  | namespace : k = .namespace → Around v k [k]

/-- The item of the attribute has a primary attribute which is an argument like `message`. -/
def SeparatePrimary (c : SigContext) (p : ArgKind) : Prop :=
  c.primary = some (.arg p) ∧ p.isEntityType = true

/-- An argument which is possible on the item (and in its scope, if that is known) and starts with
what has been typed. -/
structure Possible (v : Version) (c : SigContext) (focused : Option FocusedArg) (k : ArgKind) :
    Prop where
  item : ∃ item, c.item = some item ∧ k ∈ argsBySyntax item v ∧
    ∀ s, c.scope = some s → k ∈ removeForScope v s (argsBySyntax item v)
  typed : ∀ f n, focused = some f → f.name = some n → n <+: k.name.toList

/-- The lists of arguments for which a signature is relevant. -/
inductive RelevantArgs (v : Version) (c : SigContext) (focused : Option FocusedArg) :
    List ArgKind → Prop
  | primary (k : ArgKind) : c.kind = .arg k → k.isEntityType = true →
      RelevantArgs v c focused (k :: validSiblings (.arg k) v)
  | separate (k p : ArgKind) : c.kind = .arg k → k.isEntityType = false → SeparatePrimary c p →
      RelevantArgs v c focused (p :: validSiblings (.arg p) v)
  | known (k : ArgKind) (l : List ArgKind) : c.kind = .arg k → k.isEntityType = false →
      (∀ p, ¬ SeparatePrimary c p) → k ≠ .unknown → Around v k l → RelevantArgs v c focused l
  | guessed (k : ArgKind) (l : List ArgKind) : c.kind = .arg .unknown →
      (∀ p, ¬ SeparatePrimary c p) → Possible v c focused k → Around v k l →
      RelevantArgs v c focused l
  | macroArgs (m : MacroKind) : c.kind = .macro m → validSiblings (.macro m) v ≠ [] →
      RelevantArgs v c focused (validSiblings (.macro m) v)

/-- The signature shows these arguments, primary ones first, and its active parameter is the one
of the argument in focus. -/
def Shows (v : Version) (focused : Option FocusedArg) (l : List ArgKind) (s : SigHelp) : Prop :=
  ∃ kinds : List ArgKind, kinds.Perm l ∧
    kinds.Pairwise (fun a b => a.sortOrder ≤ b.sortOrder) ∧
    Describes s (kinds.map (paramSpec v (decide (.constructor ∈ l)))) ∧
    s.active = some (activeSpec kinds focused)

/-! ## Lemmas -/

theorem focusedOnArgs_iff (t : ParenTree) (offset : Nat) :
    focusedOnArgs t offset = true ↔ WithinParens t offset := by
  unfold focusedOnArgs WithinParens
  cases t.lparen <;> cases t.rparen <;> simp [and_assoc]

theorem inFocus_focusedArg (args : List ((Nat × Nat) × FocusedArg)) (offset : Nat) :
    InFocus args offset (focusedArg args offset) := by
  unfold focusedArg
  cases h : args.find? fun a => a.1.1 ≤ offset && offset ≤ a.1.2 with
  | none =>
    rw [List.find?_eq_none] at h
    intro a ha ht
    exact h a ha (by simpa [Touches] using ht)
  | some a =>
    obtain ⟨h1, pre, post, h2, h3⟩ := List.find?_eq_some_iff_append.1 h
    refine ⟨pre, a, post, h2, rfl, by simpa [Touches] using h1, ?_⟩
    intro b hb ht
    have := h3 b hb
    unfold Touches at ht
    simp [ht.1, ht.2] at this

theorem inFocus_unique (args : List ((Nat × Nat) × FocusedArg)) (offset : Nat)
    (f g : Option FocusedArg) (hf : InFocus args offset f) (hg : InFocus args offset g) : f = g := by
  have key : ∀ f, InFocus args offset f → focusedArg args offset = f := by
    intro f hf
    unfold focusedArg
    cases f with
    | none =>
      rw [Option.map_eq_none_iff, List.find?_eq_none]
      intro a ha h
      exact hf a ha (by simpa [Touches] using h)
    | some f =>
      obtain ⟨pre, a, post, rfl, rfl, ht, hpre⟩ := hf
      have : (pre ++ a :: post).find? (fun a => a.1.1 ≤ offset && offset ≤ a.1.2) = some a := by
        rw [List.find?_eq_some_iff_append]
        refine ⟨by simpa [Touches] using ht, pre, post, rfl, fun b hb => ?_⟩
        have := hpre b hb
        unfold Touches at this
        simp only [Bool.not_eq_true', Bool.and_eq_false_iff, decide_eq_false_iff_not]
        omega
      rw [this]
      rfl
  rw [← key f hf, ← key g hg]

theorem mem_relatedPrimary (v : Version) (k p : ArgKind) (hk : k.isEntityType = false) :
    p ∈ relatedPrimary v k ↔ p ∈ validSiblings (.arg k) v ∧ p.isEntityType = true := by
  unfold relatedPrimary anchorArgs
  rw [List.mem_filter, List.mem_cons]
  constructor
  · rintro ⟨rfl | h, h2⟩
    · rw [hk] at h2; cases h2
    · exact ⟨h, h2⟩
  · rintro ⟨h1, h2⟩
    exact ⟨.inr h1, h2⟩

theorem relatedPrimary_isEmpty (v : Version) (k : ArgKind) (hk : k.isEntityType = false) :
    (relatedPrimary v k).isEmpty = true ↔
      ∀ p ∈ validSiblings (.arg k) v, p.isEntityType = false := by
  rw [List.isEmpty_iff, List.eq_nil_iff_forall_not_mem]
  constructor
  · intro h p hp
    cases he : p.isEntityType with
    | false => rfl
    | true => exact absurd ((mem_relatedPrimary v k p hk).2 ⟨hp, he⟩) (h p)
  · intro h p hp
    obtain ⟨h1, h2⟩ := (mem_relatedPrimary v k p hk).1 hp
    rw [h p h1] at h2
    cases h2

/-- The signatures around a complementary argument. -/
theorem complementary_iff (v : Version) (k : ArgKind) (focused : Option FocusedArg)
    (range : Nat × Nat) (hk : k.isEntityType = false) (s : SigHelp) :
    s ∈ complementarySignature v k focused range ↔
      ∃ l, Around v k l ∧ s ∈ addSignature v l focused range := by
  unfold complementarySignature anchorSignature
  rw [List.mem_append]
  constructor
  · rintro (h | h)
    · split at h
      · rename_i hn
        exact ⟨[k], .namespace hn, h⟩
      · cases h
    · split at h
      · rename_i he
        exact ⟨_, .alone hk ((relatedPrimary_isEmpty v k hk).1 he), h⟩
      · obtain ⟨p, hp, h⟩ := List.mem_flatMap.1 h
        obtain ⟨h1, h2⟩ := (mem_relatedPrimary v k p hk).1 hp
        exact ⟨_, .related p hk h1 h2, h⟩
  · rintro ⟨l, hl, h⟩
    cases hl with
    | primary he => rw [hk] at he; cases he
    | related p _ h1 h2 =>
      refine .inr ?_
      have hp := (mem_relatedPrimary v k p hk).2 ⟨h1, h2⟩
      rw [if_neg (by rw [List.isEmpty_iff]; exact List.ne_nil_of_mem hp)]
      exact List.mem_flatMap.2 ⟨p, hp, h⟩
    | alone _ h1 =>
      refine .inr ?_
      rw [if_pos ((relatedPrimary_isEmpty v k hk).2 h1)]
      exact h
    | «namespace» hn =>
      refine .inl ?_
      rw [if_pos hn]
      exact h

theorem separateEntity_iff (c : SigContext) (p : ArgKind) :
    separateEntity c.primary = some p ↔ SeparatePrimary c p := by
  unfold separateEntity SeparatePrimary
  split
  · rename_i k hk
    rw [hk]
    by_cases he : k.isEntityType = true
    · rw [if_pos he]
      constructor
      · intro h; obtain rfl := Option.some.inj h; exact ⟨rfl, he⟩
      · rintro ⟨h, _⟩; cases h; rfl
    · rw [if_neg he]
      constructor
      · intro h; cases h
      · rintro ⟨h, h'⟩; cases h; exact absurd h' he
  · rename_i hk
    constructor
    · intro h; cases h
    · rintro ⟨h, _⟩; exact absurd h (hk p)

theorem possibleArgs_iff (v : Version) (c : SigContext) (focused : Option FocusedArg)
    (item : ItemKind) (hi : c.item = some item) (k : ArgKind) :
    k ∈ (possibleArgs v item c.scope).filter (possibleArg focused) ↔ Possible v c focused k := by
  rw [List.mem_filter]
  have hsub : ∀ s, k ∈ removeForScope v s (argsBySyntax item v) → k ∈ argsBySyntax item v := by
    intro s h
    unfold removeForScope at h
    simp only at h
    split at h
    · exact h
    · exact (List.mem_filter.1 h).1
  have h1 : k ∈ possibleArgs v item c.scope ↔ (k ∈ argsBySyntax item v ∧
      ∀ s, c.scope = some s → k ∈ removeForScope v s (argsBySyntax item v)) := by
    unfold possibleArgs
    cases hs : c.scope with
    | none => simp
    | some s =>
      constructor
      · intro h
        exact ⟨hsub s h, fun s' hs' => by obtain rfl := Option.some.inj hs'; exact h⟩
      · intro h
        exact h.2 s rfl
  have h2 : possibleArg focused k = true ↔
      ∀ f n, focused = some f → f.name = some n → n <+: k.name.toList := by
    unfold possibleArg
    cases focused with
    | none => simp
    | some f =>
      rw [Option.all_some]
      cases hn : f.name with
      | none =>
        simp only [Option.all_none, true_iff]
        intro f' n hf hn'
        obtain rfl := Option.some.inj hf
        rw [hn] at hn'
        cases hn'
      | some n =>
        simp only [Option.all_some, Bool.or_eq_true, List.isEmpty_iff, List.isPrefixOf_iff_prefix]
        constructor
        · intro h f' n' hf hn'
          obtain rfl := Option.some.inj hf
          rw [hn] at hn'
          obtain rfl := Option.some.inj hn'
          rcases h with rfl | h
          · exact List.nil_prefix
          · exact h
        · intro h
          exact .inr (h f n rfl hn)
  rw [h1, h2]
  constructor
  · rintro ⟨h, h'⟩
    exact ⟨⟨item, hi, h⟩, h'⟩
  · rintro ⟨⟨i, hi', h⟩, h'⟩
    rw [hi] at hi'
    obtain rfl := Option.some.inj hi'
    exact ⟨h, h'⟩

/-- The argument kept for its own signature. -/
def Anchor (v : Version) (k : ArgKind) : Prop :=
  k.isEntityType = true ∨ k = .namespace ∨ (relatedPrimary v k).isEmpty = true

instance (v : Version) (k : ArgKind) : Decidable (Anchor v k) := by unfold Anchor; infer_instance

theorem toPrimary_anchor (v : Version) (k a : ArgKind) (h : a ∈ toPrimary v k) : Anchor v a := by
  unfold toPrimary at h
  split at h
  · rename_i hk
    obtain rfl := List.mem_singleton.1 h
    simp only [Bool.or_eq_true, beq_iff_eq] at hk
    rcases hk with hk | hk
    · exact .inl hk
    · exact .inr (.inl hk)
  · split at h
    · rename_i he
      obtain rfl := List.mem_singleton.1 h
      exact .inr (.inr he)
    · unfold relatedPrimary at h
      exact .inl (List.mem_filter.1 h).2

theorem sigKey_inj (v : Version) (a b : ArgKind) (ha : Anchor v a) (hb : Anchor v b)
    (h : sigKey v a = sigKey v b) : a = b := by
  have hperm : ∀ k, (sigKey v k).Perm ((anchorArgs v k).map (·.name)) := by
    intro k
    unfold sigKey anchorArgs
    refine (List.mergeSort_perm _ _).trans (List.Perm.map _ ?_)
    exact List.perm_append_comm
  have hp := ((hperm a).symm.trans (h ▸ hperm b))
  have hsub : ∀ x ∈ (anchorArgs v a).map (·.name), x ∈ (anchorArgs v b).map (·.name) :=
    fun x hx => hp.mem_iff.1 hx
  have hsub' : ∀ x ∈ (anchorArgs v b).map (·.name), x ∈ (anchorArgs v a).map (·.name) :=
    fun x hx => hp.mem_iff.2 hx
  have hinj : ∀ x ∈ ArgKind.all, ∀ y ∈ ArgKind.all, x.name = y.name → x = y := by decide +kernel
  have hs : ∀ x ∈ anchorArgs v a, x ∈ anchorArgs v b := by
    intro x hx
    obtain ⟨y, hy, hxy⟩ := List.mem_map.1 (hsub _ (List.mem_map.2 ⟨x, hx, rfl⟩))
    rw [← hinj y (ArgKind.mem_all y) x (ArgKind.mem_all x) hxy]
    exact hy
  have hs' : ∀ x ∈ anchorArgs v b, x ∈ anchorArgs v a := by
    intro x hx
    obtain ⟨y, hy, hxy⟩ := List.mem_map.1 (hsub' _ (List.mem_map.2 ⟨x, hx, rfl⟩))
    rw [← hinj y (ArgKind.mem_all y) x (ArgKind.mem_all x) hxy]
    exact hy
  have key : ∀ v ∈ [Version.v4, .v5], ∀ a ∈ ArgKind.all, ∀ b ∈ ArgKind.all, Anchor v a →
      Anchor v b → (∀ x ∈ anchorArgs v a, x ∈ anchorArgs v b) →
      (∀ x ∈ anchorArgs v b, x ∈ anchorArgs v a) → a = b := by decide +kernel
  exact key v (by cases v <;> simp) a (ArgKind.mem_all a) b (ArgKind.mem_all b) ha hb hs hs'

theorem mem_guessedArgs (v : Version) (focused : Option FocusedArg) (possible : List ArgKind)
    (a : ArgKind) : a ∈ guessedArgs v focused possible ↔
      ∃ k ∈ possible.filter (possibleArg focused), a ∈ toPrimary v k := by
  unfold guessedArgs
  generalize hl : (possible.filter (possibleArg focused)).flatMap (toPrimary v) = l
  have hmem : ∀ x, x ∈ Util.sortBy ArgKind.sortOrder l ↔
      ∃ k ∈ possible.filter (possibleArg focused), x ∈ toPrimary v k := by
    intro x
    rw [(Util.sortBy_perm _ _).mem_iff, ← hl, List.mem_flatMap]
  constructor
  · intro h
    exact (hmem a).1 ((Util.uniqueByFrom_sublist _ _ _).mem h)
  · intro h
    obtain ⟨y, hy, hk⟩ := Util.uniqueByFrom_complete (sigKey v) []
      (Util.sortBy ArgKind.sortOrder l) a ((hmem a).2 h) (by simp)
    obtain ⟨k', _, hy'⟩ := (hmem y).1 ((Util.uniqueByFrom_sublist _ _ _).mem hy)
    obtain ⟨k, _, ha⟩ := h
    rw [← sigKey_inj v y a (toPrimary_anchor v k' y hy') (toPrimary_anchor v k a ha) hk]
    exact hy

/-- The guesses for one possible argument are the signatures around it. -/
theorem guess_iff (v : Version) (focused : Option FocusedArg) (range : Nat × Nat) (k : ArgKind)
    (hk : k ≠ .unknown) (s : SigHelp) :
    (∃ a ∈ toPrimary v k, s ∈ guessSignature v focused range a) ↔
      ∃ l, Around v k l ∧ s ∈ addSignature v l focused range := by
  have hkind : ∀ k ∈ ArgKind.all, k ≠ .unknown → k.isEntityType = false →
      k.isComplementary = true := by decide +kernel
  cases he : k.isEntityType with
  | true =>
    have ht : toPrimary v k = [k] := by unfold toPrimary; rw [he]; rfl
    rw [ht]
    unfold guessSignature anchorSignature
    constructor
    · rintro ⟨a, ha, h⟩
      obtain rfl := List.mem_singleton.1 ha
      rw [if_pos he] at h
      exact ⟨_, .primary he, h⟩
    · rintro ⟨l, hl, h⟩
      refine ⟨k, List.mem_singleton.2 rfl, ?_⟩
      rw [if_pos he]
      cases hl with
      | primary => exact h
      | related p hf => rw [he] at hf; cases hf
      | alone hf => rw [he] at hf; cases hf
      | «namespace» hn => subst hn; cases he
  | false =>
    by_cases ht : toPrimary v k = [k]
    · rw [ht, ← complementary_iff v k focused range he s]
      unfold guessSignature
      constructor
      · rintro ⟨a, ha, h⟩
        obtain rfl := List.mem_singleton.1 ha
        rw [if_neg (by rw [he]; simp), if_pos (hkind a (ArgKind.mem_all a) hk he)] at h
        exact h
      · intro h
        refine ⟨k, List.mem_singleton.2 rfl, ?_⟩
        rw [if_neg (by rw [he]; simp), if_pos (hkind k (ArgKind.mem_all k) hk he)]
        exact h
    · have hns : k ≠ .namespace := by rintro rfl; exact ht rfl
      have hre : (relatedPrimary v k).isEmpty = false := by
        cases hr : (relatedPrimary v k).isEmpty with
        | false => rfl
        | true =>
          exfalso
          apply ht
          unfold toPrimary
          rw [he, hr]
          simp
      have ht' : toPrimary v k = relatedPrimary v k := by
        unfold toPrimary
        rw [he, hre]
        simp [hns]
      rw [ht', ← complementary_iff v k focused range he s]
      unfold complementarySignature
      rw [if_neg hns, hre, List.nil_append]
      simp only [Bool.false_eq_true, if_false]
      rw [List.mem_flatMap]
      constructor
      · rintro ⟨a, ha, h⟩
        have hae := ((mem_relatedPrimary v k a he).1 ha).2
        unfold guessSignature at h
        rw [if_pos hae] at h
        exact ⟨a, ha, h⟩
      · rintro ⟨a, ha, h⟩
        have hae := ((mem_relatedPrimary v k a he).1 ha).2
        refine ⟨a, ha, ?_⟩
        unfold guessSignature
        rw [if_pos hae]
        exact h

theorem argsBySyntax_known (item : ItemKind) (v : Version) : ∀ k ∈ argsBySyntax item v,
    k ≠ .unknown := by
  have key : ∀ v ∈ [Version.v4, .v5], .unknown ∉ argsBySyntax item v := by
    cases item <;> decide
  intro k hk h
  subst h
  exact key v (by cases v <;> simp) hk

theorem raw_iff (v : Version) (c : SigContext) (t : ParenTree)
    (args : List ((Nat × Nat) × FocusedArg)) (offset : Nat) (s : SigHelp) :
    s ∈ rawSignatures v c t args offset ↔ WithinParens t offset ∧
      ∃ l, RelevantArgs v c (focusedArg args offset) l ∧
        s ∈ addSignature v l (focusedArg args offset) (sigRange t) := by
  rw [← focusedOnArgs_iff]
  unfold rawSignatures
  by_cases hf : focusedOnArgs t offset = true
  case neg => rw [if_neg hf]; simp [hf]
  rw [if_pos hf]
  simp only [hf, true_and]
  generalize focusedArg args offset = focused
  cases hk : c.kind with
  | «macro» m =>
    simp only
    unfold macroSignatures
    constructor
    · intro h
      split at h
      · cases h
      · rename_i he
        exact ⟨_, .macroArgs m hk (by simpa using he), h⟩
    · rintro ⟨l, hl, h⟩
      cases hl with
      | macroArgs m' hm hne =>
        rw [hk] at hm
        cases hm
        rw [if_neg (by simpa using hne)]
        exact h
      | primary k h1 => rw [hk] at h1; cases h1
      | separate k p h1 => rw [hk] at h1; cases h1
      | known k l h1 => rw [hk] at h1; cases h1
      | guessed k l h1 => rw [hk] at h1; cases h1
  | arg k =>
    simp only
    unfold argSignatures
    cases he : k.isEntityType with
    | true =>
      simp only [if_true]
      constructor
      · intro h; exact ⟨_, .primary k hk he, h⟩
      · rintro ⟨l, hl, h⟩
        cases hl with
        | primary k' h1 => rw [hk] at h1; cases h1; exact h
        | separate k' p h1 h2 => rw [hk] at h1; cases h1; rw [he] at h2; cases h2
        | known k' l h1 h2 => rw [hk] at h1; cases h1; rw [he] at h2; cases h2
        | guessed k' l h1 => rw [hk] at h1; cases h1; cases he
        | macroArgs m h1 => rw [hk] at h1; cases h1
    | false =>
      simp only [Bool.false_eq_true, if_false]
      cases hs : separateEntity c.primary with
      | some p =>
        have hp := (separateEntity_iff c p).1 hs
        simp only
        constructor
        · intro h; exact ⟨_, .separate k p hk he hp, h⟩
        · rintro ⟨l, hl, h⟩
          cases hl with
          | primary k' h1 h2 => rw [hk] at h1; cases h1; rw [he] at h2; cases h2
          | separate k' p' h1 h2 h3 =>
            have := (separateEntity_iff c p').2 h3
            rw [hs] at this
            obtain rfl := Option.some.inj this
            exact h
          | known k' l h1 h2 h3 => exact absurd hp (h3 p)
          | guessed k' l h1 h2 => exact absurd hp (h2 p)
          | macroArgs m h1 => rw [hk] at h1; cases h1
      | none =>
        have hp : ∀ p, ¬ SeparatePrimary c p := by
          intro p hp
          rw [(separateEntity_iff c p).2 hp] at hs
          cases hs
        simp only
        by_cases hu : k = .unknown
        · subst hu
          simp only [ne_eq, not_true_eq_false, if_false]
          have hrel : ∀ l, RelevantArgs v c focused l ↔ ∃ k, Possible v c focused k ∧ Around v k l := by
            intro l
            constructor
            · intro hl
              cases hl with
              | primary k' h1 h2 => rw [hk] at h1; cases h1; cases h2
              | separate k' p' h1 h2 h3 => exact absurd h3 (hp p')
              | known k' l h1 h2 h3 h4 => rw [hk] at h1; cases h1; exact absurd rfl h4
              | guessed k' l h1 h2 h3 h4 => exact ⟨k', h3, h4⟩
              | macroArgs m h1 => rw [hk] at h1; cases h1
            · rintro ⟨k', h1, h2⟩
              exact .guessed k' l hk hp h1 h2
          cases hi : c.item with
          | none =>
            simp only [List.not_mem_nil, false_iff]
            rintro ⟨l, hl, _⟩
            obtain ⟨k', h1, _⟩ := (hrel l).1 hl
            obtain ⟨item, h, _⟩ := h1.item
            rw [hi] at h
            cases h
          | some item =>
            simp only
            rw [List.mem_flatMap]
            constructor
            · rintro ⟨a, ha, h⟩
              obtain ⟨k', hk', ha'⟩ := (mem_guessedArgs v focused _ a).1 ha
              have hpos := (possibleArgs_iff v c focused item hi k').1 hk'
              have hne : k' ≠ .unknown := by
                obtain ⟨i, _, h', _⟩ := hpos.item
                exact argsBySyntax_known i v k' h'
              obtain ⟨l, hl, h⟩ := (guess_iff v focused (sigRange t) k' hne s).1 ⟨a, ha', h⟩
              exact ⟨l, (hrel l).2 ⟨k', hpos, hl⟩, h⟩
            · rintro ⟨l, hl, h⟩
              obtain ⟨k', hpos, hl⟩ := (hrel l).1 hl
              have hne : k' ≠ .unknown := by
                obtain ⟨i, _, h', _⟩ := hpos.item
                exact argsBySyntax_known i v k' h'
              obtain ⟨a, ha, h⟩ := (guess_iff v focused (sigRange t) k' hne s).2 ⟨l, hl, h⟩
              exact ⟨a, (mem_guessedArgs v focused _ a).2
                ⟨k', (possibleArgs_iff v c focused item hi k').2 hpos, ha⟩, h⟩
        · rw [if_pos hu, complementary_iff v k focused (sigRange t) he s]
          constructor
          · rintro ⟨l, hl, h⟩
            exact ⟨l, .known k l hk he hp hu hl, h⟩
          · rintro ⟨l, hl, h⟩
            cases hl with
            | primary k' h1 h2 => rw [hk] at h1; cases h1; rw [he] at h2; cases h2
            | separate k' p' h1 h2 h3 => exact absurd h3 (hp p')
            | known k' l h1 h2 h3 h4 h5 => rw [hk] at h1; cases h1; exact ⟨l, h5, h⟩
            | guessed k' l h1 => rw [hk] at h1; cases h1; exact absurd rfl hu
            | macroArgs m h1 => rw [hk] at h1; cases h1

theorem relevant_ne (v : Version) (c : SigContext) (focused : Option FocusedArg)
    (l : List ArgKind) (h : RelevantArgs v c focused l) : l ≠ [] := by
  have around : ∀ k l, Around v k l → l ≠ [] := by
    intro k l hl
    cases hl <;> simp
  cases h with
  | primary => simp
  | separate => simp
  | known k l _ _ _ _ h => exact around k l h
  | guessed k l _ _ _ h => exact around k l h
  | macroArgs m _ h => exact h

/-! ## Theorems -/

/-- Signatures are offered only within the parentheses of the attribute, and every one of them
shows a relevant list of arguments. -/
theorem C69_sound (v : Version) (c : SigContext) (t : ParenTree)
    (args : List ((Nat × Nat) × FocusedArg)) (offset : Nat) (focused : Option FocusedArg)
    (hf : InFocus args offset focused) (s : SigHelp) (h : s ∈ signatureHelp v c t args offset) :
    WithinParens t offset ∧ ∃ l, RelevantArgs v c focused l ∧ Shows v focused l s := by
  obtain rfl := inFocus_unique args offset _ _ hf (inFocus_focusedArg args offset)
  obtain ⟨hw, l, hl, h⟩ :=
    (raw_iff v c t args offset s).1 ((Util.uniqueByFrom_sublist _ _ _).mem h)
  refine ⟨hw, l, hl, ?_⟩
  obtain ⟨s', kinds, h1, _, h3, h4, h5, h6, _⟩ :=
    (C44_signature v l (focusedArg args offset) (sigRange t)).2 (relevant_ne v c _ l hl)
  rw [h1] at h
  obtain rfl := List.mem_singleton.1 h
  exact ⟨kinds, h3, h4, h5, h6⟩

/-- Within the parentheses of the attribute, a signature is offered for every relevant list of
arguments. -/
theorem C69_complete (v : Version) (c : SigContext) (t : ParenTree)
    (args : List ((Nat × Nat) × FocusedArg)) (offset : Nat) (focused : Option FocusedArg)
    (hf : InFocus args offset focused) (hw : WithinParens t offset) (l : List ArgKind)
    (hl : RelevantArgs v c focused l) :
    ∃ s ∈ signatureHelp v c t args offset, ∃ kinds : List ArgKind, kinds.Perm l ∧
      kinds.Pairwise (fun a b => a.sortOrder ≤ b.sortOrder) ∧
      s.label = joined (kinds.map (paramSpec v (decide (.constructor ∈ l)))) := by
  obtain rfl := inFocus_unique args offset _ _ hf (inFocus_focusedArg args offset)
  obtain ⟨s, kinds, h1, h2, h3, h4, h5, h6, _⟩ :=
    (C44_signature v l (focusedArg args offset) (sigRange t)).2 (relevant_ne v c _ l hl)
  have hraw := (raw_iff v c t args offset s).2 ⟨hw, l, hl, by rw [h1]; simp⟩
  obtain ⟨y, hy, hk⟩ := Util.uniqueByFrom_complete (fun s : SigHelp => (s.label, s.range)) []
    _ s hraw (by simp)
  refine ⟨y, hy, kinds, h3, h4, ?_⟩
  rw [(Prod.mk.inj hk).1]
  exact h5.label

/-- While a name is being typed, every possible argument that starts with it is shown by some
signature. -/
theorem C69_typed (v : Version) (c : SigContext) (t : ParenTree)
    (args : List ((Nat × Nat) × FocusedArg)) (offset : Nat) (focused : Option FocusedArg)
    (hf : InFocus args offset focused) (hw : WithinParens t offset) (hu : c.kind = .arg .unknown)
    (hp : ∀ p, ¬ SeparatePrimary c p) (k : ArgKind) (hk : Possible v c focused k) :
    ∃ s ∈ signatureHelp v c t args offset, ∃ kinds : List ArgKind, k ∈ kinds ∧
      s.label = joined (kinds.map (paramSpec v (decide (.constructor ∈ kinds)))) := by
  have key : ∀ v ∈ [Version.v4, .v5], ∀ k ∈ ArgKind.all, ∀ p ∈ validSiblings (.arg k) v,
      p.isEntityType = true → k.isEntityType = false → k ∈ validSiblings (.arg p) v := by
    decide +kernel
  have hex : ∃ l, Around v k l ∧ k ∈ l := by
    cases he : k.isEntityType with
    | true => exact ⟨_, .primary he, by simp⟩
    | false =>
      by_cases h : ∀ p ∈ validSiblings (.arg k) v, p.isEntityType = false
      · exact ⟨_, .alone he h, by simp⟩
      · obtain ⟨p, hp, hpe⟩ : ∃ p ∈ validSiblings (.arg k) v, p.isEntityType = true := by
          apply Classical.byContradiction
          intro hn
          refine h fun p hp => ?_
          cases hpe : p.isEntityType with
          | false => rfl
          | true => exact absurd ⟨p, hp, hpe⟩ hn
        exact ⟨_, .related p he hp hpe, List.mem_cons.2 (.inr (key v (by cases v <;> simp) k
          (ArgKind.mem_all k) p hp hpe he))⟩
  obtain ⟨l, hl, hkl⟩ := hex
  obtain ⟨s, hs, kinds, h1, h2, h3⟩ :=
    C69_complete v c t args offset focused hf hw l (.guessed k l hu hp hk hl)
  refine ⟨s, hs, kinds, h1.mem_iff.2 hkl, ?_⟩
  rw [h3]
  simp only [h1.mem_iff]

/-! Non-vacuity: an attribute on a function with a complementary argument, and one for which only a
letter has been typed. -/

def freshAttr : SigContext := ⟨.arg .unknown, none, some .fn, some [.arg .impl]⟩

def freshParens : ParenTree := ⟨5, 8, some 6, some 7⟩

example : (signatureHelp .v5 ⟨.arg .payable, none, some .fn, none⟩ ⟨5, 14, some 6, some 13⟩
    [((6, 13), ⟨.payable, some "payable".toList⟩)] 7).map
    (fun s => (String.ofList s.label, s.active)) =
    [("constructor, default, payable, selector: u32 | _", some 2),
     ("message, default, payable, selector: u32 | _ | @", some 2)] := by decide +kernel

example : InFocus [((6, 7), ⟨.unknown, some ['p']⟩)] 7 (some ⟨.unknown, some ['p']⟩) :=
  inFocus_focusedArg [((6, 7), ⟨.unknown, some ['p']⟩)] 7

example : WithinParens freshParens 7 := ⟨⟨by decide, by decide⟩, ⟨6, rfl, by decide⟩, by
  intro r h; obtain rfl := Option.some.inj h; decide⟩

example : Possible .v5 freshAttr (some ⟨.unknown, some ['p']⟩) .payable :=
  ⟨⟨.fn, rfl, by decide +kernel, by intro s h; obtain rfl := Option.some.inj h; decide +kernel⟩, by
    intro f n hf hn
    obtain rfl := Option.some.inj hf
    obtain rfl := Option.some.inj hn
    decide +kernel⟩

example : ∀ p, ¬ SeparatePrimary freshAttr p := fun _ h => nomatch h.1

example : RelevantArgs .v4 ⟨.macro .contract, none, none, none⟩ none [.env, .keepAttr] :=
  .macroArgs .contract rfl (by decide)

end Verif.Analyzer
