import Verif.Analyzer.Tables

/-!
# C29: attribute compatibility is symmetric and consistent with primary suggestions

The kinds are finitely many, so the theorems below are about all of them: `decide` runs over
the complete listings `ArgKind.all`, `MacroKind.all` (whose completeness is `mem_all`).
-/

namespace Verif.Analyzer

open Verif.Ir

/-- The arguments that ink! documents for each attribute that can stand on its own (the
attribute macros and the entity arguments), written from the ink! documentation linked in
the code and not from the model's table. `true` in the third component means "ink! 5 only",
`false` "ink! 4 only", `none` both. -/
def documentedEntities : List (AttrKind × Option Bool × List ArgKind) :=
  [ (.macro .contract, none, [.env, .keepAttr]),
    (.macro .traitDefinition, none, [.namespace, .keepAttr]),
    (.macro .storageItem, none, [.derive]),
    (.macro .chainExtension, some true, [.extension]),
    (.macro .event, some true, [.anonymous, .signatureTopic]),
    (.macro .scaleDerive, some true, [.encode, .decode, .typeInfo]),
    (.macro .e2eTest, some true, [.environment, .backend]),
    (.macro .e2eTest, some false, [.additionalContracts, .environment, .keepAttr]),
    (.arg .event, some false, [.anonymous]),
    (.arg .event, some true, [.anonymous, .signatureTopic]),
    (.arg .impl, none, [.namespace]),
    (.arg .constructor, none, [.payable, .selector, .default]),
    (.arg .message, none, [.payable, .selector, .default]),
    (.arg .extension, some false, [.handleStatus]),
    (.arg .function, some true, [.handleStatus]) ]

/-- The argument is documented for the attribute in the given ink! version. -/
def documents (v : Version) (e : AttrKind) (a : ArgKind) : Prop :=
  ∃ r ∈ documentedEntities, r.1 = e ∧ (r.2.1 = none ∨ r.2.1 = some (v == .v5)) ∧ a ∈ r.2.2

instance (v : Version) (e : AttrKind) (a : ArgKind) : Decidable (documents v e a) := by
  unfold documents; infer_instance

/-- Attributes that stand on their own: macros, and the arguments that declare an entity. -/
def isEntity : AttrKind → Bool
  | .macro _ => true
  | .arg k => k ∈ [.constructor, .event, .extension, .function, .impl, .message, .storage, .topic]

/-- The arguments that declare an entity are the ones treated as primary, all other arguments of
ink! complement them, and in the sort order the primary ones come first and unknown ones last. -/
theorem C29_entity_types (k : ArgKind) :
    (k.isEntityType = true ↔ isEntity (.arg k) = true) ∧
    (k.isComplementary = true ↔ k ≠ .unknown ∧ isEntity (.arg k) = false) ∧
    ∀ k' : ArgKind, (k.sortOrder < k'.sortOrder ↔
      (isEntity (.arg k) = true ∧ isEntity (.arg k') = false) ∨ (k ≠ .unknown ∧ k' = .unknown)) := by
  have key : ∀ k ∈ ArgKind.all, (k.isEntityType = true ↔ isEntity (.arg k) = true) ∧
      (k.isComplementary = true ↔ k ≠ .unknown ∧ isEntity (.arg k) = false) ∧
      ∀ k' ∈ ArgKind.all, (k.sortOrder < k'.sortOrder ↔
        (isEntity (.arg k) = true ∧ isEntity (.arg k') = false) ∨
          (k ≠ .unknown ∧ k' = .unknown)) := by decide +kernel
  obtain ⟨h1, h2, h3⟩ := key k k.mem_all
  exact ⟨h1, h2, fun k' => h3 k' k'.mem_all⟩

/-- An argument is listed as a valid sibling of an entity attribute iff ink! documents it
for that attribute in that version. -/
theorem C29_entities (v : Version) (e : AttrKind) (he : isEntity e = true) (a : ArgKind) :
    a ∈ validSiblings e v ↔ documents v e a := by
  have key : ∀ v ∈ [Version.v4, .v5], ∀ e ∈ AttrKind.all, isEntity e = true →
      ∀ a ∈ ArgKind.all, (a ∈ validSiblings e v ↔ documents v e a) := by decide +kernel
  exact key v (by cases v <;> simp) e e.mem_all he a a.mem_all

example : ArgKind.payable ∈ validSiblings (.arg .message) .v4 ∧
    ArgKind.payable ∉ validSiblings (.arg .event) .v4 := by decide

/-- The sibling relation between arguments is symmetric. -/
theorem C29_symmetric (v : Version) (a b : ArgKind) (h : b ∈ validSiblings (.arg a) v) :
    a ∈ validSiblings (.arg b) v := by
  have key : ∀ v ∈ [Version.v4, .v5], ∀ a ∈ ArgKind.all, ∀ b ∈ ArgKind.all,
      b ∈ validSiblings (.arg a) v → a ∈ validSiblings (.arg b) v := by decide +kernel
  exact key v (by cases v <;> simp) a a.mem_all b b.mem_all h

example : ArgKind.selector ∈ validSiblings (.arg .payable) .v5 := by decide

/-- No argument is a sibling of itself. -/
theorem C29_irreflexive (v : Version) (a : ArgKind) : a ∉ validSiblings (.arg a) v := by
  cases v <;> cases a <;> decide

/-- An argument listed as a sibling of a complementary argument really occurs together with
it: some documented entity takes both (or is the listed argument itself). -/
theorem C29_cooccur (v : Version) (a b : ArgKind) (h : b ∈ validSiblings (.arg a) v) :
    ∃ e, isEntity e = true ∧ (documents v e a ∨ e = .arg a) ∧ (documents v e b ∨ e = .arg b) := by
  have key : ∀ v ∈ [Version.v4, .v5], ∀ a ∈ ArgKind.all, ∀ b ∈ ArgKind.all,
      b ∈ validSiblings (.arg a) v →
      ∃ e ∈ AttrKind.all, isEntity e = true ∧ (documents v e a ∨ e = .arg a) ∧
        (documents v e b ∨ e = .arg b) := by decide +kernel
  obtain ⟨e, _, h⟩ := key v (by cases v <;> simp) a a.mem_all b b.mem_all h
  exact ⟨e, h⟩

/-- A suggested primary attribute stands on its own, and is suggested only for an argument
that does not. -/
theorem C29_primary_entity (v : Version) (k e : AttrKind) (h : e ∈ primarySuggestions k v) :
    isEntity e = true ∧ isEntity k = false := by
  have key : ∀ v ∈ [Version.v4, .v5], ∀ k ∈ AttrKind.all, ∀ e ∈ AttrKind.all,
      e ∈ primarySuggestions k v → isEntity e = true ∧ isEntity k = false := by decide +kernel
  exact key v (by cases v <;> simp) k k.mem_all e e.mem_all h

/-- Every entity suggested as primary for an argument lists that argument among its valid
siblings, apart from two entries of the ink! 5 table.

Missing for the full claim: see `C29_negation`. -/
theorem C29_primary_partial (v : Version) (a : ArgKind) (e : AttrKind)
    (h : e ∈ primarySuggestions (.arg a) v)
    (hne : ¬ (v = .v5 ∧ ((a = .handleStatus ∧ e = .arg .extension) ∨
      (a = .keepAttr ∧ e = .macro .e2eTest)))) :
    a ∈ validSiblings e v := by
  have key : ∀ v ∈ [Version.v4, .v5], ∀ a ∈ ArgKind.all, ∀ e ∈ AttrKind.all,
      e ∈ primarySuggestions (.arg a) v →
      ¬ (v = .v5 ∧ ((a = .handleStatus ∧ e = .arg .extension) ∨
        (a = .keepAttr ∧ e = .macro .e2eTest))) → a ∈ validSiblings e v := by decide +kernel
  exact key v (by cases v <;> simp) a a.mem_all e e.mem_all h hne

example : AttrKind.arg .constructor ∈ primarySuggestions (.arg .payable) .v5 := by decide

/-- The claim is false for ink! 5: `extension` is suggested as the primary of
`handle_status` (and `ink_e2e::test` as the primary of `keep_attr`), although the two may not
be combined in ink! 5. -/
theorem C29_negation :
    ¬ ∀ (v : Version) (a : ArgKind) (e : AttrKind),
      e ∈ primarySuggestions (.arg a) v → a ∈ validSiblings e v :=
  fun h => absurd (h .v5 .handleStatus (.arg .extension) (by decide)) (by decide)

/-- In the other direction, an argument that needs another attribute gets a suggestion for
every documented entity that takes it, except the arguments listed (which are never
completed: `derive`, `env`, and the ink! 5 `extension` argument of chain extensions), the
ink! 5 `function` for `handle_status`. -/
theorem C29_primary_complete_partial (v : Version) (a : ArgKind) (e : AttrKind)
    (h : documents v e a)
    (ha : a ∉ [.derive, .env, .extension]) (hf : ¬ (v = .v5 ∧ a = .handleStatus)) :
    e ∈ primarySuggestions (.arg a) v := by
  have key : ∀ v ∈ [Version.v4, .v5], ∀ a ∈ ArgKind.all, ∀ e ∈ AttrKind.all,
      documents v e a → a ∉ [ArgKind.derive, .env, .extension] →
      ¬ (v = .v5 ∧ a = .handleStatus) → e ∈ primarySuggestions (.arg a) v := by decide +kernel
  exact key v (by cases v <;> simp) a a.mem_all e e.mem_all h ha hf

example : documents .v4 (.macro .e2eTest) .keepAttr := by decide

end Verif.Analyzer
