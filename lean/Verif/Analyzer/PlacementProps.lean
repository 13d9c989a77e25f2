import Verif.Analyzer.TablesProps

/-!
# C73: attributes are offered and accepted where ink! documents them

Two tables, written from the ink! documentation: what each attribute annotates, and what may be
declared inside what. The tables of the analyzer are compared with them. All kinds are finitely
many, so the theorems below are about all of them.
-/

namespace Verif.Analyzer

open Verif.Ir

/-- The item kinds. -/
def ItemKind.all : List ItemKind :=
  [.module, .trait, .struct, .enum, .union, .recordField, .fn, .impl, .other]

theorem ItemKind.mem_all (s : ItemKind) : s ∈ ItemKind.all := by cases s <;> decide

/-- What each attribute annotates according to the ink! documentation; `some true`: ink! 5 only,
`some false`: ink! 4 only. Arguments that only occur inside of macro attributes are not listed. -/
def documentedItems : List (AttrKind × Option Bool × List ItemKind) :=
  [ (.macro .contract, none, [.module]),
    (.macro .chainExtension, none, [.trait]),
    (.macro .traitDefinition, none, [.trait]),
    (.macro .storageItem, none, [.struct, .enum, .union]),
    (.macro .scaleDerive, some true, [.struct, .enum, .union]),
    (.macro .event, some true, [.struct]),
    (.macro .test, none, [.fn]),
    (.macro .e2eTest, none, [.fn]),
    (.arg .storage, none, [.struct]),
    (.arg .event, none, [.struct]),
    (.arg .anonymous, none, [.struct]),
    (.arg .signatureTopic, some true, [.struct]),
    (.arg .topic, none, [.recordField]),
    (.arg .impl, none, [.impl]),
    (.arg .namespace, none, [.impl]),
    (.arg .constructor, none, [.fn]),
    (.arg .message, none, [.fn]),
    (.arg .payable, none, [.fn]),
    (.arg .default, none, [.fn]),
    (.arg .selector, none, [.fn]),
    (.arg .extension, some false, [.fn]),
    (.arg .function, some true, [.fn]),
    (.arg .handleStatus, none, [.fn]) ]

/-- The attribute annotates items of this kind in this ink! version. -/
def Annotates (v : Version) (k : AttrKind) (s : ItemKind) : Prop :=
  ∃ r ∈ documentedItems, r.1 = k ∧ (r.2.1 = none ∨ r.2.1 = some (v == .v5)) ∧ s ∈ r.2.2

instance (v : Version) (k : AttrKind) (s : ItemKind) : Decidable (Annotates v k s) := by
  unfold Annotates; infer_instance

/-- Exactly the arguments and macros documented for an item kind are listed for it. -/
theorem C73_items (v : Version) (s : ItemKind) :
    (∀ a, a ∈ argsBySyntax s v ↔ Annotates v (.arg a) s) ∧
    (∀ m, m ∈ macrosBySyntax s v ↔ Annotates v (.macro m) s) := by
  have key : ∀ v ∈ [Version.v4, .v5], ∀ s ∈ ItemKind.all,
      (∀ a ∈ ArgKind.all, (a ∈ argsBySyntax s v ↔ Annotates v (.arg a) s)) ∧
      (∀ m ∈ MacroKind.all, (m ∈ macrosBySyntax s v ↔ Annotates v (.macro m) s)) := by
    decide +kernel
  have := key v (by cases v <;> simp) s s.mem_all
  exact ⟨fun a => this.1 a a.mem_all, fun m => this.2 m m.mem_all⟩

/-- What ink! documents to be declared inside of an entity (with the
version as above). -/
def documentedNesting : List (AttrKind × Option Bool × List AttrKind) :=
  [ (.macro .contract, none, [.arg .storage, .arg .event, .arg .anonymous, .arg .impl,
      .arg .namespace, .arg .constructor, .arg .message, .arg .payable, .arg .default,
      .arg .selector, .macro .chainExtension, .macro .traitDefinition, .macro .storageItem,
      .macro .test, .macro .e2eTest]),
    (.macro .contract, some true, [.arg .signatureTopic, .macro .event, .macro .scaleDerive]),
    (.macro .traitDefinition, none, [.arg .message, .arg .payable, .arg .default, .arg .selector]),
    (.macro .chainExtension, some false, [.arg .extension, .arg .handleStatus]),
    (.macro .chainExtension, some true, [.arg .function, .arg .handleStatus]),
    (.macro .event, some true, [.arg .topic]),
    (.arg .event, none, [.arg .topic]),
    (.arg .impl, none, [.arg .constructor, .arg .message, .arg .payable, .arg .default,
      .arg .selector]) ]

/-- `k` is documented inside of the entity `e`. -/
def Nests (v : Version) (e k : AttrKind) : Prop :=
  ∃ r ∈ documentedNesting, r.1 = e ∧ (r.2.1 = none ∨ r.2.1 = some (v == .v5)) ∧ k ∈ r.2.2

instance (v : Version) (e k : AttrKind) : Decidable (Nests v e k) := by
  unfold Nests; infer_instance

/-- Exactly the arguments documented inside of an entity are listed as its descendants. -/
theorem C73_nested_args (v : Version) (e : AttrKind) (he : isEntity e = true) (a : ArgKind) :
    a ∈ validDescendantArgs e v ↔ Nests v e (.arg a) := by
  have key : ∀ v ∈ [Version.v4, .v5], ∀ e ∈ AttrKind.all, isEntity e = true →
      ∀ a ∈ ArgKind.all, (a ∈ validDescendantArgs e v ↔ Nests v e (.arg a)) := by decide +kernel
  exact key v (by cases v <;> simp) e e.mem_all he a a.mem_all

/-- For an argument that qualifies other attributes, the listed descendants are those documented
for the entities that take the argument, except `signature_topic` for the arguments of a contract
(ink! 5).

Missing for the full claim: see `C73_negation_topic`. -/
theorem C73_nested_qualifiers_partial (v : Version) (a b : ArgKind)
    (ha : isEntity (.arg a) = false)
    (hx : ¬ (v = .v5 ∧ (a = .env ∨ a = .keepAttr) ∧ b = .signatureTopic)) :
    b ∈ validDescendantArgs (.arg a) v ↔ ∃ e, documents v e a ∧ Nests v e (.arg b) := by
  have key : ∀ v ∈ [Version.v4, .v5], ∀ a ∈ ArgKind.all, isEntity (.arg a) = false →
      ∀ b ∈ ArgKind.all, ¬ (v = .v5 ∧ (a = .env ∨ a = .keepAttr) ∧ b = .signatureTopic) →
      (b ∈ validDescendantArgs (.arg a) v ↔
        ∃ e ∈ AttrKind.all, documents v e a ∧ Nests v e (.arg b)) := by decide +kernel
  rw [key v (by cases v <;> simp) a a.mem_all ha b b.mem_all hx]
  exact ⟨fun ⟨e, _, h⟩ => ⟨e, h⟩, fun ⟨e, h⟩ => ⟨e, e.mem_all, h⟩⟩

example : ArgKind.storage ∈ validDescendantArgs (.arg .env) .v5 ∧
    ArgKind.topic ∈ validDescendantArgs (.arg .anonymous) .v4 := by decide

/-- In a contract whose attribute starts with `env` or `keep_attr`, `signature_topic` is not
listed, although the contract takes it. -/
theorem C73_negation_topic :
    ∃ a b : ArgKind, isEntity (.arg a) = false ∧ documents .v5 (.macro .contract) a ∧
      Nests .v5 (.macro .contract) (.arg b) ∧ b ∉ validDescendantArgs (.arg a) .v5 :=
  ⟨.env, .signatureTopic, by decide, by decide, by decide, by decide⟩

/-- Exactly the macros documented inside of an entity are listed as its descendants
(`scale_derive`, which goes on any type, aside). -/
theorem C73_nested_macros (v : Version) (e : AttrKind) (m : MacroKind) (hm : m ≠ .scaleDerive) :
    m ∈ validDescendantMacros e v ↔ Nests v e (.macro m) := by
  have key : ∀ v ∈ [Version.v4, .v5], ∀ e ∈ AttrKind.all, ∀ m ∈ MacroKind.all,
      m ≠ .scaleDerive → (m ∈ validDescendantMacros e v ↔ Nests v e (.macro m)) := by
    decide +kernel
  exact key v (by cases v <;> simp) e e.mem_all m m.mem_all hm

/-- An item annotated with this attribute (or with an attribute that takes this argument) can
contain type declarations. -/
def HoldsTypes (v : Version) (e : AttrKind) : Prop :=
  ∃ s, s ∈ [ItemKind.module, .trait, .fn, .impl] ∧ (Annotates v e s ∨
    ∃ a, e = .arg a ∧ ∃ e', documents v e' a ∧ Annotates v e' s)

/-- `HoldsTypes`, as a test over all kinds. -/
def holdsTypes (v : Version) (e : AttrKind) : Bool :=
  [ItemKind.module, .trait, .fn, .impl].any fun s => decide (Annotates v e s) ||
    ArgKind.all.any fun a => decide (e = .arg a) && AttrKind.all.any fun e' =>
      decide (documents v e' a) && decide (Annotates v e' s)

/-- `scale_derive` is listed inside of everything that can hold types, and never in ink! 4.
Apart from the arguments listed, it is listed nowhere else.

Missing for the full claim: see `C73_negation_field`. -/
theorem C73_nested_types_partial (v : Version) (e : AttrKind) :
    (MacroKind.scaleDerive ∈ validDescendantMacros e v → v = .v5) ∧
    (v = .v5 → HoldsTypes v e → MacroKind.scaleDerive ∈ validDescendantMacros e v) ∧
    (e ∉ [.arg .topic, .arg .derive, .arg .encode, .arg .decode, .arg .typeInfo, .arg .node,
        .arg .url, .arg .sandbox, .arg .runtimeOnly, .arg .additionalContracts, .arg .unknown] →
      MacroKind.scaleDerive ∈ validDescendantMacros e v → HoldsTypes v e) := by
  have key : ∀ v ∈ [Version.v4, .v5], ∀ e ∈ AttrKind.all,
      (MacroKind.scaleDerive ∈ validDescendantMacros e v → v = .v5) ∧
      (v = .v5 → holdsTypes v e = true →
        MacroKind.scaleDerive ∈ validDescendantMacros e v) ∧
      (e ∉ [.arg .topic, .arg .derive, .arg .encode, .arg .decode, .arg .typeInfo, .arg .node,
          .arg .url, .arg .sandbox, .arg .runtimeOnly, .arg .additionalContracts, .arg .unknown] →
        MacroKind.scaleDerive ∈ validDescendantMacros e v →
        holdsTypes v e = true) := by decide +kernel
  have hh : HoldsTypes v e ↔ holdsTypes v e = true := by
    unfold HoldsTypes holdsTypes
    simp only [List.any_eq_true, Bool.or_eq_true, Bool.and_eq_true, decide_eq_true_eq]
    constructor
    · rintro ⟨s, hs, h | ⟨a, h1, e', h2⟩⟩
      · exact ⟨s, hs, .inl h⟩
      · exact ⟨s, hs, .inr ⟨a, a.mem_all, h1, e', e'.mem_all, h2⟩⟩
    · rintro ⟨s, hs, h | ⟨a, _, h1, e', _, h2⟩⟩
      · exact ⟨s, hs, .inl h⟩
      · exact ⟨s, hs, .inr ⟨a, h1, e', h2⟩⟩
  rw [hh]
  exact key v (by cases v <;> simp) e e.mem_all

example : HoldsTypes .v5 (.arg .message) ∧ HoldsTypes .v5 (.arg .env) :=
  ⟨⟨.fn, by decide, .inl (by decide)⟩,
    ⟨.module, by decide, .inr ⟨.env, rfl, .macro .contract, by decide, by decide⟩⟩⟩

/-- `scale_derive` is listed inside of a field with a `topic` attribute, which holds no types. -/
theorem C73_negation_field :
    ∃ e : AttrKind, (∀ s, Annotates .v5 e s → s = .recordField) ∧
      MacroKind.scaleDerive ∈ validDescendantMacros e .v5 := by
  refine ⟨.arg .topic, fun s => ?_, by decide⟩
  have : ∀ s ∈ ItemKind.all, Annotates .v5 (.arg .topic) s → s = .recordField := by decide
  exact this s s.mem_all

/-- The tables agree with each other: what is listed inside of an entity is listed for some item
kind. -/
theorem C73_placeable (v : Version) (e : AttrKind) :
    (∀ a ∈ validDescendantArgs e v, ∃ s, a ∈ argsBySyntax s v) ∧
    (∀ m ∈ validDescendantMacros e v, ∃ s, m ∈ macrosBySyntax s v) := by
  have key : ∀ v ∈ [Version.v4, .v5], ∀ e ∈ AttrKind.all,
      (∀ a ∈ validDescendantArgs e v, ∃ s ∈ ItemKind.all, a ∈ argsBySyntax s v) ∧
      (∀ m ∈ validDescendantMacros e v, ∃ s ∈ ItemKind.all, m ∈ macrosBySyntax s v) := by
    decide +kernel
  obtain ⟨h1, h2⟩ := key v (by cases v <;> simp) e e.mem_all
  exact ⟨fun a ha => let ⟨s, _, h⟩ := h1 a ha; ⟨s, h⟩,
    fun m hm => let ⟨s, _, h⟩ := h2 m hm; ⟨s, h⟩⟩

end Verif.Analyzer
