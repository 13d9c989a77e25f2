import Verif.Analyzer.CompleteText
import Verif.Analyzer.TemplatesProps

/-!
# C83: labels of completions for entities show what is inserted
-/

namespace Verif.Analyzer.CompleteEntity

open Verif.Ir

set_option maxRecDepth 20000

/-! ## Specification -/

/-- The label shows how the text starts: up to the first `..`, which stands for what is left out, it is a
prefix of the text. -/
def Shows (label : String) (text : List Char) : Prop :=
  ∃ start more, label.toList = start ++ '.' :: '.' :: more ∧ start ≠ [] ∧ '.' ∉ start ∧ start <+: text

/-! ## Lemmas -/

theorem up_to (a pat rep t : List Char) (c : Char) (hp : pat ≠ []) (hn : c ∉ pat)
    (hf : findPat pat a = none) (h : (a ++ [c]) <+: t) : (a ++ [c]) <+: replaceAll pat rep t := by
  obtain ⟨b, rfl⟩ := h
  rw [List.append_assoc, List.singleton_append, replaceAll_sep pat rep a b c hn hp, findPat_none _ _ _ hf]
  exact ⟨replaceAll pat rep b, by simp⟩

theorem first_line (a pat rep t : List Char) (hp : pat ≠ []) (hn : '\n' ∉ pat) (hf : findPat pat a = none)
    (h : (a ++ ['\n']).isPrefixOf t = true) : a <+: replaceAll pat rep t :=
  (List.prefix_append _ _).trans (up_to a pat rep t '\n' hp hn hf (List.isPrefixOf_iff_prefix.1 h))

theorem before_pat (a pat rep t : List Char) (hp : pat ≠ [])
    (h : ((findPat pat t).map fun r => a.isPrefixOf r.1) = some true) : a <+: replaceAll pat rep t := by
  rw [Option.map_eq_some_iff] at h
  obtain ⟨⟨b, c⟩, hf, h⟩ := h
  rw [(findPat_some pat rep _ _ _ hp hf).2]
  exact (List.isPrefixOf_iff_prefix.1 h).trans (List.prefix_append _ _)

theorem shown {v : Version} {e : Entity} {t : Insertion} (start more : List Char)
    (a : (label v e).toList = start ++ '.' :: '.' :: more) (b : start ≠ []) (c : '.' ∉ start)
    (d : start <+: t.plain) (f : start <+: t.snippet) :
    Shows (label v e) t.plain ∧ Shows (label v e) t.snippet :=
  ⟨⟨start, more, a, b, c, d⟩, ⟨start, more, a, b, c, f⟩⟩

theorem shown_storage (v : Version) (name : Option (List Char)) :
    Shows (label v .storage) (storageInsertion name).plain ∧ Shows (label v .storage) (storageInsertion name).snippet := by
  refine shown (chars! "#[ink(storage)]") (chars! "pub struct Storage {...}") (by cases v <;> decide) (by decide) (by decide)
    ?_ ?_ <;> cases name
  · exact List.isPrefixOf_iff_prefix.1 (by decide)
  · exact first_line _ _ _ _ (by decide) (by decide) (by decide) (by decide)
  · exact List.isPrefixOf_iff_prefix.1 (by decide)
  · exact first_line _ _ _ _ (by decide) (by decide) (by decide) (by decide)

theorem shown_event (v : Version) (used : List String) :
    Shows (label v .event) (eventInsertion used).plain ∧ Shows (label v .event) (eventInsertion used).snippet := by
  exact shown (chars! "#[ink(event)]") (chars! "pub struct Event {...}") (by cases v <;> decide) (by decide) (by decide)
    (first_line _ _ _ _ (by decide) (by decide) (by decide) (by decide))
    (first_line _ _ _ _ (by decide) (by decide) (by decide) (by decide))

theorem shown_eventV2 (v : Version) (used : Option (List String)) :
    Shows (label v .eventV2) (eventInsertionV2 used).plain ∧ Shows (label v .eventV2) (eventInsertionV2 used).snippet := by
  refine shown (chars! "#[ink::event]") (chars! "pub struct Event {...}") (by cases v <;> decide) (by decide) (by decide)
    ?_ ?_ <;> cases used
  · exact List.isPrefixOf_iff_prefix.1 (by decide)
  · exact first_line _ _ _ _ (by decide) (by decide) (by decide) (by decide)
  · exact List.isPrefixOf_iff_prefix.1 (by decide)
  · exact first_line _ _ _ _ (by decide) (by decide) (by decide) (by decide)

theorem shown_test (v : Version) (used : List String) :
    Shows (label v .test) (testInsertion used).plain ∧ Shows (label v .test) (testInsertion used).snippet := by
  exact shown (chars! "#[ink::test]") (chars! "fn test(..) {...}") (by cases v <;> decide) (by decide) (by decide)
    (first_line _ _ _ _ (by decide) (by decide) (by decide) (by decide))
    (first_line _ _ _ _ (by decide) (by decide) (by decide) (by decide))

theorem shown_e2eTest (v : Version) (used : List String) :
    Shows (label v .e2eTest) (e2eTestInsertion v used).plain ∧ Shows (label v .e2eTest) (e2eTestInsertion v used).snippet := by
  refine shown (chars! "#[ink_e2e::test]") (chars! "async fn test(..) {...}") (by cases v <;> decide) (by decide)
    (by decide) ?_ ?_ <;> cases v <;>
    exact first_line _ _ _ _ (by decide) (by decide) (by decide) (by decide)

theorem shown_constructor (v : Version) (used : List String) :
    Shows (label v .constructor) (constructorInsertion used).plain ∧ Shows (label v .constructor) (constructorInsertion used).snippet := by
  exact shown (chars! "#[ink(constructor)]") (chars! "pub fn new(..) {...}") (by cases v <;> decide) (by decide) (by decide)
    (first_line _ _ _ _ (by decide) (by decide) (by decide) (by decide))
    (first_line _ _ _ _ (by decide) (by decide) (by decide) (by decide))

theorem shown_message (v : Version) (used : List String) :
    Shows (label v .message) (messageInsertion used).plain ∧ Shows (label v .message) (messageInsertion used).snippet := by
  exact shown (chars! "#[ink(message)]") (chars! "pub fn message(..) {...}") (by cases v <;> decide) (by decide) (by decide)
    (first_line _ _ _ _ (by decide) (by decide) (by decide) (by decide))
    (first_line _ _ _ _ (by decide) (by decide) (by decide) (by decide))

theorem shown_traitMessage (v : Version) (used : List String) :
    Shows (label v .traitMessage) (traitMessageInsertion used).plain ∧ Shows (label v .traitMessage) (traitMessageInsertion used).snippet := by
  exact shown (chars! "#[ink(message)]") (chars! "fn message(..);") (by cases v <;> decide) (by decide) (by decide)
    (first_line _ _ _ _ (by decide) (by decide) (by decide) (by decide))
    (first_line _ _ _ _ (by decide) (by decide) (by decide) (by decide))

theorem shown_topic (v : Version) (used : List String) :
    Shows (label v .topic) (topicInsertion used).plain ∧ Shows (label v .topic) (topicInsertion used).snippet := by
  exact shown (chars! "#[ink(topic)]") (chars! "field: ..") (by cases v <;> decide) (by decide) (by decide)
    (first_line _ _ _ _ (by decide) (by decide) (by decide) (by decide))
    (first_line _ _ _ _ (by decide) (by decide) (by decide) (by decide))

theorem shown_errorCode (v : Version) :
    Shows (label v .errorCode) (errorCodeInsertion).plain ∧ Shows (label v .errorCode) (errorCodeInsertion).snippet := by
  exact shown (chars! "type ErrorCode = ") (chars! ";") (by cases v <;> decide) (by decide) (by decide)
    (List.isPrefixOf_iff_prefix.1 (by decide)) (List.isPrefixOf_iff_prefix.1 (by decide))

theorem shown_traitDef (v : Version) :
    Shows (label v .traitDef) (traitDefInsertion).plain ∧ Shows (label v .traitDef) (traitDefInsertion).snippet := by
  exact shown (chars! "#[ink::trait_definition]") (chars! "pub trait TraitDefinition {...}") (by cases v <;> decide)
    (by decide) (by decide) (List.isPrefixOf_iff_prefix.1 (by decide))
    (List.isPrefixOf_iff_prefix.1 (by decide))

theorem shown_storageItem (v : Version) :
    Shows (label v .storageItem) (storageItemInsertion).plain ∧ Shows (label v .storageItem) (storageItemInsertion).snippet := by
  exact shown (chars! "#[ink::storage_item]") (chars! "pub struct StorageItem {...}") (by cases v <;> decide)
    (by decide) (by decide) (List.isPrefixOf_iff_prefix.1 (by decide))
    (List.isPrefixOf_iff_prefix.1 (by decide))

theorem shown_chainExtension (v : Version) :
    Shows (label v .chainExtension) (chainExtensionInsertion v).plain ∧ Shows (label v .chainExtension) (chainExtensionInsertion v).snippet := by
  cases v
  · exact shown (chars! "#[ink::chain_extension]") (chars! "pub trait ChainExtension {...}") (by decide)
      (by decide) (by decide) (List.isPrefixOf_iff_prefix.1 (by decide))
      (List.isPrefixOf_iff_prefix.1 (by decide))
  · exact shown (chars! "#[ink::chain_extension(") (chars! ".)]..pub trait ChainExtension {...}") (by decide)
      (by decide) (by decide) (List.isPrefixOf_iff_prefix.1 (by decide))
      (List.isPrefixOf_iff_prefix.1 (by decide))

theorem shown_combineExtensions (v : Version) (paths : List (List Char)) :
    Shows (label v .combineExtensions) (combineInsertion paths).plain ∧ Shows (label v .combineExtensions) (combineInsertion paths).snippet := by
  refine shown (chars! "ink::combine_extensions! {") (chars! "}") (by cases v <;> decide) (by decide) (by decide) ?_ ?_ <;>
    unfold combineInsertion <;> simp only <;> split
  · exact List.isPrefixOf_iff_prefix.1 (by decide)
  · split
    · exact before_pat _ _ _ _ (by decide) (by decide)
    · exact before_pat _ _ _ _ (by decide) (by decide)
  · exact List.isPrefixOf_iff_prefix.1 (by decide)
  · split
    · exact before_pat _ _ _ _ (by decide) (by decide)
    · exact before_pat _ _ _ _ (by decide) (by decide)

/-! ## Theorems -/

/-- **C83** (labels). The label of a completion shows how the inserted code starts, in the plain text and
in the snippet, whatever names and paths are filled in. Not covered: the contract, whose text starts with an
inner attribute, the extension, whose label has no spaces around `=`, and the environment. -/
theorem C83_shown_partial (v : Version) (e : Entity) (t : Insertion) (h : Inserts v e t)
    (h1 : e ≠ .contract) (h2 : e ≠ .extension) (h3 : e ≠ .environment) :
    Shows (label v e) t.plain ∧ Shows (label v e) t.snippet := by
  cases h with
  | contract => exact absurd rfl h1
  | extension => exact absurd rfl h2
  | environment => exact absurd rfl h3
  | storage name => exact shown_storage v name
  | event used => exact shown_event v used
  | eventV2 used => exact shown_eventV2 v used
  | test used => exact shown_test v used
  | e2eTest used => exact shown_e2eTest v used
  | constructor used => exact shown_constructor v used
  | message used => exact shown_message v used
  | traitMessage used => exact shown_traitMessage v used
  | topic used => exact shown_topic v used
  | errorCode => exact shown_errorCode v
  | traitDef => exact shown_traitDef v
  | storageItem => exact shown_storageItem v
  | chainExtension => exact shown_chainExtension v
  | combineExtensions paths => exact shown_combineExtensions v paths

/-- `C83_shown_partial` applies to a message whose name is in use. -/
example : Shows (label .v5 .message) (messageInsertion ["my_message"]).plain :=
  (C83_shown_partial .v5 .message _ (.message _) (by decide) (by decide) (by decide)).1

/-- The label of an extension does not show its attribute as it is inserted. -/
theorem C83_negation_shown (v : Version) (es fs : List (String × Nat)) :
    ¬ Shows (label v .extension) (extensionInsertion v es fs).plain := by
  have hlab : ∃ a more, (label v .extension).toList = (a ++ ['=']) ++ '.' :: '.' :: more ∧
      '.' ∉ a ++ ['='] ∧ (a ++ [' ']) <+: (extensionInsertion v es fs).plain := by
    cases v with
    | v4 =>
      refine ⟨chars! "#[ink(extension", chars! ")]..pub fn extension(..);", by decide, by decide, ?_⟩
      unfold extensionInsertion extensionTexts
      simp only
      have h1 : ∀ rep, (chars! "#[ink(extension" ++ [' ']) <+:
          replaceAll (chars! "my_extension") rep extensionFnPlain.toList := fun rep =>
        up_to _ _ _ _ _ (by decide) (by decide) (by decide) (List.isPrefixOf_iff_prefix.1 (by decide))
      split
      · exact up_to _ _ _ _ _ (by decide) (by decide) (by decide) (h1 _)
      · exact h1 _
    | v5 =>
      refine ⟨chars! "#[ink(function", chars! ")]..pub fn extension(..);", by decide, by decide, ?_⟩
      unfold extensionInsertion extensionTexts
      simp only
      have h1 : ∀ rep, (chars! "#[ink(function" ++ [' ']) <+:
          replaceAll (chars! "my_function") rep extensionFnPlainV5.toList := fun rep =>
        up_to _ _ _ _ _ (by decide) (by decide) (by decide) (List.isPrefixOf_iff_prefix.1 (by decide))
      split
      · exact up_to _ _ _ _ _ (by decide) (by decide) (by decide) (h1 _)
      · exact h1 _
  obtain ⟨a, more, h1, h2, h3⟩ := hlab
  rintro ⟨start, more', e1, -, e2, e3⟩
  have hs : start = a ++ ['='] := by
    have w : ∀ s r : List Char, '.' ∉ s → (s ++ '.' :: r).takeWhile (· != '.') = s := by
      intro s r hs
      rw [List.takeWhile_append_of_pos]
      · simp
      · intro x hx
        have : x ≠ '.' := fun h => hs (h ▸ hx)
        simp [this]
    rw [h1] at e1
    have := congrArg (List.takeWhile (· != '.')) e1
    rw [w _ _ h2, w _ _ e2] at this
    exact this.symm
  subst hs
  have h4 := List.prefix_of_prefix_length_le e3 h3 (by simp)
  have h5 := h4.eq_of_length (by simp)
  simp at h5

end Verif.Analyzer.CompleteEntity
