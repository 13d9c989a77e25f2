import Verif.Analyzer.SnippetLemmas
import Verif.Analyzer.SuggestIdProps

/-!
# C31: the suggested name is what the inserted item is called
-/

namespace Verif.Analyzer

/-- Every template declares one item, and filling in a name changes the name of that item and
nothing else, whatever names are taken. -/
theorem C31_template (t : String × String) (h : t ∈ namedTemplates) :
    ∃ before after : List Char, t.1.toList = before ++ (t.2.toList ++ after) ∧
      ∀ used, uniqueText t.1 t.2 used =
        before ++ ((suggestName t.2 used).toList ++ after) := by
  have key : ∀ t ∈ namedTemplates, t.2.toList ≠ [] ∧ oncePat t.2.toList t.1.toList = true := by
    decide +kernel
  obtain ⟨b, a, h1, h2⟩ := replaceAll_once _ _ (key t h).1 (key t h).2
  exact ⟨b, a, h1, fun used => h2 _⟩

example : String.ofList (uniqueText messagePlain "my_message" ["my_message"]) =
    "#[ink(message)]\npub fn my_message2(&self) {\n    todo!()\n}" := by decide +kernel

/-- A function added to an ink! 4 chain extension with at most 253 functions gets a name and
(ids being 32-bit) an id none of the functions has.

Missing for the full claim: ink! 5, see `C31_negation_v5`, and larger chain extensions, see
`C31_negation`. -/
theorem C31_extension_partial (extensions functions : List (String × Nat))
    (h : extensions.length < 254) :
    (∀ e ∈ extensions, e.1 ≠ (addExtension .v4 extensions functions).1) ∧
    (∀ e ∈ extensions, e.2 ≠ (addExtension .v4 extensions functions).2) := by
  constructor
  · intro e he heq
    refine C31_fresh_partial "my_extension" (takenExtensionNames extensions functions)
      (by simpa [takenExtensionNames] using h) ?_
    exact List.mem_map.2 ⟨e, he, heq⟩
  · intro e he heq
    unfold addExtension at heq
    simp only at heq
    cases hs : suggestId 4294967295 none (extensions.map (·.2)) with
    | some i =>
      rw [hs, Option.getD_some] at heq
      exact (suggestFrom_some _ _ _ _ hs).1 (List.mem_map.2 ⟨e, he, heq⟩)
    | none =>
      have hall := (C30_exhausted _ none _ (by decide)).1 hs
      have := nodup_subset_length ((List.range 254).map (· + 1)) (extensions.map (·.2)) (by
        rw [List.nodup_iff_pairwise_ne, List.pairwise_map]
        exact List.nodup_range.imp fun hne he => hne (by omega)) (by
        intro x hx
        obtain ⟨i, hi, rfl⟩ := List.mem_map.1 hx
        have := List.mem_range.1 hi
        exact hall _ (Nat.le_add_left 1 i) (by omega))
      simp at this
      omega

/-- In ink! 5 the existing functions are not considered: adding a function twice gives two
functions with the same name and the same id. -/
theorem C31_negation_v5 :
    ∃ functions : List (String × Nat), addExtension .v5 [] functions ∈ functions :=
  ⟨[("my_function", 1)], by
    have : addExtension .v5 [] [("my_function", 1)] = ("my_function", 1) := by
      simp [addExtension, suggestId, suggestFrom, suggestName, suggestNameLoop,
        takenExtensionNames]
    rw [this]
    simp⟩

example : addExtension .v4 [("my_extension", 1), ("other", 2)] [] = ("my_extension2", 3) := by
  have : suggestName "my_extension" ["my_extension", "other"] = "my_extension2" := by decide
  simp [addExtension, suggestId, suggestFrom, takenExtensionNames, this]

end Verif.Analyzer
