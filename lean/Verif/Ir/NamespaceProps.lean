import Verif.Ir.SelectorProps
import Verif.Ir.StringProps

/-!
# C22: the namespace in a selector

What `C22_hash` calls the namespace of a callable is compared with the value which the string literal
of the argument has in Rust.
-/

namespace Verif.Ir.Str

open Verif.Analyzer

/-- The parts of a callable without a selector of its own: its name, the trait part, and the literal
of the namespace of its `impl`. -/
structure Named (c : Callable) (name : String) (text : List Char) : Prop where
  free : argByKind c.attrs .selector = none
  name : c.fnName = some name
  space : ∃ i arg x, c.implItem = some i ∧ argByKind i.attrs .namespace = some arg ∧
    arg.value = some x ∧ x.kind = .string ∧ x.text = String.ofList text

theorem named_compose (hash : String → Vector UInt8 32) (c : Callable) (name : String)
    (text : List Char) (h : Named c name text) (s : String)
    (hs : ∀ x : MetaValue, x.kind = .string → x.text = String.ofList text → x.asString = some s) :
    compose hash c = some ((hash (hashInput (some s) (traitIdent c) name)).toList.take 4) := by
  obtain ⟨i, arg, x, h1, h2, h3, h4, h5⟩ := h.space
  rw [C22_hash hash c (fun a v ha => by rw [h.free] at ha; cases ha), h.name, Option.map_some]
  have : namespaceOf c = some s := by
    unfold namespaceOf
    rw [h1, Option.bind_some, h2, Option.bind_some, h3, Option.bind_some]
    exact hs x h4 h5
  rw [this]

/-- If every character of the namespace stands for itself, then the selector is made from the value
of the namespace. Missing for the full claim: other literals (`C22_negation_namespace`). -/
theorem C22_namespace_partial (hash : String → Vector UInt8 32) (c : Callable) (name : String)
    (pieces : List (List Char × List Char)) (text value : List Char) (h : Named c name text)
    (hl : Literal pieces text value) (hp : Plain pieces) :
    compose hash c = some ((hash (hashInput (some (String.ofList value)) (traitIdent c) name)).toList.take 4) :=
  named_compose hash c name text h _ fun x h1 h2 =>
    (C121_read_partial pieces text value hl x h1 h2).2 hp

/-- The constructors or messages with the same name of two `impl`s of the same trait (or of none) get
the same selector if their namespaces are raw string literals with as many hashes, whatever the
namespaces are: they are reported as overlapping (see C38). -/
theorem C22_negation_namespace (hash : String → Vector UInt8 32) (c₁ c₂ : Callable) (name : String)
    (n : Nat) (text₁ text₂ value₁ value₂ : List Char) (h₁ : Named c₁ name text₁)
    (h₂ : Named c₂ name text₂) (r₁ : Raw n text₁ value₁) (r₂ : Raw n text₂ value₂)
    (ht : traitIdent c₁ = traitIdent c₂) :
    (compose hash c₁).isSome = true ∧ compose hash c₁ = compose hash c₂ := by
  have a := named_compose hash c₁ name text₁ h₁ _ fun x => C121_negation_raw n text₁ value₁ r₁ x
  have b := named_compose hash c₂ name text₂ h₂ _ fun x => C121_negation_raw n text₂ value₂ r₂ x
  rw [a, b, ht]
  exact ⟨rfl, rfl⟩

/-! Non-vacuity: `#[ink(namespace = r"a")]` and `#[ink(namespace = r"b")]`. -/

/-- A message `transfer` in an `impl` with a namespace. -/
def spaced (text : String) : Callable :=
  { attrs := [⟨.arg .message, [sampleArg .message .otherLiteral ""], none⟩]
    fnName := some "transfer"
    implItem := some ⟨none, [⟨.arg .namespace, [sampleArg .namespace .string text], none⟩]⟩ }

theorem spaced_named (text : List Char) : Named (spaced (String.ofList text)) "transfer" text :=
  ⟨rfl, rfl, _, _, _, rfl, rfl, rfl, rfl, rfl⟩

example : ∃ text₁ text₂ value₁ value₂ : List Char, Named (spaced (String.ofList text₁)) "transfer" text₁ ∧
    Named (spaced (String.ofList text₂)) "transfer" text₂ ∧ Raw 0 text₁ value₁ ∧ Raw 0 text₂ value₂ ∧
    value₁ ≠ value₂ ∧
    traitIdent (spaced (String.ofList text₁)) = traitIdent (spaced (String.ofList text₂)) := by
  have raw : ∀ c, c ≠ '"' → Raw 0 ['r', '"', c, '"'] [c] := by
    intro c hc
    refine ⟨rfl, ?_⟩
    rintro ⟨a, b, h⟩
    have : '"' ∈ [c] := by rw [h]; simp
    exact hc (List.mem_singleton.1 this).symm
  exact ⟨['r', '"', 'a', '"'], ['r', '"', 'b', '"'], ['a'], ['b'], spaced_named _, spaced_named _,
    raw 'a' (by decide), raw 'b' (by decide), by decide, rfl⟩

example : ∃ pieces text value, Named (spaced (String.ofList text)) "transfer" text ∧
    Literal pieces text value ∧ Plain pieces ∧ value = ['e', 'r', 'c'] :=
  ⟨[(['e'], ['e']), (['r'], ['r']), (['c'], ['c'])], ['"', 'e', 'r', 'c', '"'], ['e', 'r', 'c'],
    spaced_named _, ⟨by
      intro p hp
      simp only [List.mem_cons, List.not_mem_nil, or_false] at hp
      rcases hp with rfl | rfl | rfl <;> exact .plain _ (by decide) (by decide) (by decide),
      rfl, rfl⟩, by
      intro p hp
      simp only [List.mem_cons, List.not_mem_nil, or_false] at hp
      rcases hp with rfl | rfl | rfl <;> exact ⟨_, rfl⟩, rfl⟩

end Verif.Ir.Str
