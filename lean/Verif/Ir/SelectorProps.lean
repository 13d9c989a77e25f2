import Verif.Ir.Selector
import Verif.Ir.ValueProps

/-!
# C22: selector composition
-/

namespace Verif.Ir

/-! ## Specification -/

/-- A trait path as the user writes it: with or without a leading `::`, and its names. -/
structure PathSpec where
  leading : Bool
  names : List String

/-- A syntax tree path spells the given names, with any whitespace around the `::`
separators. -/
inductive Spells : TPath → PathSpec → Prop
  | first (l : Bool) (n : String) (h : dropSpaces n = n) (hn : n ≠ "") :
      Spells (.seg ((if l then "::" else "") ++ n)) ⟨l, [n]⟩
  | next (q : TPath) (sep n : String) (l : Bool) (ns : List String) (hq : Spells q ⟨l, ns⟩)
      (hsep : dropSpaces sep = "::") (h : dropSpaces n = n) (hn : n ≠ "") :
      Spells (.qual q sep n) ⟨l, ns ++ [n]⟩

/-- The path written out in full. -/
def PathSpec.full (p : PathSpec) : String :=
  (if p.leading then "::" else "") ++ "::".intercalate p.names

/-- The trait part that ink! uses: the full path when it has a leading `::`, else the last
name. -/
def PathSpec.traitPart (p : PathSpec) : String :=
  if p.leading then p.full else p.names.getLast?.getD ""

/-- The string ink! hashes. -/
def hashInput (ns : Option String) (tr : Option String) (name : String) : String :=
  match ns, tr with
  | some n, some t => n ++ "::" ++ t ++ "::" ++ name
  | some n, none => n ++ "::" ++ name
  | none, some t => t ++ "::" ++ name
  | none, none => name

/-! ## Lemmas -/

theorem dropSpaces_append (a b : String) : dropSpaces (a ++ b) = dropSpaces a ++ dropSpaces b := by
  apply String.ext
  simp [dropSpaces, String.toList_append]

theorem intercalate_snoc (sep : String) (l : List String) (x : String) (h : l ≠ []) :
    sep.intercalate (l ++ [x]) = sep.intercalate l ++ sep ++ x := by
  have key : ∀ (l : List (List Char)) (s x : List Char), l ≠ [] →
      s.intercalate (l ++ [x]) = s.intercalate l ++ s ++ x := by
    intro l s x hl
    induction l with
    | nil => exact absurd rfl hl
    | cons a l ih =>
      cases l with
      | nil => simp [List.intercalate, List.intersperse]
      | cons b l =>
        have := ih (by simp)
        simp only [List.cons_append, List.intercalate, List.intersperse, List.flatten_cons,
          List.append_assoc] at this ⊢
        rw [this]
  apply String.ext
  simp only [String.toList_intercalate, List.map_append, List.map_cons, List.map_nil,
    String.toList_append]
  exact key _ _ _ (by simpa using h)

theorem Spells.names_ne {p : TPath} {s : PathSpec} (h : Spells p s) : s.names ≠ [] := by
  cases h <;> simp

theorem Spells.text_eq {p : TPath} {s : PathSpec} (h : Spells p s) :
    dropSpaces p.text = s.full := by
  induction h with
  | first l n h hn =>
    rw [TPath.text, dropSpaces_append, h]
    cases l
    · simp [PathSpec.full]; rfl
    · simp [PathSpec.full]; rfl
  | next q sep n l ns hq hsep h hn ih =>
    rw [TPath.text, dropSpaces_append, dropSpaces_append, ih, hsep, h]
    simp only [PathSpec.full]
    rw [intercalate_snoc _ _ _ hq.names_ne]
    simp [String.append_assoc]

theorem Spells.full_ne {p : TPath} {s : PathSpec} (h : Spells p s) : s.full ≠ "" := by
  cases h with
  | first l n h hn =>
    intro he
    have := congrArg String.toList he
    simp [PathSpec.full, String.toList_append] at this
    exact hn this.2
  | next q sep n l ns hq hsep h hn =>
    intro he
    have := congrArg String.toList he
    rw [PathSpec.full, intercalate_snoc _ _ _ hq.names_ne] at this
    simp [String.toList_append] at this

theorem Spells.length_qual {q : TPath} {sep n : String} {s : PathSpec}
    (h : Spells (.qual q sep n) s) : 2 ≤ s.names.length ∧
      (q.hasColonColon = true ↔ 3 ≤ s.names.length) := by
  cases h with
  | next _ _ _ l ns hq hsep h hn =>
    cases hq with
    | first l n h hn => simp [TPath.hasColonColon]
    | next q' sep' n' l' ns' hq' _ _ _ =>
      have := List.length_pos_iff.2 hq'.names_ne
      simp only [] at this
      simp [TPath.hasColonColon]
      omega

/-! ## Theorems -/

theorem beBytes_value (v : Nat) (h : v ≤ maxU32) : beValue (beBytes v) = v := by
  simp only [beValue, beBytes, List.foldl_cons, List.foldl_nil, UInt8.toNat_ofNat', maxU32] at *
  omega

/-- An explicit integer selector is the selector. -/
theorem C22_explicit (hash : String → Vector UInt8 32) (c : Callable) (arg : Arg)
    (value : MetaValue) (v : Nat) (ha : argByKind c.attrs .selector = some arg)
    (hv : arg.value = some value) (ht : IntToken value.text)
    (hint : asInt maxU32 value.kind value.text = some v) :
    rustInt value.text.toList = some v ∧
    ∃ bytes, compose hash c = some bytes ∧ bytes.length = 4 ∧ beValue bytes = v := by
  have hs := C21_sound maxU32 v value.kind value.text ht hint
  have hsel : arg.kind = .selector := by
    unfold argByKind at ha
    rw [List.findSome?_eq_some_iff] at ha
    obtain ⟨_, a, _, _, h, _⟩ := ha
    simpa using List.find?_some h
  refine ⟨hs.2.1, beBytes v, ?_, rfl, beBytes_value v hs.2.2⟩
  have : c.selectorArg.bind SelectorArg.asU32 = some v := by
    simp [Callable.selectorArg, ha, SelectorArg.cast, hsel, SelectorArg.asU32, hv,
      MetaValue.asU32, hint]
  unfold compose
  rw [this]

/-- `selector = @` gives the reserved wildcard complement selector. -/
theorem C22_complement (hash : String → Vector UInt8 32) (c : Callable) (arg : Arg)
    (value : MetaValue) (ha : argByKind c.attrs .selector = some arg)
    (hv : arg.value = some value) (hk : value.kind = .at) :
    ∃ bytes, compose hash c = some bytes ∧ beValue bytes = 0x9BAE9D5E := by
  have hsel : arg.kind = .selector := by
    unfold argByKind at ha
    rw [List.findSome?_eq_some_iff] at ha
    obtain ⟨_, a, _, _, h, _⟩ := ha
    simpa using List.find?_some h
  refine ⟨complementBytes, ?_, by decide⟩
  have h1 : c.selectorArg = some ⟨.complement, some value⟩ := by
    simp [Callable.selectorArg, ha, SelectorArg.cast, hsel, hv, hk, SelectorKind.ofTok]
  have h2 : MetaValue.asU32 value = none := by
    simp [MetaValue.asU32, asInt, hk]
  unfold compose
  rw [h1]
  simp [SelectorArg.asU32, h2, SelectorArg.isComplement]

/-- Otherwise (no selector argument, or one that is neither an integer nor `@`) the
selector is the first four bytes of the hash of the joined parts. -/
theorem C22_hash (hash : String → Vector UInt8 32) (c : Callable)
    (h : ∀ arg value, argByKind c.attrs .selector = some arg → arg.value = some value →
      value.kind ≠ .intNumber ∧ value.kind ≠ .at) :
    compose hash c = c.fnName.map fun name =>
      (hash (hashInput (namespaceOf c) (traitIdent c) name)).toList.take 4 := by
  have key : ∀ name, preHash c name = hashInput (namespaceOf c) (traitIdent c) name := by
    intro name
    unfold preHash hashInput
    cases namespaceOf c <;> cases traitIdent c <;>
      (apply String.ext; simp [String.toList_append])
  have key2 : ∀ v : Vector UInt8 32, v.toList.take 4 = [v[0], v[1], v[2], v[3]] := by
    intro v
    apply List.ext_getElem
    · simp
    · intro i h1 h2
      simp at h2
      match i, h2 with
      | 0, _ => simp
      | 1, _ => simp
      | 2, _ => simp
      | 3, _ => simp
  have hfall : c.fnName.map (fun name =>
      (hash (hashInput (namespaceOf c) (traitIdent c) name)).toList.take 4) =
      c.fnName.map fun name =>
        let h := hash (preHash c name)
        [h[0], h[1], h[2], h[3]] := by
    congr 1
    funext name
    rw [key2, key]
  rw [hfall]
  unfold compose
  cases hs : argByKind c.attrs .selector with
  | none => simp [Callable.selectorArg, hs]
  | some arg =>
    have hsel : arg.kind = .selector := by
      unfold argByKind at hs
      rw [List.findSome?_eq_some_iff] at hs
      obtain ⟨_, a, _, _, h, _⟩ := hs
      simpa using List.find?_some h
    cases hv : arg.value with
    | none =>
      simp [Callable.selectorArg, hs, SelectorArg.cast, hsel, hv, SelectorArg.asU32,
        SelectorArg.isComplement]
    | some value =>
      obtain ⟨h1, h2⟩ := h arg value hs hv
      have h3 : MetaValue.asU32 value = none := by simp [MetaValue.asU32, asInt, h1]
      have h6 : SelectorKind.ofTok value.kind ≠ .complement := by
        cases hk : value.kind <;> simp_all [SelectorKind.ofTok]
      have h5 : c.selectorArg = some ⟨SelectorKind.ofTok value.kind, some value⟩ := by
        simp [Callable.selectorArg, hs, SelectorArg.cast, hsel, hv]
      rw [h5]
      simp [SelectorArg.asU32, h3, SelectorArg.isComplement, h6]

/-- The trait part is the full path exactly for paths of three or more names (or one), and
the last name otherwise: this is what the code does for every path. -/
theorem C22_trait_code (p : TPath) (s : PathSpec) (h : Spells p s) :
    pathTraitIdent p = some (if s.names.length = 2 then s.names.getLast?.getD "" else s.full) := by
  have hne := h.full_ne
  cases hp : p with
  | seg t =>
    subst hp
    cases h with
    | first l n h hn =>
      have hf : (PathSpec.full ⟨l, [n]⟩) = (if l then "::" else "") ++ n := by
        simp [PathSpec.full]
      rw [hf] at hne
      simp [pathTraitIdent, TPath.qualifier, TPath.lastSegment, hf]
      intro hl
      simpa [hl] using hne
  | qual q sep n =>
    subst hp
    obtain ⟨h1, h2⟩ := h.length_qual
    have htext := h.text_eq
    by_cases h3 : 3 ≤ s.names.length
    · have h4 := h2.2 h3
      rw [if_neg (by omega)]
      simp only [pathTraitIdent, TPath.qualifier, h4, if_true, htext]
      rw [if_pos hne]
    · have h4 : q.hasColonColon = false := by
        rw [Bool.eq_false_iff]
        intro hh
        exact h3 (h2.1 hh)
      rw [if_pos (by omega)]
      cases h with
      | next _ _ _ l ns hq hsep h hn =>
        simp [pathTraitIdent, TPath.qualifier, h4, TPath.lastSegment, hn]

/-- The trait part is the one ink! uses, for paths of one name, for two-name paths without
a leading `::` and for longer paths with one. Missing: the two remaining cases, for which
the claim is false (`C22_trait_negation`). -/
theorem C22_trait_partial (p : TPath) (s : PathSpec) (h : Spells p s)
    (hs : s.names.length = 1 ∨ (s.names.length = 2 ∧ s.leading = false) ∨
      (3 ≤ s.names.length ∧ s.leading = true)) :
    pathTraitIdent p = some s.traitPart := by
  rw [C22_trait_code p s h]
  rcases hs with hs | ⟨hs, hl⟩ | ⟨hs, hl⟩
  · rw [if_neg (by omega)]
    unfold PathSpec.traitPart
    split
    · rfl
    · rename_i hl
      match hsn : s.names, hs with
      | [n], _ => simp [PathSpec.full, hl, hsn]
  · rw [if_pos hs]
    simp [PathSpec.traitPart, hl]
  · rw [if_neg (by omega)]
    simp [PathSpec.traitPart, hl]

/-- `impl ::a::C for …` uses `C` although the path is absolute, and `impl a::b::C for …`
uses the full path although it is relative. -/
theorem C22_trait_negation :
    (∃ p s, Spells p s ∧ s.leading = true ∧ pathTraitIdent p = some "C" ∧
      s.traitPart = "::a::C") ∧
    (∃ p s, Spells p s ∧ s.leading = false ∧ pathTraitIdent p = some "a::b::C" ∧
      s.traitPart = "C") := by
  refine ⟨⟨.qual (.seg "::a") "::" "C", ⟨true, ["a", "C"]⟩, ?_, rfl, by decide, by decide⟩,
    ⟨.qual (.qual (.seg "a") "::" "b") "::" "C", ⟨false, ["a", "b", "C"]⟩, ?_, rfl, by decide,
      by decide⟩⟩
  · exact .next _ _ _ _ _ (.first true "a" (by decide) (by decide)) (by decide) (by decide)
      (by decide)
  · exact .next _ _ _ _ ["a", "b"]
      (.next _ _ _ _ ["a"] (.first false "a" (by decide) (by decide)) (by decide) (by decide)
        (by decide)) (by decide) (by decide) (by decide)

/-- An inherent impl, or a trait that is not a path, contributes no trait part. -/
theorem C22_inherent (c : Callable) (h : ∀ i, c.implItem = some i → i.trait_.join = none) :
    traitIdent c = none := by
  unfold traitIdent
  cases hi : c.implItem with
  | none => rfl
  | some i =>
    have := h i hi
    cases ht : i.trait_ with
    | none => simp [ht]
    | some t =>
      rw [ht] at this
      simp at this
      simp [ht, this]

/-! Non-vacuity: `#[ink(message, selector = 0xCAFEBABE)]`, `selector = @`, and a message of
`impl a::Token for C` in a namespaced impl. -/

/-- An argument `name = value` for examples. -/
def sampleArg (kind : ArgKind) (vk : ValueTok) (text : String) : Arg :=
  ⟨kind, .mk (.ok ⟨.tok .ident kind.name, 0⟩) none
    (.ok ⟨[], vk, text⟩) none 0 (some 0)⟩

/-- A callable for examples. -/
def sampleCallable (args : List Arg) : Callable :=
  { attrs := [⟨.arg .message, args, none⟩]
    fnName := some "transfer"
    implItem := some {
      trait_ := some (some (.qual (.seg "a") " :: " "Token"))
      attrs := [⟨.arg .namespace, [sampleArg .namespace .string "\"erc\""], none⟩] } }

example : ∃ arg value, argByKind (sampleCallable [sampleArg .message .otherLiteral "",
      sampleArg .selector .intNumber "0xCAFEBABE"]).attrs .selector = some arg ∧
    arg.value = some value ∧ IntToken value.text ∧
    asInt maxU32 value.kind value.text = some 0xCAFEBABE :=
  ⟨_, _, rfl, rfl, by unfold IntToken; decide, by decide⟩

example : ∃ arg value, argByKind (sampleCallable [sampleArg .selector .at "@"]).attrs
    .selector = some arg ∧ arg.value = some value ∧ value.kind = .at := ⟨_, _, rfl, rfl, rfl⟩

example : (∀ arg value, argByKind (sampleCallable []).attrs .selector = some arg →
      arg.value = some value → value.kind ≠ .intNumber ∧ value.kind ≠ .at) ∧
    hashInput (namespaceOf (sampleCallable [])) (traitIdent (sampleCallable [])) "transfer" =
      "erc::Token::transfer" :=
  ⟨fun _ _ h => by simp [argByKind, sampleCallable] at h, by decide⟩

example : Spells (.qual (.qual (.seg "::a") " :: " "b") "::" "C") ⟨true, ["a", "b", "C"]⟩ :=
  .next _ _ _ _ ["a", "b"]
    (.next _ _ _ _ ["a"] (.first true "a" (by decide) (by decide)) (by decide) (by decide)
      (by decide)) (by decide) (by decide) (by decide)

example : (∀ i, ({ attrs := [], fnName := some "f", implItem := some ⟨none, []⟩ } :
    Callable).implItem = some i → i.trait_.join = none) := by
  intro i h
  have := Option.some.inj h
  subst this
  rfl

end Verif.Ir
