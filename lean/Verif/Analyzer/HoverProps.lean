import Verif.Analyzer.Hover
import Verif.Analyzer.HintsProps
import Verif.Ir.CoverProps

/-!
# C53: hover describes what is under the cursor
-/

namespace Verif.Analyzer
open Verif.Ir

/-! ## Specification -/

/-- The hover range `[s, e]` is inside the attribute at the path, and inside no attribute further in:
a non-empty range is contained in it; an empty one lies strictly inside, or at a token of it. -/
def Under (trivia : List Nat → Bool) (file : Node HoverAttr κ) (s e : Nat) (p : List Nat)
    (attr : HoverAttr) : Prop :=
  file.InkAt p attr ∧ s ≤ e ∧
    (((∃ st l, file.rangeAt p 0 = some (st, l) ∧
        if s = e then st < s ∧ s < st + l else st ≤ s ∧ e ≤ st + l) ∧
      ∀ q x cs, file.at? q = some (.attr x cs) → file.ContainsAt q s e → q <+: p) ∨
    (s = e ∧ ∃ f, Node.Focus trivia file s f ∧ p <+: f ∧
      ∀ q x cs, file.at? q = some (.attr x cs) → q <+: f → q <+: p))

/-- `a` is the first argument whose range contains `[s, e]`. -/
def FirstCovered (s e : Nat) (args : List Arg) (a : Arg) : Prop :=
  ∃ before after, args = before ++ a :: after ∧
    (∃ r, a.item.textRange = some r ∧ r.1 ≤ s ∧ e ≤ r.2) ∧
    ∀ b ∈ before, ∃ r, b.item.textRange = some r ∧ ¬ (r.1 ≤ s ∧ e ≤ r.2)

/-- No argument contains `[s, e]`. -/
def NoneCovered (s e : Nat) (args : List Arg) : Prop :=
  ∀ b ∈ args, ∃ r, b.item.textRange = some r ∧ ¬ (r.1 ≤ s ∧ e ≤ r.2)

/-- Arguments and macros that are part of the language version: unknown ones are not, and some exist
only in version 5. -/
def KnownIn (v : Version) : AttrKind → Bool
  | .arg k => match k with
    | .unknown => false
    | .backend | .node | .url | .runtimeOnly | .sandbox | .decode | .encode | .function
    | .signatureTopic | .typeInfo => v == .v5
    | _ => true
  | .macro m => match m with
    | .unknown => false
    | .event | .scaleDerive => v == .v5
    | _ => true

/-- Kinds that are documented together. -/
def docGroup : AttrKind → AttrKind
  | .arg .environment => .arg .env
  | .arg .node => .arg .backend
  | .arg .url => .arg .backend
  | .arg .runtimeOnly => .arg .backend
  | .arg .sandbox => .arg .backend
  | k => k

/-- What a documentation text is about, by the first words of the name of its constant. Arguments
documented together share the name of the leading one. -/
def subject : AttrKind → String
  | .arg k => match k with
    | .additionalContracts => "ADDITIONAL_CONTRACTS"
    | .anonymous => "ANONYMOUS"
    | .backend | .node | .url | .runtimeOnly | .sandbox => "BACKEND"
    | .constructor => "CONSTRUCTOR"
    | .decode => "DECODE"
    | .default => "DEFAULT"
    | .derive => "DERIVE"
    | .encode => "ENCODE"
    | .env | .environment => "ENV"
    | .event => "EVENT"
    | .extension => "EXTENSION"
    | .function => "FUNCTION"
    | .handleStatus => "HANDLE_STATUS"
    | .impl => "IMPL"
    | .keepAttr => "KEEP_ATTR"
    | .message => "MESSAGE"
    | .namespace => "NAMESPACE"
    | .payable => "PAYABLE"
    | .selector => "SELECTOR"
    | .signatureTopic => "SIGNATURE_TOPIC"
    | .storage => "STORAGE"
    | .topic => "TOPIC"
    | .typeInfo => "TYPE_INFO"
    | .unknown => "UNKNOWN"
  | .macro m => match m with
    | .chainExtension => "CHAIN_EXTENSION"
    | .contract => "CONTRACT"
    | .event => "macros::EVENT"
    | .scaleDerive => "SCALE_DERIVE"
    | .storageItem => "STORAGE_ITEM"
    | .test => "TEST"
    | .traitDefinition => "TRAIT_DEFINITION"
    | .e2eTest => "E2E_TEST"
    | .unknown => "UNKNOWN"

/-- The texts a subject can have: the plain one and the ones for version 5. -/
def titles (subject : String) (v : Version) : List String :=
  if subject = "SIGNATURE_TOPIC" then [subject]
  else match v with
    | .v4 => [subject ++ "_DOC"]
    | .v5 => [subject ++ "_DOC", subject ++ "_DOC_V5", subject ++ "_DOC_V5_DEPRECATED",
        subject ++ "_E2E_DOC_V5_DEPRECATED"]

/-! ## Lemmas -/

theorem coveredArg_some (s e : Nat) (args : List Arg) (a : Arg) :
    coveredArg s e args = some (some a) ↔ FirstCovered s e args a := by
  induction args with
  | nil =>
    constructor
    · intro h; cases h
    · rintro ⟨b, c, h, _⟩
      simp at h
  | cons x args ih =>
    rw [coveredArg]
    constructor
    · intro h
      rw [Option.bind_eq_some_iff] at h
      obtain ⟨r, hr, h⟩ := h
      split at h
      · rename_i hc
        obtain rfl := Option.some.inj (Option.some.inj h)
        exact ⟨[], args, rfl, ⟨r, hr, hc⟩, by simp⟩
      · rename_i hc
        obtain ⟨b, c, h1, h2, h3⟩ := ih.1 h
        refine ⟨x :: b, c, by rw [h1]; rfl, h2, ?_⟩
        intro y hy
        rcases List.mem_cons.1 hy with rfl | hy
        · exact ⟨r, hr, hc⟩
        · exact h3 y hy
    · rintro ⟨b, c, h1, h2, h3⟩
      cases b with
      | nil =>
        obtain ⟨rfl, rfl⟩ : x = a ∧ args = c := by simpa using h1
        obtain ⟨r, hr, hc⟩ := h2
        rw [hr, Option.bind_some, if_pos hc]
      | cons y b =>
        obtain ⟨rfl, rfl⟩ : x = y ∧ args = b ++ a :: c := by simpa using h1
        obtain ⟨r, hr, hc⟩ := h3 x (by simp)
        rw [hr, Option.bind_some, if_neg hc]
        exact ih.2 ⟨b, c, rfl, h2, fun z hz => h3 z (by simp [hz])⟩

theorem coveredArg_none (s e : Nat) (args : List Arg) :
    coveredArg s e args = some none ↔ NoneCovered s e args := by
  induction args with
  | nil => simp [coveredArg, NoneCovered]
  | cons x args ih =>
    rw [coveredArg]
    unfold NoneCovered at ih ⊢
    rw [List.forall_mem_cons, ← ih, Option.bind_eq_some_iff]
    constructor
    · rintro ⟨r, hr, h⟩
      split at h
      · cases h
      · rename_i hc
        exact ⟨⟨r, hr, hc⟩, h⟩
    · rintro ⟨⟨r, hr, hc⟩, h⟩
      exact ⟨r, hr, by rw [if_neg hc]; exact h⟩

theorem inkAt_attr (file : Node HoverAttr κ) (p : List Nat) (attr : HoverAttr)
    (h : file.InkAt p attr) : file.isAttrAt p = true := by
  obtain ⟨cs, h⟩ := h
  unfold Node.isAttrAt
  rw [h]
  rfl

theorem _root_.Verif.Ir.Node.attr_of_isAttrAt (file : Node α κ) (q : List Nat)
    (h : file.isAttrAt q = true) : ∃ x cs, file.at? q = some (.attr x cs) := by
  unfold Node.isAttrAt at h
  split at h
  · rename_i n hn
    cases n <;> simp [Node.isAttr] at h
    exact ⟨_, _, hn⟩
  · cases h

theorem inkAttrAt_of (file : Node HoverAttr κ) (p : List Nat) (attr : HoverAttr)
    (h : file.InkAt p attr) (st l : Nat) (hr : file.rangeAt p 0 = some (st, l)) :
    inkAttrAt file p = some (attr, (st, st + l)) := by
  obtain ⟨cs, h⟩ := h
  unfold inkAttrAt
  rw [h, hr]

theorem inkAttrAt_some (file : Node HoverAttr κ) (p : List Nat) (x : HoverAttr × (Nat × Nat))
    (h : inkAttrAt file p = some x) : file.InkAt p x.1 := by
  unfold inkAttrAt at h
  split at h
  · rename_i a cs st l h1 h2
    obtain rfl := Option.some.inj h
    exact ⟨cs, h1⟩
  · cases h

/-- An attribute under the cursor is the one that is described. -/
theorem hover_under (trivia : List Nat → Bool) (file : Node HoverAttr κ) (s e : Nat) (v : Version)
    (p : List Nat) (attr : HoverAttr) (h : Under trivia file s e p attr) :
    ∃ st l, file.rangeAt p 0 = some (st, l) ∧
      hover trivia file s e v = hoverAttr v s e attr (st, st + l) := by
  obtain ⟨h1, h2, ⟨⟨st, l, h3, h4⟩, h5⟩ | ⟨rfl, f, h3, h4, h5⟩⟩ := h
  case inr =>
    have hcov := Node.covering_focus trivia file s f p h3 (inkAt_attr file p attr h1) h4 (by
      intro q hq
      obtain ⟨x, cs, hx⟩ := Node.attr_of_isAttrAt file q hq
      exact h5 q x cs hx)
    obtain ⟨st, l, h6, _⟩ := (Node.covering_contains trivia file s s (Nat.le_refl _) p hcov).2
    refine ⟨st, l, h6, ?_⟩
    unfold hover
    rw [hcov, Option.bind_some, Option.bind_some, inkAttrAt_of file p attr h1 st l h6]
  refine ⟨st, l, h3, ?_⟩
  replace h5 : ∀ q, file.isAttrAt q = true → file.ContainsAt q s e → q <+: p := by
    intro q hq
    obtain ⟨x, cs, hx⟩ := Node.attr_of_isAttrAt file q hq
    exact h5 q x cs hx
  have hcov : Node.coveringAttr trivia file s e = some (some p) := by
    by_cases hse : s = e
    · subst hse
      rw [if_pos rfl] at h4
      exact Node.covering_offset trivia file s p (inkAt_attr file p attr h1) st l h3 h4.1 h4.2 h5
    · rw [if_neg hse] at h4
      exact Node.covering_range trivia file s e (by omega) p (inkAt_attr file p attr h1)
        ⟨st, l, h3, h4⟩ h5
  unfold hover
  rw [hcov, Option.bind_some, Option.bind_some, inkAttrAt_of file p attr h1 st l h3]

/-! ## Theorems -/

/-- Hovering an argument: the documentation of the first argument that contains the hover range is
shown, at its name. -/
theorem C53_argument (trivia : List Nat → Bool) (file : Node HoverAttr κ) (s e : Nat)
    (v : Version) (p : List Nat) (attr : HoverAttr) (hu : Under trivia file s e p attr)
    (a : Arg) (ha : FirstCovered s e attr.ink.args a) (hm : Made a) :
    if KnownIn v (.arg a.kind) then
      ∃ name, a.item.name = .ok name ∧ ∃ doc, hover trivia file s e v =
          some (some { range := (name.start, name.stop), content := doc }) ∧
        (doc = hoverContent v none (.arg a.kind) ∨
          a.kind = .keepAttr ∧ attr.ink.kind = .macro .e2eTest ∧ v = .v5 ∧
            doc = "KEEP_ATTR_E2E_DOC_V5_DEPRECATED")
    else hover trivia file s e v = some none := by
  obtain ⟨st, l, _, hh⟩ := hover_under trivia file s e v p attr hu
  rw [hh]
  unfold hoverAttr
  rw [(coveredArg_some s e attr.ink.args a).2 ha, Option.bind_some]
  simp only
  have key : ∀ pr k, (hoverContent v pr (.arg k) ≠ "" ↔ KnownIn v (.arg k) = true) ∧
      (hoverContent v pr (.arg k) = hoverContent v none (.arg k) ∨
        k = .keepAttr ∧ pr = some (.macro .e2eTest) ∧ v = .v5 ∧
          hoverContent v pr (.arg k) = "KEEP_ATTR_E2E_DOC_V5_DEPRECATED") := by
    intro pr k
    by_cases hpr : pr = some (.macro .e2eTest)
    · subst hpr
      cases v <;> cases k <;> decide
    · have : hoverContent v pr (.arg k) = hoverContent v none (.arg k) := by
        cases k <;> simp [hoverContent, argDoc, hpr]
      rw [this]
      refine ⟨?_, .inl rfl⟩
      cases v <;> cases k <;> decide
  generalize hpr : (if attr.ink.kind ≠ .arg a.kind then some attr.ink.kind else none) = pr
  obtain ⟨k1, k2⟩ := key pr a.kind
  split
  · rename_i hk
    rw [if_pos (k1.2 hk)]
    obtain ⟨name, hname⟩ := name_of_kind a.item (by
      rw [← hm]
      intro hu
      rw [hu] at hk
      cases hk)
    refine ⟨name, hname, hoverContent v pr (.arg a.kind), ?_, ?_⟩
    · unfold hoverAnchor hintAnchor argName
      rw [hname]
      rfl
    · rcases k2 with h | ⟨h1, h2, h3, h4⟩
      · exact .inl h
      · refine .inr ⟨h1, ?_, h3, h4⟩
        rw [h2] at hpr
        split at hpr
        · exact Option.some.inj hpr
        · cases hpr
  · rename_i hk
    rw [if_neg (fun h => hk (k1.1 h))]

/-- Hovering an attribute outside its arguments: the documentation of the attribute is shown. -/
theorem C53_attribute (trivia : List Nat → Bool) (file : Node HoverAttr κ) (s e : Nat)
    (v : Version) (p : List Nat) (attr : HoverAttr) (hu : Under trivia file s e p attr)
    (ha : NoneCovered s e attr.ink.args) :
    ∃ h, hover trivia file s e v = some h ∧
      h.map (·.content) = (if KnownIn v attr.ink.kind then
        some (hoverContent v none attr.ink.kind) else none) ∧
      ∀ shown, h = some shown →
        (∀ m r, attr.ink.kind = .macro m → attr.macroRange = some r → shown.range = r) ∧
        (∀ k a name, attr.ink.kind = .arg k → attr.ink.primary = some a → a.item.name = .ok name →
          shown.range = (name.start, name.stop)) := by
  obtain ⟨st, l, _, hh⟩ := hover_under trivia file s e v p attr hu
  rw [hh]
  unfold hoverAttr
  rw [(coveredArg_none s e attr.ink.args).2 ha, Option.bind_some]
  simp only
  have key : ∀ k, hoverContent v none k ≠ "" ↔ KnownIn v k = true := by
    intro k
    cases k with
    | arg k => cases v <;> cases k <;> decide
    | «macro» m => cases v <;> cases m <;> decide
  split
  · rename_i hk
    rw [if_pos ((key _).1 hk)]
    refine ⟨_, rfl, rfl, ?_⟩
    rintro shown hs
    obtain rfl := Option.some.inj hs
    constructor
    · intro m r hm hr
      simp only [attrAnchor, hm, hr, Option.getD_some]
    · intro k a name hk ha hn
      simp only [attrAnchor, hk, ha, Option.bind_some, argName, hn]
  · rename_i hk
    rw [if_neg (fun h => hk ((key _).2 h))]
    exact ⟨none, rfl, rfl, fun _ h => (nomatch h)⟩

/-- Different kinds have different documentation, except the ones that are documented together. -/
theorem C53_content (v : Version) (k k' : AttrKind) (hk : KnownIn v k = true)
    (hk' : KnownIn v k' = true) :
    hoverContent v none k = hoverContent v none k' ↔ docGroup k = docGroup k' := by
  have key : ∀ v ∈ [Version.v4, .v5], ∀ k ∈ AttrKind.all, ∀ k' ∈ AttrKind.all,
      KnownIn v k = true → KnownIn v k' = true →
      (hoverContent v none k = hoverContent v none k' ↔ docGroup k = docGroup k') := by
    decide +kernel
  exact key v (by cases v <;> simp) k (AttrKind.mem_all k) k' (AttrKind.mem_all k') hk hk'

/-- The documentation of a kind that is part of the version is about that kind, whichever attribute
the argument is in; the texts for version 5 are shown only for version 5. -/
theorem C53_titles (v : Version) (primary : Option AttrKind) (k : AttrKind)
    (hk : KnownIn v k = true) : hoverContent v primary k ∈ titles (subject k) v := by
  by_cases hpr : primary = some (.macro .e2eTest)
  · subst hpr
    have key : ∀ v ∈ [Version.v4, .v5], ∀ k ∈ AttrKind.all, KnownIn v k = true →
        hoverContent v (some (.macro .e2eTest)) k ∈ titles (subject k) v := by decide +kernel
    exact key v (by cases v <;> simp) k (AttrKind.mem_all k) hk
  · have key : ∀ v ∈ [Version.v4, .v5], ∀ k ∈ AttrKind.all, KnownIn v k = true →
        hoverContent v none k ∈ titles (subject k) v := by decide +kernel
    have : hoverContent v primary k = hoverContent v none k := by
      cases k with
      | arg k => cases k <;> simp [hoverContent, argDoc, hpr]
      | «macro» m => rfl
    rw [this]
    exact key v (by cases v <;> simp) k (AttrKind.mem_all k) hk

/-- Nothing is shown unless an ink! attribute contains the hover range. -/
theorem C53_outside (trivia : List Nat → Bool) (file : Node HoverAttr κ) (s e : Nat)
    (hse : s ≤ e) (v : Version) (h : Hover) (hh : hover trivia file s e v = some (some h)) :
    ∃ p attr, file.InkAt p attr ∧ file.ContainsAt p s e := by
  unfold hover at hh
  rw [Option.bind_eq_some_iff] at hh
  obtain ⟨p, hp, hh⟩ := hh
  cases p with
  | none => cases hh
  | some p =>
    rw [Option.bind_some] at hh
    cases hx : inkAttrAt file p with
    | none => rw [hx] at hh; cases hh
    | some x =>
      exact ⟨p, x.1, inkAttrAt_some file p x hx,
        (Node.covering_contains trivia file s e hse p hp).2⟩

/-! ## Cases -/

/-- `#[ink(message, selector = 1, …)]` on an item with ten further bytes. -/
def sampleHoverFile : Node HoverAttr Unit :=
  .node () [.tok 0, .node ()
    [.attr ((sampleHintAttr.getD none).map fun a => ⟨a, none⟩) [.tok 2, .tok 50, .tok 8], .tok 10]]

/-- The attribute of the file. -/
def sampleHoverAttr : HoverAttr :=
  ⟨((sampleHintAttr.getD none).getD ⟨.arg .unknown, [], none⟩), none⟩

example : ((sampleHoverAttr.ink.args.map fun a => a.item.textRange)) =
    [some (6, 13), some (15, 27), some (28, 48)] := by decide +kernel

/-- The first hypothesis of `C53_argument` and `C53_attribute`: a non-empty range and an offset. -/
example : Under (fun _ => false) sampleHoverFile 16 18 [1, 0] sampleHoverAttr ∧
    Under (fun _ => false) sampleHoverFile 16 16 [1, 0] sampleHoverAttr ∧
    Under (fun _ => false) sampleHoverFile 60 60 [1, 0] sampleHoverAttr := by
  have hin : ∀ q x cs, sampleHoverFile.at? q = some (.attr x cs) → q <+: [1, 0] := by
    intro q x cs hq
    rcases q with _ | ⟨_ | _ | _, _ | ⟨_ | _ | _, _ | ⟨_ | _ | _ | _, _ | _⟩⟩⟩ <;>
      simp [Node.at?, Node.children, sampleHoverFile] at hq ⊢
  exact ⟨⟨⟨_, rfl⟩, by decide, .inl ⟨⟨0, 60, by decide, by decide⟩,
      fun q x cs hq _ => hin q x cs hq⟩⟩,
    ⟨⟨_, rfl⟩, by decide, .inl ⟨⟨0, 60, by decide, by decide⟩, fun q x cs hq _ => hin q x cs hq⟩⟩,
    ⟨⟨_, rfl⟩, by decide, .inr ⟨rfl, [1, 0, 2], .left _ [1, 1] 52 8 10 ⟨rfl, by decide, by decide⟩
      ⟨rfl, by decide, by decide⟩ rfl (by decide), by decide, fun q x cs hq _ => hin q x cs hq⟩⟩⟩

/-- The second hypothesis of `C53_argument`, for `selector`, and that of `C53_attribute`. -/
example : ∃ a, FirstCovered 16 18 sampleHoverAttr.ink.args a ∧ Made a ∧ a.kind = .selector :=
  ⟨_, (coveredArg_some 16 18 _ _).1 rfl, rfl, rfl⟩

example : NoneCovered 2 3 sampleHoverAttr.ink.args := (coveredArg_none 2 3 _).1 (by rfl)

example : hover (fun _ => false) sampleHoverFile 16 18 .v5 =
    some (some ⟨(15, 23), "SELECTOR_DOC_V5"⟩) := by decide +kernel

example : hover (fun _ => false) sampleHoverFile 29 29 .v4 = some none := by decide +kernel

example : hover (fun _ => false) sampleHoverFile 2 3 .v4 =
    some (some ⟨(6, 13), "MESSAGE_DOC"⟩) := by decide +kernel

example : hover (fun _ => false) sampleHoverFile 62 64 .v4 = some none := by decide +kernel

end Verif.Analyzer
