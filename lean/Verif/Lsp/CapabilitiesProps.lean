import Verif.Lsp.ServerProps
import Verif.Lsp.Command
import Verif.Lsp.SignatureHelp

/-!
# Properties C10, C11, C12, C55, C59: negotiation, signature help, command arguments
-/

namespace Verif.Lsp

open Spec

/-! ## C10 -/

/-- **C10**. The announced encoding is the first of UTF-8 and UTF-32 in the client's order of
preference. -/
theorem C10_first_listed (caps : ClientCaps) (e : Encoding) (he : e = .utf8 ∨ e = .utf32)
    (pre post : List String) (h : caps.positionEncodings = some (pre ++ e.wire :: post))
    (hpre : "utf-8" ∉ pre ∧ "utf-32" ∉ pre) : announcedEncoding caps = e := by
  simp only [announcedEncoding, positionEncoding, h, Option.getD_some]
  have hnone : pre.findSome? (fun e : String =>
      if e = "utf-8" then some Encoding.utf8 else if e = "utf-32" then some .utf32 else none) = none := by
    rw [List.findSome?_eq_none_iff]
    intro x hx
    have h1 : x ≠ "utf-8" := fun h => hpre.1 (h ▸ hx)
    have h2 : x ≠ "utf-32" := fun h => hpre.2 (h ▸ hx)
    simp [h1, h2]
  rw [List.findSome?_append, hnone]
  rcases he with rfl | rfl <;> simp [Encoding.wire]

/-- **C10**. UTF-16 is announced exactly when the client listed neither UTF-8 nor UTF-32 (or
nothing); in particular UTF-8 and UTF-32 are announced only if listed. -/
theorem C10_utf16_iff (caps : ClientCaps) :
    announcedEncoding caps = .utf16 ↔
      ∀ l, caps.positionEncodings = some l → "utf-8" ∉ l ∧ "utf-32" ∉ l := by
  simp only [announcedEncoding, positionEncoding]
  cases hl : caps.positionEncodings with
  | none => simp
  | some l =>
    simp only [Option.getD_some, Option.some.injEq, forall_eq']
    clear hl
    induction l with
    | nil => simp
    | cons y ys ihy =>
      simp only [List.findSome?_cons, List.mem_cons, not_or]
      by_cases g1 : y = "utf-8"
      · simp [g1]
      · by_cases g2 : y = "utf-32"
        · simp [g2]
        · have g1' : ¬ "utf-8" = y := fun h => g1 h.symm
          have g2' : ¬ "utf-32" = y := fun h => g2 h.symm
          simp only [g1, g2, if_false, g1', g2', not_false_eq_true, true_and]
          exact ihy

example : announcedEncoding { positionEncodings := some ["utf-16", "utf-32", "utf-8"] } = .utf32 :=
  C10_first_listed _ .utf32 (Or.inr rfl) ["utf-16"] ["utf-8"] rfl (by decide)

/-- **C10**. Positions in a document are always translated with the announced encoding. -/
theorem C10_translation_uses_announced (cfg : Config) (h : List (World × ClientMsg)) (s : State)
    (out : List ServerMsg) (hd : DrainsOnce h) (hr : run cfg .init h = (.running s, out))
    (uri : String) (a : Snapshot) (ha : s.snapshots uri = some a) :
    a.encoding = announcedEncoding cfg.caps := by
  rw [(inv_reach hd hr).snaps uri] at ha
  cases h1 : (langsAfter cfg h).docs uri <;> cases h2 : (langsAfter cfg h).lang uri <;>
    simp [h1, h2] at ha
  rw [← ha]
  rfl

/-! ## C11 -/

/-- **C11** (advertised kinds). What is advertised is the intersection of the server's and the
client's kinds; nothing is advertised iff the client gave no list or the intersection is empty. -/
theorem C11_advertised_is_intersection (caps : ClientCaps) :
    (∀ ks, codeActionsKinds caps = some ks →
      ∃ client, caps.codeActionKinds = some client ∧ ks ≠ [] ∧
        ∀ k, k ∈ ks ↔ k ∈ serverCodeActionKinds ∧ k ∈ client) ∧
    (codeActionsKinds caps = none ↔
      ∀ client, caps.codeActionKinds = some client → ∀ k ∈ serverCodeActionKinds, k ∉ client) := by
  cases hc : caps.codeActionKinds with
  | none => simp [codeActionsKinds, hc]
  | some client =>
    simp only [codeActionsKinds, hc]
    constructor
    · intro ks hk
      refine ⟨client, rfl, ?_⟩
      split at hk
      · simp at hk
      · rename_i hne
        simp only [Option.some.injEq] at hk
        subst hk
        refine ⟨by simpa using hne, ?_⟩
        intro k
        simp
    · constructor
      · intro h cl hcl k hk hmem
        simp only [Option.some.injEq] at hcl
        subst hcl
        split at h
        · rename_i he
          simp only [List.isEmpty_iff, List.filter_eq_nil_iff] at he
          exact he k hk (by simpa using hmem)
        · simp at h
      · intro h
        rw [if_pos]
        simp only [List.isEmpty_iff, List.filter_eq_nil_iff]
        intro k hk hm
        exact h client rfl k hk (by simpa using hm)

/-- Code action kinds are hierarchical: a kind covers itself and its sub-kinds, the empty kind
covers everything (LSP 3.17, `CodeActionKind`). -/
def kindCovers (general k : String) : Prop :=
  general = "" ∨ general = k ∨ (general ++ ".").toList <+: k.toList

instance (g k : String) : Decidable (kindCovers g k) := by unfold kindCovers; infer_instance

/-- **C11 is false of the code**: for a client which only lists `quickfix` (and something the
server does not know) the server advertises only `quickfix`, but emits the other kinds just the
same; and `refactor.extract` is never advertised. -/
theorem C11_negation :
    (∃ (caps : ClientCaps) (ks : List String) (kind : ActionKind),
      codeActionsKinds caps = some ks ∧ ∀ k ∈ ks, ¬ kindCovers k (lspKind kind)) ∧
    (∃ kind : ActionKind, ∀ (caps : ClientCaps) (ks : List String),
      codeActionsKinds caps = some ks → lspKind kind ∉ ks) := by
  constructor
  · exact ⟨{ codeActionKinds := some ["quickfix", "refactor.extract"] }, ["quickfix"], .refactor,
      by decide, by decide⟩
  · refine ⟨.extract, fun caps ks h hm => ?_⟩
    obtain ⟨cl, _, _, hk⟩ := (C11_advertised_is_intersection caps).1 ks h
    have := ((hk _).mp hm).1
    simp [serverCodeActionKinds, lspKind] at this

/-- **C11** (partial). Whenever the client lists `refactor` and `quickfix` (or the empty kind),
every kind emitted is covered by an advertised kind, under the LSP hierarchy of kinds. Missing:
emission is not restricted to the negotiated kinds otherwise. -/
theorem C11_emitted_covered_partial (caps : ClientCaps) (client ks : List String)
    (hc : caps.codeActionKinds = some client)
    (hl : "" ∈ client ∨ ("refactor" ∈ client ∧ "quickfix" ∈ client))
    (hk : codeActionsKinds caps = some ks) (kind : ActionKind) :
    ∃ k ∈ ks, kindCovers k (lspKind kind) := by
  obtain ⟨cl, h1, _, h2⟩ := (C11_advertised_is_intersection caps).1 ks hk
  rw [hc] at h1
  simp only [Option.some.injEq] at h1
  subst h1
  rcases hl with hl | ⟨hr, hq⟩
  · exact ⟨"", (h2 "").mpr ⟨by decide, hl⟩, Or.inl rfl⟩
  · cases kind
    · exact ⟨"quickfix", (h2 _).mpr ⟨by decide, hq⟩, by decide⟩
    · exact ⟨"refactor", (h2 _).mpr ⟨by decide, hr⟩, by decide⟩
    · exact ⟨"refactor", (h2 _).mpr ⟨by decide, hr⟩, by decide⟩
    · exact ⟨"refactor", (h2 _).mpr ⟨by decide, hr⟩, by decide⟩

example : codeActionsKinds { codeActionKinds := some ["quickfix", "refactor", "source"] }
    = some ["quickfix", "refactor"] := by decide

/-! ## C12 -/

theorem findLabel_some (label : String) (k : Nat) (l : List Signature) (i : Nat) (s : Signature)
    (h : findLabel label k l = some (i, s)) : k ≤ i ∧ l[i - k]? = some s ∧ s.label = label := by
  induction l generalizing k with
  | nil => simp [findLabel] at h
  | cons x xs ih =>
    simp only [findLabel] at h
    split at h
    · rename_i hx
      simp only [Option.some.injEq, Prod.mk.injEq] at h
      obtain ⟨rfl, rfl⟩ := h
      simp [hx]
    · obtain ⟨h1, h2, h3⟩ := ih _ h
      refine ⟨by omega, ?_, h3⟩
      have : i - k = (i - (k + 1)) + 1 := by omega
      rw [this]
      simpa using h2

theorem findLabel_isSome (label : String) (k : Nat) (l : List Signature)
    (h : ∃ s ∈ l, s.label = label) : (findLabel label k l).isSome := by
  induction l generalizing k with
  | nil => simp at h
  | cons x xs ih =>
    simp only [findLabel]
    split
    · rfl
    · rename_i hx
      apply ih
      obtain ⟨s, hs, hl⟩ := h
      simp only [List.mem_cons] at hs
      rcases hs with rfl | hs
      · exact absurd hl hx
      · exact ⟨s, hs, hl⟩

/-- **C12**. A signature help answer lists at least one signature, the active index is a valid
index into it and the active parameter is that of the active signature. -/
theorem C12_active_index_valid (sigs : List Signature) (support : SignatureSupport)
    (prev : Option PrevSignatures) (r : LspSignatureHelp)
    (h : lspSignatureHelp sigs support prev = some r) :
    r.signatures ≠ [] ∧ r.signatures.map (·.1) = sigs.map (·.label) ∧
      ∃ i s, r.activeSignature = some i ∧ sigs[i]? = some s ∧
        r.activeParameter = s.activeParameter := by
  unfold lspSignatureHelp at h
  simp only at h
  split at h
  · simp at h
  · rename_i hne
    simp only [Option.some.injEq] at h
    subst h
    refine ⟨by simpa using hne, by simp, ?_⟩
    simp only [activeSignature]
    split
    · rename_i x hx
      obtain ⟨i, s⟩ := x
      simp only [Option.bind_eq_some_iff] at hx
      obtain ⟨label, _, hl⟩ := hx
      obtain ⟨_, h2, _⟩ := findLabel_some _ _ _ _ _ hl
      exact ⟨i, s, rfl, by simpa using h2, rfl⟩
    · cases sigs with
      | nil => simp at hne
      | cons x xs => exact ⟨0, x, rfl, rfl, rfl⟩

/-- **C12**. If the user had selected a signature other than the first and a signature with its
label is still offered, a signature with that label is active. -/
theorem C12_selection_kept (sigs : List Signature) (support : SignatureSupport)
    (p : PrevSignatures) (idx : Nat) (label : String) (hi : p.active = some idx) (hpos : 0 < idx)
    (hlab : p.labels[idx]? = some label) (hoff : ∃ s ∈ sigs, s.label = label) :
    ∃ r i s, lspSignatureHelp sigs support (some p) = some r ∧ r.activeSignature = some i ∧
      sigs[i]? = some s ∧ s.label = label := by
  have hne : sigs ≠ [] := by
    obtain ⟨s, hs, _⟩ := hoff
    exact List.ne_nil_of_mem hs
  obtain ⟨⟨i, s⟩, hx⟩ := Option.isSome_iff_exists.mp (findLabel_isSome label 0 sigs hoff)
  obtain ⟨_, h2, h3⟩ := findLabel_some _ _ _ _ _ hx
  refine ⟨_, i, s, by rw [lspSignatureHelp, if_neg (by simpa using hne)], ?_, by simpa using h2, h3⟩
  simp [activeSignature, hi, hpos, hlab, hx, Option.filter]

/-- **C12**. Otherwise (no previous help, an invalid or first index, or a label no longer offered)
the first signature is active. -/
theorem C12_default_first (sigs : List Signature) (support : SignatureSupport)
    (prev : Option PrevSignatures) (hne : sigs ≠ [])
    (h : ∀ p idx label, prev = some p → p.active = some idx → 0 < idx → p.labels[idx]? = some label →
      ∀ s ∈ sigs, s.label ≠ label) :
    ∃ r, lspSignatureHelp sigs support prev = some r ∧ r.activeSignature = some 0 := by
  refine ⟨_, by rw [lspSignatureHelp, if_neg (by simpa using hne)], ?_⟩
  have hkept : ((prev.bind fun p => (p.active.filter (· > 0)).bind fun idx => p.labels[idx]?).bind
      fun label => findLabel label 0 sigs) = none := by
    cases hk : ((prev.bind fun p => (p.active.filter (· > 0)).bind fun idx => p.labels[idx]?).bind
      fun label => findLabel label 0 sigs) with
    | none => rfl
    | some x =>
      obtain ⟨i, s⟩ := x
      simp only [Option.bind_eq_some_iff, Option.filter_eq_some_iff] at hk
      obtain ⟨label, ⟨p, hp, idx, ⟨h1, h2⟩, h3⟩, hl⟩ := hk
      obtain ⟨_, h4, h5⟩ := findLabel_some _ _ _ _ _ hl
      exact absurd h5 (h p idx label hp h1 (by simpa using h2) h3 s (List.mem_of_getElem? h4))
  simp only [activeSignature, hkept]
  cases sigs with
  | nil => simp at hne
  | cons x xs => rfl

example : lspSignatureHelp [⟨"a", none⟩, ⟨"b", some 0⟩] ⟨true, false⟩ (some ⟨["x", "b"], some 1⟩)
    = some ⟨[("a", none), ("b", some 0)], some 1, some 0⟩ := by decide

/-! ## C55 -/

/-- **C55 is false of the code**: an `extractEvent` command whose range is inverted panics. -/
theorem C55_negation : ∃ (urlParse : String → Option String) (args : List Json),
    decodeExecute urlParse "extractEvent" args = .panic :=
  ⟨some, [.obj [("range", .obj [("start", .num 5), ("end", .num 2)])]], by decide⟩

/-- The JSON object has the field. -/
def Field (j : Json) (key : String) (v : Json) : Prop :=
  ∃ fields, j = .obj fields ∧ fields.lookup key = some v

/-- A JSON range which cannot be read as a text range: both ends are 64-bit numbers whose low 32
bits are inverted. -/
def InvertedRange (j : Json) : Prop :=
  ∃ r, ∃ a b : Nat, Field j "range" r ∧ Field r "start" (.num a) ∧ a < 2 ^ 64 ∧
    Field r "end" (.num b) ∧ b < 2 ^ 64 ∧ b % 2 ^ 32 < a % 2 ^ 32

theorem get?_iff (j : Json) (key : String) (v : Json) : j.get? key = some v ↔ Field j key v := by
  unfold Json.get? Field
  cases j <;> simp

theorem strField_iff (j : Json) (key s : String) :
    (j.get? key).bind Json.asStr? = some s ↔ Field j key (.str s) := by
  rw [← get?_iff, Option.bind_eq_some_iff]
  constructor
  · rintro ⟨v, h1, h2⟩
    cases v <;> simp [Json.asStr?] at h2
    rw [h1, h2]
  · intro h
    exact ⟨_, h, rfl⟩

theorem numField_iff (j : Json) (key : String) (n : Nat) :
    (j.get? key).bind Json.asU64? = some n ↔ Field j key (.num n) ∧ n < 2 ^ 64 := by
  rw [← get?_iff, Option.bind_eq_some_iff]
  constructor
  · rintro ⟨v, h1, h2⟩
    cases v with
    | num m =>
      cases m with
      | ofNat m =>
        simp only [Json.asU64?] at h2
        split at h2
        · have := Option.some.inj h2
          subst this
          exact ⟨h1, by assumption⟩
        · cases h2
      | negSucc m => cases h2
    | _ => cases h2
  · rintro ⟨h, hn⟩
    refine ⟨_, h, ?_⟩
    show (if n < 2 ^ 64 then some n else none) = some n
    rw [if_pos hn]

theorem decodeExtract_inverted (urlParse : String → Option String) (j : Json) :
    decodeExtract urlParse j = .panic ↔
      ∃ r a b, j.get? "range" = some r ∧ (r.get? "start").bind Json.asU64? = some a ∧
        (r.get? "end").bind Json.asU64? = some b ∧ b % 2 ^ 32 < a % 2 ^ 32 := by
  unfold decodeExtract parseRange textRangeNew
  cases hr : j.get? "range" with
  | none => simp
  | some r =>
    simp only [Option.some.injEq]
    cases h1 : (r.get? "start").bind Json.asU64? with
    | none => simp [h1]
    | some a =>
      cases h2 : (r.get? "end").bind Json.asU64? with
      | none => simp [h2]
      | some b =>
        simp only
        by_cases hle : a % 2 ^ 32 ≤ b % 2 ^ 32
        · rw [if_pos hle]
          constructor
          · intro h
            simp only at h
            split at h <;> simp at h
          · rintro ⟨_, _, _, rfl, h3, h4, h5⟩
            simp_all
            omega
        · rw [if_neg hle]
          simp only [true_iff]
          exact ⟨r, a, b, rfl, h1, h2, by omega⟩

theorem decodeExtract_panic (urlParse : String → Option String) (j : Json) :
    decodeExtract urlParse j = .panic ↔ InvertedRange j := by
  rw [decodeExtract_inverted]
  unfold InvertedRange
  simp only [get?_iff, numField_iff]
  constructor
  · rintro ⟨r, a, b, h1, ⟨h2, h3⟩, ⟨h4, h5⟩, h6⟩
    exact ⟨r, a, b, h1, h2, h3, h4, h5, h6⟩
  · rintro ⟨r, a, b, h1, h2, h3, h4, h5, h6⟩
    exact ⟨r, a, b, h1, ⟨h2, h3⟩, ⟨h4, h5⟩, h6⟩

/-- **C55** (partial). Exactly which arguments crash the command handlers: an `extractEvent` whose
first argument has an inverted range. Everything else is answered with a decoded command or an
error. Missing: inverted ranges should be an error. -/
theorem C55_panics_iff_partial (urlParse : String → Option String) (command : String)
    (args : List Json) :
    decodeExecute urlParse command args = .panic ↔
      command = "extractEvent" ∧ ∃ arg rest, args = arg :: rest ∧ InvertedRange arg := by
  unfold decodeExecute
  by_cases h1 : command = "createProject"
  · subst h1
    simp
    split <;> simp
  · by_cases h2 : command = "migrateProject"
    · subst h2
      simp
      split <;> simp
    · by_cases h3 : command = "extractEvent"
      · subst h3
        cases args with
        | nil => simp
        | cons a rest => simp [decodeExtract_panic]
      · simp [h1, h2, h3]

/-- **C55** (partial, resolve). The same for resolving a code action. -/
theorem C55_resolve_panics_iff_partial (urlParse : String → Option String) (data : Option Json) :
    decodeResolve urlParse data = .panic ↔
      ∃ d, data = some d ∧ Field d "command" (.str "extractEvent") ∧ InvertedRange d := by
  simp only [← strField_iff]
  unfold decodeResolve
  cases data with
  | none => simp
  | some d =>
    simp only [Option.bind_some, Option.getD_some, Option.some.injEq]
    cases hc : (d.get? "command").bind Json.asStr? with
    | none => simp [hc]
    | some cmd =>
      simp only
      by_cases h2 : cmd = "migrateProject"
      · subst h2
        simp [hc]
        split <;> simp
      · by_cases h3 : cmd = "extractEvent"
        · subst h3
          simp [decodeExtract_panic, hc]
        · simp [h2, h3, hc]

/-- A text range in the bounds of the editor's offsets, in order. -/
def RangeField (j : Json) (r : Nat × Nat) : Prop :=
  ∃ v, Field j "range" v ∧ Field v "start" (.num r.1) ∧ Field v "end" (.num r.2) ∧ r.1 ≤ r.2 ∧ r.2 < 2 ^ 32

theorem parseUri_iff (urlParse : String → Option String) (j : Json) (u : String) :
    parseUri urlParse j = some u ↔ ∃ s, Field j "uri" (.str s) ∧ urlParse s = some u := by
  unfold parseUri
  rw [Option.bind_eq_some_iff]
  simp only [strField_iff]

theorem decodeExtract_ok (urlParse : String → Option String) (j : Json) (s u : String) (r : Nat × Nat)
    (hs : Field j "uri" (.str s)) (hu : urlParse s = some u) (hr : RangeField j r) :
    decodeExtract urlParse j = .value (.extract u r) := by
  obtain ⟨v, h1, h2, h3, h4, h5⟩ := hr
  have hn : ∀ n, n < 2 ^ 32 → n < 2 ^ 64 := fun n h => Nat.lt_of_lt_of_le h (by decide)
  have h2' := (numField_iff v "start" r.1).2 ⟨h2, hn _ (by omega)⟩
  have h3' := (numField_iff v "end" r.2).2 ⟨h3, hn _ h5⟩
  have hu' := (parseUri_iff urlParse j u).2 ⟨s, hs, hu⟩
  unfold decodeExtract parseRange textRangeNew
  rw [(get?_iff j "range" v).2 h1]
  simp only [h2', h3']
  rw [Nat.mod_eq_of_lt (by omega : r.1 < 2 ^ 32), Nat.mod_eq_of_lt h5, if_pos h4]
  simp only [hu']

/-- Commands with the arguments they need are carried out with these arguments. -/
theorem C55_decoded (urlParse : String → Option String) (arg : Json) (rest : List Json) :
    (∀ name root u, Field arg "name" (.str name) → Field arg "root" (.str root) →
      urlParse (if root.toList.getLast? = some '/' then root else root ++ "/") = some u →
      decodeExecute urlParse "createProject" (arg :: rest) = .value (.create name u)) ∧
    (∀ s u, Field arg "uri" (.str s) → urlParse s = some u →
      decodeExecute urlParse "migrateProject" (arg :: rest) = .value (.migrate u) ∧
      (Field arg "command" (.str "migrateProject") →
        decodeResolve urlParse (some arg) = .value (.migrate u))) ∧
    (∀ s u r, Field arg "uri" (.str s) → urlParse s = some u → RangeField arg r →
      decodeExecute urlParse "extractEvent" (arg :: rest) = .value (.extract u r) ∧
      (Field arg "command" (.str "extractEvent") →
        decodeResolve urlParse (some arg) = .value (.extract u r))) := by
  refine ⟨?_, ?_, ?_⟩
  · intro name root u h1 h2 h3
    unfold decodeExecute
    have h1' := (strField_iff arg "name" name).2 h1
    have h2' := (strField_iff arg "root" root).2 h2
    have h3' : urlParse (root ++ if root.toList.getLast? = some '/' then "" else "/") = some u := by
      rw [← h3]
      split <;> simp
    simp only [if_true, List.head?_cons, Option.getD_some, h1', h2', Option.bind_some, h3']
  · intro s u h1 h2
    have h := (parseUri_iff urlParse arg u).2 ⟨s, h1, h2⟩
    refine ⟨?_, fun hc => ?_⟩
    · unfold decodeExecute
      rw [if_neg (by decide), if_pos rfl]
      simp only [List.head?_cons, Option.bind_some, h]
    · unfold decodeResolve
      simp only [Option.bind_some, (strField_iff arg "command" _).2 hc, if_true, Option.getD_some, h]
  · intro s u r h1 h2 h3
    have h := decodeExtract_ok urlParse arg s u r h1 h2 h3
    refine ⟨?_, fun hc => ?_⟩
    · unfold decodeExecute
      rw [if_neg (by decide), if_neg (by decide), if_pos rfl]
      simp only [List.head?_cons, h]
    · unfold decodeResolve
      simp only [Option.bind_some, (strField_iff arg "command" _).2 hc, Option.getD_some]
      rw [if_neg (by decide), if_pos trivial, h]

example : RangeField (.obj [("uri", .str "a"), ("range", .obj [("start", .num 3), ("end", .num 7)])]) (3, 7) :=
  ⟨_, ⟨_, rfl, rfl⟩, ⟨_, rfl, rfl⟩, ⟨_, rfl, rfl⟩, by decide, by decide⟩

/-- Other commands are answered with an error. -/
theorem C55_unknown (urlParse : String → Option String) (command : String) (args : List Json)
    (h : command ≠ "createProject" ∧ command ≠ "migrateProject" ∧ command ≠ "extractEvent") :
    ∃ message, decodeExecute urlParse command args = .value (.error message) := by
  unfold decodeExecute
  rw [if_neg h.1, if_neg h.2.1, if_neg h.2.2]
  exact ⟨_, rfl⟩

/-! ## C59 -/

/-- What a lazily computed action stands for. -/
def intended (action : Action) (uri : String) : Invocation :=
  if action.kind = .migrate then .migrate uri else .extract uri action.range

/-- **C59**. A migrate or extract action is always emitted, without an edit, and with exactly one
way to execute it, matching what the client can do: data which `codeAction/resolve` decodes, or a
command which `workspace/executeCommand` decodes, to the intended document and range. Text ranges
are ordered and 32-bit. -/
theorem C59_lazy_actions_executable (urlParse : String → Option String) (action : Action)
    (uri : String) (editResolve : Bool)
    (hk : action.kind = .migrate ∨ action.kind = .extract)
    (hu : urlParse uri = some uri)
    (hrange : action.range.1 ≤ action.range.2 ∧ action.range.2 < 2 ^ 32) :
    ∃ a, lspAction action uri editResolve = some a ∧ a.edit = none ∧
      (editResolve = true → a.command = none ∧
        decodeResolve urlParse a.data = .value (intended action uri)) ∧
      (editResolve = false → a.data = none ∧ ∃ cmd args, a.command = some (cmd, args) ∧
        decodeExecute urlParse cmd args = .value (intended action uri)) := by
  obtain ⟨label, kind, ⟨r1, r2⟩, edits⟩ := action
  simp only at hk hrange
  have h1 : r1 % 4294967296 = r1 := Nat.mod_eq_of_lt (by omega)
  have h2 : r2 % 4294967296 = r2 := Nat.mod_eq_of_lt (by omega)
  have h3 : r1 < 18446744073709551616 := by omega
  have h4 : r2 < 18446744073709551616 := by omega
  have hp : parseRange (rangeJson (r1, r2)) = .value (some (r1, r2)) := by
    have e1 : Json.asU64? (.num (r1 : Int)) = some r1 := by
      show (if r1 < 2 ^ 64 then some r1 else none) = some r1
      rw [if_pos (by simpa using h3)]
    have e2 : Json.asU64? (.num (r2 : Int)) = some r2 := by
      show (if r2 < 2 ^ 64 then some r2 else none) = some r2
      rw [if_pos (by simpa using h4)]
    simp [parseRange, rangeJson, Json.get?, List.lookup, e1, e2, textRangeNew, h1, h2, hrange.1]
  rcases hk with rfl | rfl <;> cases editResolve <;>
    refine ⟨_, rfl, rfl, ?_, ?_⟩ <;> intro he <;> (try simp at he) <;>
    first
    | refine ⟨rfl, _, _, rfl, ?_⟩
    | refine ⟨rfl, ?_⟩
  all_goals simp [commandName, decodeResolve, decodeExecute, Json.get?, List.lookup,
      Json.asStr?, parseUri, hu, intended, decodeExtract, hp]

/-- **C59**. A quickfix or refactor action carries its edits (those whose range translates, in
order) and no command; it is dropped exactly when no edit remains. -/
theorem C59_eager_actions_carry_edits (action : Action) (uri : String) (editResolve : Bool)
    (hk : action.kind = .quickFix ∨ action.kind = .refactor) :
    lspAction action uri editResolve = none ∧ (∀ e ∈ action.edits, e.range = none) ∨
    ∃ a, lspAction action uri editResolve = some a ∧ a.command = none ∧ (∃ e ∈ action.edits, e.range ≠ none) ∧
      a.edit = some (action.edits.filterMap fun e => e.range.map fun r => (r, e.text)) := by
  have hl : ¬(action.kind = .migrate) ∧ ¬(action.kind = .extract) := by
    rcases hk with h | h <;> simp [h]
  unfold lspAction
  simp only [hl.1, hl.2, decide_false, Bool.or_self, Bool.false_or, Bool.not_false, Bool.true_and]
  by_cases he : (action.edits.filterMap fun e => e.range.map fun r => (r, e.text, e.snippet)) = []
  · left
    refine ⟨by simp [he], ?_⟩
    intro e hm
    rw [List.filterMap_eq_nil_iff] at he
    simpa using he e hm
  · right
    refine ⟨_, by rw [if_pos (by simpa using he)], ?_, ?_, ?_⟩
    · rfl
    · have := List.exists_mem_of_ne_nil _ he
      obtain ⟨x, hx⟩ := this
      rw [List.mem_filterMap] at hx
      obtain ⟨e, hm, hx⟩ := hx
      refine ⟨e, hm, ?_⟩
      cases hr : e.range <;> simp [hr] at hx ⊢
    · have hne : (action.edits.filterMap fun e => e.range.map fun r => (r, e.text, e.snippet)).isEmpty
          = false := by simpa using he
      simp only [hne, Bool.not_false, if_true, Option.some.injEq, List.map_filterMap]
      congr 1
      funext e
      cases e.range <;> rfl

example : ∃ a, lspAction ⟨"Migrate", .migrate, (0, 10), []⟩ "file:///a.rs" true = some a ∧
    a.command = none := ⟨_, rfl, rfl⟩

end Verif.Lsp
