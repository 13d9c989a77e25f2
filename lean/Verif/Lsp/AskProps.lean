import Verif.Lsp.Ask
import Verif.Lsp.BulbProps
import Verif.Lsp.FitProps

/-!
# C120: a client that asks about a place of its text is answered about that place of that text
-/

namespace Verif.Lsp.Ask

open Spec Screen Client

/-! ## Specification -/

/-- The byte range is that of the part `mid` between `pre` and `post` of the text. Places inside a `\r\n` are
excluded, no position of a client can be there. -/
def RangeOf (text : List Char) (r : Nat × Nat) (pre mid post : List Char) : Prop :=
  text = pre ++ mid ++ post ∧ r = (utf8Len pre, utf8Len (pre ++ mid)) ∧
    ¬ InsideEol pre (mid ++ post) ∧ ¬ InsideEol (pre ++ mid) post

/-- The client takes the item for the same part of its text as the analyzer, and inserts the snippet of the
completion if it announced that it can expand snippets, and its text otherwise. -/
def Offers (caps : ClientCaps) (enc : Encoding) (text : List Char) (c : Compl) (i : LspCompl) : Prop :=
  i.label = c.label ∧ i.detail = c.detail ∧ i.kind = documentedKind c.kind ∧
  (∃ pre mid post, RangeOf text c.range pre mid post ∧ part enc text i.range = some (pre, mid, post)) ∧
  ((CanExpand caps ∧ c.snippet = some i.newText ∧ i.format = some 2) ∨
    ((¬ CanExpand caps ∨ c.snippet = none) ∧ i.newText = c.text ∧ (i.format = none ∨ i.format = some 1)))

/-- The client shows the text of the hover for the same part of its text. -/
def Tells (enc : Encoding) (text : List Char) (h : HoverInfo) (r : LspHover) : Prop :=
  r.markdown = h.content ∧
  ∃ pre mid post, RangeOf text h.range pre mid post ∧ part enc text r.range = some (pre, mid, post)

/-- The client shows the hint at the same place of its text. -/
def Marks (enc : Encoding) (text : List Char) (h : Hint) (r : LspHint) : Prop :=
  r.label = ": " ++ h.label ∧ r.tooltip = h.detail ∧
  ∃ pre post, text = pre ++ post ∧ h.position = utf8Len pre ∧
    place enc text r.position.line r.position.character = some (pre, post)

/-! ## Lemmas -/

theorem same_pre (p q p' q' : List Char) (h : p ++ q = p' ++ q') (hl : utf8Len p = utf8Len p') : p = p' :=
  Fit.pre_eq p q p' q' h (by rw [Crash.bytes_eq, Crash.bytes_eq]; exact hl)

theorem place_of (enc : Encoding) (text : List Char) (hcr : NoLoneCr text) (o : Nat) (p : Pos)
    (hp : PlaceAt enc text o p) (pre post : List Char) (ht : text = pre ++ post) (ho : o = utf8Len pre)
    (he : ¬ InsideEol pre post) : place enc text p.line p.character = some (pre, post) := by
  obtain ⟨pre', post', h1, h2, rfl⟩ := hp
  have e : pre' = pre := same_pre pre' post' pre post (by rw [← h1, ← ht]) (by rw [← h2, ← ho])
  subst e
  subst ht
  exact (place_posOf enc pre' post).2 (noLoneCr_prefix pre' post hcr he)

theorem part_of (enc : Encoding) (text : List Char) (hcr : NoLoneCr text) (r : Nat × Nat) (q : Pos × Pos)
    (hq : RangeAt enc text r q) (pre mid post : List Char) (h : RangeOf text r pre mid post) :
    part enc text q = some (pre, mid, post) := by
  obtain ⟨h1, rfl, h3, h4⟩ := h
  have a := place_of enc text hcr _ _ hq.1 pre (mid ++ post) (by rw [h1]; simp) rfl h3
  have b := place_of enc text hcr _ _ hq.2 (pre ++ mid) post h1 rfl h4
  unfold part
  rw [a, b]
  simp

theorem each_imp {α β : Type} {R S : α → β → Prop} {xs : List α} {ys : List β} (h : Each R xs ys)
    (hi : ∀ x ∈ xs, ∀ y, R x y → S x y) : Each S xs ys := by
  induction h with
  | nil => exact .nil
  | cons h1 _ ih => exact .cons (hi _ (by simp) _ h1) (ih fun x hx => hi x (by simp [hx]))

theorem onChars_of {text : List Char} {r : Nat × Nat} {pre mid post : List Char}
    (h : RangeOf text r pre mid post) : OnChars text r := ⟨pre, mid, post, h.1, h.2.1⟩

/-! ## C120 -/

/-- **C120** (completions, partial). At any moment of any session, a client that asks for completions at a place
of its current text gets one response: the completions of the analyzer for that place of that text, in their order,
each for the part of the text the analyzer meant; nothing exactly if there are none. (Missing: texts with a lone
`\r`, where it is false, see `C115_negation_cr`.) -/
theorem C120_completion_partial (cfg : Config) (bd : Build) (f : String → Version → Nat → List Compl)
    (h : List (World × ClientMsg)) (s : State) (out : List ServerMsg) (hd : DrainsOnce h)
    (hr : run cfg .init h = (.running s, out))
    (uri : String) (d : Doc) (v : Version) (hdoc : docsAfter cfg (h.map (·.2)) uri = some d)
    (hv : (langsAfter cfg h).lang uri = some v)
    (hcr : NoLoneCr d.content.toList) (hsize : utf8Len d.content.toList < 2 ^ 32)
    (w : World) (json : Option (List LspCompl) → Json) (position : Json → Option Pos)
    (hw : ∀ (snap : Snapshot) (rest : Json) (p : Pos) (a : Option (List LspCompl)), position rest = some p →
      completion bd cfg.caps f snap p = .ok a → w.completion.answer snap rest = .ok (json a))
    (req : Request) (rest : Json) (pre post : List Char) (hm : req.method = "textDocument/completion")
    (hp : w.completion.decode req.params = some (uri, rest))
    (hpos : position rest = some (positionOf (positionEncoding cfg.caps) pre))
    (ht : d.content.toList = pre ++ post) (he : ¬ InsideEol pre post)
    (hon : ∀ c ∈ f d.content v (utf8Len pre), ∃ a b c', RangeOf d.content.toList c.range a b c') :
    ∃ answer, (step cfg w s (.request req)).2 = [.response ⟨req.id, some (json answer), none⟩] ∧
      (answer = none ↔ f d.content v (utf8Len pre) = []) ∧
      ∀ items, answer = some items →
        Each (Offers cfg.caps (positionEncoding cfg.caps) d.content.toList) (f d.content v (utf8Len pre)) items := by
  have hpre : NoLoneCr pre := noLoneCr_prefix pre post (ht ▸ hcr) he
  obtain ⟨answer, h1, h2, h3⟩ := C77_completion bd cfg.caps (positionEncoding cfg.caps) pre post (ht ▸ hsize)
    (f d.content v) (by
      intro c hc
      obtain ⟨x, y, z, hx⟩ := hon c hc
      exact ht ▸ onChars_of hx)
  refine ⟨answer, ?_, h2, ?_⟩
  · have hc := C01_answers_from_current_text cfg h s out hd hr w req w.completion uri rest
      (by rw [hm]; simp [documentFeatures]) hp
    rw [hdoc] at hc
    simp only [hv, Option.getD_some] at hc
    rw [hw _ _ _ answer hpos (by
      unfold completion
      rw [positionOf_eq _ pre hpre]
      dsimp only
      rw [ht]
      exact h1)] at hc
    exact hc
  · intro items hi
    refine each_imp (h3 items hi) ?_
    rintro c hc i ⟨g1, g2, g3, g4, g5⟩
    obtain ⟨x, y, z, hx⟩ := hon c hc
    exact ⟨g1, g2, g3, ⟨x, y, z, hx, part_of _ _ hcr _ _ (ht ▸ g4) x y z hx⟩, g5⟩

/-- **C120** (hover, partial). At any moment of any session, a client that points at a place of its current text
gets one response: what the analyzer tells about that place of that text, for the part of the text the analyzer
meant, or nothing if it has nothing to tell. (Missing: texts with a lone `\r`.) -/
theorem C120_hover_partial (cfg : Config) (bd : Build) (f : String → Version → Nat × Nat → Option HoverInfo)
    (h : List (World × ClientMsg)) (s : State) (out : List ServerMsg) (hd : DrainsOnce h)
    (hr : run cfg .init h = (.running s, out))
    (uri : String) (d : Doc) (v : Version) (hdoc : docsAfter cfg (h.map (·.2)) uri = some d)
    (hv : (langsAfter cfg h).lang uri = some v)
    (hcr : NoLoneCr d.content.toList) (hsize : utf8Len d.content.toList < 2 ^ 32)
    (w : World) (json : Option LspHover → Json) (position : Json → Option Pos)
    (hw : ∀ (snap : Snapshot) (rest : Json) (p : Pos) (a : Option LspHover), position rest = some p →
      hover bd f snap p = .ok a → w.hover.answer snap rest = .ok (json a))
    (req : Request) (rest : Json) (pre post : List Char) (hm : req.method = "textDocument/hover")
    (hp : w.hover.decode req.params = some (uri, rest))
    (hpos : position rest = some (positionOf (positionEncoding cfg.caps) pre))
    (ht : d.content.toList = pre ++ post) (he : ¬ InsideEol pre post)
    (hon : ∀ i, f d.content v (utf8Len pre, utf8Len pre) = some i →
      ∃ a b c, RangeOf d.content.toList i.range a b c) :
    ∃ answer, (step cfg w s (.request req)).2 = [.response ⟨req.id, some (json answer), none⟩] ∧
      (answer = none ↔ f d.content v (utf8Len pre, utf8Len pre) = none) ∧
      ∀ i r, f d.content v (utf8Len pre, utf8Len pre) = some i → answer = some r →
        Tells (positionEncoding cfg.caps) d.content.toList i r := by
  have hpre : NoLoneCr pre := noLoneCr_prefix pre post (ht ▸ hcr) he
  have key : ∀ answer, handleHover bd ⟨positionEncoding cfg.caps, pre ++ post⟩ (f d.content v)
      (posOf (positionEncoding cfg.caps) pre) = .ok answer →
      (step cfg w s (.request req)).2 = [.response ⟨req.id, some (json answer), none⟩] := by
    intro answer h1
    have hc := C01_answers_from_current_text cfg h s out hd hr w req w.hover uri rest
      (by rw [hm]; simp [documentFeatures]) hp
    rw [hdoc] at hc
    simp only [hv, Option.getD_some] at hc
    rw [hw _ _ _ answer hpos (by
      unfold hover
      rw [positionOf_eq _ pre hpre]
      dsimp only
      rw [ht]
      exact h1)] at hc
    exact hc
  rcases C77_hover bd (positionEncoding cfg.caps) pre post (ht ▸ hsize) (f d.content v) (by
      intro i hi
      obtain ⟨x, y, z, hx⟩ := hon i hi
      exact ht ▸ onChars_of hx) with ⟨h1, h2⟩ | ⟨i, r, h1, h2, h3, h4⟩
  · refine ⟨none, key none h2, by simp [h1], ?_⟩
    intro i r hi
    rw [h1] at hi
    cases hi
  · refine ⟨some r, key _ h2, by simp [h1], ?_⟩
    intro i' r' hi hr'
    rw [h1] at hi
    cases hi
    cases hr'
    obtain ⟨x, y, z, hx⟩ := hon i h1
    exact ⟨h3, x, y, z, hx, part_of _ _ hcr _ _ (ht ▸ h4) x y z hx⟩

/-- **C120** (hints, partial). At any moment of any session, a client that asks for the hints of a part of its
current text gets one response: the hints of the analyzer for that part of that text, in their order, each at the
place the analyzer meant. (Missing: texts with a lone `\r`.) -/
theorem C120_hints_partial (cfg : Config) (bd : Build) (f : String → Version → Nat × Nat → List Hint)
    (h : List (World × ClientMsg)) (s : State) (out : List ServerMsg) (hd : DrainsOnce h)
    (hr : run cfg .init h = (.running s, out))
    (uri : String) (d : Doc) (v : Version) (hdoc : docsAfter cfg (h.map (·.2)) uri = some d)
    (hv : (langsAfter cfg h).lang uri = some v)
    (hcr : NoLoneCr d.content.toList) (hsize : utf8Len d.content.toList < 2 ^ 32)
    (w : World) (json : Option (List LspHint) → Json) (range : Json → Option (Pos × Pos))
    (hw : ∀ (snap : Snapshot) (rest : Json) (r : Pos × Pos) (a : Option (List LspHint)), range rest = some r →
      hints bd f snap r = .ok a → w.inlayHint.answer snap rest = .ok (json a))
    (req : Request) (rest : Json) (pre sel post : List Char) (hm : req.method = "textDocument/inlayHint")
    (hp : w.inlayHint.decode req.params = some (uri, rest))
    (hrange : range rest = some (positionOf (positionEncoding cfg.caps) pre,
      positionOf (positionEncoding cfg.caps) (pre ++ sel)))
    (ht : d.content.toList = pre ++ sel ++ post) (he1 : ¬ InsideEol pre (sel ++ post))
    (he2 : ¬ InsideEol (pre ++ sel) post)
    (hon : ∀ i ∈ f d.content v (utf8Len pre, utf8Len (pre ++ sel)),
      ∃ a b, d.content.toList = a ++ b ∧ i.position = utf8Len a ∧ ¬ InsideEol a b) :
    ∃ rs, (step cfg w s (.request req)).2 = [.response ⟨req.id, some (json (some rs)), none⟩] ∧
      Each (Marks (positionEncoding cfg.caps) d.content.toList)
        (f d.content v (utf8Len pre, utf8Len (pre ++ sel))) rs := by
  have h1 : NoLoneCr pre := noLoneCr_prefix pre (sel ++ post) (by rw [← List.append_assoc, ← ht]; exact hcr) he1
  have h2 : NoLoneCr (pre ++ sel) := noLoneCr_prefix (pre ++ sel) post (ht ▸ hcr) he2
  obtain ⟨rs, g1, g2⟩ := C77_hints bd (positionEncoding cfg.caps) pre sel post (ht ▸ hsize) (f d.content v) (by
    intro i hi
    obtain ⟨a, b, e1, e2, -⟩ := hon i hi
    exact ⟨a, b, ht ▸ e1, e2⟩)
  refine ⟨rs, ?_, ?_⟩
  · have hc := C01_answers_from_current_text cfg h s out hd hr w req w.inlayHint uri rest
      (by rw [hm]; simp [documentFeatures]) hp
    rw [hdoc] at hc
    simp only [hv, Option.getD_some] at hc
    rw [hw _ _ _ (some rs) hrange (by
      unfold hints
      rw [positionOf_eq _ pre h1, positionOf_eq _ _ h2]
      dsimp only
      rw [ht]
      exact g1)] at hc
    exact hc
  · refine each_imp g2 ?_
    rintro i hi r ⟨e1, e2, e3, -⟩
    obtain ⟨a, b, f1, f2, f3⟩ := hon i hi
    exact ⟨e2, e3, a, b, f1, f2, place_of _ _ hcr _ _ (ht ▸ e1) a b f1 f2 f3⟩

/-- **C120** (signatures, partial). At any moment of any session, a client that asks for the signatures at a place
of its current text gets one response: the signatures of the analyzer for that place of that text, in their order,
or nothing if there are none. Which of them is selected is C12. (Missing: texts with a lone `\r`.) -/
theorem C120_signatures_partial (cfg : Config) (bd : Build) (f : String → Version → Nat → List SigHelp)
    (h : List (World × ClientMsg)) (s : State) (out : List ServerMsg) (hd : DrainsOnce h)
    (hr : run cfg .init h = (.running s, out))
    (uri : String) (d : Doc) (v : Version) (hdoc : docsAfter cfg (h.map (·.2)) uri = some d)
    (hv : (langsAfter cfg h).lang uri = some v)
    (hcr : NoLoneCr d.content.toList) (hsize : utf8Len d.content.toList < 2 ^ 32)
    (w : World) (json : Option (List LspSigInfo × LspSignatureHelp) → Json)
    (position : Json → Option (Pos × Option PrevSignatures))
    (hw : ∀ (snap : Snapshot) (rest : Json) (p : Pos) (prev : Option PrevSignatures)
      (a : Option (List LspSigInfo × LspSignatureHelp)), position rest = some (p, prev) →
      signatures bd cfg.caps f snap prev p = .ok a → w.signatureHelp.answer snap rest = .ok (json a))
    (req : Request) (rest : Json) (pre post : List Char) (prev : Option PrevSignatures)
    (hm : req.method = "textDocument/signatureHelp")
    (hp : w.signatureHelp.decode req.params = some (uri, rest))
    (hpos : position rest = some (positionOf (positionEncoding cfg.caps) pre, prev))
    (ht : d.content.toList = pre ++ post) (he : ¬ InsideEol pre post)
    (hon : ∀ i ∈ f d.content v (utf8Len pre), ∀ p ∈ i.parameters, OnChars i.label.toList p.range) :
    ∃ answer, (step cfg w s (.request req)).2 = [.response ⟨req.id, some (json answer), none⟩] ∧
      (f d.content v (utf8Len pre) = [] → answer = none) ∧
      (f d.content v (utf8Len pre) ≠ [] → ∃ infos r, answer = some (infos, r) ∧
        Each (SigFor cfg.caps (positionEncoding cfg.caps)) (f d.content v (utf8Len pre)) infos) := by
  have hpre : NoLoneCr pre := noLoneCr_prefix pre post (ht ▸ hcr) he
  have key : ∀ answer, handleSignatureHelp bd cfg.caps ⟨positionEncoding cfg.caps, pre ++ post⟩ (f d.content v) prev
      (posOf (positionEncoding cfg.caps) pre) = .ok answer →
      (step cfg w s (.request req)).2 = [.response ⟨req.id, some (json answer), none⟩] := by
    intro answer h1
    have hc := C01_answers_from_current_text cfg h s out hd hr w req w.signatureHelp uri rest
      (by rw [hm]; simp [documentFeatures]) hp
    rw [hdoc] at hc
    simp only [hv, Option.getD_some] at hc
    rw [hw _ _ _ _ answer hpos (by
      unfold signatures
      rw [positionOf_eq _ pre hpre]
      dsimp only
      rw [ht]
      exact h1)] at hc
    exact hc
  rcases C77_signatures bd cfg.caps (positionEncoding cfg.caps) pre post (ht ▸ hsize) (f d.content v) prev hon with
    ⟨h1, h2⟩ | ⟨infos, r, h1, h2, h3⟩
  · exact ⟨none, key none h2, fun _ => rfl, fun hne => absurd h1 hne⟩
  · refine ⟨some (infos, r), key _ h1, ?_, fun _ => ⟨infos, r, rfl, h2⟩⟩
    intro hnil
    rw [hnil] at h3
    simp [lspSignatureHelp] at h3

/-- Finding: in a text with a lone `\r`, a client that asks about a place behind it gets an error. -/
theorem C120_negation :
    ∀ bd caps f, completion bd caps f ⟨"a\rb", .utf16, none, .v5⟩ (positionOf .utf16 ['a', '\r']) =
      .error "Invalid offset." := by
  intro bd caps f
  cases bd <;> rfl

/-! ## Examples -/

/-- A completion, a hover and a hint for the first word of every document (examples only). -/
def oneCompl (_ : String) (_ : Version) (_ : Nat) : List Compl := [⟨"c", .mod, none, (0, 3), "x", none⟩]

/-- See above. -/
def oneHover (_ : String) (_ : Version) (_ : Nat × Nat) : Option HoverInfo := some ⟨(0, 3), "t"⟩

/-- See above. -/
def oneHint (_ : String) (_ : Version) (_ : Nat × Nat) : List Hint := [⟨"h", 3, none⟩]

/-- Serialization of answers (examples only). -/
def complJson : Option (List LspCompl) → Json
  | some l => .arr (l.map fun i => .str i.label)
  | none => .null

/-- The position in every request is behind the first letter of the document (examples only). -/
def askedAt (_ : Json) : Option Pos := some ⟨0, 1⟩

/-- A server that answers with this completion (examples only). -/
def askWorld : World :=
  { demoWorld with
    completion := ⟨demoFeature.decode, fun s _ =>
      match completion .release demoConfig.caps oneCompl s ⟨0, 1⟩ with
      | .ok a => .ok (complJson a)
      | _ => .error "position"⟩ }

theorem first_word : RangeOf "mod b {}".toList (0, 3) [] ['m', 'o', 'd'] " b {}".toList := by
  refine ⟨rfl, rfl, ?_, ?_⟩ <;> · rintro ⟨h, -⟩; revert h; decide

theorem plain_text : NoLoneCr "mod b {}".toList := by
  intro a b h
  have : '\r' ∈ "mod b {}".toList := by rw [h]; simp
  exact absurd this (by decide)

/-- `C120_completion_partial` for the session of `demoHistory`: all hypotheses hold, and the client is offered the
completion for the word `mod` of its text. -/
example : ∃ s out answer, run demoConfig .init demoHistory = (.running s, out) ∧
    (step demoConfig askWorld s (.request ⟨.num 8, "textDocument/completion", .obj [("uri", .str "file:///a.rs")]⟩)).2 =
      [.response ⟨.num 8, some (complJson (some answer)), none⟩] ∧
    Each (Offers demoConfig.caps .utf16 "mod b {}".toList) (oneCompl "mod b {}" .v5 1) answer := by
  obtain ⟨answer, h1, h2, h3⟩ := C120_completion_partial demoConfig .release oneCompl demoHistory _ _ demo_drains rfl
    "file:///a.rs" ⟨"mod b {}", 2⟩ .v5 rfl rfl plain_text (by decide) askWorld complJson askedAt
    (by
      intro snap rest p a hp ha
      simp only [askedAt, Option.some.injEq] at hp
      subst hp
      simp only [askWorld, ha])
    ⟨.num 8, "textDocument/completion", .obj [("uri", .str "file:///a.rs")]⟩ .null ['m'] "od b {}".toList rfl rfl
    (by decide) rfl (by rintro ⟨h, -⟩; revert h; decide)
    (by
      intro c hc
      simp only [oneCompl, List.mem_cons, List.not_mem_nil, or_false] at hc
      subst hc
      exact ⟨_, _, _, first_word⟩)
  cases answer with
  | none => exact absurd (h2.1 rfl) (by simp [oneCompl])
  | some answer => exact ⟨_, _, answer, rfl, h1, h3 answer rfl⟩

/-- The hypotheses of `C120_hover_partial` and `C120_hints_partial` about the analyzer hold there. -/
example : (∀ i, oneHover "mod b {}" .v5 (1, 1) = some i → ∃ a b c, RangeOf "mod b {}".toList i.range a b c) ∧
    (∀ i ∈ oneHint "mod b {}" .v5 (0, 8), ∃ a b, "mod b {}".toList = a ++ b ∧ i.position = utf8Len a ∧
      ¬ InsideEol a b) := by
  constructor
  · intro i hi
    simp only [oneHover, Option.some.injEq] at hi
    subst hi
    exact ⟨_, _, _, first_word⟩
  · intro i hi
    simp only [oneHint, List.mem_cons, List.not_mem_nil, or_false] at hi
    subst hi
    exact ⟨['m', 'o', 'd'], " b {}".toList, rfl, rfl, by rintro ⟨h, -⟩; revert h; decide⟩

end Verif.Lsp.Ask
