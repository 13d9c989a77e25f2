import Verif.Lsp.Translate
import Verif.Lsp.PositionProps

/-!
# Property C77: answers use only what the client announced, at the right places
-/

namespace Verif.Lsp

open Spec

/-! ## Specification -/

/-- Two lists correspond element by element, in order. -/
inductive Each {α β : Type} (R : α → β → Prop) : List α → List β → Prop
  | nil : Each R [] []
  | cons {x y xs ys} : R x y → Each R xs ys → Each R (x :: xs) (y :: ys)

/-- `p` is the position of the byte offset `o` in the text. -/
def PlaceAt (enc : Encoding) (text : List Char) (o : Nat) (p : Pos) : Prop :=
  ∃ pre post, text = pre ++ post ∧ o = utf8Len pre ∧ p = posOf enc pre

/-- The byte range delimits whole characters of the text. -/
def OnChars (text : List Char) (r : Nat × Nat) : Prop :=
  ∃ pre mid post, text = pre ++ mid ++ post ∧ r = (utf8Len pre, utf8Len (pre ++ mid))

/-- `q` is the range of positions of the byte range `r` in the text. -/
def RangeAt (enc : Encoding) (text : List Char) (r : Nat × Nat) (q : Pos × Pos) : Prop :=
  PlaceAt enc text r.1 q.1 ∧ PlaceAt enc text r.2 q.2

/-- The client announced that it can expand snippets in completions. -/
def CanExpand (caps : ClientCaps) : Prop := caps.snippetSupport = some true

/-- The client announced parameter labels given as offsets. -/
def CanOffset (caps : ClientCaps) : Prop := ∃ a, caps.signatureInformation = some (a, some true)

/-- The client announced an active parameter for each signature. -/
def CanActive (caps : ClientCaps) : Prop := ∃ l, caps.signatureInformation = some (some true, l)

/-- LSP 3.17, `CompletionItemKind`. -/
def documentedKind : ComplKind → Nat
  | .fn => 3
  | .attr | .field => 5
  | .trait => 7
  | .mod => 9
  | .enum => 13
  | .struct => 22

/-- The item a client should get for a completion: the same words for the same piece of text; a
snippet (format 2) only if the client can expand it, otherwise the plain text, which is not marked
as a snippet (no format means plain text). -/
def ItemFor (caps : ClientCaps) (enc : Encoding) (text : List Char) (c : Compl) (item : LspCompl) :
    Prop :=
  item.label = c.label ∧ item.detail = c.detail ∧ item.kind = documentedKind c.kind ∧
  RangeAt enc text c.range item.range ∧
  ((CanExpand caps ∧ c.snippet = some item.newText ∧ item.format = some 2) ∨
    ((¬ CanExpand caps ∨ c.snippet = none) ∧ item.newText = c.text ∧
      (item.format = none ∨ item.format = some 1)))

/-- The parameter a client should get: its text as delimited in the signature's label, by offsets
in code units of the negotiated encoding if announced, otherwise as a text. -/
def ParamFor (caps : ClientCaps) (enc : Encoding) (label : List Char) (p : SigParam)
    (q : ParamLabel × Option String) : Prop :=
  q.2 = p.detail ∧
  ∃ pre mid post, label = pre ++ mid ++ post ∧ p.range = (utf8Len pre, utf8Len (pre ++ mid)) ∧
    ((CanOffset caps ∧ q.1 = .offsets (unitsOf enc pre) (unitsOf enc (pre ++ mid))) ∨
      (¬ CanOffset caps ∧ q.1 = .simple mid))

/-- The signature a client should get. -/
def SigFor (caps : ClientCaps) (enc : Encoding) (s : SigHelp) (i : LspSigInfo) : Prop :=
  i.label = s.label ∧ i.documentation = s.detail ∧
  ((s.parameters = [] ∧ i.parameters = none) ∨
    (s.parameters ≠ [] ∧ ∃ ps, i.parameters = some ps ∧
      Each (ParamFor caps enc s.label.toList) s.parameters ps)) ∧
  ((CanActive caps ∧ i.activeParameter = s.activeParameter) ∨
    (¬ CanActive caps ∧ i.activeParameter = none))

/-- The hint a client should get: a type, set off from the code in front of it. -/
def HintFor (enc : Encoding) (text : List Char) (h : Hint) (r : LspHint) : Prop :=
  PlaceAt enc text h.position r.position ∧ r.label = ": " ++ h.label ∧ r.tooltip = h.detail ∧
  r.kind = 1 ∧ r.paddingLeft = some true ∧ r.paddingRight = none

/-- The diagnostic a client should get (LSP 3.17: 1 is an error, 2 a warning). -/
def DiagFor (enc : Encoding) (text : List Char) (d : Diag) (r : LspDiag) : Prop :=
  RangeAt enc text d.range r.range ∧ r.message = d.message ∧
  ((d.severity = .error ∧ r.severity = 1) ∨ (d.severity = .warning ∧ r.severity = 2))

/-- The client can resolve the edit of a code action lazily. -/
def CanResolve (caps : ClientCaps) : Prop :=
  ∃ props, caps.codeActionResolve = some props ∧ "edit" ∈ props

/-- The client can do something with a code action: apply its edit, execute a command the server
announced, or have the edit resolved from its data, which the server must have announced and which
needs the client to keep the data. -/
def Usable (caps : ClientCaps) (a : LspAction) : Prop :=
  (∃ es, a.edit = some es ∧ es ≠ []) ∨
  (∃ cmd args, a.command = some (cmd, args) ∧ cmd ∈ announcedCommands) ∨
  (a.data ≠ none ∧ CanResolve caps ∧ caps.dataSupport = some true ∧
    codeActionResolveProvider caps = true)

/-! ## Lemmas -/

theorem each_filterMap {α β : Type} {R : α → β → Prop} {f : α → Option β} (l : List α)
    (h : ∀ x ∈ l, ∃ y, f x = some y ∧ R x y) : Each R l (l.filterMap f) := by
  induction l with
  | nil => exact .nil
  | cons x xs ih =>
    obtain ⟨y, hy, hr⟩ := h x (by simp)
    rw [List.filterMap_cons, hy]
    exact .cons hr (ih fun z hz => h z (by simp [hz]))

theorem each_collect {α β : Type} {R : α → β → Prop} {f : α → Option β} (l : List α)
    (h : ∀ x ∈ l, ∃ y, f x = some y ∧ R x y) : ∃ r, collectAll f l = some r ∧ Each R l r := by
  induction l with
  | nil => exact ⟨[], rfl, .nil⟩
  | cons x xs ih =>
    obtain ⟨y, hy, hr⟩ := h x (by simp)
    obtain ⟨ys, hys, hrs⟩ := ih fun z hz => h z (by simp [hz])
    exact ⟨y :: ys, by simp [collectAll, hy, hys], .cons hr hrs⟩

theorem Each.length {α β : Type} {R : α → β → Prop} {xs : List α} {ys : List β} (h : Each R xs ys) :
    xs.length = ys.length := by
  induction h with
  | nil => rfl
  | cons _ _ ih => simp [ih]

theorem position_at (enc : Encoding) (text : List Char) (o : Nat)
    (h : ∃ pre post, text = pre ++ post ∧ o = utf8Len pre) :
    ∃ p, (Context.mk enc text).position o = some p ∧ PlaceAt enc text o p := by
  obtain ⟨pre, post, rfl, rfl⟩ := h
  exact ⟨posOf enc pre, C08_position enc pre post, pre, post, rfl, rfl, rfl⟩

theorem range_at (enc : Encoding) (text : List Char) (r : Nat × Nat) (h : OnChars text r) :
    ∃ q, (Context.mk enc text).range r = some q ∧ RangeAt enc text r q := by
  obtain ⟨pre, mid, post, rfl, rfl⟩ := h
  have h1 := C08_position enc pre (mid ++ post)
  have h2 := C08_position enc (pre ++ mid) post
  rw [← List.append_assoc] at h1
  refine ⟨(posOf enc pre, posOf enc (pre ++ mid)), ?_, ?_, ?_⟩
  · simp only [Context.range, toLspRange, h1, h2]
    rfl
  · exact ⟨pre, mid ++ post, by simp, rfl, rfl⟩
  · exact ⟨pre ++ mid, post, rfl, rfl, rfl⟩

theorem canExpand_iff (caps : ClientCaps) : snippetSupport caps = true ↔ CanExpand caps := by
  unfold snippetSupport CanExpand
  cases h : caps.snippetSupport with
  | none => simp
  | some b => cases b <;> simp

theorem canOffset_iff (caps : ClientCaps) :
    (signatureSupport caps).labelOffset = true ↔ CanOffset caps := by
  unfold signatureSupport CanOffset
  cases h : caps.signatureInformation with
  | none => simp
  | some x =>
    obtain ⟨a, l⟩ := x
    cases l with
    | none => simp
    | some b => cases b <;> simp

theorem canActive_iff (caps : ClientCaps) :
    (signatureSupport caps).activeParameter = true ↔ CanActive caps := by
  unfold signatureSupport CanActive
  cases h : caps.signatureInformation with
  | none => simp
  | some x =>
    obtain ⟨a, l⟩ := x
    cases a with
    | none => simp
    | some b => cases b <;> simp

theorem canResolve_iff (caps : ClientCaps) :
    codeActionEditResolveSupport caps = true ↔ CanResolve caps := by
  unfold codeActionEditResolveSupport CanResolve
  cases h : caps.codeActionResolve with
  | none => simp
  | some ps => simp

theorem withOffset_at {α : Type} (bd : Build) (enc : Encoding) (pre post : List Char)
    (hsize : utf8Len (pre ++ post) < 2 ^ 32) (f : Nat → Answer α) :
    withOffset bd ⟨enc, pre ++ post⟩ (posOf enc pre) f = f (utf8Len pre) := by
  have h := C08_offset bd enc pre post hsize
  have e : posOf enc pre = ⟨pre.count '\n', unitsOf enc (lastLine pre)⟩ := rfl
  unfold withOffset
  simp only
  rw [e, h]

theorem utf8Len_pos (c : Char) (cs : List Char) : 0 < utf8Len (c :: cs) := by
  have := Char.utf8Size_pos c
  simp only [utf8Len]
  omega

theorem sliceTo_eq (pre post : List Char) : sliceTo (pre ++ post) (utf8Len pre) = some pre := by
  induction pre with
  | nil => cases post <;> rfl
  | cons c cs ih =>
    have hp := utf8Len_pos c cs
    obtain ⟨k, hk⟩ : ∃ k, utf8Len (c :: cs) = k + 1 := ⟨utf8Len (c :: cs) - 1, by omega⟩
    have h1 : c.utf8Size + utf8Len cs = k + 1 := hk
    rw [hk, List.cons_append, sliceTo, if_pos (by omega),
      show k + 1 - c.utf8Size = utf8Len cs by omega, ih]
    rfl

theorem sliceFrom_eq (pre post : List Char) : sliceFrom (pre ++ post) (utf8Len pre) = some post := by
  induction pre with
  | nil => cases post <;> rfl
  | cons c cs ih =>
    have hp := utf8Len_pos c cs
    obtain ⟨k, hk⟩ : ∃ k, utf8Len (c :: cs) = k + 1 := ⟨utf8Len (c :: cs) - 1, by omega⟩
    have h1 : c.utf8Size + utf8Len cs = k + 1 := hk
    rw [hk, List.cons_append, sliceFrom, if_pos (by omega),
      show k + 1 - c.utf8Size = utf8Len cs by omega, ih]

theorem measure_eq (enc : Encoding) (w : WideEncoding) (h : enc.wide? = some w) (cs : List Char) :
    w.measure cs = unitsOf enc cs := by
  induction cs with
  | nil => cases w <;> cases enc <;> simp [Encoding.wide?] at h <;> rfl
  | cons c cs ih =>
    rw [unitsOf_cons, ← ih]
    cases enc with
    | utf8 => simp [Encoding.wide?] at h
    | utf16 =>
      simp only [Encoding.wide?, Option.some.injEq] at h
      subst h
      simp only [WideEncoding.measure, units, List.map_cons, List.sum_cons]
      congr 1
      have : c.toNat ≤ 65535 ↔ c.val < 0x10000 := by
        rw [UInt32.lt_iff_toNat_lt]
        simp only [Char.toNat]
        constructor
        · intro h; exact Nat.lt_of_le_of_lt h (by decide)
        · intro h; exact Nat.le_of_lt_succ h
      by_cases g : c.val < 0x10000
      · rw [if_pos g, if_pos (this.2 g)]
      · rw [if_neg g, if_neg (fun x => g (this.1 x))]
    | utf32 =>
      simp only [Encoding.wide?, Option.some.injEq] at h
      subst h
      simp [WideEncoding.measure, units]
      omega

theorem lspOffset_eq (enc : Encoding) (pre post : List Char) :
    lspOffset enc (pre ++ post) (utf8Len pre) = some (unitsOf enc pre) := by
  unfold lspOffset
  split
  · cases h : enc.wide? with
    | none =>
      cases enc <;> simp [Encoding.wide?] at h
      simp [unitsOf_utf8]
    | some w => simp only [sliceTo_eq, Option.map_some, measure_eq enc w h]
  · rename_i h
    cases pre with
    | nil => rfl
    | cons c cs => exact absurd (utf8Len_pos c cs) h

theorem paramLabel_eq (enc : Encoding) (b : Bool) (pre mid post : List Char) :
    paramLabel enc b (pre ++ mid ++ post) (utf8Len pre, utf8Len (pre ++ mid)) =
      some (if b then .offsets (unitsOf enc pre) (unitsOf enc (pre ++ mid)) else .simple mid) := by
  unfold paramLabel
  cases b with
  | true =>
    simp only [if_true]
    rw [lspOffset_eq enc (pre ++ mid) post, List.append_assoc, lspOffset_eq enc pre (mid ++ post)]
    rfl
  | false =>
    have hle : utf8Len pre ≤ utf8Len (pre ++ mid) := by rw [utf8Len_append]; omega
    simp only [slice, if_pos hle, Bool.false_eq_true, if_false]
    rw [List.append_assoc, sliceFrom_eq pre (mid ++ post), utf8Len_append]
    simp only [Option.bind_some, Nat.add_sub_cancel_left, sliceTo_eq, Option.map_some]

theorem sliceTo_some (cs : List Char) (o : Nat) (m : List Char) (h : sliceTo cs o = some m) :
    ∃ post, cs = m ++ post ∧ o = utf8Len m := by
  induction cs generalizing o m with
  | nil =>
    cases o with
    | zero => cases h; exact ⟨[], rfl, rfl⟩
    | succ o => cases h
  | cons c cs ih =>
    cases o with
    | zero => cases h; exact ⟨c :: cs, rfl, rfl⟩
    | succ o =>
      rw [sliceTo] at h
      split at h
      · rw [Option.map_eq_some_iff] at h
        obtain ⟨m', h1, rfl⟩ := h
        obtain ⟨post, h2, h3⟩ := ih _ _ h1
        refine ⟨post, by rw [h2]; rfl, ?_⟩
        simp only [utf8Len]
        omega
      · cases h

theorem sliceFrom_some (cs : List Char) (o : Nat) (m : List Char) (h : sliceFrom cs o = some m) :
    ∃ pre, cs = pre ++ m ∧ o = utf8Len pre := by
  induction cs generalizing o with
  | nil =>
    cases o with
    | zero => cases h; exact ⟨[], rfl, rfl⟩
    | succ o => cases h
  | cons c cs ih =>
    cases o with
    | zero => cases h; exact ⟨[], rfl, rfl⟩
    | succ o =>
      rw [sliceFrom] at h
      split at h
      · obtain ⟨pre, h2, h3⟩ := ih _ h
        refine ⟨c :: pre, by rw [h2]; rfl, ?_⟩
        simp only [utf8Len]
        omega
      · cases h

theorem lspCompletion_item (ctx : Context) (b : Bool) (c : Compl) (q : Pos × Pos)
    (hq : ctx.range c.range = some q) :
    ∃ item, lspCompletion ctx b c = some item ∧ item.label = c.label ∧ item.detail = c.detail ∧
      item.kind = documentedKind c.kind ∧ item.range = q ∧
      ((b = true ∧ c.snippet = some item.newText ∧ item.format = some 2) ∨
        ((b = false ∨ c.snippet = none) ∧ item.newText = c.text ∧
          (item.format = none ∨ item.format = some 1))) := by
  obtain ⟨label, kind, detail, range, text, snippet⟩ := c
  simp only at hq
  unfold lspCompletion
  simp only [hq, Option.map_some, Option.some.injEq]
  refine ⟨_, rfl, rfl, rfl, ?_, rfl, ?_⟩
  · cases kind <;> rfl
  · cases b <;> cases snippet <;> simp

/-! ## C77 -/

/-- **C77** (completions). At a place of the document the client gets one item for each completion,
in order, as described by `ItemFor`; no list is sent exactly when there are none. Completions must
delimit characters of the document. -/
theorem C77_completion (bd : Build) (caps : ClientCaps) (enc : Encoding) (pre post : List Char)
    (hsize : utf8Len (pre ++ post) < 2 ^ 32) (completions : Nat → List Compl)
    (hr : ∀ c ∈ completions (utf8Len pre), OnChars (pre ++ post) c.range) :
    ∃ answer, handleCompletion bd caps ⟨enc, pre ++ post⟩ completions (posOf enc pre) = .ok answer ∧
      (answer = none ↔ completions (utf8Len pre) = []) ∧
      ∀ items, answer = some items →
        Each (ItemFor caps enc (pre ++ post)) (completions (utf8Len pre)) items := by
  unfold handleCompletion
  rw [withOffset_at bd enc pre post hsize]
  have key : Each (ItemFor caps enc (pre ++ post)) (completions (utf8Len pre))
      ((completions (utf8Len pre)).filterMap
        (lspCompletion ⟨enc, pre ++ post⟩ (snippetSupport caps))) := by
    apply each_filterMap
    intro c hc
    obtain ⟨q, hq, hat⟩ := range_at enc _ c.range (hr c hc)
    obtain ⟨item, h1, h2, h3, h4, h5, h6⟩ := lspCompletion_item ⟨enc, pre ++ post⟩ (snippetSupport caps) c q hq
    refine ⟨item, h1, h2, h3, h4, h5 ▸ hat, ?_⟩
    have hx := canExpand_iff caps
    rcases h6 with ⟨hs, h7⟩ | ⟨hs, h7⟩
    · exact Or.inl ⟨hx.1 hs, h7⟩
    · refine Or.inr ⟨?_, h7⟩
      rcases hs with hs | hs
      · exact Or.inl fun h => by rw [hx.2 h] at hs; simp at hs
      · exact Or.inr hs
  have hlen := key.length
  generalize (completions (utf8Len pre)).filterMap _ = items at key hlen
  refine ⟨_, rfl, ?_, ?_⟩
  · cases items with
    | nil => simp at hlen; simp [hlen]
    | cons x xs =>
      simp only [List.isEmpty_cons, Bool.false_eq_true, if_false, reduceCtorEq, false_iff]
      intro h
      simp [h] at hlen
  · intro items' h
    split at h
    · simp at h
    · simp only [Option.some.injEq] at h
      subst h
      exact key

/-- **C77** (snippets). Whatever is asked and whatever the completions are, a client which did not
announce snippets gets plain texts, without a format. -/
theorem C77_no_snippets (bd : Build) (caps : ClientCaps) (ctx : Context)
    (completions : Nat → List Compl) (p : Pos) (items : List LspCompl)
    (h : handleCompletion bd caps ctx completions p = .ok (some items)) (hc : ¬ CanExpand caps) :
    ∃ o, ∀ item ∈ items, item.format = none ∧ ∃ c ∈ completions o, item.newText = c.text := by
  have hs : snippetSupport caps = false := by
    have := canExpand_iff caps
    cases g : snippetSupport caps
    · rfl
    · exact absurd (this.1 g) hc
  unfold handleCompletion withOffset at h
  split at h
  · simp at h
  · simp at h
  · rename_i o _
    refine ⟨o, ?_⟩
    simp only [Answer.ok.injEq] at h
    split at h
    · simp at h
    · simp only [Option.some.injEq] at h
      subst h
      intro item hi
      rw [List.mem_filterMap] at hi
      obtain ⟨c, hm, hi⟩ := hi
      simp only [lspCompletion, Option.map_eq_some_iff] at hi
      obtain ⟨r, _, rfl⟩ := hi
      exact ⟨by simp [hs], c, hm, by simp [hs]⟩

/-- **C77** (signatures). At a place of the document the client gets one signature for each
signature, in order, as described by `SigFor`, with the selection of C12. The parameters must
delimit characters of the labels. -/
theorem C77_signatures (bd : Build) (caps : ClientCaps) (enc : Encoding) (pre post : List Char)
    (hsize : utf8Len (pre ++ post) < 2 ^ 32) (signatures : Nat → List SigHelp)
    (prev : Option PrevSignatures)
    (hr : ∀ s ∈ signatures (utf8Len pre), ∀ p ∈ s.parameters, OnChars s.label.toList p.range) :
    (signatures (utf8Len pre) = [] ∧
      handleSignatureHelp bd caps ⟨enc, pre ++ post⟩ signatures prev (posOf enc pre) = .ok none) ∨
    ∃ infos r,
      handleSignatureHelp bd caps ⟨enc, pre ++ post⟩ signatures prev (posOf enc pre)
        = .ok (some (infos, r)) ∧
      Each (SigFor caps enc) (signatures (utf8Len pre)) infos ∧
      lspSignatureHelp ((signatures (utf8Len pre)).map fun s => ⟨s.label, s.activeParameter⟩)
        (signatureSupport caps) prev = some r := by
  unfold handleSignatureHelp
  rw [withOffset_at bd enc pre post hsize]
  by_cases he : signatures (utf8Len pre) = []
  · left
    exact ⟨he, by simp [he, lspSignatureHelp]⟩
  · right
    have hsome : ∃ r, lspSignatureHelp ((signatures (utf8Len pre)).map
        fun s => (⟨s.label, s.activeParameter⟩ : Signature)) (signatureSupport caps) prev = some r := by
      unfold lspSignatureHelp
      exact ⟨_, by rw [if_neg (by simpa using he)]⟩
    obtain ⟨r, hr'⟩ := hsome
    have key : ∃ infos, collectAll (lspSigInfo enc (signatureSupport caps))
        (signatures (utf8Len pre)) = some infos ∧
        Each (SigFor caps enc) (signatures (utf8Len pre)) infos := by
      apply each_collect
      intro s hs
      have hact : (CanActive caps ∧ (if (signatureSupport caps).activeParameter = true then
            s.activeParameter else none) = s.activeParameter) ∨
          (¬ CanActive caps ∧ (if (signatureSupport caps).activeParameter = true then
            s.activeParameter else none) = none) := by
        have hx := canActive_iff caps
        by_cases g : CanActive caps
        · exact Or.inl ⟨g, by rw [if_pos (hx.2 g)]⟩
        · exact Or.inr ⟨g, by rw [if_neg (fun y => g (hx.1 y))]⟩
      by_cases hp : s.parameters = []
      · exact ⟨⟨s.label, s.detail, none, _⟩, by simp only [lspSigInfo, hp]; rfl, rfl, rfl,
          Or.inl ⟨hp, rfl⟩, hact⟩
      · have hps : ∃ ps, collectAll (fun p : SigParam =>
            (paramLabel enc (signatureSupport caps).labelOffset s.label.toList p.range).map
              fun l => (l, p.detail)) s.parameters = some ps ∧
            Each (ParamFor caps enc s.label.toList) s.parameters ps := by
          apply each_collect
          intro p hpm
          obtain ⟨a, b, c, hl, hrange⟩ := hr s hs p hpm
          refine ⟨_, by rw [hl, hrange, paramLabel_eq]; rfl, rfl, a, b, c, hl, hrange, ?_⟩
          have hx := canOffset_iff caps
          by_cases g : CanOffset caps
          · exact Or.inl ⟨g, by rw [if_pos (hx.2 g)]⟩
          · exact Or.inr ⟨g, by rw [if_neg (fun y => g (hx.1 y))]⟩
        obtain ⟨ps, hps, heach⟩ := hps
        have hemp : s.parameters.isEmpty = false := by simpa using hp
        exact ⟨⟨s.label, s.detail, some ps, _⟩, by simp only [lspSigInfo, hps, hemp]; rfl, rfl, rfl,
          Or.inr ⟨hp, ps, rfl, heach⟩, hact⟩
    obtain ⟨infos, hi, heach⟩ := key
    refine ⟨infos, r, ?_, heach, hr'⟩
    simp only
    rw [hr', hi]

theorem unitsOf_ascii (enc : Encoding) (cs : List Char) (h : ∀ c ∈ cs, c.utf8Size = 1) :
    unitsOf enc cs = utf8Len cs := by
  induction cs with
  | nil => rfl
  | cons c cs ih =>
    rw [unitsOf_cons, units_ascii enc c (by rw [h c (by simp)]; omega),
      ih fun x hx => h x (by simp [hx])]
    rfl

/-- **C77** (ASCII labels). For labels of single-byte characters (like those of all ink!
signatures) the offsets are the byte offsets, in every encoding: it does not matter that the
protocol describes them as UTF-16 offsets. -/
theorem C77_ascii (enc : Encoding) (label : List Char) (r : Nat × Nat) (hr : OnChars label r)
    (h : ∀ c ∈ label, c.utf8Size = 1) : paramLabel enc true label r = some (.offsets r.1 r.2) := by
  obtain ⟨pre, mid, post, rfl, rfl⟩ := hr
  rw [paramLabel_eq, if_pos rfl, unitsOf_ascii enc pre fun c hc => h c (by simp [hc]),
    unitsOf_ascii enc (pre ++ mid) fun c hc => h c (List.mem_append_left _ hc)]

/-- **C77** (hover). At a place of the document the client gets the text of the hover, for the
range the analyzer computed. -/
theorem C77_hover (bd : Build) (enc : Encoding) (pre post : List Char)
    (hsize : utf8Len (pre ++ post) < 2 ^ 32) (hover : Nat × Nat → Option HoverInfo)
    (hr : ∀ h, hover (utf8Len pre, utf8Len pre) = some h → OnChars (pre ++ post) h.range) :
    (hover (utf8Len pre, utf8Len pre) = none ∧
      handleHover bd ⟨enc, pre ++ post⟩ hover (posOf enc pre) = .ok none) ∨
    ∃ h r, hover (utf8Len pre, utf8Len pre) = some h ∧
      handleHover bd ⟨enc, pre ++ post⟩ hover (posOf enc pre) = .ok (some r) ∧
      r.markdown = h.content ∧ RangeAt enc (pre ++ post) h.range r.range := by
  unfold handleHover
  rw [withOffset_at bd enc pre post hsize]
  cases hh : hover (utf8Len pre, utf8Len pre) with
  | none => exact Or.inl ⟨rfl, rfl⟩
  | some h =>
    right
    obtain ⟨q, hq, hat⟩ := range_at enc _ h.range (hr h hh)
    exact ⟨h, ⟨q, h.content⟩, rfl, by simp [lspHover, hq], rfl, hat⟩

/-- **C77** (hints). For a range of the document the client gets one hint for each hint of the
analyzer in that range, in order. -/
theorem C77_hints (bd : Build) (enc : Encoding) (pre mid post : List Char)
    (hsize : utf8Len (pre ++ mid ++ post) < 2 ^ 32) (hints : Nat × Nat → List Hint)
    (hr : ∀ h ∈ hints (utf8Len pre, utf8Len (pre ++ mid)),
      ∃ a b, pre ++ mid ++ post = a ++ b ∧ h.position = utf8Len a) :
    ∃ rs, handleInlayHint bd ⟨enc, pre ++ mid ++ post⟩ hints (posOf enc pre, posOf enc (pre ++ mid))
        = .ok (some rs) ∧
      Each (HintFor enc (pre ++ mid ++ post)) (hints (utf8Len pre, utf8Len (pre ++ mid))) rs := by
  have h1 := C08_offset bd enc pre (mid ++ post) (by rw [← List.append_assoc]; exact hsize)
  have h2 := C08_offset bd enc (pre ++ mid) post hsize
  rw [← List.append_assoc] at h1
  have hle : utf8Len pre ≤ utf8Len (pre ++ mid) := by rw [utf8Len_append]; omega
  have hfrom : fromLspRange bd enc (LineIndex.new (pre ++ mid ++ post))
      (posOf enc pre, posOf enc (pre ++ mid)) = .value (some (utf8Len pre, utf8Len (pre ++ mid))) := by
    have e1 : posOf enc pre = ⟨pre.count '\n', unitsOf enc (lastLine pre)⟩ := rfl
    have e2 : posOf enc (pre ++ mid)
      = ⟨(pre ++ mid).count '\n', unitsOf enc (lastLine (pre ++ mid))⟩ := rfl
    simp only [fromLspRange]
    rw [e1, h1, e2, h2]
    simp [hle, textRangeNew]
  unfold handleInlayHint withRange
  simp only [hfrom]
  refine ⟨_, rfl, each_filterMap _ fun h hm => ?_⟩
  obtain ⟨p, hp, hat⟩ := position_at enc _ h.position (hr h hm)
  exact ⟨_, by rw [lspInlayHint, hp]; rfl, hat, rfl, rfl, rfl, rfl, rfl⟩

/-- **C77** (parameters as text). For a client that gets the parameters of a signature as text, the text of a
parameter is the part of the label in its range, and the server survives exactly if the range delimits
characters of the label. -/
theorem C77_parameter (enc : Encoding) (label : List Char) (r : Nat × Nat) (x : ParamLabel) :
    paramLabel enc false label r = some x ↔
      ∃ pre mid post, label = pre ++ mid ++ post ∧ r = (utf8Len pre, utf8Len (pre ++ mid)) ∧
        x = .simple mid := by
  constructor
  · intro h
    unfold paramLabel at h
    simp only [Bool.false_eq_true, if_false] at h
    rw [Option.map_eq_some_iff] at h
    obtain ⟨mid, h, rfl⟩ := h
    unfold slice at h
    split at h
    · rename_i hle
      obtain ⟨rest, h1, h2⟩ := Option.bind_eq_some_iff.1 h
      obtain ⟨pre, rfl, h3⟩ := sliceFrom_some _ _ _ h1
      obtain ⟨post, rfl, h4⟩ := sliceTo_some _ _ _ h2
      refine ⟨pre, mid, post, by simp, ?_, rfl⟩
      rw [utf8Len_append]
      exact Prod.ext h3 (by simp only; omega)
    · cases h
  · rintro ⟨pre, mid, post, rfl, rfl, rfl⟩
    rw [paramLabel_eq]
    simp

/-- `C77_parameter`: the range of `é` in `aé` is (1, 3); a range that ends inside of it is a panic. -/
example : paramLabel .utf16 false ['a', 'é'] (1, 3) = some (.simple ['é']) ∧
    paramLabel .utf16 false ['a', 'é'] (1, 2) = none := by decide

/-- **C77** (diagnostics). Every diagnostic which delimits characters of the document is sent, with
its message and severity, at the right place. -/
theorem C77_diagnostics (enc : Encoding) (text : List Char) (ds : List Diag)
    (hr : ∀ d ∈ ds, OnChars text d.range) :
    Each (DiagFor enc text) ds (ds.filterMap (lspDiagnostic ⟨enc, text⟩)) := by
  apply each_filterMap
  intro d hd
  obtain ⟨q, hq, hat⟩ := range_at enc text d.range (hr d hd)
  refine ⟨_, by rw [lspDiagnostic, hq]; rfl, hat, rfl, ?_⟩
  cases h : d.severity with
  | error => exact Or.inl ⟨rfl, by simp [h]⟩
  | warning => exact Or.inr ⟨rfl, by simp [h]⟩

/-- **C77** (edits). A quick fix or refactoring whose edits delimit characters of the document is
sent with all its edits, in order, at the right places, under its label. -/
theorem C77_edits (enc : Encoding) (text : List Char) (uri : String) (b : Bool) (a : RawAction)
    (hk : a.kind = .quickFix ∨ a.kind = .refactor) (hne : a.edits ≠ [])
    (hr : ∀ e ∈ a.edits, OnChars text e.1) :
    ∃ r es, lspAction (a.translate ⟨enc, text⟩) uri b = some r ∧ r.title = a.label ∧
      r.edit = some es ∧ r.command = none ∧
      Each (fun e s => RangeAt enc text e.1 s.1 ∧ s.2 = e.2.1) a.edits es := by
  have hl : ¬(a.kind = .migrate) ∧ ¬(a.kind = .extract) := by
    rcases hk with h | h <;> simp [h]
  have heach : Each (fun (e : (Nat × Nat) × String × Option String)
        (s : (Pos × Pos) × String × Option String) => RangeAt enc text e.1 s.1 ∧ s.2 = e.2) a.edits
      (((a.translate ⟨enc, text⟩).edits).filterMap
        fun e => e.range.map fun r => (r, e.text, e.snippet)) := by
    simp only [RawAction.translate, List.filterMap_map]
    apply each_filterMap
    intro e he
    obtain ⟨q, hq, hat⟩ := range_at enc text e.1 (hr e he)
    exact ⟨(q, e.2), by simp [hq], hat, rfl⟩
  have hlen := heach.length
  unfold lspAction
  generalize hes : ((a.translate ⟨enc, text⟩).edits).filterMap
        (fun e => e.range.map fun r => (r, e.text, e.snippet)) = es at heach hlen
  have hes' : es.isEmpty = false := by
    cases es with
    | nil => simp at hlen; exact absurd hlen hne
    | cons x xs => rfl
  have hl1 : decide ((a.translate ⟨enc, text⟩).kind = .migrate) = false := by
    exact decide_eq_false hl.1
  have hl2 : decide ((a.translate ⟨enc, text⟩).kind = .extract) = false := by
    exact decide_eq_false hl.2
  simp only [hl1, hl2, Bool.or_self, Bool.false_or, hes', Bool.not_false, if_true]
  refine ⟨_, es.map fun e => (e.1, e.2.1), rfl, rfl, rfl, rfl, ?_⟩
  · clear hlen hes hes' hne hr
    generalize a.edits = l at heach
    induction heach with
    | nil => exact .nil
    | cons h _ ih => exact .cons ⟨h.1, congrArg Prod.fst h.2⟩ ih

/-- **C77** (code actions, partial). A client which announced code action literals, among whose
kinds is one of the server's, and which keeps data if it resolves edits lazily, can use every
action it gets. Missing: the three cases below, in which it cannot. -/
theorem C77_code_actions_partial (bd : Build) (caps : ClientCaps) (ctx : Context) (uri : String)
    (actions : Nat × Nat → List RawAction) (r : Pos × Pos) (answer : List LspAction)
    (client : List String) (hlit : caps.codeActionKinds = some client)
    (hkind : ∃ k ∈ client, k = "" ∨ k = "quickfix" ∨ k = "refactor" ∨ k = "refactor.rewrite")
    (hdata : CanResolve caps → caps.dataSupport = some true)
    (h : handleCodeAction bd caps ctx uri actions r = .ok (some answer)) :
    ∀ a ∈ answer, Usable caps a := by
  have hprov : codeActionResolveProvider caps = true := by
    obtain ⟨k, hk, hs⟩ := hkind
    unfold codeActionResolveProvider
    cases hc : codeActionsKinds caps with
    | some _ => rfl
    | none =>
      simp only [codeActionsKinds, hlit] at hc
      split at hc
      · rename_i hf
        simp only [List.isEmpty_iff, List.filter_eq_nil_iff] at hf
        have : k ∈ serverCodeActionKinds := by
          rcases hs with rfl | rfl | rfl | rfl <;> decide
        exact absurd (by simpa using hk) (hf k this)
      · simp at hc
  unfold handleCodeAction withRange at h
  split at h
  · simp at h
  · simp at h
  · simp only [Answer.ok.injEq, Option.some.injEq] at h
    subst h
    intro a ha
    rw [List.mem_filterMap] at ha
    obtain ⟨x, _, hx⟩ := ha
    unfold lspAction at hx
    simp only at hx
    split at hx
    · rename_i hcond
      simp only [Option.some.injEq] at hx
      subst hx
      by_cases hl : (decide ((x.translate ctx).kind = .migrate)
          || decide ((x.translate ctx).kind = .extract)) = true
      · right
        by_cases hres : codeActionEditResolveSupport caps = true
        · right
          have := (canResolve_iff caps).1 hres
          exact ⟨by simp [hl, hres], this, hdata this, hprov⟩
        · left
          refine ⟨commandName (x.translate ctx).kind, _, by simp only [hl, hres, if_true]; rfl, ?_⟩
          unfold commandName
          split <;> decide
      · left
        have hl' := Bool.eq_false_iff.2 hl
        simp only [hl', Bool.false_or, Bool.not_eq_true', List.isEmpty_eq_false_iff] at hcond
        refine ⟨_, by
          simp only [hl', Bool.not_false, Bool.true_and]
          rw [if_pos (by simpa using hcond)], ?_⟩
        simpa using hcond
    · simp at hx

/-- A document, an action and a request which the negations share: a lazily computed migration. -/
def lazyAction : RawAction := ⟨"Migrate", .migrate, (0, 0), []⟩

/-- **C77 is false of the code** (literals): code actions are sent to a client which did not
announce code action literals and therefore only understands commands. -/
theorem C77_negation_literals :
    ¬ ∀ (bd : Build) (caps : ClientCaps) (ctx : Context) (uri : String)
      (actions : Nat × Nat → List RawAction) (r : Pos × Pos) (answer : List LspAction),
      handleCodeAction bd caps ctx uri actions r = .ok (some answer) → answer ≠ [] →
        caps.codeActionKinds ≠ none := by
  intro h
  exact h .release {} ⟨.utf16, []⟩ "" (fun _ => [⟨"Fix", .quickFix, (0, 0), [((0, 0), "a", none)]⟩])
    (⟨0, 0⟩, ⟨0, 0⟩) _ rfl (by simp [lspAction, RawAction.translate, Context.range, toLspRange,
      toPosition, LineIndex.tryLineCol, LineIndex.new, newlineTable, LineIndex.startOffset, wideTable,
      Encoding.wide?, toWideLoop, utf8Len]) rfl

/-- **C77 is false of the code** (resolving): a client which resolves edits and keeps data, but
lists no kind of code action the server knows, gets an action without edit or command from a server
which did not announce that it resolves. -/
theorem C77_negation_resolve :
    ¬ ∀ (bd : Build) (caps : ClientCaps) (ctx : Context) (uri : String)
      (actions : Nat × Nat → List RawAction) (r : Pos × Pos) (answer : List LspAction),
      caps.codeActionKinds ≠ none → caps.dataSupport = some true →
      handleCodeAction bd caps ctx uri actions r = .ok (some answer) →
        ∀ a ∈ answer, Usable caps a := by
  intro h
  let caps : ClientCaps :=
    { codeActionKinds := some ["source"]
      codeActionResolve := some ["edit"]
      dataSupport := some true }
  have := h .release caps ⟨.utf16, []⟩ "" (fun _ => [lazyAction]) (⟨0, 0⟩, ⟨0, 0⟩) _
    (by simp) rfl rfl _ (List.mem_singleton.2 rfl)
  rcases this with ⟨_, h, _⟩ | ⟨_, _, h, _⟩ | ⟨_, _, _, h⟩
  · simp [RawAction.translate, lazyAction] at h
  · simp [RawAction.translate, lazyAction, codeActionEditResolveSupport, caps] at h
  · revert h; decide

/-- **C77 is false of the code** (data): a client which resolves edits but does not keep the data
of an action gets actions which only carry data. -/
theorem C77_negation_data :
    ¬ ∀ (bd : Build) (caps : ClientCaps) (ctx : Context) (uri : String)
      (actions : Nat × Nat → List RawAction) (r : Pos × Pos) (answer : List LspAction),
      codeActionResolveProvider caps = true →
      handleCodeAction bd caps ctx uri actions r = .ok (some answer) →
        ∀ a ∈ answer, Usable caps a := by
  intro h
  have := h .release { codeActionKinds := some ["refactor"], codeActionResolve := some ["edit"] }
    ⟨.utf16, []⟩ "" (fun _ => [lazyAction]) (⟨0, 0⟩, ⟨0, 0⟩) _
    (by decide) rfl _ (List.mem_singleton.2 rfl)
  rcases this with ⟨_, h, _⟩ | ⟨_, _, h, _⟩ | ⟨_, _, h, _⟩
  · simp [RawAction.translate, lazyAction] at h
  · simp [RawAction.translate, lazyAction, codeActionEditResolveSupport] at h
  · simp at h

/-! ## Concrete cases -/

/-- A completion with a snippet after a two-byte character, for a client with and without support
for snippets. -/
example : handleCompletion .debug { snippetSupport := some true } ⟨.utf16, ['é', 'x']⟩
      (fun o => [⟨"l", .fn, none, (o, 3), "plain", some "snip$0"⟩]) ⟨0, 1⟩
    = .ok (some [⟨"l", 3, none, some 2, (⟨0, 1⟩, ⟨0, 2⟩), "snip$0"⟩]) ∧
  handleCompletion .debug {} ⟨.utf16, ['é', 'x']⟩
      (fun o => [⟨"l", .fn, none, (o, 3), "plain", some "snip$0"⟩]) ⟨0, 1⟩
    = .ok (some [⟨"l", 3, none, none, (⟨0, 1⟩, ⟨0, 2⟩), "plain"⟩]) := ⟨rfl, rfl⟩

example : OnChars ['é', 'x'] (2, 3) := ⟨['é'], ['x'], [], rfl, by decide⟩

/-- The second parameter of a label, by offsets and as a text. -/
example : paramLabel .utf16 true "é, ab".toList (4, 6) = some (.offsets 3 5) ∧
    paramLabel .utf8 true "é, ab".toList (4, 6) = some (.offsets 4 6) ∧
    paramLabel .utf16 false "é, ab".toList (4, 6) = some (.simple ['a', 'b']) ∧
    paramLabel .utf16 true "é, ab".toList (1, 6) = none := by decide

example : OnChars "é, ab".toList (4, 6) := ⟨['é', ',', ' '], ['a', 'b'], [], by decide, by decide⟩

/-- A client which meets the conditions of `C77_code_actions_partial` and resolves edits. -/
example : ∃ a, handleCodeAction .release
      ({ codeActionKinds := some ["refactor"], codeActionResolve := some ["edit"]
         dataSupport := some true } : ClientCaps)
      ⟨.utf16, []⟩ "u" (fun _ => [lazyAction]) (⟨0, 0⟩, ⟨0, 0⟩) = .ok (some [a]) ∧
    a.edit = none ∧ a.command = none ∧ a.data ≠ none :=
  ⟨_, rfl, rfl, rfl, by simp [lazyAction, RawAction.translate, codeActionEditResolveSupport]⟩

end Verif.Lsp
