import Verif.Lsp.Bulb
import Verif.Lsp.ScreenProps
import Verif.Lsp.ClientProps

/-!
# C118: every fix of a shown problem is offered and does to the text of the client what it was made for
-/

namespace Verif.Lsp.Bulb

open Spec Screen Client

/-! ## Specification -/

/-- The edit of the analyzer is for the part `old` between `pre` and `post` of the text. Places inside a
`\r\n` are excluded, no position of a client can be there. -/
def IsFor (text : List Char) (e : Verif.Analyzer.Edit) (pre old post : List Char) : Prop :=
  text = pre ++ old ++ post ∧ e.start = utf8Len pre ∧ e.stop = utf8Len (pre ++ old) ∧
    ¬ InsideEol pre (old ++ post) ∧ ¬ InsideEol (pre ++ old) post

/-- The client replaces the part of its text that the edit is for, with the text of the edit. -/
def SameChange (enc : Encoding) (text : List Char) (e : Verif.Analyzer.Edit) (c : (Pos × Pos) × String) :
    Prop :=
  ∃ pre old post, IsFor text e pre old post ∧ part enc text c.1 = some (pre, old, post) ∧
    c.2.toList = e.text

/-- The action makes these edits in the text of the client, all of them, in their order and without another
command. -/
def Makes (enc : Encoding) (text : List Char) (edits : List Verif.Analyzer.Edit) (r : LspAction) : Prop :=
  ∃ cs, r.edit = some cs ∧ r.command = none ∧ Each (SameChange enc text) edits cs

/-- The selection touches the fix: it is inside the range that the fix is for, or includes it. -/
def Touches (sel range : Nat × Nat) : Prop :=
  (sel.1 ≤ range.1 ∧ range.2 ≤ sel.2) ∨ (range.1 ≤ sel.1 ∧ sel.2 ≤ range.2)

/-! ## Lemmas -/

theorem unique_first {α κ : Type} [DecidableEq κ] (key : α → κ) (seen : List κ) (a b : List α) (x : α)
    (hx : x ∈ a) (hs : key x ∉ seen) :
    ∃ y ∈ a, y ∈ Verif.Util.uniqueByFrom key seen (a ++ b) ∧ key y = key x := by
  induction a generalizing seen with
  | nil => cases hx
  | cons z zs ih =>
    rw [List.cons_append, Verif.Util.uniqueByFrom]
    by_cases hz : key z ∈ seen
    · rw [if_pos hz]
      rcases List.mem_cons.1 hx with rfl | hx
      · exact absurd hz hs
      · obtain ⟨y, h1, h2, h3⟩ := ih seen hx hs
        exact ⟨y, by simp [h1], h2, h3⟩
    · rw [if_neg hz]
      by_cases he : key x = key z
      · exact ⟨z, by simp, by simp, he.symm⟩
      · rcases List.mem_cons.1 hx with rfl | hx
        · exact absurd rfl he
        · obtain ⟨y, h1, h2, h3⟩ := ih (key z :: seen) hx (by simp [he, hs])
          exact ⟨y, by simp [h1], by simp [h2], h3⟩

/-- A touched fix of a reported problem has an offered quick fix with its edits. -/
theorem offered (fmt : Verif.Analyzer.Edit → Verif.Analyzer.Edit) (diags : List Verif.Analyzer.Diag)
    (acts : List Verif.Analyzer.Action) (sel : Nat × Nat)
    (hkind : ∀ d ∈ diags, ∀ l, d.quickfixes = some l → ∀ q ∈ l, q.kind = .quickFix)
    (kept : List Verif.Analyzer.Diag)
    (hkept : Verif.Analyzer.diagnostics fmt diags = kept.map (Verif.Analyzer.Diag.format fmt))
    (hsub : kept.Sublist diags)
    (d : Verif.Analyzer.Diag) (hd : d ∈ kept) (l : List Verif.Analyzer.Action) (hl : d.quickfixes = some l)
    (q : Verif.Analyzer.Action) (hq : q ∈ l) (ht : Touches sel q.range) :
    ∃ a ∈ Verif.Analyzer.actions fmt diags acts sel, a.kind = .quickFix ∧ a.edits = q.edits.map fmt := by
  have hmem : q.format fmt ∈ Verif.Analyzer.quickfixesFor (Verif.Analyzer.diagnostics fmt diags) sel := by
    rw [Verif.Analyzer.mem_quickfixesFor]
    refine ⟨ht, d.format fmt, by rw [hkept]; exact List.mem_map_of_mem hd, l.map (·.format fmt), ?_,
      List.mem_map_of_mem hq⟩
    simp [Verif.Analyzer.Diag.format, hl]
  obtain ⟨a, h1, h2, h3⟩ := unique_first (fun a : Verif.Analyzer.Action => a.edits) [] _
    (Verif.Analyzer.fileActions fmt acts) _ hmem (by simp)
  refine ⟨a, Verif.Util.mem_sortBy.2 h2, ?_, h3⟩
  rw [Verif.Analyzer.mem_quickfixesFor] at h1
  obtain ⟨-, d', hd', l', hl', ha⟩ := h1
  rw [hkept] at hd'
  obtain ⟨k, hk, rfl⟩ := List.mem_map.1 hd'
  simp only [Verif.Analyzer.Diag.format, Option.map_eq_some_iff] at hl'
  obtain ⟨l0, hl0, rfl⟩ := hl'
  obtain ⟨a0, ha0, rfl⟩ := List.mem_map.1 ha
  exact hkind k (hsub.subset hk) l0 hl0 a0 ha0

/-- A quick fix is sent with all its edits, and a client makes them where they are meant. -/
theorem makes (enc : Encoding) (text : List Char) (uri : String) (b : Bool) (a : Verif.Analyzer.Action)
    (hk : a.kind = .quickFix) (hne : a.edits ≠ []) (hcr : NoLoneCr text)
    (hr : ∀ e ∈ a.edits, ∃ pre old post, IsFor text e pre old post) :
    ∃ r, lspAction ((rawAction a).translate ⟨enc, text⟩) uri b = some r ∧ r.title = a.label ∧
      Makes enc text a.edits r := by
  have hk' : (rawAction a).kind = .quickFix ∨ (rawAction a).kind = .refactor := by
    left; simp [rawAction, hk, rawKind]
  have hne' : (rawAction a).edits ≠ [] := by simpa [rawAction] using hne
  have hr' : ∀ e ∈ (rawAction a).edits, ∃ pre mid post, text = pre ++ mid ++ post ∧
      e.1 = (utf8Len pre, utf8Len (pre ++ mid)) ∧ ¬ InsideEol pre (mid ++ post) ∧
      ¬ InsideEol (pre ++ mid) post := by
    intro e he
    obtain ⟨x, hx, rfl⟩ := List.mem_map.1 he
    obtain ⟨pre, old, post, h1, h2, h3, h4, h5⟩ := hr x hx
    exact ⟨pre, old, post, h1, by simp [rawEdit, h2, h3], h4, h5⟩
  obtain ⟨r, es, h1, h2, h3⟩ := C115_edits_partial enc text uri b (rawAction a) hk' hne' hcr hr'
  obtain ⟨r', es', g1, g2, g3, g4, g5⟩ := C77_edits enc text uri b (rawAction a) hk' hne' (by
    intro e he
    obtain ⟨pre, mid, post, e1, e2, -, -⟩ := hr' e he
    exact ⟨pre, mid, post, e1, e2⟩)
  have hrr : r = r' := by
    rw [h1] at g1; exact Option.some.inj g1
  subst hrr
  refine ⟨r, h1, g2, es, h2, g4, ?_⟩
  clear h1 h2 g1 g2 g3 g4 g5 hr' hne' hk' hne
  change Each _ (a.edits.map rawEdit) es at h3
  have h4 := each_of_map rawEdit h3
  clear h3
  revert hr
  generalize a.edits = xs at h4
  intro hr
  induction h4 with
  | nil => exact .nil
  | @cons e s xs ys hes _ ih =>
    refine .cons ?_ (ih fun e he => hr e (by simp [he]))
    obtain ⟨pre, mid, post, e1, e2, e3, e4⟩ := hes
    obtain ⟨pre', old', post', f1, f2, f3, f4, f5⟩ := hr e (by simp)
    simp only [rawEdit, Prod.mk.injEq] at e2
    have inj : ∀ (p q p' q' : List Char), p ++ q = p' ++ q' → utf8Len p = utf8Len p' → p = p' := by
      intro p
      induction p with
      | nil =>
        intro q p' q' _ hl
        cases p' with
        | nil => rfl
        | cons c cs => have := utf8Len_pos c cs; simp only [utf8Len] at hl this; omega
      | cons c cs ih =>
        intro q p' q' happ hl
        cases p' with
        | nil => have := utf8Len_pos c cs; simp only [utf8Len] at hl this; omega
        | cons d ds =>
          rw [List.cons_append, List.cons_append] at happ
          injection happ with h1 h2
          subst h1
          rw [ih q ds q' h2 (by simp only [utf8Len] at hl; omega)]
    have hp : pre = pre' := inj pre (mid ++ post) pre' (old' ++ post')
      (by rw [← List.append_assoc, ← List.append_assoc, ← e1, ← f1]) (by rw [← e2.1, ← f2])
    subst hp
    have hm : pre ++ mid = pre ++ old' := inj (pre ++ mid) post (pre ++ old') post'
      (by rw [← e1, ← f1]) (by rw [← e2.2, ← f3])
    have hm := List.append_cancel_left hm
    subst hm
    refine ⟨pre, mid, post', ⟨f1, f2, f3, f4, f5⟩, ?_, by rw [e4]; simp [rawEdit]⟩
    rw [e3]
    rw [f1] at e1
    rw [List.append_cancel_left e1]

theorem from_selection (bd : Build) (enc : Encoding) (pre sel post : List Char)
    (hsize : utf8Len (pre ++ sel ++ post) < 2 ^ 32) (h1 : NoLoneCr pre) (h2 : NoLoneCr (pre ++ sel)) :
    fromLspRange bd enc (LineIndex.new (pre ++ sel ++ post))
      (positionOf enc pre, positionOf enc (pre ++ sel)) =
      .value (some (utf8Len pre, utf8Len (pre ++ sel))) := by
  have g1 := C115_received_partial bd enc pre (sel ++ post) (by rw [← List.append_assoc]; exact hsize) h1
  have g2 := C115_received_partial bd enc (pre ++ sel) post hsize h2
  rw [← List.append_assoc] at g1
  have hle : utf8Len pre ≤ utf8Len (pre ++ sel) := by rw [utf8Len_append]; omega
  simp only [fromLspRange]
  rw [g1, g2]
  simp [hle, textRangeNew]

/-! ## C118 -/

/-- **C118** (one request, partial). When the client asks for the code actions of a selection, then every fix of a
reported problem which the selection touches is offered as an action that makes exactly the edits of the fix in
the text of the client. (Missing: texts with a lone `\r`, where it is false.) -/
theorem C118_offered_partial (bd : Build) (caps : ClientCaps)
    (raw : String → Version → List Verif.Analyzer.Diag)
    (acts : String → Version → Nat × Nat → List Verif.Analyzer.Action)
    (fmt : String → Verif.Analyzer.Edit → Verif.Analyzer.Edit) (s : Snapshot) (uri : String)
    (hcr : NoLoneCr s.content.toList) (hsize : utf8Len s.content.toList < 2 ^ 32)
    (hkind : ∀ d ∈ raw s.content s.lang, ∀ l, d.quickfixes = some l → ∀ q ∈ l, q.kind = .quickFix)
    (pre sel post : List Char) (htext : s.content.toList = pre ++ sel ++ post)
    (hsel1 : ¬ InsideEol pre (sel ++ post)) (hsel2 : ¬ InsideEol (pre ++ sel) post) :
    ∃ answer, codeActions bd caps raw acts fmt s uri
        (positionOf s.encoding pre, positionOf s.encoding (pre ++ sel)) = .ok (some answer) ∧
      ∀ kept : List Verif.Analyzer.Diag, kept.Sublist (raw s.content s.lang) →
        Verif.Analyzer.diagnostics (fmt s.content) (raw s.content s.lang) =
          kept.map (Verif.Analyzer.Diag.format (fmt s.content)) →
        ∀ d ∈ kept, ∀ l, d.quickfixes = some l → ∀ q ∈ l,
          Touches (utf8Len pre, utf8Len (pre ++ sel)) q.range → q.edits ≠ [] →
          (∀ e ∈ q.edits, ∃ a o b, IsFor s.content.toList (fmt s.content e) a o b) →
          ∃ r ∈ answer, Makes s.encoding s.content.toList (q.edits.map (fmt s.content)) r := by
  have h1 : NoLoneCr pre := noLoneCr_prefix pre (sel ++ post)
    (by rw [← List.append_assoc, ← htext]; exact hcr) hsel1
  have h2 : NoLoneCr (pre ++ sel) := noLoneCr_prefix (pre ++ sel) post (by rw [← htext]; exact hcr) hsel2
  have hf := from_selection bd s.encoding pre sel post (by rw [← htext]; exact hsize) h1 h2
  rw [← htext] at hf
  unfold codeActions handleCodeAction withRange
  dsimp only
  rw [hf]
  refine ⟨_, rfl, ?_⟩
  intro kept hsub hkept d hd l hl q hq ht hne hon
  obtain ⟨a, ha, hak, hae⟩ := offered (fmt s.content) (raw s.content s.lang)
    (acts s.content s.lang (utf8Len pre, utf8Len (pre ++ sel))) _ hkind kept hkept hsub d hd l hl q hq ht
  obtain ⟨r, hr, -, hm⟩ := makes s.encoding s.content.toList uri (codeActionEditResolveSupport caps) a hak
    (by rw [hae]; simpa using hne) hcr (by
      intro e he
      rw [hae] at he
      obtain ⟨x, hx, rfl⟩ := List.mem_map.1 he
      exact hon x hx)
  refine ⟨r, ?_, by rw [← hae]; exact hm⟩
  rw [List.mem_filterMap]
  exact ⟨rawAction a, List.mem_map_of_mem ha, hr⟩

/-- **C118** (session, partial). At any moment of any session, for an open document: the problems which the
client shows are some of the reports for its current text, and whenever the client asks for the code actions of a
selection, it gets one answer, and every fix of a shown problem which the selection touches is offered in it as
an action that makes exactly the edits of the fix in the text of the client. (Missing: texts with a lone `\r`,
where it is false.) -/
theorem C118_session_partial (cfg : Config) (bd : Build)
    (raw : String → Version → List Verif.Analyzer.Diag)
    (acts : String → Version → Nat × Nat → List Verif.Analyzer.Action)
    (fmt : String → Verif.Analyzer.Edit → Verif.Analyzer.Edit) (json : LspDiag → Json)
    (h : List (World × ClientMsg)) (s : State) (out : List ServerMsg) (hd : DrainsOnce h)
    (hr : run cfg .init h = (.running s, out))
    (hD : ∀ x ∈ h, x.1.diagnostics = snapshotDiagnostics raw fmt json)
    (hurl : ∀ docs msg u d, msg ∈ h.map (·.2) → effect cfg docs msg = some (u, d) →
      cfg.urlParse u = some u)
    (uri : String) (d : Doc) (v : Version) (hdoc : docsAfter cfg (h.map (·.2)) uri = some d)
    (hv : (langsAfter cfg h).lang uri = some v)
    (hon : ∀ r ∈ raw d.content v, OnChars d.content.toList r.range)
    (hkind : ∀ d' ∈ raw d.content v, ∀ l, d'.quickfixes = some l → ∀ q ∈ l, q.kind = .quickFix)
    (hcr : NoLoneCr d.content.toList) (hsize : utf8Len d.content.toList < 2 ^ 32)
    (w : World) (actionsJson : List LspAction → Json) (range : Json → Option (Pos × Pos))
    (hw : ∀ (snap : Snapshot) (rest : Json) (r : Pos × Pos) (as : List LspAction), range rest = some r →
      codeActions bd cfg.caps raw acts fmt snap uri r = .ok (some as) →
      w.codeAction.answer snap rest = .ok (actionsJson as)) :
    ∃ kept : List Verif.Analyzer.Diag, kept.Sublist (raw d.content v) ∧
      Each (Shows (positionEncoding cfg.caps) d.content.toList json) kept (screen out uri) ∧
      ∀ (req : Request) (rest : Json) (pre sel post : List Char), req.method = "textDocument/codeAction" →
        w.codeAction.decode req.params = some (uri, rest) →
        range rest = some (positionOf (positionEncoding cfg.caps) pre,
          positionOf (positionEncoding cfg.caps) (pre ++ sel)) →
        d.content.toList = pre ++ sel ++ post →
        ¬ InsideEol pre (sel ++ post) → ¬ InsideEol (pre ++ sel) post →
        ∃ answer, (step cfg w s (.request req)).2 =
            [.response ⟨req.id, some (actionsJson answer), none⟩] ∧
          ∀ k ∈ kept, ∀ l, k.quickfixes = some l → ∀ q ∈ l,
            Touches (utf8Len pre, utf8Len (pre ++ sel)) q.range → q.edits ≠ [] →
            (∀ e ∈ q.edits, ∃ a o b, IsFor d.content.toList (fmt d.content e) a o b) →
            ∃ r ∈ answer,
              Makes (positionEncoding cfg.caps) d.content.toList (q.edits.map (fmt d.content)) r := by
  obtain ⟨kept, k1, k2, -, -, -⟩ :=
    Verif.Analyzer.C35_dedup_partial (fmt d.content) (raw d.content v)
  refine ⟨kept, k2, ?_, ?_⟩
  · have hs := C117_screen cfg _ h s out hd hr hD hurl uri
    rw [hdoc] at hs
    simp only [hv, Option.getD_some] at hs
    rw [hs]
    exact shows_kept raw fmt json ⟨d.content, positionEncoding cfg.caps, some d.version, v⟩ kept k1 k2 hon
  · intro req rest pre sel post hm hp hrange htext hs1 hs2
    obtain ⟨answer, ha, hall⟩ := C118_offered_partial bd cfg.caps raw acts fmt
      ⟨d.content, positionEncoding cfg.caps, some d.version, v⟩ uri hcr hsize hkind pre sel post htext hs1 hs2
    refine ⟨answer, ?_, hall kept k2 k1⟩
    have hc := C01_answers_from_current_text cfg h s out hd hr w req w.codeAction uri rest
      (by rw [hm]; simp [documentFeatures]) hp
    rw [hdoc] at hc
    simp only [hv, Option.getD_some] at hc
    rw [hw _ _ _ _ hrange ha] at hc
    exact hc

/-- A rule that reports the first word of every document and offers to replace its last letter (examples only). -/
def fixRule (_ : String) (_ : Version) : List Verif.Analyzer.Diag :=
  [⟨"m", (0, 3), .error, some [⟨"l", .quickFix, (0, 3), [⟨['x'], 2, 3, none⟩]⟩]⟩]

/-- The session of `demoHistory` with this rule (examples only). -/
def fixSession : List (World × ClientMsg) :=
  demoHistory.map fun x =>
    ({ x.1 with diagnostics := snapshotDiagnostics fixRule (fun _ e => e) sampleJson }, x.2)

/-- Serialization of the actions of an answer (examples only). -/
def actionsJson (l : List LspAction) : Json := .arr (l.map fun a => .str a.title)

/-- The selection of every request is behind the first letter of the document (examples only). -/
def fixRange (_ : Json) : Option (Pos × Pos) := some (⟨0, 1⟩, ⟨0, 1⟩)

/-- A server that answers requests for code actions with this rule (examples only). -/
def fixWorld : World :=
  { demoWorld with
    codeAction := ⟨demoFeature.decode, fun s rest =>
      match fixRange rest with
      | none => .error "range"
      | some r =>
        match codeActions .release demoConfig.caps fixRule (fun _ _ _ => []) (fun _ e => e) s "file:///a.rs" r with
        | .ok (some as) => .ok (actionsJson as)
        | _ => .error "range"⟩ }

example : DrainsOnce fixSession ∧
    (∀ x ∈ fixSession, x.1.diagnostics = snapshotDiagnostics fixRule (fun _ e => e) sampleJson) ∧
    docsAfter demoConfig (fixSession.map (·.2)) "file:///a.rs" = some ⟨"mod b {}", 2⟩ ∧
    (langsAfter demoConfig fixSession).lang "file:///a.rs" = some .v5 ∧
    (∀ r ∈ fixRule "mod b {}" .v5, OnChars "mod b {}".toList r.range) ∧
    (∀ (snap : Snapshot) (rest : Json) (r : Pos × Pos) (as : List LspAction), fixRange rest = some r →
      codeActions .release demoConfig.caps fixRule (fun _ _ _ => []) (fun _ e => e) snap "file:///a.rs" r =
        .ok (some as) →
      fixWorld.codeAction.answer snap rest = .ok (actionsJson as)) ∧
    fixRange .null = some (positionOf .utf16 ['m'], positionOf .utf16 (['m'] ++ [])) ∧
    positionEncoding demoConfig.caps = .utf16 ∧
    Touches (1, 1) (0, 3) ∧
    IsFor "mod b {}".toList ⟨['x'], 2, 3, none⟩ ['m', 'o'] ['d'] " b {}".toList ∧
    screen (run demoConfig .init fixSession).2 "file:///a.rs" = [.str "m"] ∧
    fixWorld.codeAction.answer ⟨"mod b {}", .utf16, some 2, .v5⟩ .null = .ok (.arr [.str "l"]) := by
  refine ⟨?_, ?_, rfl, rfl, ?_, ?_, by decide, rfl, by unfold Touches; omega, ?_, rfl, rfl⟩
  · intro x hx l
    simp only [fixSession, List.mem_map] at hx
    obtain ⟨y, hy, rfl⟩ := hx
    exact demo_drains y hy l
  · intro x hx
    simp only [fixSession, List.mem_map] at hx
    obtain ⟨y, hy, rfl⟩ := hx
    rfl
  · intro r hr
    simp only [fixRule, List.mem_cons, List.not_mem_nil, or_false] at hr
    subst hr
    exact ⟨[], ['m', 'o', 'd'], " b {}".toList, rfl, rfl⟩
  · intro snap rest r as h1 h2
    simp only [fixWorld, h1, h2]
  · refine ⟨rfl, rfl, rfl, ?_, ?_⟩ <;> · rintro ⟨h, -⟩; revert h; decide

/-- A rule that reports the last letter of `a\rb` and offers to replace it (finding only). -/
def crRule (_ : String) (_ : Version) : List Verif.Analyzer.Diag :=
  [⟨"m", (2, 3), .error, some [⟨"l", .quickFix, (2, 3), [⟨['x'], 2, 3, none⟩]⟩]⟩]

/-- Finding: behind a lone `\r` the fix of a reported problem cannot be had. In `a\rb`, the client asks for the
code actions at the `b`, which is reported with a fix, and gets an error. The answer for the first three characters
of line 0 has the fix, but the client inserts its text behind the `a` and leaves the `b`. -/
theorem C118_negation :
    (∀ bd caps, codeActions bd caps crRule (fun _ _ _ => []) (fun _ e => e)
      ⟨"a\rb", .utf16, none, .v5⟩ "u" (positionOf .utf16 ['a', '\r'], positionOf .utf16 ['a', '\r', 'b']) =
        .error "Invalid range.") ∧
    Touches (utf8Len ['a', '\r'], utf8Len ['a', '\r', 'b']) (2, 3) ∧
    ∃ r, codeActions .release {} crRule (fun _ _ _ => []) (fun _ e => e)
      ⟨"a\rb", .utf16, none, .v5⟩ "u" (⟨0, 0⟩, ⟨0, 3⟩) = .ok (some [r]) ∧
      r.edit = some [((⟨0, 2⟩, ⟨0, 3⟩), "x")] ∧
      part .utf16 "a\rb".toList (⟨0, 2⟩, ⟨0, 3⟩) = some (['a'], [], ['\r', 'b']) := by
  refine ⟨?_, by unfold Touches; decide, _, rfl, rfl, by decide⟩
  intro bd caps
  cases bd <;> rfl

end Verif.Lsp.Bulb
