import Verif.Lsp.Screen
import Verif.Lsp.ServerProps
import Verif.Lsp.TranslateProps
import Verif.Analyzer.DedupProps

/-!
# C117: the problems shown for a document are those of its current text
-/

namespace Verif.Lsp.Screen

open Spec

/-! ## Specification -/

/-- What a client shows for a document after the messages of the server: by LSP 3.17 a publication
replaces everything that was published for the document before. -/
def screen (out : List ServerMsg) (uri : String) : List Json :=
  out.foldl (fun shown m =>
    match m with
    | .publish u ds _ => if u = uri then ds else shown
    | _ => shown) []

/-- The diagnostic of the protocol for a report: its message, at its place (LSP 3.17: 1 is an error, 2 a
warning). -/
def Shows (enc : Encoding) (text : List Char) (json : LspDiag → Json) (d : Verif.Analyzer.Diag)
    (j : Json) : Prop :=
  ∃ l : LspDiag, j = json l ∧ RangeAt enc text d.range l.range ∧ l.message = d.message ∧
    ((d.severity = .error ∧ l.severity = 1) ∨ (d.severity = .warning ∧ l.severity = 2))

/-! ## Lemmas -/

theorem screen_append (a b : List ServerMsg) (uri : String) :
    screen (a ++ b) uri =
      b.foldl (fun shown m =>
        match m with
        | .publish u ds _ => if u = uri then ds else shown
        | _ => shown) (screen a uri) := by
  simp [screen]

theorem fold_nothing (b : List ServerMsg) (uri : String) (init : List Json) (h : published b = []) :
    b.foldl (fun shown m =>
        match m with
        | .publish u ds _ => if u = uri then ds else shown
        | _ => shown) init = init := by
  induction b generalizing init with
  | nil => rfl
  | cons m b ih =>
    cases m with
    | publish u ds v => simp [published] at h
    | response r =>
      rw [List.foldl_cons]
      exact ih _ (by simpa [published] using h)
    | request i m p =>
      rw [List.foldl_cons]
      exact ih _ (by simpa [published] using h)

theorem run_snoc (cfg : Config) (x : World × ClientMsg) :
    ∀ (a : List (World × ClientMsg)) (t s : State) (out : List ServerMsg),
      run cfg t (a ++ [x]) = (.running s, out) →
      ∃ s0 o0 o1, run cfg t a = (.running s0, o0) ∧ step cfg x.1 s0 x.2 = (.running s, o1) ∧
        out = o0 ++ o1 := by
  intro a
  induction a with
  | nil =>
    intro t s out h
    obtain ⟨w, msg⟩ := x
    simp only [List.nil_append, run] at h
    cases hs : step cfg w t msg with
    | mk o out1 =>
      cases o with
      | stopped => simp [hs] at h
      | running s1 =>
        simp only [hs, Prod.mk.injEq, Outcome.running.injEq, List.append_nil] at h
        exact ⟨t, [], out1, rfl, by rw [hs, h.1], by simp [h.2]⟩
  | cons y ys ih =>
    intro t s out h
    obtain ⟨w, msg⟩ := y
    simp only [List.cons_append, run] at h ⊢
    cases hs : step cfg w t msg with
    | mk o out1 =>
      cases o with
      | stopped => simp [hs] at h
      | running s1 =>
        simp only [hs, Prod.mk.injEq] at h ⊢
        obtain ⟨s0, o0, o1, h1, h2, h3⟩ := ih s1 s (run cfg s1 (ys ++ [x])).2 (by rw [← h.1])
        refine ⟨s0, out1 ++ o0, o1, ?_, h2, ?_⟩
        · simp [h1]
        · rw [← h.2, h3, List.append_assoc]

theorem effect_not_notification (cfg : Config) (docs : Docs) (msg : ClientMsg)
    (h : ∀ m p, msg ≠ .notification m p) : effect cfg docs msg = none := by
  cases msg with
  | notification m p => exact absurd rfl (h m p)
  | request r => rfl
  | response i => rfl

/-! ## C117 -/

/-- **C117** (session). At any moment of any session the client shows, for every open document, the
diagnostics of its current text, and nothing for any other document. -/
theorem C117_screen (cfg : Config) (D : Snapshot → List Json) (h : List (World × ClientMsg))
    (s : State) (out : List ServerMsg) (hd : DrainsOnce h)
    (hr : run cfg .init h = (.running s, out)) (hD : ∀ x ∈ h, x.1.diagnostics = D)
    (hurl : ∀ docs msg u d, msg ∈ h.map (·.2) → effect cfg docs msg = some (u, d) →
      cfg.urlParse u = some u) (uri : String) :
    screen out uri =
      match docsAfter cfg (h.map (·.2)) uri with
      | none => []
      | some d => D ⟨d.content, positionEncoding cfg.caps, some d.version,
          ((langsAfter cfg h).lang uri).getD .v4⟩ := by
  induction h using rev_ind generalizing s out with
  | h0 =>
    simp only [run, Prod.mk.injEq] at hr
    simp [← hr.2, screen, docsAfter]
  | h1 pre x ih =>
    obtain ⟨w, msg⟩ := x
    obtain ⟨s0, o0, o1, h1, h2, rfl⟩ := run_snoc cfg (w, msg) pre .init s out hr
    have hdpre : DrainsOnce pre := fun y hy => hd y (by simp [hy])
    have hw : ∀ l, (w.drain l).Perm l := hd (w, msg) (by simp)
    have ih := ih s0 o0 hdpre h1 (fun y hy => hD y (by simp [hy]))
      (fun docs m u d hm => hurl docs m u d (by
        rw [List.map_append]; exact List.mem_append_left _ hm))
    rw [screen_append, ih]
    have hdocs : docsAfter cfg ((pre ++ [(w, msg)]).map (·.2)) =
        docsStep cfg (docsAfter cfg (pre.map (·.2))) msg := by simp [docsAfter]
    have hlangs : langsAfter cfg (pre ++ [(w, msg)]) = langsStep cfg (langsAfter cfg pre) w msg := by
      simp [langsAfter]
    have hld : (langsAfter cfg pre).docs = docsAfter cfg (pre.map (·.2)) := langsAfter_docs cfg pre
    rw [hdocs]
    have hstep : (step cfg w s0 msg).2 = o1 := by rw [h2]
    by_cases hm : ∃ m p, msg = .notification m p
    · obtain ⟨m, p, rfl⟩ := hm
      have hc := C02_notification_publishes cfg pre s0 o0 hdpre h1 w hw m p
        (fun u d => hurl _ _ u d (by simp))
      rw [hstep] at hc
      cases he : effect cfg (docsAfter cfg (pre.map (·.2))) (.notification m p) with
      | none =>
        rw [he] at hc
        simp only at hc
        subst hc
        have hl : (langsAfter cfg (pre ++ [(w, .notification m p)])).lang = (langsAfter cfg pre).lang := by
          rw [hlangs, langsStep, hld, he]
        rw [hl, docsStep, he]
        rfl
      | some ud =>
        obtain ⟨u, d⟩ := ud
        rw [he] at hc
        have hother : u ≠ uri → (langsAfter cfg (pre ++ [(w, .notification m p)])).lang uri =
            (langsAfter cfg pre).lang uri := by
          intro hu
          rw [hlangs, langsStep, hld, he]
          cases d with
          | none => simp [Ne.symm hu]
          | some d => simp [Ne.symm hu]
        rw [docsStep, he]
        cases d with
        | none =>
          simp only at hc
          subst hc
          simp only [List.foldl_cons, List.foldl_nil]
          by_cases hu : u = uri
          · subst hu; simp
          · rw [if_neg hu, if_neg (fun g => hu g.symm), hother hu]
        | some d =>
          simp only at hc
          subst hc
          simp only [List.foldl_cons, List.foldl_nil]
          by_cases hu : u = uri
          · subst hu
            rw [hD (w, .notification m p) (by simp)]
            simp
          · rw [if_neg hu, if_neg (fun g => hu g.symm), hother hu]
    · have hm' : ∀ m p, msg ≠ .notification m p := fun m p g => hm ⟨m, p, g⟩
      have hc := C02_request_publishes_nothing cfg pre s0 o0 hdpre h1 w msg hm'
      rw [hstep] at hc
      rw [fold_nothing o1 uri _ hc]
      have he := effect_not_notification cfg (docsAfter cfg (pre.map (·.2))) msg hm'
      have hl : (langsAfter cfg (pre ++ [(w, msg)])).lang = (langsAfter cfg pre).lang := by
        rw [hlangs, langsStep, hld, he]
      rw [hl, docsStep, he]

example : (∀ x ∈ demoHistory, x.1.diagnostics = fun s => [.str s.content]) ∧
    (∃ s, run demoConfig .init demoHistory = (.running s, (run demoConfig .init demoHistory).2)) ∧
    screen (run demoConfig .init demoHistory).2 "file:///a.rs" = [.str "mod b {}"] := by
  refine ⟨?_, ⟨_, rfl⟩, rfl⟩
  intro x hx
  simp [demoHistory] at hx
  rcases hx with rfl | rfl | rfl <;> rfl

theorem each_map {α β γ : Type} {R : α → β → Prop} {S : α → γ → Prop} (f : β → γ)
    (hf : ∀ a b, R a b → S a (f b)) {l : List α} {m : List β} (h : Each R l m) :
    Each S l (m.map f) := by
  induction h with
  | nil => exact .nil
  | cons h _ ih => exact .cons (hf _ _ h) ih

theorem each_of_map {α β γ : Type} {R : γ → β → Prop} (g : α → γ) :
    ∀ {l : List α} {m : List β}, Each R (l.map g) m → Each (fun a b => R (g a) b) l m
  | [], _, h => by cases h; exact .nil
  | a :: l, _, h => by
    cases h with
    | cons h t => exact .cons h (each_of_map g t)

/-- The reports that are kept are sent, each at its place with its message. -/
theorem shows_kept (raw : String → Version → List Verif.Analyzer.Diag)
    (fmt : String → Verif.Analyzer.Edit → Verif.Analyzer.Edit) (json : LspDiag → Json) (s : Snapshot)
    (kept : List Verif.Analyzer.Diag)
    (h1 : Verif.Analyzer.diagnostics (fmt s.content) (raw s.content s.lang) =
      kept.map (Verif.Analyzer.Diag.format (fmt s.content)))
    (h2 : kept.Sublist (raw s.content s.lang))
    (hon : ∀ r ∈ raw s.content s.lang, OnChars s.content.toList r.range) :
    Each (Shows s.encoding s.content.toList json) kept (snapshotDiagnostics raw fmt json s) := by
  rw [snapshotDiagnostics, h1, List.map_map]
  have hc := C77_diagnostics s.encoding s.content.toList
    (kept.map (toServer ∘ Verif.Analyzer.Diag.format (fmt s.content))) (by
      intro x hx
      obtain ⟨k, hk, rfl⟩ := List.mem_map.mp hx
      exact hon k (h2.subset hk))
  refine each_map json ?_ (each_of_map _ hc)
  rintro k l ⟨g1, g2, g3⟩
  refine ⟨l, rfl, g1, g2, ?_⟩
  cases hk : k.severity with
  | error =>
    rcases g3 with ⟨-, g⟩ | ⟨g, -⟩
    · exact Or.inl ⟨rfl, g⟩
    · simp [toServer, Verif.Analyzer.Diag.format, hk] at g
  | warning =>
    rcases g3 with ⟨g, -⟩ | ⟨-, g⟩
    · simp [toServer, Verif.Analyzer.Diag.format, hk] at g
    · exact Or.inr ⟨rfl, g⟩

/-- **C117** (reports). What the client shows for an open document are the reports of the rules for its
current text and ink! version: each at its place with its message, in order, and of reports that a user
cannot tell apart but for their message only the first. -/
theorem C117_reports (cfg : Config) (raw : String → Version → List Verif.Analyzer.Diag)
    (fmt : String → Verif.Analyzer.Edit → Verif.Analyzer.Edit) (json : LspDiag → Json)
    (h : List (World × ClientMsg)) (s : State) (out : List ServerMsg) (hd : DrainsOnce h)
    (hr : run cfg .init h = (.running s, out))
    (hD : ∀ x ∈ h, x.1.diagnostics = snapshotDiagnostics raw fmt json)
    (hurl : ∀ docs msg u d, msg ∈ h.map (·.2) → effect cfg docs msg = some (u, d) →
      cfg.urlParse u = some u)
    (uri : String) (d : Doc) (v : Version) (hdoc : docsAfter cfg (h.map (·.2)) uri = some d)
    (hv : (langsAfter cfg h).lang uri = some v)
    (hon : ∀ r ∈ raw d.content v, OnChars d.content.toList r.range) :
    ∃ kept : List Verif.Analyzer.Diag,
      kept.Sublist (raw d.content v) ∧
      kept.Pairwise (fun a b => ¬ Verif.Analyzer.SameReport a b) ∧
      (∀ pre r post, raw d.content v = pre ++ r :: post →
        (∀ x ∈ pre, ¬ Verif.Analyzer.SameReport x r) → r ∈ kept) ∧
      (∀ r ∈ raw d.content v, ∃ k ∈ kept, Verif.Analyzer.SameReport k r) ∧
      Each (Shows (positionEncoding cfg.caps) d.content.toList json) kept (screen out uri) := by
  obtain ⟨kept, h1, h2, h3, h4, h5⟩ :=
    Verif.Analyzer.C35_dedup_partial (fmt d.content) (raw d.content v)
  refine ⟨kept, h2, h3, h5, fun r hr => ?_, ?_⟩
  · obtain ⟨k, hk, hs, -⟩ := h4 r hr
    exact ⟨k, hk, hs⟩
  · have hs := C117_screen cfg _ h s out hd hr hD hurl uri
    rw [hdoc] at hs
    simp only [hv, Option.getD_some] at hs
    rw [hs]
    exact shows_kept raw fmt json ⟨d.content, positionEncoding cfg.caps, some d.version, v⟩ kept h1 h2 hon

/-- A rule that reports the first character of every document, twice (examples only). -/
def sampleRule (_ : String) (_ : Version) : List Verif.Analyzer.Diag :=
  [⟨"m", (0, 1), .error, none⟩, ⟨"n", (0, 1), .error, none⟩]

/-- Serialization of a diagnostic (examples only). -/
def sampleJson (l : LspDiag) : Json := .str l.message

/-- The session of `demoHistory` with this rule (examples only). -/
def sampleSession : List (World × ClientMsg) :=
  demoHistory.map fun x =>
    ({ x.1 with diagnostics := snapshotDiagnostics sampleRule (fun _ e => e) sampleJson }, x.2)

example : DrainsOnce sampleSession ∧
    (∀ x ∈ sampleSession, x.1.diagnostics = snapshotDiagnostics sampleRule (fun _ e => e) sampleJson) ∧
    docsAfter demoConfig (sampleSession.map (·.2)) "file:///a.rs" = some ⟨"mod b {}", 2⟩ ∧
    (langsAfter demoConfig sampleSession).lang "file:///a.rs" = some .v5 ∧
    (∀ r ∈ sampleRule "mod b {}" .v5, OnChars "mod b {}".toList r.range) ∧
    screen (run demoConfig .init sampleSession).2 "file:///a.rs" = [.str "m"] := by
  refine ⟨?_, ?_, rfl, rfl, ?_, rfl⟩
  · intro x hx l
    simp only [sampleSession, List.mem_map] at hx
    obtain ⟨y, hy, rfl⟩ := hx
    exact demo_drains y hy l
  · intro x hx
    simp only [sampleSession, List.mem_map] at hx
    obtain ⟨y, hy, rfl⟩ := hx
    rfl
  · intro r hr
    simp only [sampleRule, List.mem_cons, List.not_mem_nil, or_false] at hr
    rcases hr with rfl | rfl <;> exact ⟨[], ['m'], "od b {}".toList, rfl, rfl⟩

end Verif.Lsp.Screen
