import Verif.Lsp.Session
import Verif.Lsp.ServerProps
import Verif.Lsp.Command

/-!
# C99: the start of a session, and what the server announces
-/

namespace Verif.Lsp

open Spec

/-! ## Specification -/

/-- A message that does not belong to the start of a session: a request other than `initialize`, or a
notification other than `exit`. -/
def Early (msg : ClientMsg) : Prop :=
  (∃ req, msg = .request req ∧ req.method ≠ "initialize") ∨
    ∃ m p, msg = .notification m p ∧ m ≠ "exit"

/-- The response that refuses a request before the server is initialized. -/
def Refusal (id : ReqId) (r : Response) : Prop :=
  r.id = id ∧ r.result = none ∧ ∃ text, r.error = some (.serverNotInitialized, text)

/-- The output consists of one refusal for each of the requests, in order. -/
def Refuses : List ReqId → List ServerMsg → Prop
  | [], out => out = []
  | id :: ids, out => ∃ r out', out = .response r :: out' ∧ Refusal id r ∧ Refuses ids out'

/-- The request methods that the capabilities of a server offer to a client (LSP 3.17,
`ServerCapabilities`). -/
def Offers (c : ServerCaps) (method : String) : Prop :=
  (method = "textDocument/completion" ∧ c.completion ≠ none) ∨
  (method = "textDocument/hover" ∧ c.hover = true) ∨
  (method = "textDocument/codeAction" ∧ c.codeAction ≠ .simple false) ∨
  (method = "codeAction/resolve" ∧ ∃ kinds, c.codeAction = .options kinds true) ∨
  (method = "textDocument/inlayHint" ∧ c.inlayHint = true) ∨
  (method = "textDocument/signatureHelp" ∧ c.signatureHelp ≠ none) ∨
  (method = "workspace/executeCommand" ∧ c.commands ≠ [])

/-! ## Lemmas -/

theorem refuses_append_response (ids : List ReqId) (out : List ServerMsg) (h : Refuses ids out) :
    (responses out).map (·.id) = ids ∧ published out = [] ∧ serverRequests out = [] := by
  induction ids generalizing out with
  | nil => rw [h]; exact ⟨rfl, rfl, rfl⟩
  | cons id ids ih =>
    obtain ⟨r, out', rfl, hr, ho⟩ := h
    obtain ⟨h1, h2, h3⟩ := ih out' ho
    refine ⟨?_, ?_, ?_⟩
    · show (r :: responses out').map (·.id) = _
      rw [List.map_cons, h1, hr.1]
    · exact h2
    · exact h3

theorem initializeStart_early (pre rest : List (World × ClientMsg))
    (hpre : ∀ x ∈ pre, Early x.2) :
    ∃ refused, Refuses (requestIds (pre.map (·.2))) refused ∧
      initializeStart (pre ++ rest) =
        ((initializeStart rest).1, refused ++ (initializeStart rest).2) := by
  induction pre with
  | nil => exact ⟨[], rfl, rfl⟩
  | cons x pre ih =>
    obtain ⟨w, msg⟩ := x
    obtain ⟨refused, h1, h2⟩ := ih fun y hy => hpre y (List.mem_cons_of_mem _ hy)
    rcases hpre _ (List.mem_cons_self ..) with ⟨req, he, hm⟩ | ⟨m, p, he, hm⟩
    · simp only at he
      subst he
      refine ⟨_, ⟨⟨req.id, none, some (.serverNotInitialized, "expected initialize request")⟩,
        refused, rfl, ⟨rfl, rfl, _, rfl⟩, h1⟩, ?_⟩
      simp only [List.cons_append, initializeStart, if_neg hm, h2]
    · simp only at he
      subst he
      refine ⟨refused, h1, ?_⟩
      simp only [List.cons_append, initializeStart, if_neg hm, h2]

/-- What a history must look like for the search to get anywhere. -/
theorem initializeStart_split (h : List (World × ClientMsg)) :
    ((∀ x ∈ h, Early x.2) ∧ (initializeStart h).1 = .waiting) ∨
    (∃ pre w id params rest, h = pre ++ (w, .request ⟨id, "initialize", params⟩) :: rest ∧
      (∀ x ∈ pre, Early x.2) ∧ (initializeStart h).1 = .asked id params rest) ∨
    (∃ pre x rest, h = pre ++ x :: rest ∧ (∀ x ∈ pre, Early x.2) ∧
      ((∃ p, x.2 = .notification "exit" p) ∨ ∃ id, x.2 = .response id) ∧
      (initializeStart h).1 = .failed) := by
  induction h with
  | nil => left; exact ⟨by simp, rfl⟩
  | cons y h ih =>
    obtain ⟨w, msg⟩ := y
    have step : Early msg → (initializeStart ((w, msg) :: h)).1 = (initializeStart h).1 := by
      rintro (⟨req, rfl, hm⟩ | ⟨m, p, rfl, hm⟩)
      · simp only [initializeStart, if_neg hm]
      · simp only [initializeStart, if_neg hm]
    have early : Early msg →
        ((∀ x ∈ (w, msg) :: h, Early x.2) ∧ (initializeStart ((w, msg) :: h)).1 = .waiting) ∨
        (∃ pre w' id params rest,
          (w, msg) :: h = pre ++ (w', .request ⟨id, "initialize", params⟩) :: rest ∧
          (∀ x ∈ pre, Early x.2) ∧
          (initializeStart ((w, msg) :: h)).1 = .asked id params rest) ∨
        (∃ pre x rest, (w, msg) :: h = pre ++ x :: rest ∧ (∀ x ∈ pre, Early x.2) ∧
          ((∃ p, x.2 = .notification "exit" p) ∨ ∃ id, x.2 = .response id) ∧
          (initializeStart ((w, msg) :: h)).1 = .failed) := by
      intro he
      rw [step he]
      have cons : ∀ pre : List (World × ClientMsg), (∀ x ∈ pre, Early x.2) →
          ∀ x ∈ (w, msg) :: pre, Early x.2 := by
        intro pre hp x hx
        rcases List.mem_cons.1 hx with rfl | hx
        · exact he
        · exact hp x hx
      rcases ih with ⟨h1, h2⟩ | ⟨pre, w', id, params, rest, h1, h2, h3⟩ | ⟨pre, x, rest, h1, h2, h3⟩
      · exact .inl ⟨cons h h1, h2⟩
      · exact .inr (.inl ⟨(w, msg) :: pre, w', id, params, rest, by rw [h1]; rfl, cons pre h2, h3⟩)
      · exact .inr (.inr ⟨(w, msg) :: pre, x, rest, by rw [h1]; rfl, cons pre h2, h3⟩)
    cases msg with
    | request req =>
      by_cases hm : req.method = "initialize"
      · refine .inr (.inl ⟨[], w, req.id, req.params, h, ?_, by simp, ?_⟩)
        · obtain ⟨i, m, p⟩ := req
          simp only at hm
          subst hm
          rfl
        · simp only [initializeStart, if_pos hm]
      · exact early (.inl ⟨req, rfl, hm⟩)
    | notification m p =>
      by_cases hm : m = "exit"
      · subst hm
        exact .inr (.inr ⟨[], (w, .notification "exit" p), h, rfl, by simp, .inl ⟨p, rfl⟩,
          by simp [initializeStart]⟩)
      · exact early (.inr ⟨m, p, rfl, hm⟩)
    | response id =>
      exact .inr (.inr ⟨[], (w, .response id), h, rfl, by simp, .inr ⟨id, rfl⟩, rfl⟩)

/-! ## The handshake -/

/-- **C99** (handshake). Whatever the client sends before its `initialize` request (other than `exit` or
a response), every request among it is refused with the code for servers that are not initialized and
notifications are ignored. The `initialize` request is answered with the capabilities. After the
`initialized` notification the message loop runs, from its initial state, with the capabilities of the
client. -/
theorem C99_handshake (wire : Wire) (cfg : Config) (pre post : List (World × ClientMsg))
    (hpre : ∀ x ∈ pre, Early x.2) (w1 w2 : World) (id : ReqId) (params p : Json) (caps : ClientCaps)
    (hdec : wire.decode params = some caps) (o : Outcome) (out : List ServerMsg)
    (hrun : run { cfg with caps := caps } State.init post = (o, out)) :
    ∃ refused, Refuses (requestIds (pre.map (·.2))) refused ∧
      session wire cfg (pre ++ (w1, .request ⟨id, "initialize", params⟩) ::
          (w2, .notification "initialized" p) :: post) =
        (.loop o, refused ++
          .response ⟨id, some (wire.encode (serverCapabilities caps)), none⟩ :: out) := by
  obtain ⟨refused, h1, h2⟩ := initializeStart_early pre
    ((w1, .request ⟨id, "initialize", params⟩) :: (w2, .notification "initialized" p) :: post) hpre
  refine ⟨refused, h1, ?_⟩
  have h3 : initializeStart ((w1, .request ⟨id, "initialize", params⟩) ::
      (w2, .notification "initialized" p) :: post) =
      (.asked id params ((w2, .notification "initialized" p) :: post), []) := by
    simp [initializeStart]
  rw [h3] at h2
  simp only [List.append_nil] at h2
  unfold session
  rw [h2]
  simp only [hdec, if_true, hrun, List.append_assoc, List.cons_append, List.nil_append]

/-- **C99** (one response each). In a session in which the message loop is running, every request of
the client so far, before and after `initialize`, has got exactly one response, in order. -/
theorem C99_responses (wire : Wire) (cfg : Config) (h : List (World × ClientMsg)) (s : State)
    (out : List ServerMsg) (hs : session wire cfg h = (.loop (.running s), out)) :
    (responses out).map (·.id) = requestIds (h.map (·.2)) := by
  rcases initializeStart_split h with ⟨_, h2⟩ | ⟨pre, w, id, params, rest, h1, h2, h3⟩ |
      ⟨_, _, _, _, _, _, h2⟩
  · unfold session at hs
    cases he : initializeStart h with
    | mk a b => rw [he] at h2 hs; simp only at h2; subst h2; simp at hs
  · unfold session at hs
    obtain ⟨refused, g1, g2⟩ :=
      initializeStart_early pre ((w, .request ⟨id, "initialize", params⟩) :: rest) h2
    have h4 : initializeStart ((w, .request ⟨id, "initialize", params⟩) :: rest) =
        (.asked id params rest, []) := by simp [initializeStart]
    rw [h4, ← h1] at g2
    simp only [List.append_nil] at g2
    rw [g2] at hs
    simp only at hs
    cases hd : wire.decode params with
    | none => simp [hd] at hs
    | some caps =>
      simp only [hd] at hs
      cases rest with
      | nil => simp at hs
      | cons y post =>
        obtain ⟨w', msg⟩ := y
        cases msg with
        | request r => simp at hs
        | response r => simp at hs
        | notification m p =>
          simp only at hs
          split at hs
          · simp only [Prod.mk.injEq, Session.loop.injEq] at hs
            have hr := C03_responses_match_requests { cfg with caps := caps } post State.init s
              (run { cfg with caps := caps } State.init post).2 (by rw [← hs.1])
            rw [← hs.2, responses_append, responses_append, List.map_append, List.map_append,
              (refuses_append_response _ _ g1).1, hr, h1]
            simp [requestIds, responses]
          · simp at hs
  · unfold session at hs
    cases he : initializeStart h with
    | mk a b => rw [he] at h2 hs; simp only at h2; subst h2; simp at hs

/-- **C99** (nothing before). Until the session has started, the server publishes no diagnostics and
makes no requests, and has answered every request, each once. -/
theorem C99_waits (wire : Wire) (cfg : Config) (h : List (World × ClientMsg)) (out : List ServerMsg)
    (hs : session wire cfg h = (.waiting, out)) :
    (responses out).map (·.id) = requestIds (h.map (·.2)) ∧ published out = [] ∧
      serverRequests out = [] := by
  rcases initializeStart_split h with ⟨h1, h2⟩ | ⟨pre, w, id, params, rest, h1, h2, h3⟩ |
      ⟨_, _, _, _, _, _, h2⟩
  · obtain ⟨refused, g1, g2⟩ := initializeStart_early h [] h1
    rw [List.append_nil] at g2
    unfold session at hs
    rw [g2] at hs
    simp only [initializeStart, List.append_nil, Prod.mk.injEq, true_and] at hs
    rw [← hs]
    exact refuses_append_response _ _ g1
  · unfold session at hs
    obtain ⟨refused, g1, g2⟩ :=
      initializeStart_early pre ((w, .request ⟨id, "initialize", params⟩) :: rest) h2
    have h4 : initializeStart ((w, .request ⟨id, "initialize", params⟩) :: rest) =
        (.asked id params rest, []) := by simp [initializeStart]
    rw [h4, ← h1] at g2
    simp only [List.append_nil] at g2
    rw [g2] at hs
    simp only at hs
    cases hd : wire.decode params with
    | none => simp [hd] at hs
    | some caps =>
      simp only [hd] at hs
      cases rest with
      | nil =>
        simp only [Prod.mk.injEq, true_and] at hs
        obtain ⟨r1, r2, r3⟩ := refuses_append_response _ _ g1
        rw [← hs, h1]
        refine ⟨?_, ?_, ?_⟩
        · rw [responses_append, List.map_append, r1]
          simp [requestIds, responses]
        · simp only [published] at r2 ⊢
          rw [List.filterMap_append, r2]
          rfl
        · simp only [serverRequests] at r3 ⊢
          rw [List.filterMap_append, r3]
          rfl
      | cons y post =>
        obtain ⟨w', msg⟩ := y
        cases msg with
        | request r => simp at hs
        | response r => simp at hs
        | notification m p =>
          simp only at hs
          split at hs <;> simp at hs
  · unfold session at hs
    cases he : initializeStart h with
    | mk a b => rw [he] at h2 hs; simp only at h2; subst h2; simp at hs

/-- **C99** (failure). A session ends before the message loop exactly if there is an `exit` notification
or a response before the `initialize` request, if the parameters of that request do not deserialize, or
if the message after it is not an `initialized` notification. (Partial: the last two should not end the
server, see below.) -/
theorem C99_fails_iff_partial (wire : Wire) (cfg : Config) (h : List (World × ClientMsg)) :
    (session wire cfg h).1 = .failed ↔
      (∃ pre x rest, h = pre ++ x :: rest ∧ (∀ x ∈ pre, Early x.2) ∧
        ((∃ p, x.2 = .notification "exit" p) ∨ ∃ id, x.2 = .response id)) ∨
      (∃ pre w id params rest, h = pre ++ (w, .request ⟨id, "initialize", params⟩) :: rest ∧
        (∀ x ∈ pre, Early x.2) ∧
        (wire.decode params = none ∨
          ∃ x rest', rest = x :: rest' ∧ ∀ p, x.2 ≠ .notification "initialized" p)) := by
  have asked : ∀ (id : ReqId) (params : Json) (rest : List (World × ClientMsg)),
      (initializeStart h).1 = .asked id params rest →
      ((session wire cfg h).1 = .failed ↔ (wire.decode params = none ∨
          ∃ x rest', rest = x :: rest' ∧ ∀ p, x.2 ≠ .notification "initialized" p)) := by
    intro id params rest h3
    unfold session
    cases he : initializeStart h with
    | mk a b =>
      rw [he] at h3
      simp only at h3
      subst h3
      simp only
      cases hd : wire.decode params with
      | none => simp
      | some caps =>
        simp only [reduceCtorEq, false_or]
        cases rest with
        | nil => simp
        | cons y post =>
          obtain ⟨w', msg⟩ := y
          cases msg with
          | request r => simp
          | response r => simp
          | notification m p =>
            by_cases hm : m = "initialized"
            · simp [hm]
            · simp only [if_neg hm, true_iff]
              exact ⟨_, _, rfl, by intro p' hp; simp at hp; exact hm hp.1⟩
  have unique_ask : ∀ pre w id params rest,
      h = pre ++ (w, .request ⟨id, "initialize", params⟩) :: rest → (∀ x ∈ pre, Early x.2) →
      (initializeStart h).1 = .asked id params rest := by
    intro pre w id params rest h1 h2
    obtain ⟨refused, _, g2⟩ :=
      initializeStart_early pre ((w, .request ⟨id, "initialize", params⟩) :: rest) h2
    rw [h1, g2]
    simp [initializeStart]
  constructor
  · intro hf
    rcases initializeStart_split h with ⟨_, h2⟩ | ⟨pre, w, id, params, rest, h1, h2, h3⟩ |
        ⟨pre, x, rest, h1, h2, h3, _⟩
    · unfold session at hf
      cases he : initializeStart h with
      | mk a b => rw [he] at h2 hf; simp only at h2; subst h2; simp at hf
    · exact .inr ⟨pre, w, id, params, rest, h1, h2, (asked id params rest h3).1 hf⟩
    · exact .inl ⟨pre, x, rest, h1, h2, h3⟩
  · rintro (⟨pre, x, rest, h1, h2, h3⟩ | ⟨pre, w, id, params, rest, h1, h2, h3⟩)
    · obtain ⟨refused, _, g2⟩ := initializeStart_early pre (x :: rest) h2
      have g3 : (initializeStart (x :: rest)).1 = .failed := by
        obtain ⟨w, msg⟩ := x
        simp only at h3
        rcases h3 with ⟨p, rfl⟩ | ⟨id, rfl⟩
        · simp [initializeStart]
        · rfl
      rw [g3, ← h1] at g2
      unfold session
      rw [g2]
    · exact (asked id params rest (unique_ask pre w id params rest h1 h2)).2 h3

/-! ## What is announced -/

/-- **C99** (documents). The client is told that it shall notify the server of opened, changed (with the
whole text) and closed documents; and after any such notifications the server has exactly the documents
the client has, with their texts. -/
theorem C99_documents (wire : Wire) (cfg : Config) (pre post : List (World × ClientMsg))
    (hpre : ∀ x ∈ pre, Early x.2) (w1 w2 : World) (id : ReqId) (params p : Json) (caps : ClientCaps)
    (hdec : wire.decode params = some caps) (s : State) (out : List ServerMsg) (hd : DrainsOnce post)
    (hs : session wire cfg (pre ++ (w1, .request ⟨id, "initialize", params⟩) ::
      (w2, .notification "initialized" p) :: post) = (.loop (.running s), out)) :
    ∃ announced, .response ⟨id, some (wire.encode announced), none⟩ ∈ out ∧
      announced.openClose = true ∧ announced.fullSync = true ∧ announced.save = true ∧
      ∀ uri, (s.snapshots uri).map (fun a => (a.content, a.docVersion)) =
        (docsAfter { cfg with caps := caps } (post.map (·.2)) uri).map
          (fun d => (d.content, some d.version)) := by
  cases hr : run { cfg with caps := caps } State.init post with
  | mk o out' =>
    obtain ⟨refused, -, h2⟩ := C99_handshake wire cfg pre post hpre w1 w2 id params p caps hdec o out' hr
    rw [h2] at hs
    simp only [Prod.mk.injEq, Session.loop.injEq] at hs
    obtain ⟨rfl, rfl⟩ := hs
    exact ⟨serverCapabilities caps, by simp, rfl, rfl, rfl,
      C01_snapshots_mirror_documents _ post s out' hd hr⟩

/-- **C99** (announced is served). A request with a method that the capabilities offer is never answered
with "method not found", in any state. -/
theorem C99_served (caps : ClientCaps) (w : World) (snaps : Snapshots) (req : Request)
    (ho : Offers (serverCapabilities caps) req.method) :
    ∃ r, route w snaps req = some r ∧ ∀ text, r.error ≠ some (.methodNotFound, text) := by
  have key : ∀ hd, (req.method, hd) ∈ supported w →
      ∃ r, route w snaps req = some r ∧ ∀ text, r.error ≠ some (.methodNotFound, text) := by
    intro hd hm
    refine ⟨_, route_supported w snaps req hd hm, ?_⟩
    rcases hd snaps req.params with _ | _ | _ <;> simp [reply]
  rcases ho with ⟨h, _⟩ | ⟨h, _⟩ | ⟨h, _⟩ | ⟨h, _⟩ | ⟨h, _⟩ | ⟨h, _⟩ | ⟨h, _⟩
  · exact key w.completion.handler (by simp [h, supported, documentFeatures])
  · exact key w.hover.handler (by simp [h, supported, documentFeatures])
  · exact key w.codeAction.handler (by simp [h, supported, documentFeatures])
  · exact key w.codeActionResolve (by simp [h, supported])
  · exact key w.inlayHint.handler (by simp [h, supported, documentFeatures])
  · exact key w.signatureHelp.handler (by simp [h, supported, documentFeatures])
  · exact key w.executeCommand (by simp [h, supported])

/-- **C99** (served is announced). A method that is not answered with "method not found" is offered by
the capabilities, or it is the resolution of code actions and the client and the server have no kind of
code action in common. -/
theorem C99_announced (caps : ClientCaps) (w : World) (snaps : Snapshots) (req : Request)
    (r : Response) (hr : route w snaps req = some r)
    (hn : ∀ text, r.error ≠ some (.methodNotFound, text)) :
    Offers (serverCapabilities caps) req.method ∨
      (req.method = "codeAction/resolve" ∧
        ∀ kinds, caps.codeActionKinds = some kinds →
          ∀ k ∈ kinds, k ∉ ["", "quickfix", "refactor", "refactor.rewrite"]) := by
  by_cases h : ∃ hd, (req.method, hd) ∈ supported w
  · obtain ⟨hd, hm⟩ := h
    simp only [supported, documentFeatures, List.map_cons, List.map_nil, List.cons_append,
      List.nil_append, List.mem_cons, Prod.mk.injEq, List.not_mem_nil, or_false] at hm
    rcases hm with ⟨h, _⟩ | ⟨h, _⟩ | ⟨h, _⟩ | ⟨h, _⟩ | ⟨h, _⟩ | ⟨h, _⟩ | ⟨h, _⟩
    · cases hk : codeActionsKinds caps with
      | some kinds =>
        left
        exact .inr (.inr (.inr (.inl ⟨h, kinds, by simp [serverCapabilities, codeActionProvider, hk]⟩)))
      | none =>
        right
        refine ⟨h, ?_⟩
        intro kinds hc k hkm hks
        unfold codeActionsKinds at hk
        rw [hc] at hk
        simp only [ite_eq_left_iff, reduceCtorEq, imp_false, List.isEmpty_iff,
          List.filter_eq_nil_iff, List.contains_iff_mem, Classical.not_not] at hk
        exact hk k hks hkm
    all_goals
      left
      simp [Offers, h, serverCapabilities, announcedCommands]
    · unfold codeActionProvider
      split <;> simp
  · exfalso
    have h' : ∀ hd, (req.method, hd) ∉ supported w := fun hd hm => h ⟨hd, hm⟩
    rw [route_unsupported w snaps req h'] at hr
    cases hr
    exact hn _ rfl

/-- **C99** (commands). The announced commands are exactly the ones that are known when they are
executed, with any arguments. -/
theorem C99_commands (caps : ClientCaps) (urlParse : String → Option String) (command : String) :
    (command ∈ (serverCapabilities caps).commands →
      ∀ args t, decodeExecute urlParse command args = .value (.error t) →
        t ≠ "Unknown command: " ++ command ++ "!") ∧
    (command ∉ (serverCapabilities caps).commands →
      ∀ args, decodeExecute urlParse command args =
        .value (.error ("Unknown command: " ++ command ++ "!"))) := by
  constructor
  · intro hc args t ht
    simp only [serverCapabilities, announcedCommands, List.mem_cons, List.not_mem_nil, or_false] at hc
    rcases hc with rfl | rfl | rfl
    · unfold decodeExecute at ht
      simp only [if_true] at ht
      split at ht
      · cases ht
      · cases ht; decide
    · unfold decodeExecute at ht
      rw [if_neg (by decide), if_pos rfl] at ht
      split at ht
      · cases ht
      · cases ht; decide
    · unfold decodeExecute at ht
      rw [if_neg (by decide), if_neg (by decide), if_pos rfl] at ht
      split at ht
      · next arg =>
        unfold decodeExtract at ht
        split at ht
        · cases ht
        · split at ht
          · cases ht
          · cases ht; decide
      · cases ht; decide
  · intro hc args
    simp only [serverCapabilities, announcedCommands, List.mem_cons, List.not_mem_nil, or_false,
      not_or] at hc
    unfold decodeExecute
    rw [if_neg hc.1, if_neg hc.2.1, if_neg hc.2.2]

/-! ## Concrete sessions -/

/-- Messages over the wire in which the parameters of `initialize` are `null` (examples only). -/
def demoWire : Wire where
  decode := fun j => match j with
    | .null => some {}
    | _ => none
  encode := fun _ => .str "capabilities"

/-- A session with a request too early (examples only). -/
def demoSession : List (World × ClientMsg) :=
  [(demoWorld, .request ⟨.num 1, "textDocument/hover", .null⟩),
   (demoWorld, .notification "$/setTrace" .null),
   (demoWorld, .request ⟨.num 2, "initialize", .null⟩),
   (demoWorld, .notification "initialized" .null)] ++ demoHistory

example : ∃ s out, session demoWire demoConfig demoSession = (.loop (.running s), out) ∧
    (responses out).map (·.id) = [.num 1, .num 2, .num 7] := ⟨_, _, rfl, by decide⟩

example : Offers (serverCapabilities {}) "textDocument/hover" ∧
    ¬ Offers (serverCapabilities {}) "codeAction/resolve" ∧
    Offers (serverCapabilities { codeActionKinds := some ["quickfix"] }) "codeAction/resolve" := by
  refine ⟨.inr (.inl ⟨rfl, rfl⟩), ?_, .inr (.inr (.inr (.inl ⟨rfl, ["quickfix"], by decide⟩)))⟩
  simp [Offers, serverCapabilities, codeActionProvider, codeActionsKinds]

/-- **C99 is false of the code** (no answer): an `initialize` request whose parameters do not
deserialize ends the server, and the request is never answered. -/
theorem C99_negation_params : ∃ (wire : Wire) (cfg : Config) (h : List (World × ClientMsg)),
    (session wire cfg h).1 = .failed ∧ requestIds (h.map (·.2)) = [.num 1] ∧
      responses (session wire cfg h).2 = [] :=
  ⟨demoWire, demoConfig, [(demoWorld, .request ⟨.num 1, "initialize", .bool true⟩)], rfl, rfl, rfl⟩

/-- **C99 is false of the code** (any other message): a notification that may be ignored, sent between
the response to `initialize` and `initialized`, ends the server. -/
theorem C99_negation_between : ∃ (wire : Wire) (cfg : Config) (h : List (World × ClientMsg)),
    (session wire cfg h).1 = .failed ∧
      h.map (·.2) = [.request ⟨.num 1, "initialize", .null⟩, .notification "$/setTrace" .null,
        .notification "initialized" .null] :=
  ⟨demoWire, demoConfig, [(demoWorld, .request ⟨.num 1, "initialize", .null⟩),
    (demoWorld, .notification "$/setTrace" .null), (demoWorld, .notification "initialized" .null)],
    rfl, rfl⟩

end Verif.Lsp
