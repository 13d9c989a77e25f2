import Verif.Lsp.ServerLemmas

/-!
# Properties C01–C07: document synchronisation, responses, versions, commands
-/

namespace Verif.Lsp

open Spec

/-! ## A concrete session used to show that hypotheses are met -/

/-- A client that supports everything (non-vacuity examples only). -/
def demoConfig : Config where
  caps := { applyEdit := some true, documentChanges := some true, resourceOperations := some ["create"] }
  urlParse := some
  joinLib := fun u => some (u ++ "lib.rs")
  debugEscape := id
  decodeOpen := fun j => do
    some ⟨← (j.get? "uri").bind Json.asStr?, ← (j.get? "languageId").bind Json.asStr?, 1,
      ← (j.get? "text").bind Json.asStr?⟩
  decodeChange := fun j => do
    some ⟨← (j.get? "uri").bind Json.asStr?, 2, [← (j.get? "text").bind Json.asStr?]⟩
  decodeClose := fun j => (j.get? "uri").bind Json.asStr?
  asCreate := fun j => j.asStr?.map fun s => ⟨s, .null⟩
  asMigrate := fun j => j.asStr?.map fun s => ⟨s, .null⟩
  asExtract := fun j => j.asStr?.map fun s => ⟨s, .null⟩

/-- A feature answering with the text of the document (non-vacuity examples only). -/
def demoFeature : Feature :=
  ⟨fun j => ((j.get? "uri").bind Json.asStr?).map fun u => (u, .null), fun s _ => .ok (.str s.content)⟩

/-- Surroundings in which every project is an ink! 5 project (non-vacuity examples only). -/
def demoWorld : World where
  detect := fun _ => some .v5
  drain := id
  diagnostics := fun s => [.str s.content]
  completion := demoFeature
  hover := demoFeature
  codeAction := demoFeature
  codeActionResolve := fun _ _ => none
  inlayHint := demoFeature
  signatureHelp := demoFeature
  executeCommand := fun _ _ => some (.ok (.str "file:///p/"))

/-- Opening and changing a document (non-vacuity examples only). -/
def demoHistory : List (World × ClientMsg) :=
  [(demoWorld, .notification "textDocument/didOpen"
      (.obj [("uri", .str "file:///a.rs"), ("languageId", .str "rust"), ("text", .str "mod a {}")])),
   (demoWorld, .request ⟨.num 7, "textDocument/hover", .obj [("uri", .str "file:///a.rs")]⟩),
   (demoWorld, .notification "textDocument/didChange"
      (.obj [("uri", .str "file:///a.rs"), ("text", .str "mod b {}")]))]

theorem demo_drains : DrainsOnce demoHistory := by
  intro x hx l
  simp [demoHistory] at hx
  rcases hx with rfl | rfl | rfl <;> exact List.Perm.refl _

/-! ## C01 -/

/-- **C01** (state). After any history, the server holds an analysis of a document exactly when
the document is open according to the client's own notifications, and it is the analysis of the
document's current text, labelled with its current version. -/
theorem C01_snapshots_mirror_documents (cfg : Config) (h : List (World × ClientMsg)) (s : State)
    (out : List ServerMsg) (hd : DrainsOnce h) (hr : run cfg .init h = (.running s, out))
    (uri : String) :
    (s.snapshots uri).map (fun a => (a.content, a.docVersion)) =
      (docsAfter cfg (h.map (·.2)) uri).map (fun d => (d.content, some d.version)) := by
  have hi := inv_reach hd hr
  rw [hi.snaps uri, ← langsAfter_docs]
  have hl := hi.lang uri
  cases hdoc : (langsAfter cfg h).docs uri with
  | none => simp
  | some d =>
    cases hlang : (langsAfter cfg h).lang uri with
    | none => simp [hlang, hdoc] at hl
    | some v => simp

example : ∃ s out, run demoConfig .init demoHistory = (.running s, out) ∧
    (s.snapshots "file:///a.rs").map (·.content) = some "mod b {}" := ⟨_, _, rfl, rfl⟩

/-- **C01** (answers). After any history, a document feature request for `uri` gets one response,
computed from the text the client last sent for `uri`; it is the null "no such document" answer
when `uri` is not open. -/
theorem C01_answers_from_current_text (cfg : Config) (h : List (World × ClientMsg)) (s : State)
    (out : List ServerMsg) (hd : DrainsOnce h) (hr : run cfg .init h = (.running s, out))
    (w : World) (req : Request) (f : Feature) (uri : String) (rest : Json)
    (hf : (req.method, f) ∈ documentFeatures w) (hp : f.decode req.params = some (uri, rest)) :
    (step cfg w s (.request req)).2 =
      match docsAfter cfg (h.map (·.2)) uri with
      | none => [.response ⟨req.id, some .null, none⟩]
      | some d =>
        match f.answer ⟨d.content, positionEncoding cfg.caps, some d.version,
            ((langsAfter cfg h).lang uri).getD .v4⟩ rest with
        | .ok v => [.response ⟨req.id, some v, none⟩]
        | .error e => [.response ⟨req.id, none, some (.internalError, e)⟩] := by
  have hi := inv_reach hd hr
  have hsup : (req.method, f.handler) ∈ supported w := by
    simp only [supported, List.mem_append, List.mem_map]
    exact Or.inr ⟨(req.method, f), hf, rfl⟩
  have hne : req.method ≠ "shutdown" := by
    intro he; rw [he] at hf; simp [documentFeatures] at hf
  have hcmd : commandOf req = none := by
    have : req.method ≠ "workspace/executeCommand" := by
      intro he; rw [he] at hf; simp [documentFeatures] at hf
    simp [commandOf, this]
  have hroute := route_supported w s.snapshots req _ hsup
  simp only [Feature.handler, hp, Option.map_some] at hroute
  simp only [step, hne, if_false]
  rw [handleRequest_out _ _ _ _ hi.changes, hroute, hcmd, hi.snaps uri, ← langsAfter_docs]
  have hl := hi.lang uri
  cases hdoc : (langsAfter cfg h).docs uri with
  | none => simp [reply]
  | some d =>
    cases hlang : (langsAfter cfg h).lang uri with
    | none => simp [hlang, hdoc] at hl
    | some v =>
      simp only [Option.bind_some, Option.map_some, Option.getD_some]
      cases f.answer ⟨d.content, positionEncoding cfg.caps, some d.version, v⟩ rest <;> rfl

example : ("textDocument/hover", demoFeature) ∈ documentFeatures demoWorld ∧
    demoFeature.decode (.obj [("uri", .str "file:///a.rs")]) = some ("file:///a.rs", .null) ∧
    (docsAfter demoConfig (demoHistory.map (·.2)) "file:///a.rs") = some ⟨"mod b {}", 2⟩ :=
  ⟨by simp [documentFeatures, demoWorld], rfl, rfl⟩

/-- **C01** (no such document). The server has no analysis of a document exactly when the client
never opened it as rust or closed it since. -/
theorem C01_missing_iff_not_open (cfg : Config) (h : List (World × ClientMsg)) (s : State)
    (out : List ServerMsg) (hd : DrainsOnce h) (hr : run cfg .init h = (.running s, out))
    (uri : String) :
    s.snapshots uri = none ↔ docsAfter cfg (h.map (·.2)) uri = none := by
  have := C01_snapshots_mirror_documents cfg h s out hd hr uri
  constructor
  · intro h1; cases hx : docsAfter cfg (h.map (·.2)) uri <;> simp_all
  · intro h1; simpa [h1] using this

/-! ## C02 -/

/-- **C02**. What a notification publishes, in any reachable state: one message for the affected
document (with the diagnostics of its new text and its version, or cleared on close), nothing if
the notification is ignored. The URL assumption says that reading back the serialized URL of a
decoded notification succeeds and gives the same text. -/
theorem C02_notification_publishes (cfg : Config) (h : List (World × ClientMsg)) (s : State)
    (out : List ServerMsg) (hd : DrainsOnce h) (hr : run cfg .init h = (.running s, out))
    (w : World) (hw : ∀ l, (w.drain l).Perm l) (method : String) (params : Json)
    (hurl : ∀ u d, effect cfg (docsAfter cfg (h.map (·.2))) (.notification method params) = some (u, d) →
      cfg.urlParse u = some u) :
    (step cfg w s (.notification method params)).2 =
      match effect cfg (docsAfter cfg (h.map (·.2))) (.notification method params) with
      | none => []
      | some (uri, none) => [.publish uri [] none]
      | some (uri, some d) =>
        [.publish uri
          (w.diagnostics ⟨d.content, positionEncoding cfg.caps, some d.version,
            ((langsAfter cfg (h ++ [(w, .notification method params)])).lang uri).getD .v4⟩)
          (some d.version)] := by
  have hi := inv_reach hd hr
  rw [← langsAfter_docs] at hurl ⊢
  have hla : langsAfter cfg (h ++ [(w, .notification method params)])
      = langsStep cfg (langsAfter cfg h) w (.notification method params) := by
    simp [langsAfter]
  rw [hla]
  have hstep : ∀ s', step cfg w s (.notification method params) = (.running s', (step cfg w s (.notification method params)).2) →
      Inv cfg s' (langsStep cfg (langsAfter cfg h) w (.notification method params)) :=
    fun s' hs => inv_step hi hw hs
  unfold step at hstep ⊢
  by_cases hs : method = "exit"
  · subst hs
    simp [effect, noteOf]
  · simp only [hs, if_false] at hstep ⊢
    cases hn : handleNotification cfg w s method params with
    | none =>
      have : noteOf cfg (.notification method params) = none := by
        unfold handleNotification at hn
        simp only [NotRouter.process, noteOf] at hn ⊢
        by_cases h1 : method = "textDocument/didOpen"
        · subst h1
          cases hp : cfg.decodeOpen params <;> simp_all
        · by_cases h2 : method = "textDocument/didChange"
          · subst h2
            cases hp : cfg.decodeChange params <;> simp_all
          · by_cases h3 : method = "textDocument/didClose"
            · subst h3
              cases hp : cfg.decodeClose params <;> simp_all
            · simp_all
      simp [effect, this]
    | some r =>
      obtain ⟨s1, o1⟩ := r
      have heq := handleNotification_eq cfg w s method params s1 o1 hw hi.changes hn
      have hi1 := hstep s1 (by simp [hn])
      rw [hi.docs] at heq
      simp only
      cases he : effect cfg (langsAfter cfg h).docs (.notification method params) with
      | none =>
        simp only [he, Prod.mk.injEq] at heq
        exact heq.2
      | some ud =>
        obtain ⟨u, d⟩ := ud
        simp only [he] at heq
        have hout := congrArg Prod.snd heq
        have hst := congrArg Prod.fst heq
        simp only at hout hst
        rw [refresh_out, ← hst, hurl u d he] at hout
        simp only [publishDiagnostics, hi1.snaps u, langsStep_docs, docsStep, he, if_true] at hout
        cases d with
        | none => simpa using hout
        | some d =>
          have hl := hi1.lang u
          simp only [langsStep_docs, docsStep, he, if_true, Option.isSome_some] at hl
          obtain ⟨v, hv⟩ := Option.isSome_iff_exists.mp hl
          simpa [hv] using hout

example : effect demoConfig (docsAfter demoConfig (demoHistory.map (·.2)))
    (.notification "textDocument/didClose" (.obj [("uri", .str "file:///a.rs")]))
      = some ("file:///a.rs", none) := rfl

/-- **C02** (requests). Requests and responses never publish diagnostics. -/
theorem C02_request_publishes_nothing (cfg : Config) (h : List (World × ClientMsg)) (s : State)
    (out : List ServerMsg) (hd : DrainsOnce h) (hr : run cfg .init h = (.running s, out))
    (w : World) (msg : ClientMsg) (hm : ∀ m p, msg ≠ .notification m p) :
    published (step cfg w s msg).2 = [] := by
  have hi := inv_reach hd hr
  cases msg with
  | notification m p => exact absurd rfl (hm m p)
  | response id =>
    simp only [step, handleResponse]
    cases requestIdAsStr cfg id with
    | none => rfl
    | some r =>
      simp only
      cases (stripPrefix? "initialize-project::" r).bind cfg.urlParse with
      | none => rfl
      | some p =>
        simp only
        cases cfg.joinLib p <;> rfl
  | request req =>
    simp only [step]
    by_cases hs : req.method = "shutdown"
    · simp [hs, published]
    · simp only [hs, if_false]
      rw [handleRequest_out _ _ _ _ hi.changes]
      cases route w s.snapshots req with
      | none => rfl
      | some resp =>
        cases commandOf req with
        | none => rfl
        | some c =>
          simp only [processCommandResponse]
          split <;> rfl

/-- **C02** (whole session). The URIs published over a session are exactly the documents affected
by the accepted notifications, in order: one publication each and no other. -/
theorem C02_published_over_session (cfg : Config) (h : List (World × ClientMsg)) (s : State)
    (out : List ServerMsg) (hd : DrainsOnce h) (hr : run cfg .init h = (.running s, out))
    (hurl : ∀ docs msg u d, msg ∈ h.map (·.2) → effect cfg docs msg = some (u, d) →
      cfg.urlParse u = some u) :
    published out = affected cfg (fun _ => none) (h.map (·.2)) := by
  suffices ∀ (pre post : List (World × ClientMsg)) (s0 s : State) (o0 out : List ServerMsg),
      DrainsOnce (pre ++ post) → run cfg .init pre = (.running s0, o0) →
      run cfg s0 post = (.running s, out) →
      (∀ docs msg u d, msg ∈ post.map (·.2) → effect cfg docs msg = some (u, d) →
        cfg.urlParse u = some u) →
      published out = affected cfg (docsAfter cfg (pre.map (·.2))) (post.map (·.2)) from
    this [] h .init s [] out (by simpa using hd) rfl hr hurl
  intro pre post
  induction post generalizing pre with
  | nil =>
    intro s0 s o0 out _ _ hr _
    simp only [run, Prod.mk.injEq] at hr
    simp [← hr.2, published, affected]
  | cons x rest ih =>
    obtain ⟨w, msg⟩ := x
    intro s0 s o0 out hd hpre hr hurl
    simp only [run] at hr
    cases hs : step cfg w s0 msg with
    | mk o out1 =>
      cases o with
      | stopped => simp [hs] at hr
      | running s1 =>
        simp only [hs, Prod.mk.injEq] at hr
        have hpre' : run cfg .init (pre ++ [(w, msg)]) = (.running s1, o0 ++ out1) := by
          clear ih hr hd hurl
          have : ∀ (a : List (World × ClientMsg)) (t : State) (o : List ServerMsg),
              run cfg t a = (.running s0, o) →
              run cfg t (a ++ [(w, msg)]) = (.running s1, o ++ out1) := by
            intro a
            induction a with
            | nil =>
              intro t o ht
              simp only [run, Prod.mk.injEq, Outcome.running.injEq] at ht
              obtain ⟨rfl, rfl⟩ := ht
              simp [run, hs]
            | cons y ys ihy =>
              obtain ⟨w', m'⟩ := y
              intro t o ht
              simp only [run, List.cons_append] at ht ⊢
              cases hy : step cfg w' t m' with
              | mk oy outy =>
                cases oy with
                | stopped => simp [hy] at ht
                | running ty =>
                  simp only [hy, Prod.mk.injEq] at ht
                  have := ihy ty (run cfg ty ys).2 (by rw [← ht.1])
                  simp only [this, ← ht.2, List.append_assoc]
          exact this pre .init o0 hpre
        have hdpre : DrainsOnce pre := fun y hy => hd y (by simp [hy])
        have hw : ∀ l, (w.drain l).Perm l := hd (w, msg) (by simp)
        have hrest := ih (pre ++ [(w, msg)]) s1 s (o0 ++ out1) (run cfg s1 rest).2
          (by simpa using hd) hpre' (by rw [← hr.1])
          (fun docs m u d hm => hurl docs m u d (by
            simp only [List.map_cons, List.mem_cons]; exact Or.inr hm))
        rw [← hr.2]
        simp only [published, List.filterMap_append] at hrest ⊢
        rw [hrest]
        simp only [List.map_cons, affected, List.map_append, List.map_nil]
        congr 1
        · cases msg with
          | notification m p =>
            have hc := C02_notification_publishes cfg pre s0 o0 hdpre hpre w hw m p
              (fun u d => hurl _ _ u d (by simp))
            rw [hs] at hc
            simp only at hc
            rw [hc]
            cases effect cfg (docsAfter cfg (pre.map (·.2))) (.notification m p) with
            | none => rfl
            | some ud =>
              obtain ⟨u, d⟩ := ud
              cases d <;> rfl
          | request req =>
            have hc := C02_request_publishes_nothing cfg pre s0 o0 hdpre hpre w (.request req)
              (by intro m p; simp)
            rw [hs] at hc
            simpa [effect, noteOf, published] using hc
          | response id =>
            have hc := C02_request_publishes_nothing cfg pre s0 o0 hdpre hpre w (.response id)
              (by intro m p; simp)
            rw [hs] at hc
            simpa [effect, noteOf, published] using hc
        · simp [docsAfter]

example : affected demoConfig (fun _ => none) (demoHistory.map (·.2))
    = ["file:///a.rs", "file:///a.rs"] := rfl

/-! ## C03 -/

theorem responses_command (cfg : Config) (cmd : String) (resp : Response) :
    ∃ r, responses (processCommandResponse cfg cmd resp) = [r] ∧ r.id = resp.id := by
  unfold processCommandResponse
  simp only
  split
  · exact ⟨_, rfl, rfl⟩
  · exact ⟨_, rfl, rfl⟩

/-- **C03**. Whatever the state, surroundings, method and parameters: a request other than
`shutdown` is answered by exactly one response, which has the request's id. -/
theorem C03_exactly_one_response (cfg : Config) (w : World) (s : State) (req : Request)
    (hs : req.method ≠ "shutdown") :
    ∃ s' out r, step cfg w s (.request req) = (.running s', out) ∧ responses out = [r] ∧
      r.id = req.id := by
  refine ⟨(handleRequest cfg w s req).1, (handleRequest cfg w s req).2, ?_⟩
  simp only [step, hs, if_false, true_and]
  obtain ⟨r, hr, hid, _⟩ := route_some w s.snapshots req
  unfold handleRequest
  rw [hr]
  simp only [responses_append, (responses_processChanges cfg w s).1, List.append_nil]
  cases commandOf req with
  | none => exact ⟨r, rfl, hid⟩
  | some c =>
    obtain ⟨r', h1, h2⟩ := responses_command cfg c r
    exact ⟨r', h1, h2.trans hid⟩

/-- Notifications and client responses are never answered. -/
theorem C03_no_unsolicited_response (cfg : Config) (w : World) (s : State) (msg : ClientMsg)
    (hm : ∀ req, msg ≠ .request req) : responses (step cfg w s msg).2 = [] := by
  cases msg with
  | request req => exact absurd rfl (hm req)
  | notification m p =>
    simp only [step]
    split
    · rfl
    · cases hn : handleNotification cfg w s m p with
      | none => rfl
      | some r =>
        simp only [handleNotification, Option.bind_eq_bind, Option.bind_eq_some_iff] at hn
        obtain ⟨_, _, _, _, _, _, hn⟩ := hn
        simp only [Option.some.injEq] at hn
        rw [← hn]
        exact (responses_processChanges cfg w _).1
  | response id =>
    simp only [step, handleResponse]
    cases requestIdAsStr cfg id with
    | none => rfl
    | some r =>
      simp only
      cases (stripPrefix? "initialize-project::" r).bind cfg.urlParse with
      | none => rfl
      | some p =>
        simp only
        cases cfg.joinLib p <;> rfl

/-- **C03** (whole session). Over any session, the ids of the responses sent are the ids of the
requests received, in the same order, each once. -/
theorem C03_responses_match_requests (cfg : Config) (h : List (World × ClientMsg)) (s s' : State)
    (out : List ServerMsg) (hr : run cfg s h = (.running s', out)) :
    (responses out).map (·.id) = requestIds (h.map (·.2)) := by
  induction h generalizing s out with
  | nil =>
    simp only [run, Prod.mk.injEq] at hr
    simp [← hr.2, responses, requestIds]
  | cons x rest ih =>
    obtain ⟨w, msg⟩ := x
    simp only [run] at hr
    cases hs : step cfg w s msg with
    | mk o out1 =>
      cases o with
      | stopped => simp [hs] at hr
      | running s1 =>
        simp only [hs, Prod.mk.injEq] at hr
        have h1 := ih s1 (run cfg s1 rest).2 (by rw [← hr.1])
        rw [← hr.2, responses_append, List.map_append, h1]
        cases msg with
        | request req =>
          have hne : req.method ≠ "shutdown" := by
            intro he; simp [step, he] at hs
          obtain ⟨s2, o2, r, h2, h3, h4⟩ := C03_exactly_one_response cfg w s req hne
          rw [hs] at h2
          simp only [Prod.mk.injEq] at h2
          rw [h2.2, h3]
          simp [requestIds, h4]
        | notification m p =>
          have := C03_no_unsolicited_response cfg w s (.notification m p) (by simp)
          rw [hs] at this
          simp only at this
          rw [this]
          simp [requestIds]
        | response id =>
          have := C03_no_unsolicited_response cfg w s (.response id) (by simp)
          rw [hs] at this
          simp only at this
          rw [this]
          simp [requestIds]

example : ∃ s out, run demoConfig .init demoHistory = (.running s, out) ∧
    (responses out).map (·.id) = [.num 7] := ⟨_, _, rfl, rfl⟩

/-! ## C04 -/

/-- **C04**. The answer to a request of a supported method is decided by that method's handler
alone: its value, `InternalError` with its message, or `InvalidParams` when the parameters do not
deserialize; any other method is answered with `MethodNotFound`. -/
theorem C04_error_codes (w : World) (snaps : Snapshots) (req : Request) :
    (∀ hd v, (req.method, hd) ∈ supported w → hd snaps req.params = some (.ok v) →
      route w snaps req = some ⟨req.id, some v, none⟩) ∧
    (∀ hd e, (req.method, hd) ∈ supported w → hd snaps req.params = some (.error e) →
      route w snaps req = some ⟨req.id, none, some (.internalError, e)⟩) ∧
    (∀ hd, (req.method, hd) ∈ supported w → hd snaps req.params = none →
      ∃ text, route w snaps req = some ⟨req.id, none, some (.invalidParams, text)⟩) ∧
    ((∀ hd, (req.method, hd) ∉ supported w) →
      ∃ text, route w snaps req = some ⟨req.id, none, some (.methodNotFound, text)⟩) := by
  refine ⟨?_, ?_, ?_, ?_⟩
  · intro hd v hm h; rw [route_supported w snaps req hd hm, h]; rfl
  · intro hd e hm h; rw [route_supported w snaps req hd hm, h]; rfl
  · intro hd hm h; rw [route_supported w snaps req hd hm, h]; exact ⟨_, rfl⟩
  · intro hm; exact ⟨_, route_unsupported w snaps req hm⟩

example : ("codeAction/resolve", demoWorld.codeActionResolve) ∈ supported demoWorld ∧
    ∀ hd, ("workspace/symbol", hd) ∉ supported demoWorld := by
  constructor
  · simp [supported]
  · intro hd; simp [supported, documentFeatures]

/-- **C04** (what is sent). In a reachable state the response of `C04_error_codes` is what the
client gets for every request that is not a command turned into a workspace edit. -/
theorem C04_sent (cfg : Config) (w : World) (s : State) (req : Request)
    (hs : req.method ≠ "shutdown") (hc : req.method ≠ "workspace/executeCommand") :
    ∃ r, route w s.snapshots req = some r ∧ responses (step cfg w s (.request req)).2 = [r] := by
  obtain ⟨r, hr, _⟩ := route_some w s.snapshots req
  refine ⟨r, hr, ?_⟩
  simp only [step, hs, if_false, handleRequest, hr, commandOf, hc, responses_append,
    (responses_processChanges cfg w s).1, List.append_nil]
  rfl

/-! ## C05 -/

/-- A document notification whose parameters do not deserialize. -/
def MalformedNote (cfg : Config) (method : String) (params : Json) : Prop :=
  (method = "textDocument/didOpen" ∧ cfg.decodeOpen params = none) ∨
  (method = "textDocument/didChange" ∧ cfg.decodeChange params = none) ∨
  (method = "textDocument/didClose" ∧ cfg.decodeClose params = none)

/-- **C05 is false of the code**: a `didOpen` notification with unreadable parameters ends the
message loop. -/
theorem C05_negation : ∃ (cfg : Config) (w : World) (method : String) (params : Json),
    method ≠ "exit" ∧ (step cfg w .init (.notification method params)).1 = .stopped :=
  ⟨demoConfig, demoWorld, "textDocument/didOpen", .null, by decide, rfl⟩

/-- **C05** (partial). The loop ends exactly on a shutdown request, an exit notification, or a
document notification whose parameters do not deserialize. Missing for the full claim: the last
case should not end it. -/
theorem C05_stops_iff_partial (cfg : Config) (w : World) (s : State) (msg : ClientMsg) :
    (step cfg w s msg).1 = .stopped ↔
      (∃ req, msg = .request req ∧ req.method = "shutdown") ∨
      (∃ p, msg = .notification "exit" p) ∨
      (∃ m p, msg = .notification m p ∧ MalformedNote cfg m p) := by
  cases msg with
  | request req =>
    simp only [step]
    by_cases hs : req.method = "shutdown" <;> simp [hs]
  | response id => simp [step]
  | notification m p =>
    have aux : (∃ m' p', ClientMsg.notification m p = .notification m' p' ∧ MalformedNote cfg m' p')
        ↔ MalformedNote cfg m p := by
      constructor
      · rintro ⟨m', p', he, hm⟩
        simp only [ClientMsg.notification.injEq] at he
        obtain ⟨rfl, rfl⟩ := he
        exact hm
      · intro hm; exact ⟨m, p, rfl, hm⟩
    rw [aux]
    simp only [step]
    by_cases hs : m = "exit"
    · simp [hs]
    · simp only [hs, if_false]
      simp only [handleNotification, NotRouter.process, MalformedNote]
      by_cases h1 : m = "textDocument/didOpen"
      · subst h1
        cases hp : cfg.decodeOpen p <;> simp
      · by_cases h2 : m = "textDocument/didChange"
        · subst h2
          cases hp : cfg.decodeChange p <;> simp [hp]
        · by_cases h3 : m = "textDocument/didClose"
          · subst h3
            cases hp : cfg.decodeClose p <;> simp [hp]
          · simp [h1, h2, h3, hs]

/-- **C05** (partial, sessions). A session in which every document notification is well formed and
which contains neither `shutdown` nor `exit` never ends. -/
theorem C05_session_runs_partial (cfg : Config) (h : List (World × ClientMsg)) (s : State)
    (h1 : ∀ x ∈ h, ∀ req, x.2 = .request req → req.method ≠ "shutdown")
    (h2 : ∀ x ∈ h, ∀ p, x.2 ≠ .notification "exit" p)
    (h3 : ∀ x ∈ h, ∀ m p, x.2 = .notification m p → ¬ MalformedNote cfg m p) :
    ∃ s' out, run cfg s h = (.running s', out) := by
  induction h generalizing s with
  | nil => exact ⟨s, [], rfl⟩
  | cons x rest ih =>
    obtain ⟨w, msg⟩ := x
    simp only [run]
    cases hs : step cfg w s msg with
    | mk o out1 =>
      cases o with
      | stopped =>
        have := (C05_stops_iff_partial cfg w s msg).mp (by rw [hs])
        rcases this with ⟨req, rfl, hm⟩ | ⟨p, rfl⟩ | ⟨m, p, rfl, hm⟩
        · exact absurd hm (h1 (w, .request req) (by simp) req rfl)
        · exact absurd rfl (h2 (w, .notification "exit" p) (by simp) p)
        · exact absurd hm (h3 (w, .notification m p) (by simp) m p rfl)
      | running s1 =>
        obtain ⟨s', out, he⟩ := ih s1 (fun y hy => h1 y (by simp [hy]))
          (fun y hy => h2 y (by simp [hy])) (fun y hy => h3 y (by simp [hy]))
        exact ⟨s', out1 ++ out, by simp [he]⟩

example : ∀ x ∈ demoHistory, ∀ m p, x.2 = .notification m p → ¬ MalformedNote demoConfig m p := by
  intro x hx m p he
  simp [demoHistory] at hx
  rcases hx with rfl | rfl | rfl
  · simp only [ClientMsg.notification.injEq] at he
    obtain ⟨rfl, rfl⟩ := he
    simp [MalformedNote, demoConfig, Json.get?, Json.asStr?, List.lookup]
  · simp at he
  · simp only [ClientMsg.notification.injEq] at he
    obtain ⟨rfl, rfl⟩ := he
    simp [MalformedNote, demoConfig, Json.get?, Json.asStr?, List.lookup]

/-! ## C06 -/

/-- **C06** (exact). After any history the language version of every document is the one given by
the bookkeeping of the specification. -/
theorem C06_language_versions (cfg : Config) (h : List (World × ClientMsg)) (s : State)
    (out : List ServerMsg) (hd : DrainsOnce h) (hr : run cfg .init h = (.running s, out))
    (uri : String) : (s.snapshots uri).map (·.lang) = (langsAfter cfg h).lang uri := by
  have hi := inv_reach hd hr
  rw [hi.snaps uri]
  have hl := hi.lang uri
  cases hdoc : (langsAfter cfg h).docs uri with
  | none =>
    simp only [hdoc, Option.isSome_none] at hl
    cases hlang : (langsAfter cfg h).lang uri with
    | none => rfl
    | some v => simp [hlang] at hl
  | some d =>
    cases hlang : (langsAfter cfg h).lang uri with
    | none => simp [hlang, hdoc] at hl
    | some v => simp

/-- **C06** (creation). Whatever happened before, a document which was not open and gets opened is
analysed under the version detected from its project at that moment. -/
theorem C06_detected_when_opened (cfg : Config) (h : List (World × ClientMsg)) (s s' : State)
    (out out' : List ServerMsg) (hd : DrainsOnce h) (hr : run cfg .init h = (.running s, out))
    (w : World) (hw : ∀ l, (w.drain l).Perm l) (msg : ClientMsg) (uri : String) (d : Doc)
    (hclosed : docsAfter cfg (h.map (·.2)) uri = none)
    (hopen : effect cfg (docsAfter cfg (h.map (·.2))) msg = some (uri, some d))
    (hs : step cfg w s msg = (.running s', out')) :
    (s'.snapshots uri).map (·.lang) = some (detected cfg w uri) := by
  have hi := inv_reach hd hr
  have hi' := inv_step hi hw hs
  rw [← langsAfter_docs] at hclosed hopen
  have hl := hi.lang uri
  rw [hclosed] at hl
  have hn : (langsAfter cfg h).lang uri = none := by
    cases hx : (langsAfter cfg h).lang uri <;> simp_all
  rw [hi'.snaps uri]
  simp only [langsStep, hopen, docsStep, if_true, Option.bind_some, hn]
  cases (langsAfter cfg h).budget <;> rfl

/-- **C06** (stability). Once no migration request has been made, or two document refreshes have
happened since the last one, the version of a document does not change as long as it stays open
and no migration is requested. Here `h1` is anything (possibly ending in a migration request),
`h2` contains two refreshes or `h1` no migration, and `h3` is the period of stability. -/
theorem C06_stable (cfg : Config) (h1 h2 h3 : List (World × ClientMsg)) (s2 s3 : State)
    (o2 o3 : List ServerMsg) (hd : DrainsOnce (h1 ++ h2 ++ h3))
    (hr2 : run cfg .init (h1 ++ h2) = (.running s2, o2)) (hr3 : run cfg s2 h3 = (.running s3, o3))
    (hm2 : ∀ x ∈ h2, isMigration x.2 = false) (hm3 : ∀ x ∈ h3, isMigration x.2 = false)
    (hrefresh : 2 ≤ refreshes cfg (docsAfter cfg (h1.map (·.2))) (h2.map (·.2)) ∨
      ∀ x ∈ h1, isMigration x.2 = false)
    (uri : String)
    (hopen : OpenThroughout cfg uri (docsAfter cfg ((h1 ++ h2).map (·.2))) (h3.map (·.2))) :
    (s3.snapshots uri).map (·.lang) = (s2.snapshots uri).map (·.lang) := by
  have hi2 : Inv cfg s2 (langsAfter cfg (h1 ++ h2)) :=
    inv_reach (fun y hy => hd y (by simp at hy ⊢; rcases hy with h | h <;> simp [h])) hr2
  have hi3 := inv_run hi2 (fun y hy => hd y (by simp [hy])) hr3
  have hb : (langsAfter cfg (h1 ++ h2)).budget = 0 := by
    simp only [langsAfter, List.foldl_append]
    rw [langs_budget_refreshes cfg h2 _ hm2]
    rcases hrefresh with hrefresh | hnone
    · have hle := langs_budget_le cfg h1 ⟨fun _ => none, fun _ => none, 0⟩ (by simp)
      rw [show (List.foldl (fun l x => langsStep cfg l x.1 x.2)
        { docs := fun _ => none, lang := fun _ => none, budget := 0 } h1).docs
        = docsAfter cfg (h1.map (·.2)) from langsAfter_docs cfg h1]
      omega
    · have := langs_budget_refreshes cfg h1 ⟨fun _ => none, fun _ => none, 0⟩ hnone
      rw [this]; simp
  have hst := langs_stable cfg uri h3 _ hm3 hb hi2.lang (by rw [langsAfter_docs]; exact hopen)
  have e2 : (s2.snapshots uri).map (·.lang) = (langsAfter cfg (h1 ++ h2)).lang uri :=
    C06_language_versions cfg _ s2 o2
      (fun y hy => hd y (by simp at hy ⊢; rcases hy with h | h <;> simp [h])) hr2 uri
  have e3 : (s3.snapshots uri).map (·.lang)
      = (h3.foldl (fun l x => langsStep cfg l x.1 x.2) (langsAfter cfg (h1 ++ h2))).lang uri := by
    rw [hi3.snaps uri]
    have hl := hi3.lang uri
    generalize (h3.foldl (fun l x => langsStep cfg l x.1 x.2) (langsAfter cfg (h1 ++ h2))) = l3 at hl
    cases hdoc : l3.docs uri <;> cases hlang : l3.lang uri <;> simp_all
  rw [e2, e3, hst]

example : refreshes demoConfig (docsAfter demoConfig []) (demoHistory.map (·.2)) = 2 ∧
    OpenThroughout demoConfig "file:///a.rs" (docsAfter demoConfig (demoHistory.map (·.2)))
      [.notification "textDocument/didChange"
        (.obj [("uri", .str "file:///a.rs"), ("text", .str "mod c {}")])] :=
  ⟨rfl, rfl, rfl⟩

/-! ## C07 -/

theorem canCreate_iff (caps : ClientCaps) :
    canCreateWorkspaceResources caps = true ↔
      (caps.applyEdit = some true ∧ caps.documentChanges = some true ∧
        ∃ ops, caps.resourceOperations = some ops ∧ "create" ∈ ops) := by
  unfold canCreateWorkspaceResources
  rcases caps.applyEdit with _ | _ | _ <;> rcases caps.documentChanges with _ | _ | _ <;>
    cases caps.resourceOperations <;> simp

/-- **C07**. A command whose result stands for a workspace edit which the client can apply is
answered by a null result with the command's id, followed by the edit request, whose id starts
with the prefix of the command. -/
theorem C07_edit_after_null_response (cfg : Config) (h : List (World × ClientMsg)) (s : State)
    (out : List ServerMsg) (hd : DrainsOnce h) (hr : run cfg .init h = (.running s, out))
    (w : World) (req : Request)
    (c : EditCommand) (v : Json) (e : CommandEdit)
    (hm : req.method = "workspace/executeCommand")
    (hcmd : (req.params.get? "command").bind Json.asStr? = some c.name)
    (hv : w.executeCommand s.snapshots req.params = some (.ok v)) (he : c.edit cfg v = some e)
    (hallow : c.allowed cfg.caps) :
    (step cfg w s (.request req)).2 =
      [.response ⟨req.id, some .null, none⟩,
       .request (.str (c.idPrefix ++ e.idSuffix)) "workspace/applyEdit" e.params] := by
  have hch := (inv_reach hd hr).changes
  have hroute : route w s.snapshots req = some ⟨req.id, some v, none⟩ :=
    (C04_error_codes w s.snapshots req).1 w.executeCommand v (by rw [hm]; simp [supported]) hv
  simp only [step, hm]
  rw [if_neg (by decide), handleRequest_out _ _ _ _ hch, hroute]
  simp only [commandOf, hm, if_true, hcmd, processCommandResponse]
  cases c with
  | create =>
    have := (canCreate_iff cfg.caps).mpr hallow
    simp only [EditCommand.edit] at he
    simp [EditCommand.name, this, he, EditCommand.idPrefix]
  | migrate =>
    simp only [EditCommand.edit] at he
    simp [EditCommand.name, he, EditCommand.idPrefix]
  | extract =>
    have := (canCreate_iff cfg.caps).mpr hallow
    simp only [EditCommand.edit] at he
    simp [EditCommand.name, this, he, EditCommand.idPrefix]

example : EditCommand.create.allowed demoConfig.caps ∧
    EditCommand.create.edit demoConfig (.str "file:///p/") = some ⟨"file:///p/", .null⟩ :=
  ⟨⟨rfl, rfl, _, rfl, by simp⟩, rfl⟩

/-- **C07** (otherwise). In every other case a request leads to no request to the client, and the
response is the handler's own. -/
theorem C07_no_edit_otherwise (cfg : Config) (w : World) (s : State) (req : Request)
    (hs : req.method ≠ "shutdown")
    (hno : ∀ (c : EditCommand) (v : Json) (e : CommandEdit), req.method = "workspace/executeCommand" →
      (req.params.get? "command").bind Json.asStr? = some c.name →
      w.executeCommand s.snapshots req.params = some (.ok v) → c.edit cfg v = some e →
      ¬ c.allowed cfg.caps) :
    serverRequests (step cfg w s (.request req)).2 = [] ∧
      ∃ r, route w s.snapshots req = some r ∧ responses (step cfg w s (.request req)).2 = [r] := by
  obtain ⟨r, hr, hid, hres⟩ := route_some w s.snapshots req
  simp only [step, hs, if_false, handleRequest, hr]
  cases hc : commandOf req with
  | none =>
    refine ⟨?_, r, rfl, ?_⟩
    · have := (responses_processChanges cfg w s).2
      simp only [serverRequests, List.filterMap_append] at this ⊢
      rw [this]; rfl
    · simp only [responses_append, (responses_processChanges cfg w s).1]; rfl
  | some cmd =>
    have hm : req.method = "workspace/executeCommand" := by
      unfold commandOf at hc; split at hc <;> simp_all
    have hcmd : (req.params.get? "command").bind Json.asStr? = some cmd := by
      simpa [commandOf, hm] using hc
    have hr' := route_supported w s.snapshots req w.executeCommand (by rw [hm]; simp [supported])
    rw [hr] at hr'
    have key : ∀ (c : EditCommand), cmd = c.name → c.allowed cfg.caps →
        r.result.bind (c.edit cfg) = none := by
      intro c hcn hal
      cases hv : w.executeCommand s.snapshots req.params with
      | none => simp [hv, reply] at hr'; simp [hr']
      | some x =>
        cases x with
        | error e => simp [hv, reply] at hr'; simp [hr']
        | ok v =>
          simp [hv, reply] at hr'
          subst hr'
          cases he : c.edit cfg v with
          | none => simpa using he
          | some e => exact absurd hal (hno c v e hm (hcn ▸ hcmd) hv he)
    have hresp : processCommandResponse cfg cmd r = [.response r] := by
      unfold processCommandResponse
      simp only
      by_cases h1 : cmd = "createProject"
      · subst h1
        by_cases hcan : canCreateWorkspaceResources cfg.caps
        · have hk : r.result.bind cfg.asCreate = none := key .create rfl ((canCreate_iff _).mp hcan)
          simp [hcan, hk]
        · simp [hcan]
      · by_cases h2 : cmd = "migrateProject"
        · subst h2
          have hk : r.result.bind cfg.asMigrate = none := key .migrate rfl trivial
          simp [hk]
        · by_cases h3 : cmd = "extractEvent"
          · subst h3
            by_cases hcan : canCreateWorkspaceResources cfg.caps
            · have hk : r.result.bind cfg.asExtract = none :=
                key .extract rfl ((canCreate_iff _).mp hcan)
              simp [hcan, hk]
            · simp [hcan]
          · simp [h1, h2, h3]
    refine ⟨?_, r, rfl, ?_⟩
    · have := (responses_processChanges cfg w s).2
      simp only [serverRequests, List.filterMap_append, hresp] at this ⊢
      rw [this]; rfl
    · simp only [responses_append, (responses_processChanges cfg w s).1, hresp]; rfl

/-- **C07** (traceable ids). The kind of command can be read off the id of its edit request,
whatever follows the prefix. -/
theorem C07_kind_recoverable (c : EditCommand) (suffix : String) :
    kindOfId (c.idPrefix ++ suffix) = some c := by
  cases c <;> simp [kindOfId, EditCommand.idPrefix]

/-- **C07** (project creation only). A client response makes the server request something (showing
the new project's `lib.rs`) only if it answers a request with a project creation id. The
assumption says that the id needs no escaping; the ids made by the server are prefixes plus URLs,
which are percent-encoded. -/
theorem C07_show_document_only_after_create (cfg : Config) (w : World) (s : State) (id : String)
    (hesc : cfg.debugEscape id = id)
    (h : serverRequests (step cfg w s (.response (.str id))).2 ≠ []) :
    kindOfId id = some .create := by
  simp only [step, handleResponse, requestIdAsStr, hesc, stripPrefix?] at h
  by_cases hp : "initialize-project::".toList.isPrefixOf id.toList
  · simp only [kindOfId]
    rw [if_pos (List.isPrefixOf_iff_prefix.mp hp)]
  · rw [if_neg hp] at h
    exact absurd rfl h

/-- And then it shows `lib.rs` of that project. -/
theorem C07_show_document_after_create (cfg : Config) (w : World) (s : State) (uri u lib : String)
    (hesc : cfg.debugEscape ("initialize-project::" ++ uri) = "initialize-project::" ++ uri)
    (hu : cfg.urlParse uri = some u) (hl : cfg.joinLib u = some lib) :
    (step cfg w s (.response (.str (EditCommand.create.idPrefix ++ uri)))).2 =
      [.request (.str ("show-document::" ++ lib)) "window/showDocument"
        (.obj [("uri", .str lib), ("takeFocus", .bool true)])] := by
  have hstrip : stripPrefix? "initialize-project::" ("initialize-project::" ++ uri) = some uri := by
    unfold stripPrefix?
    rw [if_pos]
    · congr 1
      simp
    · simp
  simp only [step, handleResponse, requestIdAsStr, EditCommand.idPrefix, hesc, hstrip,
    Option.bind_some, hu, hl]

example : demoConfig.urlParse "file:///p/" = some "file:///p/" ∧
    demoConfig.joinLib "file:///p/" = some "file:///p/lib.rs" := ⟨rfl, by decide⟩

end Verif.Lsp
