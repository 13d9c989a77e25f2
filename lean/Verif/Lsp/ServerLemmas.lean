import Verif.Lsp.ServerSpec

/-! # Helper lemmas about the server loop -/

namespace Verif.Lsp

open Spec

/-- Relation between the server state and the specification, kept by every message. -/
structure Inv (cfg : Config) (s : State) (l : Langs) : Prop where
  changes : s.memory.changes = []
  docs : s.memory.docs = l.docs
  snaps : ∀ u, s.snapshots u =
    (l.docs u).bind fun d => (l.lang u).map fun v =>
      ⟨d.content, positionEncoding cfg.caps, some d.version, v⟩
  lang : ∀ u, (l.lang u).isSome = (l.docs u).isSome
  fuel : s.fuel = l.budget

theorem inv_init (cfg : Config) : Inv cfg .init ⟨fun _ => none, fun _ => none, 0⟩ := by
  constructor <;> simp [State.init, Memory.new]

theorem versionCheck_eq (cfg : Config) (w : World) (u : String) :
    versionCheck cfg w u = detected cfg w u := by
  unfold versionCheck detected
  cases cfg.urlParse u <;> simp

theorem processChanges_nil (cfg : Config) (w : World) (s : State) (h : s.memory.changes = []) :
    processChanges cfg w s = (s, []) := by
  unfold processChanges Memory.takeChanges
  simp [h]

theorem perm_drain {w : World} (h : ∀ l, (w.drain l).Perm l) (u : String) : w.drain [u] = [u] :=
  List.perm_singleton.mp (h [u])

/-- Processing of the change of exactly one document. -/
theorem processChanges_one (cfg : Config) (w : World) (s : State) (u : String)
    (hd : ∀ l, (w.drain l).Perm l) (h : s.memory.changes = [u]) :
    processChanges cfg w s =
      refresh cfg w { s with memory := { s.memory with changes := [] } } u := by
  unfold processChanges Memory.takeChanges
  simp [h, perm_drain hd, refreshAll]

/-- What the notification path does to the document store. -/
theorem handleNotification_eq (cfg : Config) (w : World) (s : State) (m : String) (p : Json)
    (s' : State) (out : List ServerMsg) (hd : ∀ l, (w.drain l).Perm l)
    (hc : s.memory.changes = [])
    (h : handleNotification cfg w s m p = some (s', out)) :
    (s', out) =
      match effect cfg s.memory.docs (.notification m p) with
      | some (u, d) =>
        refresh cfg w
          { s with memory := { docs := fun i => if i = u then d else s.memory.docs i, changes := [] } } u
      | none => (s, []) := by
  unfold handleNotification at h
  simp only [NotRouter.process, effect, noteOf] at h ⊢
  by_cases h1 : m = "textDocument/didOpen"
  · subst h1
    simp at h ⊢
    cases hp : cfg.decodeOpen p with
    | none => simp [hp] at h
    | some q =>
      simp [hp, didOpen] at h
      simp only [Option.map_some, Option.bind_some, accept]
      by_cases hr : q.languageId = "rust"
      · simp only [hr, if_true] at h ⊢
        rw [processChanges_one (u := q.uri) (hd := hd)] at h
        · exact h.symm
        · simp [Memory.insert, Memory.mark, hc]
      · simp only [hr, if_false] at h ⊢
        rw [processChanges_nil _ _ _ hc] at h
        exact h.symm
  · by_cases h2 : m = "textDocument/didChange"
    · subst h2
      simp at h ⊢
      cases hp : cfg.decodeChange p with
      | none => simp [hp] at h
      | some q =>
        simp [hp, didChange] at h
        simp only [Option.map_some, Option.bind_some, accept]
        cases hl : q.texts.getLast? with
        | none =>
          simp only [hl] at h
          rw [processChanges_nil _ _ _ hc] at h
          simp only [Option.map_none, ite_self]
          exact h.symm
        | some t =>
          simp only [hl, Memory.update] at h
          cases hq : s.memory.docs q.uri with
          | none =>
            simp only [hq] at h
            rw [processChanges_nil _ _ _ hc] at h
            simp
            simpa using h.symm
          | some d =>
            simp only [hq] at h
            rw [processChanges_one (u := q.uri) (hd := hd)] at h
            · simp
              exact h.symm
            · simp [Memory.mark, hc]
    · by_cases h3 : m = "textDocument/didClose"
      · subst h3
        simp at h ⊢
        cases hp : cfg.decodeClose p with
        | none => simp [hp] at h
        | some u =>
          simp [hp, didClose, Memory.remove] at h
          simp only [Option.map_some, Option.bind_some, accept]
          cases hq : s.memory.docs u with
          | none =>
            simp only [hq] at h
            rw [processChanges_nil _ _ _ hc] at h
            simp
            simpa using h.symm
          | some d =>
            simp only [hq] at h
            rw [processChanges_one (u := u) (hd := hd)] at h
            · simp
              exact h.symm
            · simp [Memory.mark, hc]
      · simp [h1, h2, h3] at h ⊢
        rw [processChanges_nil _ _ _ hc] at h
        simpa using h.symm

/-- A request leaves documents and snapshots alone. -/
theorem handleRequest_state (cfg : Config) (w : World) (s : State) (req : Request)
    (hc : s.memory.changes = []) :
    (handleRequest cfg w s req).1 =
      if isMigration (.request req) then { s with fuel := 2 } else s := by
  unfold handleRequest
  rw [processChanges_nil _ _ _ hc]
  simp only [isMigration, isMigrationResolve, commandOf]
  by_cases h1 : req.method = "workspace/executeCommand"
  · simp [h1]
  · simp [h1]

theorem handleRequest_out (cfg : Config) (w : World) (s : State) (req : Request)
    (hc : s.memory.changes = []) :
    (handleRequest cfg w s req).2 =
      match route w s.snapshots req with
      | some resp =>
        match commandOf req with
        | some cmd => processCommandResponse cfg cmd resp
        | none => [.response resp]
      | none => [] := by
  unfold handleRequest
  rw [processChanges_nil _ _ _ hc]
  simp only [List.append_nil]
  rfl

theorem refresh_state (cfg : Config) (w : World) (s : State) (u : String) :
    (refresh cfg w s u).1 =
      match s.memory.docs u with
      | some doc =>
        { s with
          fuel := s.fuel - 1
          snapshots := fun i =>
            if i = u then
              some ⟨doc.content, positionEncoding cfg.caps, some doc.version,
                if s.fuel > 0 then detected cfg w u
                else ((s.snapshots u).map (·.lang)).getD (detected cfg w u)⟩
            else s.snapshots i }
      | none => { s with snapshots := fun i => if i = u then none else s.snapshots i } := by
  unfold refresh
  simp only [Memory.get, versionCheck_eq]
  cases hm : s.memory.docs u with
  | none => cases cfg.urlParse u <;> rfl
  | some d =>
    by_cases hf : s.fuel > 0
    · cases cfg.urlParse u <;> simp [hf]
    · have h0 : s.fuel = 0 := by omega
      cases cfg.urlParse u <;> simp [h0]

theorem refresh_out (cfg : Config) (w : World) (s : State) (u : String) :
    (refresh cfg w s u).2 =
      match cfg.urlParse u with
      | some uri => [publishDiagnostics w (refresh cfg w s u).1.snapshots uri]
      | none => [] := by
  unfold refresh
  simp only
  cases cfg.urlParse u <;> rfl

/-- Every message keeps the relation. -/
theorem inv_step {cfg : Config} {w : World} {s s' : State} {l : Langs} {msg : ClientMsg}
    {out : List ServerMsg} (hi : Inv cfg s l) (hd : ∀ k, (w.drain k).Perm k)
    (h : step cfg w s msg = (.running s', out)) : Inv cfg s' (langsStep cfg l w msg) := by
  cases msg with
  | request req =>
    unfold step at h
    by_cases hs : req.method = "shutdown"
    · simp [hs] at h
    · simp only [hs, if_false, Prod.mk.injEq, Outcome.running.injEq] at h
      have := handleRequest_state cfg w s req hi.changes
      rw [h.1] at this
      subst this
      simp only [langsStep, effect, noteOf, Option.bind_none]
      split
      · exact ⟨hi.changes, hi.docs, hi.snaps, hi.lang, by simp_all⟩
      · exact ⟨hi.changes, hi.docs, hi.snaps, hi.lang, by simp_all [hi.fuel]⟩
  | response id =>
    simp only [step, Prod.mk.injEq, Outcome.running.injEq] at h
    obtain ⟨rfl, _⟩ := h
    simpa [langsStep, effect, noteOf, isMigration] using hi
  | notification m p =>
    unfold step at h
    by_cases hs : m = "exit"
    · simp [hs] at h
    · simp only [hs, if_false] at h
      cases hn : handleNotification cfg w s m p with
      | none => simp [hn] at h
      | some r =>
        obtain ⟨s1, o1⟩ := r
        simp only [hn, Prod.mk.injEq, Outcome.running.injEq] at h
        obtain ⟨rfl, rfl⟩ := h
        have heq := handleNotification_eq cfg w s m p s1 o1 hd hi.changes hn
        rw [hi.docs] at heq
        unfold langsStep
        cases he : effect cfg l.docs (.notification m p) with
        | none =>
          simp only [he, Prod.mk.injEq] at heq
          obtain ⟨rfl, _⟩ := heq
          simpa [isMigration] using hi
        | some ud =>
          obtain ⟨u, d⟩ := ud
          simp only [he] at heq
          have hst := congrArg Prod.fst heq
          rw [refresh_state] at hst
          simp only [if_true] at hst
          cases d with
          | none =>
            simp only at hst
            subst hst
            refine ⟨rfl, ?_, ?_, ?_, hi.fuel⟩
            · funext i; simp [docsStep, he]
            · intro i
              simp only [docsStep, he]
              by_cases hiu : i = u
              · simp [hiu]
              · simp [hiu, hi.snaps i]
            · intro i
              simp only [docsStep, he]
              by_cases hiu : i = u
              · simp [hiu]
              · simp [hiu, hi.lang i]
          | some d =>
            simp only at hst
            subst hst
            refine ⟨rfl, ?_, ?_, ?_, ?_⟩
            · funext i; simp [docsStep, he]
            · intro i
              simp only [docsStep, he]
              by_cases hiu : i = u
              · subst hiu
                simp only [if_true, Option.bind_some, Option.map_some, Option.some.injEq,
                  Snapshot.mk.injEq, true_and]
                rw [hi.fuel, hi.snaps i]
                have hl := hi.lang i
                cases hb : l.budget with
                | succ n => simp
                | zero =>
                  cases hli : l.lang i with
                  | none => simp
                  | some v =>
                    cases hdi : l.docs i with
                    | none => simp [hli, hdi] at hl
                    | some dd => simp
              · simp [hiu, hi.snaps i]
            · intro i
              simp only [docsStep, he]
              by_cases hiu : i = u
              · simp [hiu]
              · simp [hiu, hi.lang i]
            · simp [hi.fuel]

theorem inv_run {cfg : Config} {h : List (World × ClientMsg)} {s s' : State} {l : Langs}
    {out : List ServerMsg} (hi : Inv cfg s l) (hd : DrainsOnce h)
    (hr : run cfg s h = (.running s', out)) :
    Inv cfg s' (h.foldl (fun l x => langsStep cfg l x.1 x.2) l) := by
  induction h generalizing s l out with
  | nil =>
    simp only [run, Prod.mk.injEq, Outcome.running.injEq] at hr
    obtain ⟨rfl, _⟩ := hr
    simpa using hi
  | cons x rest ih =>
    obtain ⟨w, msg⟩ := x
    simp only [run] at hr
    cases hs : step cfg w s msg with
    | mk o out1 =>
      cases o with
      | stopped => simp [hs] at hr
      | running s1 =>
        simp only [hs, Prod.mk.injEq] at hr
        have h1 := inv_step hi (hd (w, msg) (by simp)) hs
        refine ih h1 (fun y hy => hd y (by simp [hy])) (out := (run cfg s1 rest).2) ?_
        rw [← hr.1]

/-- Reachable running states satisfy the relation. -/
theorem inv_reach {cfg : Config} {h : List (World × ClientMsg)} {s : State}
    {out : List ServerMsg} (hd : DrainsOnce h) (hr : run cfg .init h = (.running s, out)) :
    Inv cfg s (langsAfter cfg h) :=
  inv_run (inv_init cfg) hd hr

theorem langsStep_docs (cfg : Config) (l : Langs) (w : World) (msg : ClientMsg) :
    (langsStep cfg l w msg).docs = docsStep cfg l.docs msg := by
  unfold langsStep
  split <;> simp_all [docsStep]

theorem foldl_docs (cfg : Config) (h : List (World × ClientMsg)) (l : Langs) :
    (h.foldl (fun l x => langsStep cfg l x.1 x.2) l).docs
      = (h.map (·.2)).foldl (docsStep cfg) l.docs := by
  induction h generalizing l with
  | nil => rfl
  | cons x rest ih => simp [ih, langsStep_docs]

theorem langsAfter_docs (cfg : Config) (h : List (World × ClientMsg)) :
    (langsAfter cfg h).docs = docsAfter cfg (h.map (·.2)) :=
  foldl_docs cfg h _

/-! ## Routing -/

/-- The response for a handler outcome (helper, mirrors the property's wording). -/
def reply (id : ReqId) : Option (Except String Json) → Response
  | some (.ok v) => ⟨id, some v, none⟩
  | some (.error e) => ⟨id, none, some (.internalError, e)⟩
  | none => ⟨id, none, some (.invalidParams, "Invalid request parameters")⟩

theorem process_ne (req : Request) (m : String) (run : Json → Option (Except String Json))
    (h : req.method ≠ m) : Router.process ⟨some req, none⟩ m run = ⟨some req, none⟩ := by
  simp [Router.process, h]

theorem process_eq (req : Request) (m : String) (run : Json → Option (Except String Json))
    (h : req.method = m) :
    Router.process ⟨some req, none⟩ m run = ⟨none, some (reply req.id (run req.params))⟩ := by
  simp only [Router.process, h, reply]
  rcases run req.params with _ | _ | _ <;> simp

theorem process_done (r : Response) (m : String) (run : Json → Option (Except String Json)) :
    Router.process ⟨none, some r⟩ m run = ⟨none, some r⟩ := by
  simp [Router.process]

theorem finish_done (r : Response) : Router.finish ⟨none, some r⟩ = some r := rfl

theorem route_supported (w : World) (snaps : Snapshots) (req : Request) (hd : Handler)
    (hm : (req.method, hd) ∈ supported w) :
    route w snaps req = some (reply req.id (hd snaps req.params)) := by
  simp only [supported, documentFeatures, List.map_cons, List.map_nil, List.cons_append,
    List.nil_append, List.mem_cons, Prod.mk.injEq, List.not_mem_nil, or_false] at hm
  unfold route
  simp only
  rcases hm with ⟨h, rfl⟩ | ⟨h, rfl⟩ | ⟨h, rfl⟩ | ⟨h, rfl⟩ | ⟨h, rfl⟩ | ⟨h, rfl⟩ | ⟨h, rfl⟩
  · rw [process_ne _ _ _ (by rw [h]; decide), process_ne _ _ _ (by rw [h]; decide),
      process_ne _ _ _ (by rw [h]; decide), process_eq _ _ _ h]
    simp only [process_done, finish_done]
  · rw [process_ne _ _ _ (by rw [h]; decide), process_ne _ _ _ (by rw [h]; decide),
      process_ne _ _ _ (by rw [h]; decide), process_ne _ _ _ (by rw [h]; decide),
      process_ne _ _ _ (by rw [h]; decide), process_ne _ _ _ (by rw [h]; decide),
      process_eq _ _ _ h]
    simp only [finish_done]
  · rw [process_eq _ _ _ h]
    simp only [process_done, finish_done]
  · rw [process_ne _ _ _ (by rw [h]; decide), process_eq _ _ _ h]
    simp only [process_done, finish_done]
  · rw [process_ne _ _ _ (by rw [h]; decide), process_ne _ _ _ (by rw [h]; decide),
      process_eq _ _ _ h]
    simp only [process_done, finish_done]
  · rw [process_ne _ _ _ (by rw [h]; decide), process_ne _ _ _ (by rw [h]; decide),
      process_ne _ _ _ (by rw [h]; decide), process_ne _ _ _ (by rw [h]; decide),
      process_eq _ _ _ h]
    simp only [process_done, finish_done]
  · rw [process_ne _ _ _ (by rw [h]; decide), process_ne _ _ _ (by rw [h]; decide),
      process_ne _ _ _ (by rw [h]; decide), process_ne _ _ _ (by rw [h]; decide),
      process_ne _ _ _ (by rw [h]; decide), process_eq _ _ _ h]
    simp only [process_done, finish_done]

theorem route_unsupported (w : World) (snaps : Snapshots) (req : Request)
    (hm : ∀ hd, (req.method, hd) ∉ supported w) :
    route w snaps req =
      some ⟨req.id, none, some (.methodNotFound, "Unknown or unsupported request.")⟩ := by
  have key : ∀ m hd, (m, hd) ∈ supported w → req.method ≠ m := by
    intro m hd h he; exact hm hd (he ▸ h)
  unfold route
  simp only
  rw [process_ne _ _ _ (key _ w.completion.handler (by simp [supported, documentFeatures])),
    process_ne _ _ _ (key _ w.hover.handler (by simp [supported, documentFeatures])),
    process_ne _ _ _ (key _ w.codeAction.handler (by simp [supported, documentFeatures])),
    process_ne _ _ _ (key _ w.codeActionResolve (by simp [supported, documentFeatures])),
    process_ne _ _ _ (key _ w.inlayHint.handler (by simp [supported, documentFeatures])),
    process_ne _ _ _ (key _ w.signatureHelp.handler (by simp [supported, documentFeatures])),
    process_ne _ _ _ (key _ w.executeCommand (by simp [supported, documentFeatures]))]
  rfl

theorem route_some (w : World) (snaps : Snapshots) (req : Request) :
    ∃ r, route w snaps req = some r ∧ r.id = req.id ∧
      (r.result.isSome ↔ r.error = none) := by
  by_cases h : ∃ hd, (req.method, hd) ∈ supported w
  · obtain ⟨hd, hm⟩ := h
    refine ⟨_, route_supported w snaps req hd hm, ?_⟩
    rcases hd snaps req.params with _ | _ | _ <;> simp [reply]
  · refine ⟨_, route_unsupported w snaps req (fun hd hm => h ⟨hd, hm⟩), ?_⟩
    simp

theorem responses_append (a b : List ServerMsg) :
    responses (a ++ b) = responses a ++ responses b := by
  simp [responses]

theorem responses_refresh (cfg : Config) (w : World) (s : State) (u : String) :
    responses (refresh cfg w s u).2 = [] ∧ serverRequests (refresh cfg w s u).2 = [] := by
  rw [refresh_out]
  cases cfg.urlParse u with
  | none => exact ⟨rfl, rfl⟩
  | some v =>
    simp only [publishDiagnostics]
    split <;> exact ⟨rfl, rfl⟩

theorem responses_refreshAll (cfg : Config) (w : World) (ids : List String) (s : State) :
    responses (refreshAll cfg w s ids).2 = [] ∧ serverRequests (refreshAll cfg w s ids).2 = [] := by
  induction ids generalizing s with
  | nil => exact ⟨rfl, rfl⟩
  | cons u us ih =>
    have h1 := responses_refresh cfg w s u
    have h2 := ih (refresh cfg w s u).1
    simp only [refreshAll, responses, serverRequests, List.filterMap_append] at h1 h2 ⊢
    rw [h1.1, h1.2, h2.1, h2.2]
    exact ⟨rfl, rfl⟩

theorem responses_processChanges (cfg : Config) (w : World) (s : State) :
    responses (processChanges cfg w s).2 = [] ∧ serverRequests (processChanges cfg w s).2 = [] := by
  unfold processChanges
  split
  · exact responses_refreshAll cfg w _ _
  · exact ⟨rfl, rfl⟩

/-! ## Versions -/

theorem effect_migration (cfg : Config) (docs : Docs) (msg : ClientMsg) (x : String × Option Doc)
    (h : effect cfg docs msg = some x) : isMigration msg = false := by
  cases msg with
  | notification m p => rfl
  | request r => simp [effect, noteOf] at h
  | response i => rfl

theorem langs_budget_le (cfg : Config) (h : List (World × ClientMsg)) (l : Langs)
    (hl : l.budget ≤ 2) :
    (h.foldl (fun l x => langsStep cfg l x.1 x.2) l).budget ≤ 2 := by
  induction h generalizing l with
  | nil => simpa
  | cons x rest ih =>
    apply ih
    show (langsStep cfg l x.1 x.2).budget ≤ 2
    unfold langsStep
    split
    · simp; omega
    · simpa
    · simp; split <;> omega

theorem langs_budget_refreshes (cfg : Config) (h : List (World × ClientMsg)) (l : Langs)
    (hm : ∀ x ∈ h, isMigration x.2 = false) :
    (h.foldl (fun l x => langsStep cfg l x.1 x.2) l).budget
      = l.budget - refreshes cfg l.docs (h.map (·.2)) := by
  induction h generalizing l with
  | nil => simp [refreshes]
  | cons x rest ih =>
    have h1 := hm x (by simp)
    simp only [List.foldl_cons, List.map_cons, refreshes]
    rw [ih _ (fun y hy => hm y (by simp [hy])), langsStep_docs]
    rcases he : effect cfg l.docs x.2 with _ | ⟨u, _ | d⟩
    · simp [langsStep, he, h1]
    · simp [langsStep, he]
    · simp only [langsStep, he]; omega

theorem langs_stable (cfg : Config) (uri : String) (h : List (World × ClientMsg)) (l : Langs)
    (hm : ∀ x ∈ h, isMigration x.2 = false) (hb : l.budget = 0)
    (hl : ∀ u, (l.lang u).isSome = (l.docs u).isSome)
    (ho : OpenThroughout cfg uri l.docs (h.map (·.2))) :
    (h.foldl (fun l x => langsStep cfg l x.1 x.2) l).lang uri = l.lang uri := by
  induction h generalizing l with
  | nil => rfl
  | cons x rest ih =>
    simp only [List.map_cons, OpenThroughout] at ho
    obtain ⟨ho1, ho2⟩ := ho
    have h1 := hm x (by simp)
    have hopen' : (docsStep cfg l.docs x.2 uri).isSome := by
      cases hr : rest.map (·.2) with
      | nil => simpa [hr, OpenThroughout] using ho2
      | cons y ys => rw [hr, OpenThroughout] at ho2; exact ho2.1
    have hlang : (langsStep cfg l x.1 x.2).lang uri = l.lang uri := by
      have hsome := (hl uri).trans ho1
      obtain ⟨v, hv⟩ := Option.isSome_iff_exists.mp hsome
      unfold langsStep
      split
      · rename_i u d he
        by_cases hu : uri = u
        · subst hu; simp [hb, hv]
        · simp [hu]
      · rename_i u he
        by_cases hu : uri = u
        · subst hu; simp [docsStep, he] at hopen'
        · simp [hu]
      · rfl
    have hb' : (langsStep cfg l x.1 x.2).budget = 0 := by
      unfold langsStep
      split <;> simp_all
    have hl' : ∀ u, ((langsStep cfg l x.1 x.2).lang u).isSome
        = ((langsStep cfg l x.1 x.2).docs u).isSome := by
      intro u
      rw [langsStep_docs]
      unfold langsStep docsStep
      split
      · rename_i u' d he
        rw [he]
        by_cases hu : u = u' <;> simp [hu, hl]
      · rename_i u' he
        rw [he]
        by_cases hu : u = u' <;> simp [hu, hl]
      · rename_i he
        rw [he]
        exact hl u
    simp only [List.foldl_cons]
    rw [ih _ (fun y hy => hm y (by simp [hy])) hb' hl' (by rw [langsStep_docs]; exact ho2), hlang]

end Verif.Lsp
