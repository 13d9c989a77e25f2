import Verif.Lsp.Memory
import Verif.Lsp.Capabilities

/-!
# Model of the server loop

`crates/lsp-server/src/dispatch.rs`, `crates/lsp-server/src/dispatch/routers/*.rs`,
`crates/lsp-server/src/dispatch/handlers/notification.rs`,
`crates/lsp-server/src/dispatch/actions.rs`.

Everything the server asks of the outside (deserialization, URL parsing, analysis of a
text, request handlers, detection of the project's ink! version, hash set iteration order)
is a field of `Config` (fixed during a session) or `World` (may differ at every message).
Failure to send on the channel (`dispatch.rs:413-417`) is not modelled: the connection is up.
-/

namespace Verif.Lsp

/-- Request ids. Models `lsp_server::RequestId` (an integer or a string).
As used in `crates/lsp-server/src/dispatch.rs:122-184`. -/
inductive ReqId where
  | num (n : Int)
  | str (s : String)
  deriving DecidableEq, Repr

/-- The JSON-RPC error codes the server uses
(`crates/lsp-server/src/dispatch/routers/request.rs:66,82,99`); the last one only before it is
initialized (`lsp_server::Connection::initialize_start`, called from
`crates/lsp-server/src/initialize.rs:13`). -/
inductive ErrorCode where
  | invalidParams
  | methodNotFound
  | internalError
  | serverNotInitialized
  deriving DecidableEq, Repr

/-- Models `lsp_server::Request`. As used in `crates/lsp-server/src/dispatch.rs:122-184`. -/
structure Request where
  id : ReqId
  method : String
  params : Json

/-- Models `lsp_server::Response`: `new_ok` sets only `result`, `new_err` only `error`.
As used in `crates/lsp-server/src/dispatch.rs:122-184`. -/
structure Response where
  id : ReqId
  result : Option Json
  error : Option (ErrorCode × String)

/-- Messages from the client. Models `lsp_server::Message` as received by `main_loop`
(`crates/lsp-server/src/dispatch.rs:36-60`). Of a client response only the id is read. -/
inductive ClientMsg where
  | request (req : Request)
  | notification (method : String) (params : Json)
  | response (id : ReqId)

/-- Messages to the client. Server requests carry their id, method and parameters;
`publish` is a `textDocument/publishDiagnostics` notification.
As used in `crates/lsp-server/src/dispatch.rs:297-418`. -/
inductive ServerMsg where
  | response (resp : Response)
  | request (id : ReqId) (method : String) (params : Json)
  | publish (uri : String) (diagnostics : List Json) (version : Option Int)

/-- Models `Snapshot`, `crates/lsp-server/src/dispatch.rs:77-99`. The `Analysis` and the
`PositionTranslationContext` are functions of `content`, `lang` and `encoding`, so those are
what is kept. -/
structure Snapshot where
  content : String
  encoding : Encoding
  docVersion : Option Int
  lang : Version
  deriving DecidableEq, Repr

/-- Models `Snapshots`, `crates/lsp-server/src/dispatch.rs:74`. -/
abbrev Snapshots := String → Option Snapshot

/-- Models the mutable part of `Dispatcher`, `crates/lsp-server/src/dispatch.rs:66-72`. -/
structure State where
  memory : Memory
  snapshots : Snapshots
  fuel : Nat

/-- `Dispatcher::new`, `crates/lsp-server/src/dispatch.rs:108-119`. -/
def State.init : State := { memory := Memory.new, snapshots := fun _ => none, fuel := 0 }

/-- Fields read from `DidOpenTextDocumentParams`
(`crates/lsp-server/src/dispatch/handlers/notification.rs:15-21`). -/
structure OpenParams where
  uri : String
  languageId : String
  version : Int
  text : String
  deriving DecidableEq, Repr

/-- Fields read from `DidChangeTextDocumentParams`
(`crates/lsp-server/src/dispatch/handlers/notification.rs:32-40`). -/
structure ChangeParams where
  uri : String
  version : Int
  texts : List String
  deriving DecidableEq, Repr

/-- A workspace edit request extracted from a command result
(`CreateProjectResponse`, `MigrateProjectResponse`, `ExtractEventResponse`;
`crates/lsp-server/src/dispatch.rs:320-385`): the text appended to the id prefix and the
`ApplyWorkspaceEditParams`. -/
structure CommandEdit where
  idSuffix : String
  params : Json

/-- Fixed outside functions. Assumptions used by theorems are stated where they are used.
As used in `crates/lsp-server/src/dispatch.rs:27-418`. -/
structure Config where
  /-- client capabilities -/
  caps : ClientCaps
  /-- `lsp_types::Url::parse` followed by serialization of the parsed URL -/
  urlParse : String → Option String
  /-- `Url::join("lib.rs")` on a parsed URL -/
  joinLib : String → Option String
  /-- `fmt::Debug` of a string id without the surrounding quotes, see `request_id_as_str` -/
  debugEscape : String → String
  /-- serde deserialization of notification parameters -/
  decodeOpen : Json → Option OpenParams
  decodeChange : Json → Option ChangeParams
  decodeClose : Json → Option String
  /-- serde deserialization of command results -/
  asCreate : Json → Option CommandEdit
  asMigrate : Json → Option CommandEdit
  asExtract : Json → Option CommandEdit

/-- One request handler seen through serde: `none` when the parameters do not deserialize,
otherwise the handler's `anyhow::Result` with the result serialized. A handler that panics is
not a `Handler`; see the treatment of `parse_range` in `Verif.Lsp.Command`.
As used in `crates/lsp-server/src/dispatch/routers/request.rs:31-89`. -/
abbrev Handler := Snapshots → Json → Option (Except String Json)

/-- A document feature: deserialization of its parameters to a document URL and the rest,
and the answer computed from the snapshot of that document (including the `Err` for an
invalid offset or range).
As used in `crates/lsp-server/src/dispatch/handlers/request.rs:9-121,183-246`. -/
structure Feature where
  decode : Json → Option (String × Json)
  answer : Snapshot → Json → Except String Json

/-- The common shape of `handle_completion`, `handle_hover`, `handle_code_action`,
`handle_inlay_hint` and `handle_signature_help`,
`crates/lsp-server/src/dispatch/handlers/request.rs:9-121,183-246`: look up the snapshot by
the document's URL, answer from it, answer `null` for a missing document. -/
def Feature.handler (f : Feature) : Handler := fun snaps params =>
  (f.decode params).map fun (uri, rest) =>
    match snaps uri with
    | some s => f.answer s rest
    | none => .ok .null

/-- Outside behaviour that may differ at every message.
As used in `crates/lsp-server/src/dispatch.rs:27-418`. -/
structure World where
  /-- `parse_ink_project_version` then `guess_version` for a parsed document URL
  (`crates/lsp-server/src/dispatch.rs:252-262`) -/
  detect : String → Option Version
  /-- iteration order of the drained `HashSet` (`crates/lsp-server/src/dispatch.rs:245`) -/
  drain : List String → List String
  /-- analyzer diagnostics of a snapshot, translated to LSP
  (`crates/lsp-server/src/dispatch/actions.rs:17-24`) -/
  diagnostics : Snapshot → List Json
  completion : Feature
  hover : Feature
  codeAction : Feature
  codeActionResolve : Handler
  inlayHint : Feature
  signatureHelp : Feature
  executeCommand : Handler

/-! ## Request routing -/

/-- Models `RequestRouter`, `crates/lsp-server/src/dispatch/routers/request.rs:8-13`
(the borrowed snapshots and capabilities are passed to the handlers directly). -/
structure Router where
  req : Option Request
  resp : Option Response

/-- `RequestRouter::process`, `crates/lsp-server/src/dispatch/routers/request.rs:31-89`.
`run` is deserialization plus handler; `lsp_server::Request::extract` fails with
`MethodMismatch` before looking at the parameters. The text of the invalid parameters message
is abridged (the code appends the method and the serde error). -/
def Router.process (r : Router) (method : String) (run : Json → Option (Except String Json)) :
    Router :=
  if r.resp.isSome then r
  else
    match r.req with
    | none => r
    | some req =>
      if req.method ≠ method then { req := some req, resp := none }
      else
        match run req.params with
        | some (.ok v) => { req := none, resp := some ⟨req.id, some v, none⟩ }
        | some (.error e) => { req := none, resp := some ⟨req.id, none, some (.internalError, e)⟩ }
        | none =>
          { req := none
            resp := some ⟨req.id, none, some (.invalidParams, "Invalid request parameters")⟩ }

/-- `RequestRouter::finish`, `crates/lsp-server/src/dispatch/routers/request.rs:93-104`. -/
def Router.finish (r : Router) : Option Response :=
  match r.resp with
  | some resp => some resp
  | none =>
    r.req.map fun req =>
      ⟨req.id, none, some (.methodNotFound, "Unknown or unsupported request.")⟩

/-- The chain of handlers, `crates/lsp-server/src/dispatch.rs:143-158`. -/
def route (w : World) (snaps : Snapshots) (req : Request) : Option Response :=
  let r : Router := { req := some req, resp := none }
  let r := r.process "textDocument/completion" (w.completion.handler snaps)
  let r := r.process "textDocument/hover" (w.hover.handler snaps)
  let r := r.process "textDocument/codeAction" (w.codeAction.handler snaps)
  let r := r.process "codeAction/resolve" (w.codeActionResolve snaps)
  let r := r.process "textDocument/inlayHint" (w.inlayHint.handler snaps)
  let r := r.process "textDocument/signatureHelp" (w.signatureHelp.handler snaps)
  let r := r.process "workspace/executeCommand" (w.executeCommand snaps)
  r.finish

/-! ## Processing of document changes -/

/-- `actions::publish_diagnostics`, `crates/lsp-server/src/dispatch/actions.rs:7-38`
together with `Dispatcher::publish_diagnostics`, `crates/lsp-server/src/dispatch.rs:297-307`. -/
def publishDiagnostics (w : World) (snaps : Snapshots) (uri : String) : ServerMsg :=
  match snaps uri with
  | some s => .publish uri (w.diagnostics s) s.docVersion
  | none => .publish uri [] none

/-- The ink! version detected for a document,
`version_check` in `crates/lsp-server/src/dispatch.rs:252-262`. -/
def versionCheck (cfg : Config) (w : World) (id : String) : Version :=
  ((cfg.urlParse id).bind w.detect).getD .v4

/-- One iteration of the loop in `Dispatcher::process_changes`,
`crates/lsp-server/src/dispatch.rs:245-290`. -/
def refresh (cfg : Config) (w : World) (s : State) (id : String) : State × List ServerMsg :=
  let s' : State :=
    match s.memory.get id with
    | some doc =>
      let check := versionCheck cfg w id
      let lang :=
        if s.fuel > 0 then check
        else ((s.snapshots id).map (·.lang)).getD check
      let fuel := if s.fuel > 0 then s.fuel - 1 else s.fuel
      { s with
        fuel := fuel
        snapshots := fun i =>
          if i = id then some ⟨doc.content, positionEncoding cfg.caps, some doc.version, lang⟩
          else s.snapshots i }
    | none => { s with snapshots := fun i => if i = id then none else s.snapshots i }
  match cfg.urlParse id with
  | some uri => (s', [publishDiagnostics w s'.snapshots uri])
  | none => (s', [])

/-- The loop of `Dispatcher::process_changes` over the drained ids,
`crates/lsp-server/src/dispatch.rs:245-290`. -/
def refreshAll (cfg : Config) (w : World) : State → List String → State × List ServerMsg
  | s, [] => (s, [])
  | s, id :: ids =>
    let (s', out) := refresh cfg w s id
    let (s'', out') := refreshAll cfg w s' ids
    (s'', out ++ out')

/-- `Dispatcher::process_changes`, `crates/lsp-server/src/dispatch.rs:242-294`. -/
def processChanges (cfg : Config) (w : World) (s : State) : State × List ServerMsg :=
  match s.memory.takeChanges with
  | (m, some changes) => refreshAll cfg w { s with memory := m } (w.drain changes)
  | (_, none) => (s, [])

/-! ## Commands -/

/-- `Dispatcher::process_command_response`, `crates/lsp-server/src/dispatch.rs:310-410`. -/
def processCommandResponse (cfg : Config) (cmd : String) (resp : Response) : List ServerMsg :=
  let reqData : Option (String × Json) :=
    if cmd = "createProject" && canCreateWorkspaceResources cfg.caps then
      (resp.result.bind cfg.asCreate).map fun e => ("initialize-project::" ++ e.idSuffix, e.params)
    else if cmd = "migrateProject" then
      (resp.result.bind cfg.asMigrate).map fun e => ("migrate-project::" ++ e.idSuffix, e.params)
    else if cmd = "extractEvent" && canCreateWorkspaceResources cfg.caps then
      (resp.result.bind cfg.asExtract).map fun e => ("extract-event::" ++ e.idSuffix, e.params)
    else none
  match reqData with
  | some (id, params) =>
    [.response { resp with result := some .null },
     .request (.str id) "workspace/applyEdit" params]
  | none => [.response resp]

/-! ## Message handlers -/

/-- The command of an `executeCommand` request, `crates/lsp-server/src/dispatch.rs:124-132`. -/
def commandOf (req : Request) : Option String :=
  if req.method = "workspace/executeCommand" then (req.params.get? "command").bind Json.asStr?
  else none

/-- `is_migration_resolve`, `crates/lsp-server/src/dispatch.rs:133-142`. -/
def isMigrationResolve (req : Request) : Bool :=
  req.method = "codeAction/resolve" &&
    (((req.params.get? "data").bind (·.get? "command")).bind Json.asStr?) = some "migrateProject"

/-- `Dispatcher::handle_request`, `crates/lsp-server/src/dispatch.rs:122-184`. -/
def handleRequest (cfg : Config) (w : World) (s : State) (req : Request) :
    State × List ServerMsg :=
  let cmd := commandOf req
  let out :=
    match route w s.snapshots req with
    | some resp =>
      match cmd with
      | some cmd => processCommandResponse cfg cmd resp
      | none => [.response resp]
    | none => []
  let (s, out') := processChanges cfg w s
  let s := if isMigrationResolve req || cmd = some "migrateProject" then { s with fuel := 2 } else s
  (s, out ++ out')

/-- `handle_did_open_text_document`,
`crates/lsp-server/src/dispatch/handlers/notification.rs:10-24`. -/
def didOpen (p : OpenParams) (m : Memory) : Memory :=
  if p.languageId = "rust" then m.insert p.uri p.text p.version else m

/-- `handle_did_change_text_document`,
`crates/lsp-server/src/dispatch/handlers/notification.rs:27-43`. -/
def didChange (p : ChangeParams) (m : Memory) : Memory :=
  match p.texts.getLast? with
  | some text => (m.update p.uri text p.version).1
  | none => m

/-- `handle_did_close_text_document`,
`crates/lsp-server/src/dispatch/handlers/notification.rs:46-54`. -/
def didClose (uri : String) (m : Memory) : Memory := (m.remove uri).1

/-- `NotificationRouter`, `crates/lsp-server/src/dispatch/routers/notification.rs:8-11`. -/
structure NotRouter where
  not : Option (String × Json)
  memory : Memory

/-- `NotificationRouter::process`,
`crates/lsp-server/src/dispatch/routers/notification.rs:23-54`; `none` is the `Err` result.
The three handlers never fail. -/
def NotRouter.process {P : Type} (r : NotRouter) (method : String) (decode : Json → Option P)
    (handler : P → Memory → Memory) : Option NotRouter :=
  match r.not with
  | none => some r
  | some (m, params) =>
    if m ≠ method then some r
    else
      match decode params with
      | some p => some { not := none, memory := handler p r.memory }
      | none => none

/-- `Dispatcher::handle_notification`, `crates/lsp-server/src/dispatch.rs:187-206`;
`none` is the `Err` result. -/
def handleNotification (cfg : Config) (w : World) (s : State) (method : String) (params : Json) :
    Option (State × List ServerMsg) := do
  let r : NotRouter := { not := some (method, params), memory := s.memory }
  let r ← r.process "textDocument/didOpen" cfg.decodeOpen didOpen
  let r ← r.process "textDocument/didChange" cfg.decodeChange didChange
  let r ← r.process "textDocument/didClose" cfg.decodeClose didClose
  some (processChanges cfg w { s with memory := r.memory })

/-- `utils::request_id_as_str`, `crates/lsp-server/src/utils.rs:115-120`: string ids are
displayed by `lsp_server` with `fmt::Debug`, i.e. in quotes, and integers without. -/
def requestIdAsStr (cfg : Config) : ReqId → Option String
  | .num _ => none
  | .str s => some (cfg.debugEscape s)

/-- `str::strip_prefix` (Rust standard library), used at `crates/lsp-server/src/dispatch.rs:213-214`. -/
def stripPrefix? (pre s : String) : Option String :=
  if pre.toList.isPrefixOf s.toList then some (String.ofList (s.toList.drop pre.toList.length))
  else none

/-- `Dispatcher::handle_response`, `crates/lsp-server/src/dispatch.rs:209-239`. -/
def handleResponse (cfg : Config) (id : ReqId) : List ServerMsg :=
  match requestIdAsStr cfg id with
  | none => []
  | some respId =>
    match (stripPrefix? "initialize-project::" respId).bind cfg.urlParse with
    | none => []
    | some projectUri =>
      match cfg.joinLib projectUri with
      | none => []
      | some libUri =>
        [.request (.str ("show-document::" ++ libUri)) "window/showDocument"
          (.obj [("uri", .str libUri), ("takeFocus", .bool true)])]

/-! ## Main loop -/

/-- What one message does to the loop. As used in `crates/lsp-server/src/dispatch.rs:36-63`. -/
inductive Outcome where
  | running (s : State)
  | stopped

/-- One iteration of `main_loop`, `crates/lsp-server/src/dispatch.rs:36-60`.
`lsp_server::Connection::handle_shutdown` answers a `shutdown` request with a null result and
waits for `exit` (either way the loop returns). -/
def step (cfg : Config) (w : World) (s : State) (msg : ClientMsg) : Outcome × List ServerMsg :=
  match msg with
  | .request req =>
    if req.method = "shutdown" then (.stopped, [.response ⟨req.id, some .null, none⟩])
    else
      let (s', out) := handleRequest cfg w s req
      (.running s', out)
  | .notification method params =>
    if method = "exit" then (.stopped, [])
    else
      match handleNotification cfg w s method params with
      | some (s', out) => (.running s', out)
      | none => (.stopped, [])
  | .response id => (.running s, handleResponse cfg id)

/-- `main_loop` on a finite history of client messages, `crates/lsp-server/src/dispatch.rs:27-63`:
the state reached (or `stopped`) and everything sent. -/
def run (cfg : Config) : State → List (World × ClientMsg) → Outcome × List ServerMsg
  | s, [] => (.running s, [])
  | s, (w, msg) :: rest =>
    match step cfg w s msg with
    | (.running s', out) =>
      let (o, out') := run cfg s' rest
      (o, out ++ out')
    | (.stopped, out) => (.stopped, out)

end Verif.Lsp
