import Verif.Lsp.Server

/-!
# Model of the start of a session

`crates/lsp-server/src/initialize.rs:9-102` and `crates/lsp-server/src/main.rs:39-53`, with
`Connection::initialize_start` and `Connection::initialize_finish` of the pinned `lsp-server` 0.7.6
crate. The end of the input before the session has started is not modelled (the server waits).
-/

namespace Verif.Lsp

/-- `lsp_types::CodeActionProviderCapability` as built at
`crates/lsp-server/src/initialize.rs:68-78`: without details, or with the kinds of code actions and
whether actions can be resolved. -/
inductive CodeActionProvider where
  | simple (on : Bool)
  | options (kinds : List String) (resolve : Bool)
  deriving DecidableEq, Repr

/-- The fields of `lsp_types::ServerCapabilities` which are set,
`crates/lsp-server/src/initialize.rs:43-99`. -/
structure ServerCaps where
  positionEncoding : Encoding
  /-- `text_document_sync`: `open_close`, `change` is `FULL`, `save` -/
  openClose : Bool
  fullSync : Bool
  save : Bool
  hover : Bool
  /-- trigger characters -/
  completion : Option (List Char)
  codeAction : CodeActionProvider
  inlayHint : Bool
  /-- trigger characters -/
  signatureHelp : Option (List Char)
  commands : List String
  deriving DecidableEq, Repr

/-- `code_action_provider`, `crates/lsp-server/src/initialize.rs:68-78`. -/
def codeActionProvider (caps : ClientCaps) : CodeActionProvider :=
  match codeActionsKinds caps with
  | some kinds => .options kinds true
  | none => .simple true

/-- `server_capabilities`, `crates/lsp-server/src/initialize.rs:40-101`. -/
def serverCapabilities (caps : ClientCaps) : ServerCaps where
  positionEncoding := announcedEncoding caps
  openClose := true
  fullSync := true
  save := true
  hover := true
  completion := some ['[', '(', ',', ':']
  codeAction := codeActionProvider caps
  inlayHint := true
  signatureHelp := some ['(', ',']
  commands := announcedCommands

/-- serde: the client capabilities in the parameters of an `initialize` request (`none` if they do not
deserialize), and the serialization of the result, which also has the name and the version of the
server (`crates/lsp-server/src/initialize.rs:14-29`). Serialization does not fail. -/
structure Wire where
  decode : Json → Option ClientCaps
  encode : ServerCaps → Json

/-- Where `Connection::initialize_start` (`lsp-server` 0.7.6, called from
`crates/lsp-server/src/initialize.rs:13`) gets to. -/
inductive Start where
  | waiting
  | failed
  | asked (id : ReqId) (params : Json) (rest : List (World × ClientMsg))

/-- `Connection::initialize_start` (`lsp-server` 0.7.6), called from
`crates/lsp-server/src/initialize.rs:13`: requests are refused until there is an `initialize` request,
notifications are ignored, other messages are an error. The text of the refusal is abridged. -/
def initializeStart : List (World × ClientMsg) → Start × List ServerMsg
  | [] => (.waiting, [])
  | (_, .request req) :: rest =>
    if req.method = "initialize" then (.asked req.id req.params rest, [])
    else
      let (s, out) := initializeStart rest
      (s, .response ⟨req.id, none,
        some (.serverNotInitialized, "expected initialize request")⟩ :: out)
  | (_, .notification method _) :: rest =>
    if method = "exit" then (.failed, []) else initializeStart rest
  | (_, .response _) :: _ => (.failed, [])

/-- Where a session gets to: waiting for the messages that start it, ended with an error before the
message loop, or in or behind the message loop (`crates/lsp-server/src/main.rs:39-53`). -/
inductive Session where
  | waiting
  | failed
  | loop (o : Outcome)

/-- `run_server`, `crates/lsp-server/src/main.rs:39-53`, with `initialize`,
`crates/lsp-server/src/initialize.rs:9-35`, on a finite history of client messages.
`Connection::initialize_finish` (`lsp-server` 0.7.6, called from
`crates/lsp-server/src/initialize.rs:32`) sends the result and expects an `initialized`
notification. -/
def session (wire : Wire) (cfg : Config) (h : List (World × ClientMsg)) :
    Session × List ServerMsg :=
  match initializeStart h with
  | (.waiting, out) => (.waiting, out)
  | (.failed, out) => (.failed, out)
  | (.asked id params rest, out) =>
    match wire.decode params with
    | none => (.failed, out)
    | some caps =>
      let out := out ++ [.response ⟨id, some (wire.encode (serverCapabilities caps)), none⟩]
      match rest with
      | [] => (.waiting, out)
      | (_, .notification method _) :: rest =>
        if method = "initialized" then
          let (o, out') := run { cfg with caps := caps } State.init rest
          (.loop o, out ++ out')
        else (.failed, out)
      | _ => (.failed, out)

end Verif.Lsp
