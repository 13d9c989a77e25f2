import Verif.Lsp.Server

/-!
# What a client may rely on: specification of the server's state

Everything here is phrased in terms of messages only. It is used in the statements of
`Verif.Lsp.ServerProps` and does not mention the server's state.
-/

namespace Verif.Lsp.Spec

/-- A document notification, as the client means it. -/
inductive Note where
  | opened (uri languageId text : String) (version : Int)
  | changed (uri : String) (texts : List String) (version : Int)
  | closed (uri : String)

/-- The document notification carried by a client message, if any. -/
def noteOf (cfg : Config) : ClientMsg → Option Note
  | .notification method params =>
    if method = "textDocument/didOpen" then
      (cfg.decodeOpen params).map fun p => .opened p.uri p.languageId p.text p.version
    else if method = "textDocument/didChange" then
      (cfg.decodeChange params).map fun p => .changed p.uri p.texts p.version
    else if method = "textDocument/didClose" then (cfg.decodeClose params).map .closed
    else none
  | _ => none

/-- The open documents. -/
abbrev Docs := String → Option Doc

/-- The effect of a notification: the document it affects and that document's new state
(`none` = no longer open), or nothing when the notification is to be ignored. -/
def accept (docs : Docs) : Note → Option (String × Option Doc)
  | .opened uri languageId text version =>
    if languageId = "rust" then some (uri, some ⟨text, version⟩) else none
  | .changed uri texts version =>
    if (docs uri).isSome then texts.getLast?.map fun text => (uri, some ⟨text, version⟩) else none
  | .closed uri => if (docs uri).isSome then some (uri, none) else none

/-- `accept` for any message. -/
def effect (cfg : Config) (docs : Docs) (msg : ClientMsg) : Option (String × Option Doc) :=
  (noteOf cfg msg).bind (accept docs)

/-- The open documents after one more message. -/
def docsStep (cfg : Config) (docs : Docs) (msg : ClientMsg) : Docs :=
  match effect cfg docs msg with
  | some (uri, doc) => fun u => if u = uri then doc else docs u
  | none => docs

/-- The open documents after a history of messages, starting with none. -/
def docsAfter (cfg : Config) (history : List ClientMsg) : Docs :=
  history.foldl (docsStep cfg) fun _ => none

/-- A message asking for a project migration: `executeCommand` `migrateProject`, or resolving
a migration code action. -/
def isMigration : ClientMsg → Bool
  | .request req =>
    (req.method = "workspace/executeCommand" &&
      (req.params.get? "command").bind Json.asStr? = some "migrateProject") ||
    (req.method = "codeAction/resolve" &&
      (((req.params.get? "data").bind (·.get? "command")).bind Json.asStr?) = some "migrateProject")
  | _ => false

/-- The ink! version of a project, as detected when looking now; ink! 4 when unknown. -/
def detected (cfg : Config) (w : World) (uri : String) : Version :=
  match cfg.urlParse uri with
  | some u => (w.detect u).getD .v4
  | none => .v4

/-- Version bookkeeping as the property tells it: the version of each open document, and how
many refreshes may still detect again because of a migration. -/
structure Langs where
  docs : Docs
  lang : String → Option Version
  budget : Nat

/-- One message: a refresh of a document detects the version if the document was not open or
there is budget, and uses up budget; closing forgets; a migration request sets the budget. -/
def langsStep (cfg : Config) (l : Langs) (w : World) (msg : ClientMsg) : Langs :=
  match effect cfg l.docs msg with
  | some (uri, some _) =>
    { docs := docsStep cfg l.docs msg
      lang := fun u =>
        if u = uri then
          some (match l.budget, l.lang uri with
            | 0, some v => v
            | _, _ => detected cfg w uri)
        else l.lang u
      budget := l.budget - 1 }
  | some (uri, none) =>
    { docs := docsStep cfg l.docs msg
      lang := fun u => if u = uri then none else l.lang u
      budget := l.budget }
  | none => { l with budget := if isMigration msg then 2 else l.budget }

/-- Version bookkeeping after a history. -/
def langsAfter (cfg : Config) (history : List (World × ClientMsg)) : Langs :=
  history.foldl (fun l x => langsStep cfg l x.1 x.2) ⟨fun _ => none, fun _ => none, 0⟩

/-- A document is open now and after every message of a history. -/
def OpenThroughout (cfg : Config) (uri : String) : Docs → List ClientMsg → Prop
  | docs, [] => (docs uri).isSome
  | docs, msg :: rest => (docs uri).isSome ∧ OpenThroughout cfg uri (docsStep cfg docs msg) rest

/-- Number of accepted open and change notifications in a history. -/
def refreshes (cfg : Config) : Docs → List ClientMsg → Nat
  | _, [] => 0
  | docs, msg :: rest =>
    (match effect cfg docs msg with
      | some (_, some _) => 1
      | _ => 0) + refreshes cfg (docsStep cfg docs msg) rest

/-- Hash sets are drained in some order: each element once. -/
def DrainsOnce (history : List (World × ClientMsg)) : Prop :=
  ∀ x ∈ history, ∀ l, (x.1.drain l).Perm l

/-- The five document features and their LSP methods. -/
def documentFeatures (w : World) : List (String × Feature) :=
  [("textDocument/completion", w.completion), ("textDocument/hover", w.hover),
   ("textDocument/codeAction", w.codeAction), ("textDocument/inlayHint", w.inlayHint),
   ("textDocument/signatureHelp", w.signatureHelp)]

/-- The seven supported request methods and their handlers. -/
def supported (w : World) : List (String × Handler) :=
  [("codeAction/resolve", w.codeActionResolve), ("workspace/executeCommand", w.executeCommand)] ++
    (documentFeatures w).map fun mf => (mf.1, mf.2.handler)

/-- The response messages in an output. -/
def responses (out : List ServerMsg) : List Response :=
  out.filterMap fun
    | .response r => some r
    | _ => none

/-- The URIs for which diagnostics are published in an output. -/
def published (out : List ServerMsg) : List String :=
  out.filterMap fun
    | .publish uri _ _ => some uri
    | _ => none

/-- The requests the server makes of the client in an output. -/
def serverRequests (out : List ServerMsg) : List (ReqId × String × Json) :=
  out.filterMap fun
    | .request id method params => some (id, method, params)
    | _ => none

/-- The ids of the requests in a history, in order. -/
def requestIds (history : List ClientMsg) : List ReqId :=
  history.filterMap fun
    | .request req => some req.id
    | _ => none

/-- The documents affected by the accepted notifications of a history, in order. -/
def affected (cfg : Config) : Docs → List ClientMsg → List String
  | _, [] => []
  | docs, msg :: rest =>
    ((effect cfg docs msg).map (·.1)).toList ++ affected cfg (docsStep cfg docs msg) rest

/-- The three commands which turn into a workspace edit. -/
inductive EditCommand where
  | create
  | migrate
  | extract
  deriving DecidableEq, Repr

/-- Command names on the wire. -/
def EditCommand.name : EditCommand → String
  | .create => "createProject"
  | .migrate => "migrateProject"
  | .extract => "extractEvent"

/-- The prefix telling the kind of command in the id of its workspace edit request. -/
def EditCommand.idPrefix : EditCommand → String
  | .create => "initialize-project::"
  | .migrate => "migrate-project::"
  | .extract => "extract-event::"

/-- The workspace edit a command's result stands for. -/
def EditCommand.edit (cfg : Config) : EditCommand → Json → Option CommandEdit
  | .create => cfg.asCreate
  | .migrate => cfg.asMigrate
  | .extract => cfg.asExtract

/-- Whether the client can apply the edit of the command. Migration only edits existing files. -/
def EditCommand.allowed (caps : ClientCaps) : EditCommand → Prop
  | .migrate => True
  | _ => caps.applyEdit = some true ∧ caps.documentChanges = some true ∧
      ∃ ops, caps.resourceOperations = some ops ∧ "create" ∈ ops

/-- Reading the kind of command off a request id. -/
def kindOfId (id : String) : Option EditCommand :=
  if "initialize-project::".toList <+: id.toList then some .create
  else if "migrate-project::".toList <+: id.toList then some .migrate
  else if "extract-event::".toList <+: id.toList then some .extract
  else none

end Verif.Lsp.Spec
