import Verif.Lsp.Server
import Verif.Lsp.Command
import Verif.Lsp.Crash

/-!
# Sessions in which a request handler may panic

`Verif.Lsp.Server` models the main loop with handlers that always return. No handler is run under
`catch_unwind` and all of them run on the thread of the main loop
(`crates/lsp-server/src/dispatch.rs:36-60`), so a panic in a handler ends the server. This file adds
that: a function that says which requests panic, and the loop which ends at the first of them.
-/

namespace Verif.Lsp.Fall

open Verif.Ir.Token Verif.Lsp.Crash

/-- Deserialization (serde) of the parameters which decide whether a handler panics; `none` when the
parameters do not deserialize. As used in `crates/lsp-server/src/dispatch/routers/request.rs:31-89`. -/
structure Params where
  /-- `CompletionParams`, `HoverParams` and `SignatureHelpParams` (by method): URL and position -/
  position : String → Json → Option (String × Pos)
  /-- `CodeActionParams` and `InlayHintParams` (by method): URL and range -/
  range : String → Json → Option (String × (Pos × Pos))
  /-- `ExecuteCommandParams`: command and arguments -/
  command : Json → Option (String × List Json)
  /-- `CodeAction`: the optional `data` -/
  action : Json → Option (Option Json)

/-- The outside functions: the deserialization, and the tokens of the syntax tree of a snapshot
(`crates/lsp-server/src/dispatch.rs:77-99`). -/
structure Outside where
  params : Params
  tokens : Snapshot → List Tok

/-- Whether a handler panics. As used in `crates/lsp-server/src/dispatch.rs:143-158`. -/
def isPanic {α : Type} : Answer α → Bool
  | .panic => true
  | _ => false

/-- The position translation context of a snapshot, `crates/lsp-server/src/dispatch.rs:86-98`. -/
def contextOf (s : Snapshot) : Context := ⟨s.encoding, s.content.toList⟩

/-- A handler of a document feature panics: the document is open and the handler panics on it
(`crates/lsp-server/src/dispatch/handlers/request.rs:9-121,183-246`). -/
def onDocument {α : Type} (snaps : Snapshots) (decoded : Option (String × α)) (f : Snapshot → α → Bool) :
    Bool :=
  match decoded with
  | none => false
  | some (uri, a) =>
    match snaps uri with
    | none => false
    | some s => f s a

/-- A decoded command panics: `parse_range` on an inverted range
(`crates/lsp-server/src/dispatch/handlers/request.rs:317-331`), or the lookup of the range of an
extraction (`crates/lsp-server/src/dispatch/handlers/command.rs:138-156`,
`crates/analyzer/src/analysis/extract.rs:29-33`). The other commands are taken not to panic. -/
def commandPanics (x : Outside) (snaps : Snapshots) : Panics Invocation → Bool
  | .panic => true
  | .value (.extract uri r) =>
    if ".rs".toList.isSuffixOf uri.toList then
      match snaps uri with
      | none => false
      | some s => isPanic (focused (x.tokens s) r fun _ => Answer.ok ())
    else false
  | .value _ => false

/-- Which requests panic, by method as in `crates/lsp-server/src/dispatch.rs:143-158`. What the
analyzer computes after the lookup of the position is taken not to panic; parameters which do not
deserialize are answered by the router (`crates/lsp-server/src/dispatch/routers/request.rs:31-89`). -/
def panics (bd : Build) (cfg : Config) (x : Outside) (snaps : Snapshots) (req : Request) : Bool :=
  if req.method = "textDocument/completion" then
    onDocument snaps (x.params.position req.method req.params) fun s p =>
      isPanic (completionRequest bd (contextOf s) (x.tokens s) (fun _ => .ok ()) p)
  else if req.method = "textDocument/hover" then
    onDocument snaps (x.params.position req.method req.params) fun s p =>
      isPanic (hoverRequest bd (contextOf s) (x.tokens s) (fun _ => .ok ()) p)
  else if req.method = "textDocument/codeAction" then
    onDocument snaps (x.params.range req.method req.params) fun s r =>
      isPanic (actionRequest bd (contextOf s) (x.tokens s) (fun _ => .ok ()) r)
  else if req.method = "codeAction/resolve" then
    match x.params.action req.params with
    | none => false
    | some data => commandPanics x snaps (decodeResolve cfg.urlParse data)
  else if req.method = "textDocument/inlayHint" then
    onDocument snaps (x.params.range req.method req.params) fun s r =>
      isPanic (withRange bd (contextOf s) r fun _ => Answer.ok ())
  else if req.method = "textDocument/signatureHelp" then
    onDocument snaps (x.params.position req.method req.params) fun s p =>
      isPanic (signatureRequest bd (contextOf s) (x.tokens s) (fun _ => .ok ()) p)
  else if req.method = "workspace/executeCommand" then
    match x.params.command req.params with
    | none => false
    | some (cmd, args) => commandPanics x snaps (decodeExecute cfg.urlParse cmd args)
  else false

/-- How a session ends: as in `Outcome`, or with a panic. As used in
`crates/lsp-server/src/dispatch.rs:27-63`. -/
inductive End where
  | outcome (o : Outcome)
  | panicked

/-- One iteration of `main_loop`, `crates/lsp-server/src/dispatch.rs:36-60`; `none` is a panic. A
`shutdown` request is answered before the handlers (41-43). -/
def stepP (bd : Build) (cfg : Config) (x : Outside) (w : World) (s : State) (msg : ClientMsg) :
    Option (Outcome × List ServerMsg) :=
  match msg with
  | .request req =>
    if req.method = "shutdown" then some (step cfg w s msg)
    else if panics bd cfg x s.snapshots req then none
    else some (step cfg w s msg)
  | _ => some (step cfg w s msg)

/-- `main_loop` on a finite history of client messages, `crates/lsp-server/src/dispatch.rs:27-63`:
how it ends, and everything sent. -/
def runP (bd : Build) (cfg : Config) (x : Outside) : State → List (World × ClientMsg) →
    End × List ServerMsg
  | s, [] => (.outcome (.running s), [])
  | s, (w, msg) :: rest =>
    match stepP bd cfg x w s msg with
    | none => (.panicked, [])
    | some (.running s', out) =>
      let (e, out') := runP bd cfg x s' rest
      (e, out ++ out')
    | some (.stopped, out) => (.outcome .stopped, out)

end Verif.Lsp.Fall
