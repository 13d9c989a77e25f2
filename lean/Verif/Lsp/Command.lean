import Verif.Lsp.Capabilities

/-!
# Model of command arguments and lazily computed code actions

`crates/lsp-server/src/dispatch/handlers/request.rs:124-180,249-331` (argument decoding) and
`crates/lsp-server/src/translator/to_lsp.rs:118-219` (emission).
-/

namespace Verif.Lsp

/-- A computation which may panic.
As used in `crates/lsp-server/src/dispatch/handlers/request.rs:317-331`. -/
inductive Panics (α : Type) where
  | value (a : α)
  | panic
  deriving DecidableEq, Repr

/-- `TextRange::new` (text-size 1.1.1): asserts `start <= end`.
As used in `crates/lsp-server/src/dispatch/handlers/request.rs:317-331`. -/
def textRangeNew (start stop : Nat) : Panics (Nat × Nat) :=
  if start ≤ stop then .value (start, stop) else .panic

/-- `parse_range`, `crates/lsp-server/src/dispatch/handlers/request.rs:317-331`
(`as u32` keeps the low 32 bits). -/
def parseRange (j : Json) : Panics (Option (Nat × Nat)) :=
  match (j.get? "start").bind Json.asU64?, (j.get? "end").bind Json.asU64? with
  | some start, some stop =>
    match textRangeNew (start % 2 ^ 32) (stop % 2 ^ 32) with
    | .value r => .value (some r)
    | .panic => .panic
  | _, _ => .value none

/-- What a command request asks for after its arguments have been decoded.
As used in `crates/lsp-server/src/dispatch/handlers/request.rs:124-180,249-315`. -/
inductive Invocation where
  | create (name root : String)
  | migrate (uri : String)
  | extract (uri : String) (range : Nat × Nat)
  | error (message : String)
  deriving DecidableEq, Repr

/-- `parse_uri`, `crates/lsp-server/src/dispatch/handlers/request.rs:142-146,254-260`. -/
def parseUri (urlParse : String → Option String) (j : Json) : Option String :=
  ((j.get? "uri").bind Json.asStr?).bind urlParse

/-- Decoding of `uri` and `range`; `Option::zip` evaluates both sides
(`crates/lsp-server/src/dispatch/handlers/request.rs:161,295-301`). -/
def decodeExtract (urlParse : String → Option String) (j : Json) : Panics Invocation :=
  match (match j.get? "range" with | some r => parseRange r | none => .value none) with
  | .panic => .panic
  | .value range =>
    match parseUri urlParse j, range with
    | some uri, some range => .value (.extract uri range)
    | _, _ => .value (.error "The `uri` and `range` arguments are required!")

/-- Decoding of the arguments in `handle_execute_command`,
`crates/lsp-server/src/dispatch/handlers/request.rs:249-315`. -/
def decodeExecute (urlParse : String → Option String) (command : String) (arguments : List Json) :
    Panics Invocation :=
  if command = "createProject" then
    let arg := arguments.head?.getD .null
    match (arg.get? "name").bind Json.asStr?,
      ((arg.get? "root").bind Json.asStr?).bind fun it =>
        urlParse (it ++ if it.toList.getLast? = some '/' then "" else "/") with
    | some name, some root => .value (.create name root)
    | _, _ => .value (.error "The `name` and `root` arguments are required!")
  else if command = "migrateProject" then
    match arguments.head?.bind (parseUri urlParse) with
    | some uri => .value (.migrate uri)
    | none => .value (.error "The `uri` argument is required!")
  else if command = "extractEvent" then
    match arguments.head? with
    | some arg => decodeExtract urlParse arg
    | none => .value (.error "The `uri` and `range` arguments are required!")
  else .value (.error ("Unknown command: " ++ command ++ "!"))

/-- Decoding of `data` in `handle_code_action_resolve`,
`crates/lsp-server/src/dispatch/handlers/request.rs:124-180`. -/
def decodeResolve (urlParse : String → Option String) (data : Option Json) : Panics Invocation :=
  match data.bind fun d => (d.get? "command").bind Json.asStr? with
  | none => .value (.error "Missing command!")
  | some cmd =>
    let data := data.getD .null
    if cmd = "migrateProject" then
      match parseUri urlParse data with
      | some uri => .value (.migrate uri)
      | none => .value (.error "The `uri` argument is required!")
    else if cmd = "extractEvent" then decodeExtract urlParse data
    else .value (.error ("Unsupported command: " ++ cmd ++ "!"))

/-! ## Emission of code actions -/

/-- `ink_analyzer::ActionKind`, `crates/analyzer/src/analysis/actions.rs:30-38`. The enum is
non-exhaustive; it has no other variants at this commit. -/
inductive ActionKind where
  | quickFix
  | refactor
  | migrate
  | extract
  deriving DecidableEq, Repr

/-- An LSP position (`lsp_types::Position`): zero-based line, and character in code units of the encoding.
As used in `crates/lsp-server/src/translator/to_lsp.rs:118-219`. -/
structure Pos where
  line : Nat
  character : Nat
  deriving DecidableEq, Repr

/-- A text edit with its range already translated; `none` when the range does not translate
(`range(edit.range, context)`, `crates/lsp-server/src/translator/to_lsp.rs:129-132`). -/
structure ActionEdit where
  range : Option (Pos × Pos)
  text : String
  snippet : Option String
  deriving DecidableEq, Repr

/-- `ink_analyzer::Action`, `crates/analyzer/src/analysis/actions.rs:17-28`
(`range` is in bytes). -/
structure Action where
  label : String
  kind : ActionKind
  range : Nat × Nat
  edits : List ActionEdit

/-- The fields of `lsp_types::CodeAction` set by the translation; `command` is the command's
name and arguments. As used in `crates/lsp-server/src/translator/to_lsp.rs:118-219`. -/
structure LspAction where
  title : String
  kind : String
  edit : Option (List ((Pos × Pos) × String))
  data : Option Json
  command : Option (String × List Json)

/-- Kind mapping, `crates/lsp-server/src/translator/to_lsp.rs:137-143`. -/
def lspKind : ActionKind → String
  | .quickFix => "quickfix"
  | .refactor => "refactor.rewrite"
  | .migrate => "refactor.rewrite"
  | .extract => "refactor.extract"

/-- Command names, `crates/lsp-server/src/translator/to_lsp.rs:162-166,199-203`. -/
def commandName (kind : ActionKind) : String :=
  if kind = .migrate then "migrateProject" else "extractEvent"

/-- The `range` object, `crates/lsp-server/src/translator/to_lsp.rs:168-171,206-209`. -/
def rangeJson (r : Nat × Nat) : Json := .obj [("start", .num r.1), ("end", .num r.2)]

/-- `to_lsp::code_action`, `crates/lsp-server/src/translator/to_lsp.rs:118-219`. -/
def lspAction (action : Action) (uri : String) (editResolve : Bool) : Option LspAction :=
  let lazily := action.kind = .migrate || action.kind = .extract
  let edits := action.edits.filterMap fun e => e.range.map fun r => (r, e.text, e.snippet)
  if lazily || !edits.isEmpty then
    some
      { title := action.label
        kind := lspKind action.kind
        edit :=
          if !lazily && !edits.isEmpty then some (edits.map fun e => (e.1, e.2.1)) else none
        data :=
          if lazily then
            if editResolve then
              some (.obj [("command", .str (commandName action.kind)), ("uri", .str uri),
                ("range", rangeJson action.range)])
            else none
          else
            let snippets := edits.filterMap fun e => e.2.2.map fun s => (e.2.1, Json.str s)
            if snippets.isEmpty then none
            -- a later snippet replaces an earlier one for the same edit text
            else some (.obj [("snippets", .obj snippets.reverse)])
        command :=
          if lazily then
            if editResolve then none
            else some (commandName action.kind,
              [.obj [("uri", .str uri), ("range", rangeJson action.range)]])
          else none }
  else none

end Verif.Lsp
