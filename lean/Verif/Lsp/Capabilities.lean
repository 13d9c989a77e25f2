import Verif.Basic

/-!
# Model of capability negotiation: `crates/lsp-server/src/utils.rs`, `crates/lsp-server/src/initialize.rs`
-/

namespace Verif.Lsp

/-- The parts of `lsp_types::ClientCapabilities` that the server reads
(`crates/lsp-server/src/utils.rs:21-136`). Simplified: an absent enclosing section
(`general`, `text_document.code_action`, ...) is the same as an absent field, which is how
every reader in `utils.rs` treats it (`and_then` chains). -/
structure ClientCaps where
  /-- `general.position_encodings` -/
  positionEncodings : Option (List String) := none
  /-- `text_document.code_action.code_action_literal_support.code_action_kind.value_set` -/
  codeActionKinds : Option (List String) := none
  /-- `text_document.completion.completion_item.snippet_support` -/
  snippetSupport : Option Bool := none
  /-- `text_document.code_action.resolve_support.properties` -/
  codeActionResolve : Option (List String) := none
  /-- `text_document.code_action.data_support` (which no code of the server reads) -/
  dataSupport : Option Bool := none
  /-- `text_document.signature_help.signature_information` present, with
  `active_parameter_support` and `parameter_information.label_offset_support` -/
  signatureInformation : Option (Option Bool × Option Bool) := none
  /-- `workspace.apply_edit` -/
  applyEdit : Option Bool := none
  /-- `workspace.workspace_edit.document_changes` -/
  documentChanges : Option Bool := none
  /-- `workspace.workspace_edit.resource_operations` -/
  resourceOperations : Option (List String) := none
  deriving DecidableEq, Repr

/-- Position encodings known to the server (`PositionEncodingKind::{UTF8,UTF16,UTF32}`,
used in `crates/lsp-server/src/utils.rs:21-37`). -/
inductive Encoding where
  | utf8
  | utf16
  | utf32
  deriving DecidableEq, Repr

/-- LSP wire name of an encoding (`lsp_types::PositionEncodingKind` constants).
As used in `crates/lsp-server/src/utils.rs:21-37`. -/
def Encoding.wire : Encoding → String
  | .utf8 => "utf-8"
  | .utf16 => "utf-16"
  | .utf32 => "utf-32"

/-- `utils::position_encoding`, `crates/lsp-server/src/utils.rs:21-37`. -/
def positionEncoding (caps : ClientCaps) : Encoding :=
  ((caps.positionEncodings.getD []).findSome? fun e =>
    if e = "utf-8" then some .utf8 else if e = "utf-32" then some .utf32 else none).getD .utf16

/-- The encoding announced in `server_capabilities`,
`crates/lsp-server/src/initialize.rs:44`. -/
def announcedEncoding (caps : ClientCaps) : Encoding := positionEncoding caps

/-- `SERVER_CODE_ACTION_KINDS`, `crates/lsp-server/src/utils.rs:13-18`
(`CodeActionKind::{EMPTY, QUICKFIX, REFACTOR, REFACTOR_REWRITE}` wire names). -/
def serverCodeActionKinds : List String := ["", "quickfix", "refactor", "refactor.rewrite"]

/-- `utils::code_actions_kinds`, `crates/lsp-server/src/utils.rs:40-61`. The code
intersects two hash sets, so only membership of the result is meaningful. -/
def codeActionsKinds (caps : ClientCaps) : Option (List String) :=
  match caps.codeActionKinds with
  | none => none
  | some client =>
    let kinds := serverCodeActionKinds.filter (fun k => client.contains k)
    if kinds.isEmpty then none else some kinds

/-- `utils::snippet_support`, `crates/lsp-server/src/utils.rs:64-72`. -/
def snippetSupport (caps : ClientCaps) : Bool := caps.snippetSupport.getD false

/-- `utils::code_action_edit_resolve_support`, `crates/lsp-server/src/utils.rs:75-83`. -/
def codeActionEditResolveSupport (caps : ClientCaps) : Bool :=
  match caps.codeActionResolve with
  | some props => props.contains "edit"
  | none => false

/-- Whether `resolve_provider` is announced for code actions,
`crates/lsp-server/src/initialize.rs:68-78`. -/
def codeActionResolveProvider (caps : ClientCaps) : Bool :=
  match codeActionsKinds caps with
  | some _ => true
  | none => false

/-- `execute_command_provider.commands`, `crates/lsp-server/src/initialize.rs:90-97`. -/
def announcedCommands : List String := ["createProject", "migrateProject", "extractEvent"]

/-- `utils::SignatureSupport`, `crates/lsp-server/src/utils.rs:86-90`. -/
structure SignatureSupport where
  activeParameter : Bool
  labelOffset : Bool
  deriving DecidableEq, Repr

/-- `utils::signature_support`, `crates/lsp-server/src/utils.rs:93-111`. -/
def signatureSupport (caps : ClientCaps) : SignatureSupport :=
  match caps.signatureInformation with
  | some (active, label) => ⟨active.getD false, label.getD false⟩
  | none => ⟨false, false⟩

/-- `utils::can_create_workspace_resources`, `crates/lsp-server/src/utils.rs:123-136`
(`ResourceOperationKind::Create` has the wire name `create`). -/
def canCreateWorkspaceResources (caps : ClientCaps) : Bool :=
  caps.applyEdit.getD false && caps.documentChanges.getD false &&
    match caps.resourceOperations with
    | some ops => ops.contains "create"
    | none => false

end Verif.Lsp
