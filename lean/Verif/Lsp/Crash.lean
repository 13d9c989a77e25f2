import Verif.Lsp.Translate
import Verif.Ir.Token

/-!
# Requests with a position, up to the lookup of the position in the syntax tree

The entry points of completion, hover, signature help and code actions, from the client's position
to the first use of the offset in the tree of the document. What is computed from the token or the
covering element found there is a parameter.
-/

namespace Verif.Lsp.Crash

open Verif.Ir.Token

/-- `ItemAtOffset::new` (`crates/ir/src/tree/item_at_offset.rs:18-24`, called through
`crates/ir/src/traits/entity.rs:40-42`) followed by what the caller does with the item.
`SyntaxNode::token_at_offset` (rowan 0.15) asserts that the offset lies in the tree. -/
def atOffset {α : Type} (file : List Tok) (o : Nat) (rest : AtOffset → Answer α) : Answer α :=
  match tokenAt file o with
  | none => .panic
  | some a => rest a

/-- `completions`, `crates/analyzer/src/analysis/completions.rs:43-68`: the first step of the first
of the three parts looks up the offset; the other parts (289 and 479) look up the same offset. -/
def completions {α : Type} (file : List Tok) (rest : AtOffset → Answer α) (o : Nat) : Answer α :=
  atOffset file o rest

/-- `signature_help`, `crates/analyzer/src/analysis/signature_help.rs:35-40`. -/
def signatureHelp {α : Type} (file : List Tok) (rest : AtOffset → Answer α) (o : Nat) : Answer α :=
  atOffset file o rest

/-- What a text range is on: a token, or the element that covers a range.
As used in `crates/analyzer/src/analysis/utils.rs:1216-1233`. -/
inductive Focus where
  | nothing
  | token (t : AtOffset)
  | element (range : Nat × Nat)
  deriving DecidableEq, Repr

/-- `utils::focused_element`, `crates/analyzer/src/analysis/utils.rs:1216-1233`, and the same lookup
in `covering_attribute` (1236-1257) and `parent_ast_item` (1265-1283), followed by what the caller
does with the result. -/
def focused {α : Type} (file : List Tok) (r : Nat × Nat) (rest : Focus → Answer α) : Answer α :=
  if r.1 = r.2 then atOffset file r.1 fun a => rest (.token a)
  else if r.2 ≤ bytes (file.flatMap Tok.text) then rest (.element r)
  else rest .nothing

/-- `hover`, `crates/analyzer/src/analysis/hover.rs:22-27` (through `covering_ink_attribute`,
`crates/analyzer/src/analysis/utils.rs:1260-1262`). -/
def hover {α : Type} (file : List Tok) (rest : Focus → Answer α) (r : Nat × Nat) : Answer α :=
  focused file r rest

/-- `Analysis::actions`, `crates/analyzer/src/analysis.rs:62-79`: the actions for the item
(`crates/analyzer/src/analysis/actions/item.rs:17-36`) and for the attribute
(`crates/analyzer/src/analysis/actions/attr.rs:11-14`) look up the same range
(`crates/analyzer/src/analysis/actions.rs:41-48`). -/
def actions {α : Type} (file : List Tok) (rest : Focus → Answer α) (r : Nat × Nat) : Answer α :=
  focused file r rest

/-- `handle_completion` for an open document up to the lookup,
`crates/lsp-server/src/dispatch/handlers/request.rs:8-33`. -/
def completionRequest {α : Type} (bd : Build) (ctx : Context) (file : List Tok)
    (rest : AtOffset → Answer α) (p : Pos) : Answer α :=
  withOffset bd ctx p (completions file rest)

/-- `handle_signature_help` for an open document up to the lookup,
`crates/lsp-server/src/dispatch/handlers/request.rs:212-233`. -/
def signatureRequest {α : Type} (bd : Build) (ctx : Context) (file : List Tok)
    (rest : AtOffset → Answer α) (p : Pos) : Answer α :=
  withOffset bd ctx p (signatureHelp file rest)

/-- `handle_hover` for an open document up to the lookup,
`crates/lsp-server/src/dispatch/handlers/request.rs:53-78`. -/
def hoverRequest {α : Type} (bd : Build) (ctx : Context) (file : List Tok)
    (rest : Focus → Answer α) (p : Pos) : Answer α :=
  withOffset bd ctx p fun o => hover file rest (o, o)

/-- `handle_code_action` for an open document up to the lookup,
`crates/lsp-server/src/dispatch/handlers/request.rs:85-103`. -/
def actionRequest {α : Type} (bd : Build) (ctx : Context) (file : List Tok)
    (rest : Focus → Answer α) (r : Pos × Pos) : Answer α :=
  withRange bd ctx r (actions file rest)

end Verif.Lsp.Crash
