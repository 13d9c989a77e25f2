import Verif.Lsp.Position
import Verif.Lsp.SignatureHelp

/-!
# Model of the translation of answers

`crates/lsp-server/src/translator/to_lsp.rs:51-117,221-338` and the handlers which use it,
`crates/lsp-server/src/dispatch/handlers/request.rs:9-122,182-246`. The analysis of an open
document is a parameter of the handlers.
-/

namespace Verif.Lsp

/-- `PositionTranslationContext`, `crates/lsp-server/src/translator.rs:10-23`; the line index is
built from the text. -/
structure Context where
  encoding : Encoding
  text : List Char

/-- `to_lsp::position` in a context, `crates/lsp-server/src/translator/to_lsp.rs:11-39`. -/
def Context.position (ctx : Context) (o : Nat) : Option Pos :=
  toPosition ctx.encoding (LineIndex.new ctx.text) o

/-- `to_lsp::range` in a context, `crates/lsp-server/src/translator/to_lsp.rs:42-49`. -/
def Context.range (ctx : Context) (r : Nat × Nat) : Option (Pos × Pos) :=
  toLspRange ctx.encoding (LineIndex.new ctx.text) r

/-- `ink_analyzer::Severity`, `crates/analyzer/src/analysis/diagnostics.rs:61-68`. -/
inductive Severity where
  | error
  | warning
  deriving DecidableEq, Repr

/-- `ink_analyzer::Diagnostic`, `crates/analyzer/src/analysis/diagnostics.rs:48-59`, without the
quick fixes, which are not translated. -/
structure Diag where
  message : String
  range : Nat × Nat
  severity : Severity

/-- The fields of `lsp_types::Diagnostic` which are set.
As used in `crates/lsp-server/src/translator/to_lsp.rs:51-65`. -/
structure LspDiag where
  range : Pos × Pos
  message : String
  /-- wire number of `lsp_types::DiagnosticSeverity` -/
  severity : Nat

/-- `to_lsp::diagnostic`, `crates/lsp-server/src/translator/to_lsp.rs:51-65`. -/
def lspDiagnostic (ctx : Context) (d : Diag) : Option LspDiag :=
  (ctx.range d.range).map fun range =>
    { range, message := d.message
      severity :=
        match d.severity with
        | .error => 1
        | .warning => 2 }

/-- `ink_analyzer::CompletionKind`, `crates/analyzer/src/analysis/completions.rs:33-52`. -/
inductive ComplKind where
  | attr
  | enum
  | field
  | fn
  | mod
  | struct
  | trait
  deriving DecidableEq, Repr

/-- `ink_analyzer::Completion`, `crates/analyzer/src/analysis/completions.rs:16-30`, with the text
and snippet of its edit. -/
structure Compl where
  label : String
  kind : ComplKind
  detail : Option String
  range : Nat × Nat
  text : String
  snippet : Option String

/-- The fields of `lsp_types::CompletionItem` which are set.
As used in `crates/lsp-server/src/translator/to_lsp.rs:67-105`. -/
structure LspCompl where
  label : String
  /-- wire number of `lsp_types::CompletionItemKind` -/
  kind : Nat
  detail : Option String
  /-- wire number of `lsp_types::InsertTextFormat` -/
  format : Option Nat
  range : Pos × Pos
  newText : String

/-- Kinds of completions, `crates/lsp-server/src/translator/to_lsp.rs:76-85` (wire numbers of
`lsp_types::CompletionItemKind`). -/
def lspComplKind : ComplKind → Nat
  | .attr => 5
  | .field => 5
  | .enum => 13
  | .fn => 3
  | .mod => 9
  | .struct => 22
  | .trait => 7

/-- `to_lsp::completion`, `crates/lsp-server/src/translator/to_lsp.rs:67-105`. -/
def lspCompletion (ctx : Context) (snippets : Bool) (c : Compl) : Option LspCompl :=
  (ctx.range c.range).map fun range =>
    { label := c.label
      kind := lspComplKind c.kind
      detail := c.detail
      format :=
        if snippets then
          some (match c.snippet with
            | some _ => 2
            | none => 1)
        else none
      range
      newText :=
        match snippets, c.snippet with
        | true, some snippet => snippet
        | _, _ => c.text }

/-- `ink_analyzer::Hover`, `crates/analyzer/src/analysis/hover.rs:9-16`. -/
structure HoverInfo where
  range : Nat × Nat
  content : String

/-- The fields of `lsp_types::Hover`; the content is marked as Markdown.
As used in `crates/lsp-server/src/translator/to_lsp.rs:107-117`. -/
structure LspHover where
  range : Pos × Pos
  markdown : String

/-- `to_lsp::hover`, `crates/lsp-server/src/translator/to_lsp.rs:107-117`. -/
def lspHover (ctx : Context) (h : HoverInfo) : Option LspHover :=
  (ctx.range h.range).map fun range => { range, markdown := h.content }

/-- `ink_analyzer::InlayHint`, `crates/analyzer/src/analysis/inlay_hints.rs:10-22`, the fields
which are read. -/
structure Hint where
  label : String
  position : Nat
  detail : Option String

/-- The fields of `lsp_types::InlayHint` which are set.
As used in `crates/lsp-server/src/translator/to_lsp.rs:221-237`. -/
structure LspHint where
  position : Pos
  label : String
  /-- wire number of `lsp_types::InlayHintKind` -/
  kind : Nat
  tooltip : Option String
  paddingLeft : Option Bool
  paddingRight : Option Bool

/-- `to_lsp::inlay_hint`, `crates/lsp-server/src/translator/to_lsp.rs:221-237`. -/
def lspInlayHint (ctx : Context) (h : Hint) : Option LspHint :=
  (ctx.position h.position).map fun position =>
    { position
      label := ": " ++ h.label
      kind := 1
      tooltip := h.detail
      paddingLeft := some true
      paddingRight := none }

/-- `&text[0..offset]`: the characters before a byte offset; `none` is the panic for an offset
which is outside the text or inside a character.
As used in `crates/lsp-server/src/translator/to_lsp.rs:310-311`. -/
def sliceTo : List Char → Nat → Option (List Char)
  | _, 0 => some []
  | [], _ + 1 => none
  | c :: cs, o + 1 =>
    if c.utf8Size ≤ o + 1 then (sliceTo cs (o + 1 - c.utf8Size)).map (c :: ·) else none

/-- `&text[offset..]`, with the same panics.
As used in `crates/lsp-server/src/translator/to_lsp.rs:310-311`. -/
def sliceFrom : List Char → Nat → Option (List Char)
  | cs, 0 => some cs
  | [], _ + 1 => none
  | c :: cs, o + 1 => if c.utf8Size ≤ o + 1 then sliceFrom cs (o + 1 - c.utf8Size) else none

/-- `&text[start..end]`: panics also for an inverted range
(`crates/lsp-server/src/translator/to_lsp.rs:310-311`). -/
def slice (cs : List Char) (r : Nat × Nat) : Option (List Char) :=
  if r.1 ≤ r.2 then (sliceFrom cs r.1).bind fun rest => sliceTo rest (r.2 - r.1) else none

/-- `WideEncoding::measure`, line-index 0.1.1.
As used in `crates/lsp-server/src/translator/to_lsp.rs:239-261`. -/
def WideEncoding.measure (w : WideEncoding) (cs : List Char) : Nat :=
  match w with
  | .utf16 => (cs.map fun c => if c.toNat ≤ 0xFFFF then 1 else 2).sum
  | .utf32 => cs.length

/-- `to_lsp::offset`, `crates/lsp-server/src/translator/to_lsp.rs:239-261`; `none` is a panic. The
cast to `u32` never truncates, the measured text is not longer than the 32-bit offset. -/
def lspOffset (enc : Encoding) (text : List Char) (o : Nat) : Option Nat :=
  if o > 0 then
    match enc.wide? with
    | some w => (sliceTo text o).map w.measure
    | none => some o
  else some o

/-- `ink_analyzer::SignatureParameter`,
`crates/analyzer/src/analysis/signature_help.rs:24-32`. -/
structure SigParam where
  range : Nat × Nat
  detail : Option String

/-- `ink_analyzer::SignatureHelp`, `crates/analyzer/src/analysis/signature_help.rs:9-22`, the
fields which are read. -/
structure SigHelp where
  label : String
  parameters : List SigParam
  activeParameter : Option Nat
  detail : Option String

/-- `lsp_types::ParameterLabel`. As used in `crates/lsp-server/src/translator/to_lsp.rs:292-330`. -/
inductive ParamLabel where
  | simple (text : List Char)
  | offsets (start stop : Nat)
  deriving DecidableEq, Repr

/-- `lsp_types::SignatureInformation`; documentation is marked as Markdown.
As used in `crates/lsp-server/src/translator/to_lsp.rs:292-330`. -/
structure LspSigInfo where
  label : String
  documentation : Option String
  parameters : Option (List (ParamLabel × Option String))
  activeParameter : Option Nat

/-- The label of a parameter, `crates/lsp-server/src/translator/to_lsp.rs:299-313`; `none` is a
panic. -/
def paramLabel (enc : Encoding) (labelOffset : Bool) (label : List Char) (r : Nat × Nat) :
    Option ParamLabel :=
  if labelOffset then
    (lspOffset enc label r.1).bind fun a => (lspOffset enc label r.2).map fun b => .offsets a b
  else (slice label r).map .simple

/-- `iter().map(f).collect()` where `f` may panic.
As used in `crates/lsp-server/src/translator/to_lsp.rs:263-338`. -/
def collectAll {α β : Type} (f : α → Option β) : List α → Option (List β)
  | [] => some []
  | x :: xs => (f x).bind fun y => (collectAll f xs).map (y :: ·)

/-- The translation of one signature, `crates/lsp-server/src/translator/to_lsp.rs:292-330`. -/
def lspSigInfo (enc : Encoding) (support : SignatureSupport) (s : SigHelp) : Option LspSigInfo :=
  (if s.parameters.isEmpty then some none
    else (collectAll (fun p => (paramLabel enc support.labelOffset s.label.toList p.range).map
      fun l => (l, p.detail)) s.parameters).map some).map fun parameters =>
    { label := s.label
      documentation := s.detail
      parameters
      activeParameter := if support.activeParameter then s.activeParameter else none }

/-- The result of a request handler: `anyhow::Result`, or a panic.
As used in `crates/lsp-server/src/dispatch/handlers/request.rs:9-122,182-246`. -/
inductive Answer (α : Type) where
  | panic
  | error (message : String)
  | ok (a : α)
  deriving DecidableEq, Repr

/-- `from_lsp::offset(..).ok_or(..)?`,
`crates/lsp-server/src/dispatch/handlers/request.rs:18-24,69-74,224-229`. -/
def withOffset {α : Type} (bd : Build) (ctx : Context) (p : Pos) (f : Nat → Answer α) : Answer α :=
  match fromPosition bd ctx.encoding (LineIndex.new ctx.text) p with
  | .panic => .panic
  | .value none => .error "Invalid offset."
  | .value (some o) => f o

/-- `from_lsp::text_range(..).ok_or(..)?`,
`crates/lsp-server/src/dispatch/handlers/request.rs:97-99,194-196`. -/
def withRange {α : Type} (bd : Build) (ctx : Context) (r : Pos × Pos) (f : Nat × Nat → Answer α) :
    Answer α :=
  match fromLspRange bd ctx.encoding (LineIndex.new ctx.text) r with
  | .panic => .panic
  | .value none => .error "Invalid range."
  | .value (some r) => f r

/-- `handle_completion` for an open document,
`crates/lsp-server/src/dispatch/handlers/request.rs:8-51`. -/
def handleCompletion (bd : Build) (caps : ClientCaps) (ctx : Context)
    (completions : Nat → List Compl) (p : Pos) : Answer (Option (List LspCompl)) :=
  withOffset bd ctx p fun o =>
    let items := (completions o).filterMap (lspCompletion ctx (snippetSupport caps))
    .ok (if items.isEmpty then none else some items)

/-- `handle_hover` for an open document,
`crates/lsp-server/src/dispatch/handlers/request.rs:53-83` (`TextRange::empty(offset)`). -/
def handleHover (bd : Build) (ctx : Context) (hover : Nat × Nat → Option HoverInfo) (p : Pos) :
    Answer (Option LspHover) :=
  withOffset bd ctx p fun o => .ok ((hover (o, o)).bind (lspHover ctx))

/-- An action whose edits have ranges in bytes (`crates/analyzer/src/analysis/actions.rs:17-28`). -/
structure RawAction where
  label : String
  kind : ActionKind
  range : Nat × Nat
  /-- range, text and snippet -/
  edits : List ((Nat × Nat) × String × Option String)

/-- The translation of the ranges of the edits, `crates/lsp-server/src/translator/to_lsp.rs:127-134`. -/
def RawAction.translate (ctx : Context) (a : RawAction) : Action :=
  { label := a.label
    kind := a.kind
    range := a.range
    edits := a.edits.map fun e => ⟨ctx.range e.1, e.2.1, e.2.2⟩ }

/-- `handle_code_action` for an open document,
`crates/lsp-server/src/dispatch/handlers/request.rs:85-122`. -/
def handleCodeAction (bd : Build) (caps : ClientCaps) (ctx : Context) (uri : String)
    (actions : Nat × Nat → List RawAction) (r : Pos × Pos) : Answer (Option (List LspAction)) :=
  withRange bd ctx r fun r =>
    .ok (some ((actions r).filterMap fun a =>
      lspAction (a.translate ctx) uri (codeActionEditResolveSupport caps)))

/-- `handle_signature_help` for an open document,
`crates/lsp-server/src/dispatch/handlers/request.rs:212-246` with
`crates/lsp-server/src/translator/to_lsp.rs:263-338`. -/
def handleSignatureHelp (bd : Build) (caps : ClientCaps) (ctx : Context)
    (signatures : Nat → List SigHelp) (prev : Option PrevSignatures) (p : Pos) :
    Answer (Option (List LspSigInfo × LspSignatureHelp)) :=
  withOffset bd ctx p fun o =>
    let support := signatureSupport caps
    let sigs := signatures o
    match lspSignatureHelp (sigs.map fun s => ⟨s.label, s.activeParameter⟩) support prev with
    | none => .ok none
    | some r =>
      match collectAll (lspSigInfo ctx.encoding support) sigs with
      | none => .panic
      | some infos => .ok (some (infos, r))

/-- `handle_inlay_hint` for an open document,
`crates/lsp-server/src/dispatch/handlers/request.rs:182-210`. -/
def handleInlayHint (bd : Build) (ctx : Context) (hints : Nat × Nat → List Hint) (r : Pos × Pos) :
    Answer (Option (List LspHint)) :=
  withRange bd ctx r fun r => .ok (some ((hints r).filterMap (lspInlayHint ctx)))

end Verif.Lsp
