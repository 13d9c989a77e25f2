import Verif.Lsp.Screen

/-!
# From the fixes of the rules to the code actions a client gets
-/

namespace Verif.Lsp.Bulb

/-- An edit of the analyzer (`crates/analyzer/src/analysis/text_edit.rs:14-22`) as it is read for its
translation, `crates/lsp-server/src/translator/to_lsp.rs:127-134`. -/
def rawEdit (e : Verif.Analyzer.Edit) : (Nat × Nat) × String × Option String :=
  ((e.start, e.stop), String.ofList e.text, e.snippet.map String.ofList)

/-- The kinds of actions (`crates/analyzer/src/analysis/actions.rs:31-38`) as they are read in
`crates/lsp-server/src/translator/to_lsp.rs:118-219`. -/
def rawKind : Verif.Analyzer.ActionKind → ActionKind
  | .quickFix => .quickFix
  | .refactor => .refactor
  | .migrate => .migrate
  | .extract => .extract

/-- An action of the analyzer (`crates/analyzer/src/analysis/actions.rs:17-28`) as it is read for its
translation, `crates/lsp-server/src/translator/to_lsp.rs:118-219`. -/
def rawAction (a : Verif.Analyzer.Action) : RawAction :=
  { label := a.label
    kind := rawKind a.kind
    range := a.range
    edits := a.edits.map rawEdit }

/-- What `handle_code_action` answers for the snapshot of an open document,
`crates/lsp-server/src/dispatch/handlers/request.rs:85-122` with `Analysis::actions`
(`crates/analyzer/src/analysis.rs:62-80`). `raw` are the reports of the rules and `acts` the actions for a
range (`crates/analyzer/src/analysis/actions.rs:41-62`), both for the text and ink! version of the snapshot,
`fmt` is `format_edit` for the file. -/
def codeActions (bd : Build) (caps : ClientCaps) (raw : String → Version → List Verif.Analyzer.Diag)
    (acts : String → Version → Nat × Nat → List Verif.Analyzer.Action)
    (fmt : String → Verif.Analyzer.Edit → Verif.Analyzer.Edit) (s : Snapshot) (uri : String)
    (r : Pos × Pos) : Answer (Option (List LspAction)) :=
  handleCodeAction bd caps ⟨s.encoding, s.content.toList⟩ uri
    (fun range => (Verif.Analyzer.actions (fmt s.content) (raw s.content s.lang)
      (acts s.content s.lang range) range).map rawAction) r

end Verif.Lsp.Bulb
