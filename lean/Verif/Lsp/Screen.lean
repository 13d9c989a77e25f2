import Verif.Lsp.Server
import Verif.Lsp.Translate
import Verif.Analyzer.Dedup

/-!
# From the reports of the rules to what is published for a document
-/

namespace Verif.Lsp.Screen

/-- The parts of a diagnostic that are translated, `crates/lsp-server/src/translator/to_lsp.rs:51-65`
(the quickfixes are not sent with it). -/
def toServer (d : Verif.Analyzer.Diag) : Diag :=
  { message := d.message
    range := d.range
    severity :=
      match d.severity with
      | .error => .error
      | .warning => .warning }

/-- The diagnostics of a snapshot as they are published,
`crates/lsp-server/src/dispatch/actions.rs:17-24` with `Analysis::diagnostics`
(`crates/analyzer/src/analysis.rs:50-52`, `crates/analyzer/src/analysis/diagnostics.rs:71-98`).
`raw` are the reports of the rules (`file::diagnostics`) for the text and ink! version of the snapshot,
`fmt` is `format_edit` for the file, `json` the serialization of a diagnostic. -/
def snapshotDiagnostics (raw : String → Version → List Verif.Analyzer.Diag)
    (fmt : String → Verif.Analyzer.Edit → Verif.Analyzer.Edit) (json : LspDiag → Json)
    (s : Snapshot) : List Json :=
  (((Verif.Analyzer.diagnostics (fmt s.content) (raw s.content s.lang)).map toServer).filterMap
    (lspDiagnostic ⟨s.encoding, s.content.toList⟩)).map json

end Verif.Lsp.Screen
