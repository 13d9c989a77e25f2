import Verif.Lsp.Screen

/-!
# From a question of the client about a place to its answer
-/

namespace Verif.Lsp.Ask

/-- What `handle_completion` answers for the snapshot of an open document,
`crates/lsp-server/src/dispatch/handlers/request.rs:8-51`. `f` are the completions of the analyzer
(`crates/analyzer/src/analysis.rs:56-59`) for the text and ink! version of the snapshot. -/
def completion (bd : Build) (caps : ClientCaps) (f : String → Version → Nat → List Compl) (s : Snapshot)
    (p : Pos) : Answer (Option (List LspCompl)) :=
  handleCompletion bd caps ⟨s.encoding, s.content.toList⟩ (f s.content s.lang) p

/-- What `handle_hover` answers for the snapshot of an open document,
`crates/lsp-server/src/dispatch/handlers/request.rs:53-83`. `f` is the hover of the analyzer
(`crates/analyzer/src/analysis.rs:81-84`). -/
def hover (bd : Build) (f : String → Version → Nat × Nat → Option HoverInfo) (s : Snapshot) (p : Pos) :
    Answer (Option LspHover) :=
  handleHover bd ⟨s.encoding, s.content.toList⟩ (f s.content s.lang) p

/-- What `handle_inlay_hint` answers for the snapshot of an open document,
`crates/lsp-server/src/dispatch/handlers/request.rs:182-210`. `f` are the hints of the analyzer
(`crates/analyzer/src/analysis.rs:86-89`). -/
def hints (bd : Build) (f : String → Version → Nat × Nat → List Hint) (s : Snapshot) (r : Pos × Pos) :
    Answer (Option (List LspHint)) :=
  handleInlayHint bd ⟨s.encoding, s.content.toList⟩ (f s.content s.lang) r

/-- What `handle_signature_help` answers for the snapshot of an open document,
`crates/lsp-server/src/dispatch/handlers/request.rs:212-246`. `f` are the signatures of the analyzer
(`crates/analyzer/src/analysis.rs:91-94`). -/
def signatures (bd : Build) (caps : ClientCaps) (f : String → Version → Nat → List SigHelp) (s : Snapshot)
    (prev : Option PrevSignatures) (p : Pos) : Answer (Option (List LspSigInfo × LspSignatureHelp)) :=
  handleSignatureHelp bd caps ⟨s.encoding, s.content.toList⟩ (f s.content s.lang) prev p

end Verif.Lsp.Ask
