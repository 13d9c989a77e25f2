import Verif.Lsp.Capabilities

/-!
# Model of the translation of signature help

`crates/lsp-server/src/translator/to_lsp.rs:263-338`, the choice of the active signature.
-/

namespace Verif.Lsp

/-- The fields of `ink_analyzer::SignatureHelp` the choice depends on
(`crates/analyzer/src/analysis/signature_help.rs:10-22`). -/
structure Signature where
  label : String
  activeParameter : Option Nat
  deriving DecidableEq, Repr

/-- The client's previous signature help (`lsp_types::SignatureHelp`): the labels and the index
of the active signature. As used in `crates/lsp-server/src/translator/to_lsp.rs:271-286`. -/
structure PrevSignatures where
  labels : List String
  active : Option Nat
  deriving DecidableEq, Repr

/-- The fields of the resulting `lsp_types::SignatureHelp` which are not copied verbatim from the
analyzer: the signatures with their own active parameter, the active signature and parameter.
As used in `crates/lsp-server/src/translator/to_lsp.rs:263-338`. -/
structure LspSignatureHelp where
  signatures : List (String × Option Nat)
  activeSignature : Option Nat
  activeParameter : Option Nat
  deriving DecidableEq, Repr

/-- `iter().enumerate().find(|(_, s)| s.label == label)`,
`crates/lsp-server/src/translator/to_lsp.rs:280-285`. -/
def findLabel (label : String) (k : Nat) : List Signature → Option (Nat × Signature)
  | [] => none
  | s :: rest => if s.label = label then some (k, s) else findLabel label (k + 1) rest

/-- The active signature, `crates/lsp-server/src/translator/to_lsp.rs:271-286`. -/
def activeSignature (signatures : List Signature) (prev : Option PrevSignatures) :
    Option (Nat × Signature) :=
  let kept :=
    (prev.bind fun p => (p.active.filter (· > 0)).bind fun idx => p.labels[idx]?).bind fun label =>
      findLabel label 0 signatures
  match kept with
  | some x => some x
  | none => signatures.head?.map fun s => (0, s)

/-- `to_lsp::signature_help`, `crates/lsp-server/src/translator/to_lsp.rs:263-338`. -/
def lspSignatureHelp (signatures : List Signature) (support : SignatureSupport)
    (prev : Option PrevSignatures) : Option LspSignatureHelp :=
  let active := activeSignature signatures prev
  if signatures.isEmpty then none
  else
    some
      { signatures := signatures.map fun s =>
          (s.label, if support.activeParameter then s.activeParameter else none)
        activeSignature := active.map (·.1)
        activeParameter := active.bind fun x => x.2.activeParameter }

end Verif.Lsp
