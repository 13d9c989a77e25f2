import Verif.Analyzer.Snippet

/-!
# Reserved identifiers and item paths

Models `ensure_no_ink_identifiers`
(`crates/analyzer/src/analysis/diagnostics/common.rs:77-104`) and `item_path`
(`crates/analyzer/src/resolution.rs:14-30`).
-/

namespace Verif.Analyzer

/-- A token of a file: whether it is an identifier, and its text
(`crates/analyzer/src/analysis/diagnostics/common.rs:78-80`). -/
structure IdentTok where
  isIdent : Bool
  text : List Char
  deriving DecidableEq

/-- The reserved prefix, `crates/analyzer/src/analysis/diagnostics/common.rs:81`. -/
def inkPrefix : List Char := "__ink_".toList

/-- The test of `crates/analyzer/src/analysis/diagnostics/common.rs:81`. -/
def isReserved (name : List Char) : Bool := inkPrefix.isPrefixOf name

/-- `suggested_name`, `crates/analyzer/src/analysis/diagnostics/common.rs:83`. -/
def renameSuggestion (name : List Char) : List Char := replaceAll inkPrefix [] name

/-- The suggested name of the quickfix, if there is a quickfix
(`crates/analyzer/src/analysis/diagnostics/common.rs:89-100`). -/
def reservedFix (name : List Char) : Option (List Char) :=
  if (renameSuggestion name).isEmpty then none else some (renameSuggestion name)

/-- The report for one token, `crates/analyzer/src/analysis/diagnostics/common.rs:79-102`. -/
def reservedIdent (p : IdentTok × Nat) : Option (Nat × Option (List Char)) :=
  if p.1.isIdent && isReserved p.1.text then some (p.2, reservedFix p.1.text) else none

/-- `ensure_no_ink_identifiers`,
`crates/analyzer/src/analysis/diagnostics/common.rs:77-104`: the position of every token
reported, with the name its quickfix renames it to (if there is one). -/
def reservedIdents (toks : List IdentTok) : List (Nat × Option (List Char)) :=
  toks.zipIdx.filterMap reservedIdent

/-- `item_path`, `crates/analyzer/src/resolution.rs:14-30`, for an item with the given name.
`ancestors` are the item itself and its ancestors from the innermost to the outermost, each by
its name if it is a module with a name. -/
def itemPath (ancestors : List (Option String)) (name : String) : String :=
  "::".intercalate (["crate"] ++ ancestors.filterMap id ++ [name])

end Verif.Analyzer
