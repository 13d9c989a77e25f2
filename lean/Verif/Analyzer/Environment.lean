import Verif.Analyzer.External

/-!
# Environments and error codes

Models the rules for the type given as the environment of a contract or test
(`crates/analyzer/src/analysis/diagnostics/environment.rs`) and for the `ErrorCode` type of a chain
extension (`crates/analyzer/src/analysis/diagnostics/chain_extension/error_code.rs`), with the searches
of `crates/analyzer/src/resolution.rs:14-73,232-289` that they use.

Not modelled: `impl` items, structs, enums and unions inside of function bodies, and types that are not
paths.
-/

namespace Verif.Analyzer.Environment

open Verif.Ir.Resolve Verif.Analyzer.External

/-- An `impl` item: the module it stands in, the path of its trait and that of its type (`ast::Impl`).
As used in `crates/analyzer/src/resolution.rs:33-73`. -/
structure Imp where
  mod : List Nat
  trait_ : Path
  self_ : Path
deriving DecidableEq, Repr

/-- A source file: its modules with the names of the structs, enums and unions in each, all of these in
the order of the text with the module they stand in, the `impl` items that have a trait in the order of
the text, and its modules with the names of the type aliases in each and the type of each.
As used in `crates/analyzer/src/resolution.rs:14-73,232-289`. -/
structure File where
  root : Mod
  adts : List (List Nat × String)
  impls : List Imp
  aliases : Mod
  ty : List Nat → String → Option Path

/-- A trait of another crate: its name and the paths it may be found under.
As used in `crates/analyzer/src/resolution.rs:33-56`. -/
structure Tr where
  name : String
  quals : List (List String)
deriving DecidableEq, Repr

/-- `Environment` with `INK_ENV_QUALIFIERS`,
`crates/analyzer/src/analysis/diagnostics/environment.rs:11,104-105`. -/
def envTrait : Tr := ⟨"Environment", [["ink", "env"], ["ink_env"]]⟩

/-- `FromStatusCode` with `INK_ENV_CHAIN_EXTENSION_QUALIFIERS`,
`crates/analyzer/src/analysis/diagnostics/chain_extension/error_code.rs:10-11,102-103`. -/
def codeTrait : Tr :=
  ⟨"FromStatusCode", [["ink", "env", "chain_extension"], ["ink_env", "chain_extension"]]⟩

/-- Names of the modules around the module at a path, the outermost first (`none` if there is no such
module). As used in `crates/analyzer/src/resolution.rs:14-30`. -/
def modNames : Mod → List Nat → Option (List String)
  | _, [] => some []
  | m, i :: p => (m.mods[i]?).bind fun c => (modNames c p).map (c.name :: ·)

/-- `item_path`, `crates/analyzer/src/resolution.rs:14-30`: `crate`, then the names of the modules around
the item, the innermost first as `ancestors` gives them, then the name. -/
def itemPath (root : Mod) (x : List Nat × String) : Path :=
  ⟨false, "crate" :: (((modNames root x.1).getD []).reverse ++ [x.2])⟩

/-- `is_external_crate_item` for a trait and a path in a module.
As used in `crates/analyzer/src/resolution.rs:33-56`. -/
def isTrait (f : File) (t : Tr) (fuel : Nat) (m : List Nat) (p : Path) : Bool :=
  isExternal f.aliases f.ty t.name t.quals fuel p m == some true

/-- `external_trait_impls` from the root of the file, `crates/analyzer/src/resolution.rs:33-56`. -/
def traitImpls (f : File) (t : Tr) (fuel : Nat) : List Imp :=
  f.impls.filter fun i => isTrait f t fuel i.mod i.trait_

/-- `external_trait_impl_by_name`, `crates/analyzer/src/resolution.rs:59-73`. -/
def traitImplByName (f : File) (t : Tr) (fuel : Nat) (name : String) : Option Imp :=
  (traitImpls f t fuel).find? fun i => i.self_.segs.getLast? == some name

/-- `find_adt_by_name`, `crates/analyzer/src/resolution.rs:254-272`. -/
def findByName (f : File) (p : Path) : Option (List Nat × String) :=
  p.segs.getLast?.bind fun name => f.adts.find? fun x => x.2 == name

/-- `candidate_adt_by_name_or_external_trait_impl` (with `find_adt_for_impl`),
`crates/analyzer/src/resolution.rs:232-252,274-282`. -/
def candidate (f : File) (t : Tr) (fuel : Nat) (p : Option Path) : Option (List Nat × String) :=
  (p.bind (findByName f)).or ((traitImpls f t fuel).head?.bind fun i => findByName f i.self_)

/-- What the rules report, with the path that the fix puts in place of the one given (if any), or the
item that the fix adds an `impl` for.
As used in `crates/analyzer/src/analysis/diagnostics/environment.rs:14-115`. -/
inductive Report where
  | unresolved (fix : Option Path)
  | unimplemented (item : List Nat × String)
deriving DecidableEq, Repr

/-- `ensure_external_trait_impl`, `crates/analyzer/src/analysis/diagnostics/common.rs:1911-1963`; every
struct, enum and union has a name. -/
def missingImpl (f : File) (t : Tr) (fuel : Nat) (x : List Nat × String) : List Report :=
  if (traitImplByName f t fuel x.2).isNone then [.unimplemented x] else []

/-- `environment::diagnostics`, `crates/analyzer/src/analysis/diagnostics/environment.rs:14-115`, for an
environment given as the path `p` on an item that is the reference node `r` (in the module `r.mod`):
`none` if the resolution does not finish. -/
def environment (f : File) (fuel : Nat) (p : Path) (r : Ref) : Option (List Report) :=
  match resolveItem f.root fuel p r with
  | none => none
  | some none => some
      (if isTrait f ⟨"DefaultEnvironment", envTrait.quals⟩ fuel r.mod p then []
      else [.unresolved ((candidate f envTrait fuel (some p)).map (itemPath f.root))])
  | some (some x) => some (missingImpl f envTrait fuel x)

/-- The first two rules of `error_code::diagnostics` and the fixes of the last one,
`crates/analyzer/src/analysis/diagnostics/chain_extension/error_code.rs:20-113,131-183`, for an
`ErrorCode` type with the path `p` in a chain extension that is the reference node `r`; the second
component are the paths that replace the uses of `Self::ErrorCode` (if there is a fix) for the paths in
the chain extension. -/
def errorCode (f : File) (fuel : Nat) (p : Path) (r : Ref) (paths : List Path) :
    Option (List Report × List (Option Path)) :=
  match resolveItem f.root fuel p r with
  | none => none
  | some found => some
      (match found with
        | none => [.unresolved ((candidate f codeTrait fuel (some p)).map (itemPath f.root))]
        | some x => missingImpl f codeTrait fuel x,
      (paths.filter fun q => q == ⟨false, ["Self", "ErrorCode"]⟩).map fun _ =>
        found.map (itemPath f.root))

/-- The `impl` item that the fix puts behind the item, in the same module
(`crates/analyzer/src/analysis/diagnostics/common.rs:1942-1955` with the texts of
`crates/analyzer/src/codegen/snippets.rs:463,485`). -/
def addedImpl (t : Tr) (x : List Nat × String) : Imp :=
  ⟨x.1, ⟨false, t.quals.headD [] ++ [t.name]⟩, ⟨false, [x.2]⟩⟩

end Verif.Analyzer.Environment
