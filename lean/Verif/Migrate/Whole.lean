import Verif.Migrate.Derive
import Verif.Migrate.HostFn
import Verif.Migrate.TestFn

/-!
# The migration of a file

Models `migrate`, `crates/analyzer/src/analysis/migrate.rs:18-40`, and `migrate` for e2e tests,
`crates/analyzer/src/analysis/migrate/e2e_test.rs:16-35`.
-/

namespace Verif.Migrate.Whole

open Verif.Analyzer (Edit FTok formatEdit)
open Verif.Analyzer (ScaleTrait)
open Verif.Migrate.Imports (UseItem itemEdits)
open Verif.Migrate.TestFn (Arg Sig attrEdits fnSig imports)

/-- An e2e test: the token tree of its attribute (if any) with its offset, its function (if it has a name
or parameters) with its offset, the body, the offset and the indentation for new imports
(`TestFn.importOffset`), and the `use` items of its module with their offsets.
As used in `crates/analyzer/src/analysis/migrate/e2e_test.rs:16-35`. -/
structure Test where
  attr : Option (Nat × List Arg × List Char)
  sig : Option (Nat × Sig)
  body : Option Expr
  importAt : Option (Nat × List Char)
  uses : List (Nat × UseItem)

/-- `fn_body`, `crates/analyzer/src/analysis/migrate/e2e_test.rs:100-175`. -/
def bodyEdits (t : Test) : List Edit :=
  match t.body with
  | none => []
  | some e =>
    editsOf (visit e) ++
      match t.importAt with
      | none => []
      | some (off, indent) => imports off indent (visit e)

/-- The edits for one e2e test, `crates/analyzer/src/analysis/migrate/e2e_test.rs:23-33`. -/
def testEdits (t : Test) : List Edit :=
  (match t.attr with
    | none => []
    | some (off, args, close) => attrEdits off args close) ++
  (match t.sig with
    | none => []
    | some (off, s) => fnSig off s) ++
  bodyEdits t ++
  t.uses.flatMap fun u => itemEdits u.1 u.2

/-- A file, as far as the migration reads it: contracts with legacy events, chain extensions, attributes
with derives (`res`, `perm` as in `scaleDerive`), the bodies of all functions (`known` as in
`HostFn.migrate`), and e2e tests. As used in `crates/analyzer/src/analysis/migrate.rs:18-40`. -/
structure File where
  contracts : List EventContract
  extensions : List MigExt
  res : DeriveAttr → List Char → Option ScaleTrait
  perm : List (Nat × Nat × List ScaleTrait) → List (Nat × Nat × List ScaleTrait)
  derives : List DeriveAttr
  known : HostFn.Known
  bodies : List HostFn.Expr
  tests : List Test

/-- The edits of all steps, `crates/analyzer/src/analysis/migrate.rs:20-36`. -/
def steps (f : File) : List Edit :=
  eventsMigration f.contracts ++ extensionsMigration f.extensions ++
    scaleDerive f.res f.perm f.derives ++ HostFn.migrate f.known f.bodies ++
    f.tests.flatMap testEdits

/-- `results.into_iter().unique()`, `crates/analyzer/src/analysis/migrate.rs:39`: the first of equal edits
is kept. -/
def unique : List Edit → List Edit
  | [] => []
  | e :: es => e :: (unique es).filter fun x => x ≠ e

/-- `format_edits`, `crates/analyzer/src/analysis/text_edit.rs:67-72`. `none` if formatting an edit
panics. -/
def formatAll (toks : List FTok) (parent : Nat → Option (Option (List Char))) :
    List Edit → Option (List Edit)
  | [] => some []
  | e :: es =>
    match formatEdit toks parent e, formatAll toks parent es with
    | some e', some es' => some (e' :: es')
    | _, _ => none

/-- `migrate`, `crates/analyzer/src/analysis/migrate.rs:18-40`, for a file with the given tokens. -/
def migrate (toks : List FTok) (parent : Nat → Option (Option (List Char))) (f : File) :
    Option (List Edit) :=
  formatAll toks parent (unique (steps f))

end Verif.Migrate.Whole
