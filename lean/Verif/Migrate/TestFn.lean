import Verif.Migrate.Imports
import Verif.Migrate.E2e

/-!
# The migration of the attribute, the signature and the imports of an e2e test

Models `attribute`, `fn_sig` and the part of `fn_body` that adds imports,
`crates/analyzer/src/analysis/migrate/e2e_test.rs:37-175`.
-/

namespace Verif.Migrate.TestFn

open Verif.Ir.Token (bytes)
open Verif.Analyzer (Edit)
open Verif.Migrate.Imports (commaText delete)

/-! ## Attribute -/

/-- The arguments of the attribute of an e2e test in ink! 4 (`environment_arg`,
`additional_contracts_arg` and `keep_attr_arg`, `crates/ir/src/ink_e2e_test.rs`). -/
inductive ArgKind where
  | environment | additional | keep
deriving DecidableEq, Repr

/-- An argument with the white space around it, and whether a comma follows.
As used in `crates/analyzer/src/analysis/migrate/e2e_test.rs:37-61`. -/
structure Arg where
  kind : ArgKind
  lead : List Char
  core : List Char
  trail : List Char
  comma : Bool
deriving DecidableEq, Repr

/-- The text of an argument. As used in `crates/analyzer/src/analysis/migrate/e2e_test.rs:37-61`. -/
def Arg.render (a : Arg) : List Char := a.lead ++ a.core ++ a.trail ++ commaText a.comma

/-- The text of arguments. As used in `crates/analyzer/src/analysis/migrate/e2e_test.rs:37-61`. -/
def renderArgs : List Arg → List Char
  | [] => []
  | a :: as => a.render ++ renderArgs as

/-- The token tree of the attribute; `close` is the white space before the closing parenthesis.
As used in `crates/analyzer/src/analysis/migrate/e2e_test.rs:37-61`. -/
def tree (args : List Arg) (close : List Char) : List Char :=
  chars! "(" ++ renderArgs args ++ close ++ chars! ")"

/-- `ink_arg_and_delimiter_removal_range`, `crates/analyzer/src/analysis/utils.rs:1533-1624`, for an
argument (of more than one) that starts at `off`, white space included; `prev` is the offset of the comma
before it. Simplified to the ranges that C51 shows for well-formed arguments (`C51_next_partial`,
`C51_last_partial`). -/
def ownRange (prev : Option Nat) (off : Nat) (a : Arg) : Nat × Nat :=
  let start := off + bytes a.lead
  let stop := start + bytes a.core
  if a.comma then (start, stop + bytes a.trail + 1)
  else
    match prev with
    | some c => (c, stop)
    | none => (start, stop)

/-- The removal of the first argument of a kind (`additional_contracts_arg`, `keep_attr_arg`).
As used in `crates/analyzer/src/analysis/migrate/e2e_test.rs:37-61`. -/
def removeFirst (k : ArgKind) (prev : Option Nat) (off : Nat) : List Arg → List Edit
  | [] => []
  | a :: as =>
    if a.kind = k then [delete (ownRange prev off a)]
    else removeFirst k (if a.comma then some (off + bytes a.render - 1) else none)
      (off + bytes a.render) as

/-- The removal of an argument, `crates/analyzer/src/analysis/migrate/e2e_test.rs:50-60`: all of the token
tree if it is the only one (`crates/analyzer/src/analysis/utils.rs:1552-1562`). `off` is the offset of the
token tree. -/
def removeArg (k : ArgKind) (off : Nat) (args : List Arg) (close : List Char) : List Edit :=
  if args.length = 1 ∧ args.any (fun a => a.kind == k) then
    [delete (off, off + bytes (tree args close))]
  else removeFirst k none (off + 1) args

/-- `attribute`, `crates/analyzer/src/analysis/migrate/e2e_test.rs:37-61`. Both sides of the disjunction
in the code are the same. -/
def attrEdits (off : Nat) (args : List Arg) (close : List Char) : List Edit :=
  if !args.any (fun a => a.kind == .environment) && args.any (fun a => a.kind == .additional) then
    [delete (off, off + bytes (tree args close))]
  else removeArg .additional off args close ++ removeArg .keep off args close

/-! ## Signature -/

/-- A function: the text up to its name, the name, the generic parameters, the parameters, and the
rest. As used in `crates/analyzer/src/analysis/migrate/e2e_test.rs:64-84`. -/
structure Sig where
  before : List Char
  name : List Char
  generics : Option (List Char)
  params : Option (List Char)
  after : List Char
deriving DecidableEq, Repr

/-- The text of a function. As used in `crates/analyzer/src/analysis/migrate/e2e_test.rs:64-84`. -/
def Sig.render (s : Sig) : List Char :=
  s.before ++ s.name ++ s.generics.getD [] ++ s.params.getD [] ++ s.after

/-- `fn_sig`, `crates/analyzer/src/analysis/migrate/e2e_test.rs:64-84`, for a function at `off`. -/
def fnSig (off : Nat) (s : Sig) : List Edit :=
  let nameEnd := off + bytes s.before + bytes s.name
  match s.params with
  | some ps =>
    let start := nameEnd + bytes (s.generics.getD [])
    [⟨chars! "<Client: E2EBackend>(mut client: Client)", start, start + bytes ps, none⟩]
  | none => [⟨chars! "<Client: E2EBackend>(mut client: Client)", nameEnd, nameEnd, none⟩]

/-! ## Imports -/

/-- What stands in a file, a module or a function body.
As used in `crates/analyzer/src/analysis/migrate/e2e_test.rs:113-164`. -/
inductive ElemKind where
  | doc | innerAttr | use_ | space | other
deriving DecidableEq, Repr

/-- An element with its text: an inner doc comment, an inner attribute, a `use` item, white space and
comments, anything else. As used in `crates/analyzer/src/analysis/migrate/e2e_test.rs:113-164`. -/
structure Elem where
  kind : ElemKind
  text : List Char
deriving DecidableEq, Repr

/-- The text of elements. As used in `crates/analyzer/src/analysis/migrate/e2e_test.rs:113-164`. -/
def renderElems : List Elem → List Char
  | [] => []
  | e :: es => e.text ++ renderElems es

/-- Where the imports go: the test has no parent item, a module with a body as parent, or another
parent. As used in `crates/analyzer/src/analysis/migrate/e2e_test.rs:113-164`. -/
inductive Parent where
  | file | module_ | other
deriving DecidableEq, Repr

/-- The end of the last element of a kind.
As used in `crates/analyzer/src/analysis/migrate/e2e_test.rs:113-164`. -/
def endOfLast (k : ElemKind) (off : Nat) : List Elem → Option Nat
  | [] => none
  | e :: es =>
    (endOfLast k (off + bytes e.text) es).or (if e.kind = k then some (off + bytes e.text) else none)

/-- The offset of the imports, `crates/analyzer/src/analysis/migrate/e2e_test.rs:113-164`. `off` is the
offset of the elements: those of the file, those after the `{` of the module
(`item_insert_offset_start`, `crates/analyzer/src/analysis/utils.rs:1627-1644`), or those after the `{` of
the function. -/
def importOffset (off : Nat) (es : List Elem) : Parent → Nat
  | .file => (endOfLast .doc off es).getD off
  | .module_ => (endOfLast .use_ off es).getD off
  | .other => off

/-- The text of a required trait (`impl Display for E2ETrait`,
`crates/analyzer/src/analysis/migrate/e2e_test.rs:93-97`). -/
def traitPath : Verif.Migrate.E2ETrait → List Char
  | .contracts => chars! "ink_e2e::ContractsBackend"
  | .chain => chars! "ink_e2e::ChainBackend"

/-- The required traits, each once (a hash set; here in the order of their first use).
As used in `crates/analyzer/src/analysis/migrate/e2e_test.rs:110-112,166-174`. -/
def required (os : List Verif.Migrate.Out) : List Verif.Migrate.E2ETrait :=
  (os.filterMap fun o => match o with | .need t => some t | .edit _ => none).eraseDups

/-- The edits that add the imports, `crates/analyzer/src/analysis/migrate/e2e_test.rs:110-112,166-174`. -/
def imports (off : Nat) (indent : List Char) (os : List Verif.Migrate.Out) : List Edit :=
  (required os).map fun t =>
    ⟨chars! "\n" ++ indent ++ chars! "use " ++ traitPath t ++ chars! ";", off, off, none⟩

end Verif.Migrate.TestFn
