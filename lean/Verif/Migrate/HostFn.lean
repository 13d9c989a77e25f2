import Verif.Migrate.E2e
import Verif.Ir.Resolve

/-!
# Migration of cross-contract calls

Models the visitor of `crates/analyzer/src/analysis/migrate/host_fn.rs` and the helpers of
`crates/analyzer/src/analysis/migrate/common.rs`. The traversal is that of
`crates/analyzer/src/analysis/migrate/traversal.rs`, as in `Verif.Migrate.E2e`.
-/

namespace Verif.Migrate.HostFn

open Verif.Analyzer (Edit)

/-- A segment of a path: its name with its range, the text of its generic arguments, and its end.
As used in `crates/analyzer/src/analysis/migrate/host_fn.rs:36-233`. -/
structure Seg where
  name : String
  start : Nat
  nameStop : Nat
  generics : Option (List Char)
  stop : Nat
deriving DecidableEq, Repr

/-- A path as it is written: whether it starts with `::`, its start, its qualifier and its last
segment (`ast::Path`, as far as `crates/analyzer/src/analysis/migrate/host_fn.rs:38-99` reads it). -/
structure CallPath where
  leading : Bool
  start : Nat
  qual : List Seg
  last : Seg
deriving DecidableEq, Repr

/-- An expression. A path has its text and its parts, a method call the name of the method (with its
range), its receiver and its arguments, a call its callee and its arguments; every other expression its
form and its children. All have their range and their role in the parent.
As used in `crates/analyzer/src/analysis/migrate/host_fn.rs:36-233`. -/
inductive Expr where
  | path (start stop : Nat) (role : Role) (text : List Char) (p : Option CallPath)
  | method (start stop : Nat) (role : Role) (name : Option (String × Nat × Nat)) (recv : Expr)
      (args : List Expr)
  | call (start stop : Nat) (role : Role) (callee : Expr) (args : List Expr)
  | node (start stop : Nat) (role : Role) (form : Form) (children : List Expr)

namespace Expr

/-- Start of an expression. As used in `crates/analyzer/src/analysis/migrate/host_fn.rs:36-233`. -/
def start : Expr → Nat
  | path a _ _ _ _ | method a _ _ _ _ _ | call a _ _ _ _ | node a _ _ _ _ => a

/-- End of an expression. As used in `crates/analyzer/src/analysis/migrate/host_fn.rs:36-233`. -/
def stop : Expr → Nat
  | path _ b _ _ _ | method _ b _ _ _ _ | call _ b _ _ _ | node _ b _ _ _ => b

/-- Role of an expression. As used in `crates/analyzer/src/analysis/migrate/host_fn.rs:36-233`. -/
def role : Expr → Role
  | path _ _ r _ _ | method _ _ r _ _ _ | call _ _ r _ _ | node _ _ r _ _ => r

/-- Subexpressions. As used in `crates/analyzer/src/analysis/migrate/host_fn.rs:36-233`. -/
def children : Expr → List Expr
  | path .. => []
  | method _ _ _ _ r as => r :: as
  | call _ _ _ c as => c :: as
  | node _ _ _ _ cs => cs

end Expr

/-- Text of a segment, where generic arguments that are spelled like `drop` are left out.
As used in `crates/analyzer/src/analysis/migrate/common.rs:8-17`. -/
def segText (drop : Option (List Char)) (s : Seg) : String :=
  if s.generics = drop then s.name else s.name ++ String.ofList (s.generics.getD [])

/-- The path without the generic arguments of its last segment (`last_segment_generic_args` and
`simplify_path`, `crates/analyzer/src/analysis/migrate/common.rs:8-17`). The code removes their text
from the whole path, and so from other segments with the same arguments. Simplified: it is not removed
from inside of other generic arguments. -/
def simplified (leading : Bool) (qual : List Seg) (last : Seg) : Ir.Resolve.Path :=
  ⟨leading, qual.map (segText last.generics) ++ [last.name]⟩

/-- `is_external_crate_item` for a call (given by its range), a name, qualifiers and a path; see
`Verif.Analyzer.External`.
As used in `crates/analyzer/src/analysis/migrate/host_fn.rs:64-75,109-140`. -/
abbrev Known := Nat × Nat → String → List (List String) → Ir.Resolve.Path → Bool

/-- The qualifiers of `crates/analyzer/src/analysis/migrate/host_fn.rs:74,113,120`. -/
def callQuals : List (List String) := [["ink_env", "call"], ["ink", "env", "call"]]

/-- The qualifiers of `crates/analyzer/src/analysis/migrate/host_fn.rs:127,134`. -/
def envQuals : List (List String) := [["ink_env"], ["ink", "env"]]

/-- `is_self_type_env_call`, `crates/analyzer/src/analysis/migrate/host_fn.rs:46-58`. -/
def selfEnvPath (p : CallPath) : Bool :=
  match p.qual with
  | [s] => !p.leading && s.name == "Self" && s.generics == none && p.last.name == "env"
  | _ => false

/-- The replacement of the type of `Call::<..>::new`,
`crates/analyzer/src/analysis/migrate/host_fn.rs:64-97`. -/
def typeEdit (known : Known) (r : Nat × Nat) (p : CallPath) : List Edit :=
  match p.qual.getLast? with
  | none => []
  | some t =>
    if p.last.name = "new" ∧ p.last.generics = none ∧
        known r "Call" callQuals (simplified p.leading p.qual.dropLast t) = true then
      [⟨chars! "ink::env::call::CallV1" ++ t.generics.getD [], p.start, t.stop, none⟩]
    else []

/-- `HostFnWrapper`, `crates/analyzer/src/analysis/migrate/host_fn.rs:101-108`. -/
inductive Wrapper where
  | buildCall | buildCreate | instantiate | invoke
deriving DecidableEq, Repr

/-- `host_fn_wrapper_path`, `crates/analyzer/src/analysis/migrate/host_fn.rs:109-140`, with
`is_call_path`, `crates/analyzer/src/analysis/migrate/common.rs:19-28`. -/
def wrapper (known : Known) (r : Nat × Nat) (p : CallPath) : Option Wrapper :=
  let path := simplified p.leading p.qual p.last
  if known r "build_call" callQuals path then some .buildCall
  else if known r "build_create" callQuals path then some .buildCreate
  else if known r "instantiate_contract" envQuals path then some .instantiate
  else if known r "invoke_contract" envQuals path then some .invoke
  else none

/-- The methods between `build_call` and `call`,
`crates/analyzer/src/analysis/migrate/host_fn.rs:160-169`. -/
def intermediates : List String :=
  ["call_type", "call_flags", "returns", "exec_input", "delegate", "gas_limit", "transferred_value",
    "code_hash"]

/-- `chained_host_fn_call`, `crates/analyzer/src/analysis/migrate/host_fn.rs:191-211`, and its edit
(170-177). The chain holds the names of the method calls around the expression: it is the receiver of the
first, that is the receiver of the second, and so on. -/
def callEdit : List (Option (String × Nat × Nat)) → List Edit
  | some (name, a, b) :: rest =>
    if name = "call" then [⟨chars! "call_v1", a, b, none⟩]
    else if name ∈ intermediates then callEdit rest
    else []
  | _ => []

/-- `chained_env_host_fn_call`, `crates/analyzer/src/analysis/migrate/host_fn.rs:236-257`. -/
def envEdit : List (Option (String × Nat × Nat)) → List Edit
  | some (name, a, b) :: _ =>
    if name = "instantiate_contract" ∨ name = "invoke_contract" then
      [⟨name.toList ++ chars! "_v1", a, b, none⟩]
    else []
  | _ => []

/-- The match on the wrapper, `crates/analyzer/src/analysis/migrate/host_fn.rs:147-189`. -/
def wrapEdit (chain : List (Option (String × Nat × Nat))) (stop : Nat) (p : CallPath) :
    Wrapper → List Edit
  | .buildCreate => [⟨chars! ".instantiate_v1()", stop, stop, none⟩]
  | .buildCall => callEdit chain
  | .instantiate | .invoke =>
    [⟨p.last.name.toList ++ chars! "_v1", p.last.start, p.last.nameStop, none⟩]

/-- `is_self_env_call`, `crates/analyzer/src/analysis/migrate/host_fn.rs:216-228`. -/
def isSelfEnv (recv : Expr) (name : Option (String × Nat × Nat)) : Bool :=
  match recv, name with
  | .path _ _ _ text _, some (n, _) => text == chars! "self" && n == "env"
  | _, _ => false

/-- The path of a callee, `crates/analyzer/src/analysis/migrate/host_fn.rs:38-41`. -/
def calleePath : Expr → Option CallPath
  | .path _ _ _ _ p => p
  | _ => none

mutual

/-- `visit_call`, `visit_method_call` and `walk_expr`,
`crates/analyzer/src/analysis/migrate/host_fn.rs:36-233`. -/
def visit (known : Known) (chain : List (Option (String × Nat × Nat))) : Expr → List Edit
  | .path .. => []
  | .method _ _ _ name recv args =>
    (if isSelfEnv recv name then []
      else visit known (name :: chain) recv ++ visitAll known (fun _ => true) args) ++ envEdit chain
  | .call a b _ callee args =>
    match calleePath callee with
    | none => visit known [] callee ++ visitAll known (fun _ => true) args
    | some p =>
      if selfEnvPath p then envEdit chain
      else
        typeEdit known (a, b) p ++
          match wrapper known (a, b) p with
          | none => visit known [] callee ++ visitAll known (fun _ => true) args
          | some w => wrapEdit chain b p w
  | .node _ _ _ form cs => visitAll known (walked form) cs

/-- Visits the children with the given roles.
As used in `crates/analyzer/src/analysis/migrate/traversal.rs:143-192`. -/
def visitAll (known : Known) (f : Role → Bool) : List Expr → List Edit
  | [] => []
  | c :: cs => (if f c.role then visit known [] c else []) ++ visitAll known f cs

end

/-- `migrate`, `crates/analyzer/src/analysis/migrate/host_fn.rs:13-21`, for the bodies of the functions
of a file. -/
def migrate (known : Known) (bodies : List Expr) : List Edit := bodies.flatMap (visit known [])

end Verif.Migrate.HostFn
