/-!
# Shared vocabulary of the model
-/

namespace Verif

/-- ink! language versions.
Models `Version` in `crates/ir/src/lib.rs:115-120`. -/
inductive Version where
  | v4
  | v5
  deriving DecidableEq, Repr

/-- JSON values as handled by the server (`serde_json::Value`, used throughout
`crates/lsp-server/src/dispatch.rs` and `crates/lsp-server/src/dispatch/handlers/request.rs`).
Simplified: numbers are integers (the code only looks at `as_u64`), objects are key/value
lists with first-match lookup. -/
inductive Json where
  | null
  | bool (b : Bool)
  | num (n : Int)
  | str (s : String)
  | arr (l : List Json)
  | obj (fields : List (String × Json))

namespace Json

/-- `serde_json::Value::as_object` followed by `Map::get`
(as used in `crates/lsp-server/src/dispatch.rs:125-128`). -/
def get? (j : Json) (key : String) : Option Json :=
  match j with
  | .obj fields => fields.lookup key
  | _ => none

/-- `serde_json::Value::as_str` (as used in `crates/lsp-server/src/dispatch.rs:128`). -/
def asStr? : Json → Option String
  | .str s => some s
  | _ => none

/-- `serde_json::Value::as_u64` (as used in
`crates/lsp-server/src/dispatch/handlers/request.rs:322-323`): non-negative integers
that fit 64 bits. -/
def asU64? : Json → Option Nat
  | .num (.ofNat n) => if n < 2 ^ 64 then some n else none
  | _ => none

end Json

end Verif
