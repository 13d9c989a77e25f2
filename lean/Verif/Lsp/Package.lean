import Verif.Basic

/-!
# Model of package naming for extracted events

`crates/lsp-server/src/dispatch/handlers/command.rs:402-450` and the directory search at
`crates/lsp-server/src/dispatch/handlers/command.rs:169-190`.
-/

namespace Verif.Lsp

/-- Unicode character data of Rust's standard library (`char::is_alphabetic`,
`char::is_alphanumeric`, `char::is_uppercase`, `str::to_lowercase`), as used at
`crates/lsp-server/src/dispatch/handlers/command.rs:405-447`. A parameter of the model.
`lower pre c post` is the lowercase of `c` between `pre` and `post` (the mapping of capital sigma
depends on the context). -/
structure CharData where
  isAlphabetic : Char → Bool
  isAlphanumeric : Char → Bool
  isUppercase : Char → Bool
  lower : List Char → Char → List Char → List Char

namespace CharData

/-- `str::to_lowercase`, as used at `crates/lsp-server/src/dispatch/handlers/command.rs:444`. -/
def lowercase (d : CharData) (pre : List Char) : List Char → List Char
  | [] => []
  | c :: cs => d.lower pre c cs ++ lowercase d (pre ++ [c]) cs

/-- The loop at `crates/lsp-server/src/dispatch/handlers/command.rs:424-440`.
`first` is `idx == 0`, `up` is `last_char_is_uppercase`, `hy` is `last_char_is_hyphen`. -/
def packageLoop (d : CharData) : List Char → (first up hy : Bool) → List Char
  | [], _, _, _ => []
  | c :: cs, first, up, hy =>
    let sep := if !first && d.isUppercase c && !up && !hy then ['-'] else []
    if d.isAlphanumeric c then sep ++ c :: packageLoop d cs false (d.isUppercase c) false
    else if !hy then sep ++ '-' :: packageLoop d cs false (d.isUppercase c) true
    else sep ++ packageLoop d cs false (d.isUppercase c) true

/-- `str::trim_end_matches('-')`, as used at
`crates/lsp-server/src/dispatch/handlers/command.rs:445`. -/
def trimEndHyphens (cs : List Char) : List Char := (cs.reverse.dropWhile (· == '-')).reverse

/-- `package_name`, `crates/lsp-server/src/dispatch/handlers/command.rs:402-450`; `none` is the
error. The result is the package name and the crate name. -/
def packageName (d : CharData) (name : List Char) : Option (List Char × List Char) :=
  if name.isEmpty || !name.any (fun c => d.isAlphanumeric c || c == '_' || c == '-') then none
  else if !(name.head?.any d.isAlphabetic) then none
  else
    let pkg := trimEndHyphens (d.lowercase [] (d.packageLoop name true false false))
    some (pkg, pkg.map fun c => if c = '-' then '_' else c)

end CharData

/-- The directory search of `handle_extract_event`,
`crates/lsp-server/src/dispatch/handlers/command.rs:172-190`: `taken` is `Path::exists` in the
directory of the contract's manifest, `dir` the current candidate, `count` the number of tries and
`fuel` a bound on the remaining iterations. -/
def extractDirLoop (taken : String → Bool) (pkg : String) : (fuel count : Nat) → (dir : String) → String
  | 0, _, dir => dir
  | fuel + 1, count, dir =>
    if taken dir && count < 10 then extractDirLoop taken pkg fuel (count + 1) (pkg ++ toString (count + 1))
    else dir

/-- The directory chosen for an extracted event, or `none` for the error at
`crates/lsp-server/src/dispatch/handlers/command.rs:185-190`. Eleven iterations exhaust the loop
condition `count < 10`. -/
def extractDir (taken : String → Bool) (pkg : String) : Option String :=
  let dir := extractDirLoop taken pkg 11 0 pkg
  if taken dir then none else some dir

/-- What `handle_extract_event` creates,
`crates/lsp-server/src/dispatch/handlers/command.rs:166-210,241-246,272-286`: paths relative to the
directory of the contract's manifest, and the dependency added to that manifest. Simplified: URL
conversion and reading of the manifest succeed. -/
structure ExtractPlan where
  package : String
  crateName : String
  libFile : List String
  cargoFile : List String
  dependencyPath : String
  deriving DecidableEq, Repr

/-- The naming part of `handle_extract_event`,
`crates/lsp-server/src/dispatch/handlers/command.rs:166-210,241-246`. -/
def extractPlan (d : CharData) (taken : String → Bool) (event : List Char) : Option ExtractPlan :=
  match d.packageName event with
  | none => none
  | some (pkg, crt) =>
    match extractDir taken (String.ofList pkg) with
    | none => none
    | some dir =>
      some { package := String.ofList pkg, crateName := String.ofList crt
             libFile := [dir, "src", "lib.rs"], cargoFile := [dir, "Cargo.toml"]
             dependencyPath := dir }

end Verif.Lsp
