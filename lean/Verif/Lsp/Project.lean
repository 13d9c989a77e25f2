import Verif.Basic

/-!
# Model of manifest lookup and of the detection of a project's ink! version

`crates/lsp-server/src/utils.rs:139-161` and `crates/lsp-server/src/dispatch.rs:421-549`.
-/

namespace Verif.Lsp

/-- An absolute path as its components below the root. Simplified: Unix paths without `.` and
`..` components, as `Url::to_file_path` yields them (`crates/lsp-server/src/dispatch.rs:422`). -/
abbrev FilePath := List String

/-- `PathBuf::set_file_name("Cargo.toml")`, as used at `crates/lsp-server/src/utils.rs:143,152`. -/
def setCargoToml (p : FilePath) : FilePath := p.dropLast ++ ["Cargo.toml"]

/-- The loop at `crates/lsp-server/src/utils.rs:151-157`; `fuel` is `10 - depth`. -/
def findCargoLoop (isFile : FilePath → Bool) : (fuel : Nat) → FilePath → FilePath
  | 0, p => p
  | fuel + 1, p =>
    match p with
    | [] => p
    | c :: cs =>
      let p' := setCargoToml (c :: cs).dropLast
      if isFile p' then p' else findCargoLoop isFile fuel p'

/-- `find_cargo_toml`, `crates/lsp-server/src/utils.rs:139-161`. -/
def findCargoToml (isFile : FilePath → Bool) (path : FilePath) : Option FilePath :=
  let own := setCargoToml path
  let p := if isFile own then own else findCargoLoop isFile 10 path
  if isFile p then some p else none

/-- TOML data (`toml::Value` and `toml_edit::Item`, as used in
`crates/lsp-server/src/dispatch.rs:452-503` and
`crates/lsp-server/src/dispatch/handlers/command.rs:291-394`). Simplified: formatting is not
represented, other scalars and arrays of tables are opaque. `inline` is an inline table, `table` a
table with its own header. -/
inductive Toml where
  | str (s : String)
  | bool (b : Bool)
  | arr (l : List Toml)
  | inline (l : List (String × Toml))
  | table (l : List (String × Toml))
  | other (raw : String)

/-- The entries when matching `toml::Value::Table`, which covers both kinds of tables
(`crates/lsp-server/src/dispatch.rs:457,465,471`). -/
def Toml.entries? : Toml → Option (List (String × Toml))
  | .inline l => some l
  | .table l => some l
  | _ => none

/-- `parse_dep_value` at `crates/lsp-server/src/dispatch.rs:472-475`. -/
def Toml.asStr? : Toml → Option String
  | .str s => some s
  | _ => none

/-- `InkProjectVersion`, `crates/lsp-server/src/dispatch.rs:510-516`. -/
structure InkProjectVersion where
  version : Option String
  path : Option String
  git : Option String
  workspace : Bool
  deriving DecidableEq, Repr

/-- Reading of the ink dependency's value, `crates/lsp-server/src/dispatch.rs:467-499`. -/
def inkDependency (dep : Toml) : Option InkProjectVersion :=
  let info : InkProjectVersion :=
    match dep with
    | .str s => ⟨some s, none, none, false⟩
    | _ =>
      match dep.entries? with
      | some l =>
        ⟨(l.lookup "version").bind Toml.asStr?, (l.lookup "path").bind Toml.asStr?,
          (l.lookup "git").bind Toml.asStr?,
          match l.lookup "workspace" with
          | some (.bool true) => true
          | _ => false⟩
      | none => ⟨none, none, none, false⟩
  if info.version.isSome || info.path.isSome || info.git.isSome || info.workspace then some info
  else none

/-- `parse_ink_project_version_inner` after parsing, `crates/lsp-server/src/dispatch.rs:452-500`;
`inherited` is the parameter `workspace`. -/
def inkProjectVersion (package : List (String × Toml)) (inherited : Bool) : Option InkProjectVersion :=
  let deps :=
    if inherited then
      ((package.lookup "workspace").bind Toml.entries?).bind fun ws => ws.lookup "dependencies"
    else package.lookup "dependencies"
  ((deps.bind Toml.entries?).bind fun l => l.lookup "ink").bind inkDependency

/-- Character classes of the regular expression engine (`\w` and `\s` in Unicode mode), as used at
`crates/lsp-server/src/dispatch.rs:547`. A parameter of the model. -/
structure RegexClasses where
  isWord : Char → Bool
  isSpace : Char → Bool

namespace RegexClasses

/-- `\b` between the previous and the next character, `crates/lsp-server/src/dispatch.rs:547`. -/
def boundary (r : RegexClasses) (prev next : Option Char) : Bool :=
  prev.any r.isWord != next.any r.isWord

/-- The alternatives for the comparison operator, including none,
`crates/lsp-server/src/dispatch.rs:547`. -/
def operators : List (List Char) := [[], ['^'], ['~'], ['>'], ['='], ['>', '=']]

/-- A match of the part after the anchor, `crates/lsp-server/src/dispatch.rs:547`. -/
def matchAt (r : RegexClasses) (rest : List Char) : Bool :=
  operators.any fun op =>
    op.isPrefixOf rest && ['5', '.'].isPrefixOf ((rest.drop op.length).dropWhile r.isSpace)

/-- The unanchored search of `Regex::is_match`, `crates/lsp-server/src/dispatch.rs:548`. -/
def search (r : RegexClasses) (prev : Option Char) : List Char → Bool
  | [] => (prev.isNone || r.boundary prev none) && r.matchAt []
  | c :: cs =>
    ((prev.isNone || r.boundary prev (some c)) && r.matchAt (c :: cs)) || search r (some c) cs

/-- `is_v5_version_string`, `crates/lsp-server/src/dispatch.rs:546-549`. -/
def isV5 (r : RegexClasses) (text : String) : Bool := r.search none text.toList

end RegexClasses

/-- `version.trim().starts_with('*')`, `crates/lsp-server/src/dispatch.rs:526`. -/
def isWildcardReq (r : RegexClasses) (text : String) : Bool :=
  (text.toList.dropWhile r.isSpace).head? == some '*'

/-- `InkProjectVersion::guess_version`, `crates/lsp-server/src/dispatch.rs:521-538`. -/
def InkProjectVersion.guess (r : RegexClasses) (v : InkProjectVersion) : Version :=
  match v.version with
  | some s => if r.isV5 s || isWildcardReq r s then .v5 else .v4
  | none => if v.path.isSome || v.git.isSome then .v5 else .v4

/-- The file system as seen by the server: `isFile` and the parsed content of a manifest
(`none` when it cannot be read or parsed), `crates/lsp-server/src/dispatch.rs:450-452`. -/
structure Files where
  isFile : FilePath → Bool
  manifest : FilePath → Option (List (String × Toml))

/-- `parse_ink_project_version_inner`, `crates/lsp-server/src/dispatch.rs:446-506`. -/
def manifestVersion (fs : Files) (path : FilePath) (inherited : Bool) : Option InkProjectVersion :=
  if fs.isFile path then (fs.manifest path).bind fun p => inkProjectVersion p inherited else none

/-- `path.extension().is_some_and(|ext| ext == "rs")`, `crates/lsp-server/src/dispatch.rs:423`:
a file name which has something before a final `.rs`. -/
def isRust (path : FilePath) : Bool :=
  match path.getLast? with
  | some name => name.toList.reverse.take 3 == ['s', 'r', '.'] && name.length > 3
  | none => false

/-- `parse_ink_project_version`, `crates/lsp-server/src/dispatch.rs:421-444`; `path` is the result
of `Url::to_file_path`. -/
def projectVersion (fs : Files) (path : Option FilePath) : Option InkProjectVersion :=
  match path with
  | none => none
  | some path =>
    if isRust path then
      match findCargoToml fs.isFile path with
      | none => none
      | some cargo =>
        let own := manifestVersion fs cargo false
        if own.any (·.workspace) then
          match findCargoToml fs.isFile cargo.dropLast with
          | none => own
          | some wsCargo =>
            match manifestVersion fs wsCargo true with
            | some v => some v
            | none => own
        else own
    else none

/-- The detected version, `crates/lsp-server/src/dispatch.rs:252-262`. -/
def detectVersion (r : RegexClasses) (fs : Files) (path : Option FilePath) : Version :=
  ((projectVersion fs path).map (·.guess r)).getD .v4

end Verif.Lsp
