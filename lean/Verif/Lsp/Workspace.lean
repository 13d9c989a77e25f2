import Verif.Lsp.Translate
import Verif.Lsp.Manifest
import Verif.Lsp.Package
import Verif.Analyzer.Project

/-!
# Model of the project commands and of the document changes they become

`crates/lsp-server/src/dispatch/handlers/command.rs:13-288,452-538`, without the naming of packages
(`Verif/Lsp/Package.lean`) and the edits of manifests (`Verif/Lsp/Manifest.lean`). A URI is its
text, a document its list of characters.
-/

namespace Verif.Lsp.Workspace

open Verif.Analyzer (newProject replaceAll)

/-- A URI as text, `lsp_types::Url`.
As used in `crates/lsp-server/src/dispatch/handlers/command.rs:13-32`. -/
abbrev Uri := List Char

/-- `lsp_types::TextEdit`. As used in `crates/lsp-server/src/dispatch/handlers/command.rs:13-32`. -/
structure TextEdit where
  range : Pos × Pos
  newText : List Char
  deriving DecidableEq, Repr

/-- `lsp_types::DocumentChangeOperation` with the options used at
`crates/lsp-server/src/dispatch/handlers/command.rs:458-476,489-517`: no options for a created file,
no version for an edited document. -/
inductive Op where
  | create (uri : Uri)
  | edit (uri : Uri) (edits : List TextEdit)
  deriving DecidableEq, Repr

/-- `HashMap::from`, `crates/lsp-server/src/dispatch/handlers/command.rs:60-63,133,279-286`: a later
entry replaces an earlier one with the same key. The order of iteration is left to the theorems. -/
def mapOf {β : Type} (l : List (Uri × β)) : List (Uri × β) :=
  l.foldl (fun m e => m.filter (fun x => x.1 ≠ e.1) ++ [e]) []

/-- `CreateProjectResponse`, `crates/lsp-server/src/dispatch/handlers/command.rs:13-18`. -/
structure CreateResponse where
  name : List Char
  uri : Uri
  files : List (Uri × List Char)

/-- `MigrateProjectResponse`, `crates/lsp-server/src/dispatch/handlers/command.rs:20-24`. -/
structure MigrateResponse where
  uri : Uri
  edits : List (Uri × List TextEdit)

/-- `ExtractEventResponse`, `crates/lsp-server/src/dispatch/handlers/command.rs:26-32`. -/
structure ExtractResponse where
  name : List Char
  uri : Uri
  files : List (Uri × List Char)
  edits : List (Uri × List TextEdit)

/-- `Url::join` with a file name, `crates/lsp-server/src/dispatch/handlers/command.rs:42,44`: the part
behind the last slash is replaced. Simplified: URLs without query and fragment; a URL without any
slash cannot be a base. -/
def urlJoin (u : Uri) (file : List Char) : Option Uri :=
  if '/' ∈ u then some ((u.reverse.dropWhile (· ≠ '/')).reverse ++ file) else none

/-- `handle_create_project`, `crates/lsp-server/src/dispatch/handlers/command.rs:35-65`; `none` is an
error. -/
def handleCreate (isAlphabetic isNumeric : Char → Bool) (name : List Char) (root : Uri) :
    Option CreateResponse :=
  match urlJoin root "lib.rs".toList, urlJoin root "Cargo.toml".toList with
  | some lib, some cargo =>
    match newProject isAlphabetic isNumeric name true with
    | .ok p => some ⟨name, root, mapOf [(lib, p.libPlain), (cargo, p.cargoPlain)]⟩
    | .error _ => none
  | _, _ => none

/-- What the commands obtain from the file system and from conversions between URIs and paths
(`Url::to_file_path`, `Url::from_file_path`, `Path::is_file`, `Path::exists`, `fs::read_to_string`;
`crates/lsp-server/src/dispatch/handlers/command.rs:96-110,159-203,233-242`). A parameter of the
model. -/
structure Host where
  toFilePath : Uri → Option FilePath
  fromFilePath : FilePath → Option Uri
  isFile : FilePath → Bool
  present : FilePath → Bool
  read : FilePath → Option (List Char)

/-- The edits of the text of a manifest, `crates/lsp-server/src/dispatch/handlers/command.rs:111,249-253`;
`none` is an error. A parameter of the model: parsing and printing of TOML. What the edits do to the
parsed manifest is `migrateManifest` and `addDependency`. -/
structure ManifestText where
  migrate : List Char → Option (List Char)
  addDependency : List Char → String → Toml → Option (List Char)

/-- `Extraction`, `crates/analyzer/src/analysis/extract.rs:14-26`. -/
structure Extracted where
  name : List Char
  content : List Char
  edits : List ((Nat × Nat) × List Char)
  importOffset : Nat
  importIndent : List Char

/-- `Snapshot`, `crates/lsp-server/src/dispatch.rs:77-99`: the text of the open document and what its
analysis answers to the two commands. -/
structure Snap where
  text : List Char
  migrate : List ((Nat × Nat) × List Char)
  extract : Nat × Nat → Option Extracted

/-- Translation of edits, `crates/lsp-server/src/dispatch/handlers/command.rs:84-93,214-222`. -/
def translate (ctx : Context) (edits : List ((Nat × Nat) × List Char)) : List TextEdit :=
  edits.filterMap fun e => (ctx.range e.1).map fun r => ⟨r, e.2⟩

/-- The edit which replaces the text of a manifest,
`crates/lsp-server/src/dispatch/handlers/command.rs:112-128,254-272` (`as u32` keeps the low bits). -/
def wholeEdit (enc : Encoding) (text new : List Char) : Option TextEdit :=
  ((Context.mk enc text).range (0, utf8Len text % 2 ^ 32)).map fun r => ⟨r, new⟩

/-- `id.ends_with(".rs")`, `crates/lsp-server/src/dispatch/handlers/command.rs:75,146`. -/
def isRsUri (uri : Uri) : Bool := uri.reverse.take 3 == ['s', 'r', '.']

/-- `handle_migrate_project`, `crates/lsp-server/src/dispatch/handlers/command.rs:67-135`; `none` is an
error. -/
def handleMigrate (h : Host) (mt : ManifestText) (enc : Encoding) (snaps : Uri → Option Snap)
    (uri : Uri) : Option MigrateResponse :=
  if !isRsUri uri then none
  else
    (snaps uri).bind fun snap =>
    ((h.toFilePath uri).bind (findCargoToml h.isFile)).bind fun path =>
    (h.read path).bind fun cargo =>
    (h.fromFilePath path).bind fun cargoUri =>
    (mt.migrate cargo).bind fun new =>
    (wholeEdit enc cargo new).map fun e =>
      ⟨uri, mapOf [(uri, translate ⟨enc, snap.text⟩ snap.migrate), (cargoUri, [e])]⟩

/-- `CARGO_TOML_MINIMAL_V5`, `crates/lsp-server/src/dispatch/handlers/command.rs:523-538`. -/
def minimalManifest : List Char := chars! "[package]
name = \"my_package\"
version = \"0.1.0\"
authors = [\"[your_name] <[your_email]>\"]
edition = \"2021\"

[dependencies]
ink = { version = \"5.0.0\", default-features = false }

[features]
default = [\"std\"]
std = [
    \"ink/std\",
]
ink-as-dependency = []
e2e-tests = []"

/-- The dependency on the new package, `crates/lsp-server/src/dispatch/handlers/command.rs:243-248`. -/
def eventDependency (dir : String) : Toml :=
  .inline [("path", .str dir), ("default-features", .bool false)]

/-- The import of the event, `crates/lsp-server/src/dispatch/handlers/command.rs:223-229`. -/
def importText (indent crt name : List Char) : List Char :=
  indent ++ "use ".toList ++ crt ++ "::".toList ++ name ++ ";".toList

/-- `handle_extract_event`, `crates/lsp-server/src/dispatch/handlers/command.rs:137-288`; `none` is an
error. The names are those of `extractPlan`. -/
def handleExtract (d : CharData) (h : Host) (mt : ManifestText) (enc : Encoding)
    (snaps : Uri → Option Snap) (uri : Uri) (range : Nat × Nat) : Option ExtractResponse :=
  if !isRsUri uri then none
  else
    (snaps uri).bind fun snap =>
    (snap.extract range).bind fun x =>
    ((h.toFilePath uri).bind (findCargoToml h.isFile)).bind fun path =>
    (extractPlan d (fun dir => h.present (path.dropLast ++ [dir])) x.name).bind fun plan =>
    (h.fromFilePath (path.dropLast ++ plan.cargoFile)).bind fun eventCargo =>
    (h.fromFilePath (path.dropLast ++ plan.libFile)).bind fun eventLib =>
    ((Context.mk enc snap.text).range (x.importOffset, x.importOffset)).bind fun at_ =>
    (h.read path).bind fun cargo =>
    (h.fromFilePath path).bind fun cargoUri =>
    (mt.addDependency cargo plan.package (eventDependency plan.dependencyPath)).bind fun new =>
    (wholeEdit enc cargo new).map fun e =>
      { name := plan.package.toList, uri
        files := mapOf [(eventLib, x.content),
          (eventCargo, replaceAll (chars! "my_package") plan.package.toList minimalManifest)]
        edits := mapOf [(uri, translate ⟨enc, snap.text⟩ x.edits ++
            [⟨at_, importText x.importIndent plan.crateName.toList x.name⟩]),
          (cargoUri, [e])] }

/-- The operations for new files, `crates/lsp-server/src/dispatch/handlers/command.rs:457-476,488-507`;
the argument is the map in its order of iteration. -/
def createOps (files : List (Uri × List Char)) : List Op :=
  files.flatMap fun f => [.create f.1, .edit f.1 [⟨(⟨0, 0⟩, ⟨0, 0⟩), f.2⟩]]

/-- `From<CreateProjectResponse> for DocumentChanges`,
`crates/lsp-server/src/dispatch/handlers/command.rs:452-481`. -/
def changesOfCreate (files : List (Uri × List Char)) : List Op := createOps files

/-- `From<ExtractEventResponse> for DocumentChanges`,
`crates/lsp-server/src/dispatch/handlers/command.rs:483-521`; the arguments are the maps in their order
of iteration. -/
def changesOfExtract (files : List (Uri × List Char)) (edits : List (Uri × List TextEdit)) : List Op :=
  createOps files ++ edits.map fun e => .edit e.1 e.2

/-- The edit of a lazily computed code action, `crates/lsp-server/src/dispatch/handlers/request.rs:162-176`:
the client's capabilities are not consulted. -/
def resolveExtract (_caps : ClientCaps) (r : ExtractResponse) : List Op :=
  changesOfExtract r.files r.edits

end Verif.Lsp.Workspace
