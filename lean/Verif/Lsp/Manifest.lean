import Verif.Lsp.Project

/-!
# Model of the manifest edits: `crates/lsp-server/src/dispatch/handlers/command.rs:291-394`

A table is a list of entries in document order. An entry set to `Item::None` is not printed, so it
is removed here. Whether the input parses is an input of the model (`doc`).
-/

namespace Verif.Lsp

/-- Entries of a table, in document order.
As used in `crates/lsp-server/src/dispatch/handlers/command.rs:291-394`. -/
abbrev Entries := List (String × Toml)

/-- Overwrites the value of a present key, as `*table.get_mut(key) = value` does
(`crates/lsp-server/src/dispatch/handlers/command.rs:334,352`). Absent keys are left alone. -/
def Entries.modify (l : Entries) (key : String) (f : Toml → Toml) : Entries :=
  l.map fun e => if e.1 = key then (e.1, f e.2) else e

/-- `Table::insert`, `InlineTable::insert` of toml_edit: overwrites the value in place, or appends
(`crates/lsp-server/src/dispatch/handlers/command.rs:308,319,391`). -/
def Entries.insert (l : Entries) (key : String) (value : Toml) : Entries :=
  if (l.lookup key).isSome then l.modify key fun _ => value else l ++ [(key, value)]

/-- Setting an entry to `Item::None`, `crates/lsp-server/src/dispatch/handlers/command.rs:338,341`. -/
def Entries.remove (l : Entries) (key : String) : Entries := l.filter fun e => e.1 ≠ key

/-- `Item::as_table_mut`, as used at `crates/lsp-server/src/dispatch/handlers/command.rs:298,347,357`:
only tables with their own header. -/
def Toml.asTable? : Toml → Option Entries
  | .table l => some l
  | _ => none

/-- The settings of the new ink dependency given those of the old one,
`crates/lsp-server/src/dispatch/handlers/command.rs:308-326`. -/
def upgradeTable (l : Entries) : Entries :=
  let l := l.insert "version" (.str "5.0.0")
  if (l.lookup "default-features").isSome then l else l.insert "default-features" (.bool false)

/-- The new ink dependency, `crates/lsp-server/src/dispatch/handlers/command.rs:307-334`. -/
def upgradeInk (dep : Toml) : Toml :=
  match dep with
  | .table l => .inline (upgradeTable l)
  | .inline l => .inline (upgradeTable l)
  | _ => .inline [("version", .str "5.0.0"), ("default-features", .bool false)]

/-- Edits of the `dependencies` table, `crates/lsp-server/src/dispatch/handlers/command.rs:303-342`. -/
def migrateDeps (deps : Entries) : Entries :=
  ((deps.modify "ink" upgradeInk).remove "scale").remove "scale-info"

/-- Edits of the `dev-dependencies` table,
`crates/lsp-server/src/dispatch/handlers/command.rs:345-352`. -/
def migrateDev : Toml → Toml
  | .table l => .table (Entries.modify l "ink_e2e" fun _ => .str "5.0.0")
  | t => t

/-- `!matches!(feature.as_str(), Some("scale/std" | "scale-info/std"))`,
`crates/lsp-server/src/dispatch/handlers/command.rs:364-366`. -/
def keepFeature : Toml → Bool
  | .str s => s != "scale/std" && s != "scale-info/std"
  | _ => true

/-- Edits of the `std` feature, `crates/lsp-server/src/dispatch/handlers/command.rs:360-367`. -/
def migrateStd : Toml → Toml
  | .arr l => .arr (l.filter keepFeature)
  | t => t

/-- Edits of the `features` table, `crates/lsp-server/src/dispatch/handlers/command.rs:355-369`. -/
def migrateFeatures : Toml → Toml
  | .table l => .table (Entries.modify l "std" migrateStd)
  | t => t

/-- `migrate_cargo_toml`, `crates/lsp-server/src/dispatch/handlers/command.rs:291-372`; `none` is
the error. -/
def migrateManifest (doc : Entries) : Option Entries :=
  match (doc.lookup "dependencies").bind Toml.asTable? with
  | none => none
  | some deps =>
    match deps.lookup "ink" with
    | none => none
    | some _ =>
      let doc := Entries.modify doc "dependencies" fun _ => .table (migrateDeps deps)
      let doc := doc.modify "dev-dependencies" migrateDev
      some (doc.modify "features" migrateFeatures)

/-- `add_dependency_to_cargo_toml`, `crates/lsp-server/src/dispatch/handlers/command.rs:375-394`. -/
def addDependency (doc : Entries) (name : String) (item : Toml) : Option Entries :=
  match (doc.lookup "dependencies").bind Toml.asTable? with
  | none => none
  | some deps => some (Entries.modify doc "dependencies" fun _ => .table (deps.insert name item))

end Verif.Lsp
