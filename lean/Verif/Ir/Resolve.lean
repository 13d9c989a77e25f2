import Verif.Basic

/-!
# Item resolution

Models `resolve_item`, `resolve_qualifier` and the macro
`resolve_item_path_from_use_scope_and_aliases`,
`crates/ir/src/tree/ast_ext.rs:83-259`.
-/

namespace Verif.Ir.Resolve

/-- A path: whether it has a leading `::`, and its segment names (`crate`, `self` and
`super` included). Simplified: every segment has a name, and paths are compared by these
parts instead of their whitespace-free text (`path_to_string`,
`crates/ir/src/tree/ast_ext.rs:327-329`). -/
structure Path where
  leading : Bool
  segs : List String
deriving DecidableEq, Repr

/-- An entry of the use scope: an imported path, or an alias for one
(`simple_use_paths_and_aliases_in_scope`, `crates/ir/src/tree/ast_ext.rs:262-300`). The
entries of a scope are given in the order in which the code's hash set happens to yield
them. -/
structure Use where
  path : Path
  alias_ : Option String
deriving DecidableEq, Repr

/-- A module: its name, the names of its items of the wanted type, its use scope and its
child modules. The root is the source file. As used in `crates/ir/src/tree/ast_ext.rs:83-259`. -/
inductive Mod where
  | mk (name : String) (items : List String) (uses : List Use) (mods : List Mod)

namespace Mod

/-- Name of a module. As used in `crates/ir/src/tree/ast_ext.rs:83-259`. -/
def name : Mod → String
  | mk n _ _ _ => n

/-- Items of the wanted type in a module (`root_node.children().filter(T::can_cast)`,
`crates/ir/src/tree/ast_ext.rs:124-133`). -/
def items : Mod → List String
  | mk _ i _ _ => i

/-- Use scope of a module. As used in `crates/ir/src/tree/ast_ext.rs:83-259`. -/
def uses : Mod → List Use
  | mk _ _ u _ => u

/-- Child modules. As used in `crates/ir/src/tree/ast_ext.rs:83-259`. -/
def mods : Mod → List Mod
  | mk _ _ _ m => m

/-- The module at a path of child indices. As used in `crates/ir/src/tree/ast_ext.rs:83-259`. -/
def at? : Mod → List Nat → Option Mod
  | m, [] => some m
  | m, i :: p => (m.mods[i]?).bind fun c => c.at? p

end Mod

/-- `resolve_item_path_from_use_scope_and_aliases!`,
`crates/ir/src/tree/ast_ext.rs:83-103`: the alias for the name first (the last declaration
wins, as in the hash map), then the imports whose last segment is the name, and the glob
imports extended with the name; only qualified paths are kept. -/
def candidates (name : String) (uses : List Use) : List Path :=
  let alias_ := (uses.reverse.find? fun u => u.alias_ == some name).map (·.path)
  let imports := (uses.filter fun u => u.alias_.isNone).filterMap fun u =>
    if u.path.segs.getLast? = some name ∧ (2 ≤ u.path.segs.length ∨ u.path.leading = true) then
      some u.path
    else if u.path.segs.getLast? = some "*" ∧
        (2 ≤ u.path.segs.length ∨ u.path.leading = true) then
      some { u.path with segs := u.path.segs.dropLast ++ [name] }
    else none
  (alias_.toList ++ imports).filter fun p => 2 ≤ p.segs.length

/-- `Iterator::find_map` over a step that may run out of fuel (outer `none`).
As used in `crates/ir/src/tree/ast_ext.rs:106-174`. -/
def findMap (f : α → Option (Option β)) : List α → Option (Option β)
  | [] => some none
  | x :: xs =>
    match f x with
    | none => none
    | some (some b) => some (some b)
    | some none => findMap f xs

/-- Use scope of the module at a path. As used in `crates/ir/src/tree/ast_ext.rs:149-168`. -/
def usesAt (root : Mod) (m : List Nat) : List Use :=
  match root.at? m with
  | some n => n.uses
  | none => []

/-- The child module of the given name (`resolve_child`,
`crates/ir/src/tree/ast_ext.rs:189-196`). The code searches the direct children of the syntax node:
those of the file are its items, but those of a `mod` item are its attributes, visibility, name and
item list, so that the modules inside of it are never found. -/
def childNamed (root : Mod) (m : List Nat) (name : String) : Option (List Nat) :=
  if m = [] then (root.mods.findIdx? fun c => c.name == name).map fun i => [i] else none

/-- `resolve_next_child_module`, `crates/ir/src/tree/ast_ext.rs:186-211`; `rec` resolves a
qualifier and `path` is the qualifier being resolved. -/
def nextChild (root : Mod) (rec : Path → List Nat → Option (Option (List Nat))) (path : Path)
    (m : List Nat) (name : String) : Option (Option (List Nat)) :=
  match childNamed root m name with
  | some c => some (some c)
  | none => findMap (fun p => if p ≠ path then rec p m else some none)
      (candidates name (usesAt root m))

/-- The loop over the remaining qualifier segments,
`crates/ir/src/tree/ast_ext.rs:250-256`. -/
def walk (root : Mod) (rec : Path → List Nat → Option (Option (List Nat))) (path : Path) :
    List Nat → List String → Option (Option (List Nat))
  | m, [] => some (some m)
  | m, s :: ss =>
    match nextChild root rec path m s with
    | none => none
    | some none => some none
    | some (some m') => walk root rec path m' ss

/-- First segment of a qualifier, `crates/ir/src/tree/ast_ext.rs:217-247`; `m` is the current
module. -/
def firstSegment (root : Mod) (rec : Path → List Nat → Option (Option (List Nat)))
    (path : Path) (m : List Nat) (s : String) : Option (Option (List Nat)) :=
  if path.leading then nextChild root rec path [] s
  else if s = "crate" then some (some [])
  else if s = "self" then some (some m)
  else if s = "super" then some (if m = [] then none else some m.dropLast)
  else nextChild root rec path m s

/-- `resolve_qualifier`, `crates/ir/src/tree/ast_ext.rs:183-259`, with fuel: `none` when it
runs out. `m` is the module of the reference node. -/
def resolveQualifier (root : Mod) : Nat → Path → List Nat → Option (Option (List Nat))
  | 0, _, _ => none
  | fuel + 1, path, m =>
    match path.segs with
    | [] => some none
    | s :: ss =>
      match firstSegment root (resolveQualifier root fuel) path m s with
      | none => none
      | some none => some none
      | some (some m') => walk root (resolveQualifier root fuel) path m' ss

/-- The reference node: its module (itself if it is a module, `resolve_current_module`,
`crates/ir/src/tree/ast_ext.rs:176-184`), and if it is an item, the module it stands in and its own
use scope (that of a function's body or of a module; `resolve_item_list_root(ref_node)`,
`crates/ir/src/tree/ast_ext.rs:149-168,333-349`). -/
structure Ref where
  mod : List Nat
  own : Option (List Nat × List Use)

/-- Whether the module has an item of the wanted type and name
(`resolve_as_module_child`, `crates/ir/src/tree/ast_ext.rs:123-134`). -/
def hasItem (root : Mod) (m : List Nat) (name : String) : Bool :=
  match root.at? m with
  | some n => n.items.contains name
  | none => false

/-- `resolve_item`, `crates/ir/src/tree/ast_ext.rs:106-174`, with fuel: `none` when it runs
out, `some none` when nothing is found, else the module and name of the item. -/
def resolveItem (root : Mod) : Nat → Path → Ref → Option (Option (List Nat × String))
  | 0, _, _ => none
  | fuel + 1, path, r =>
    match path.segs.getLast? with
    | none => some none
    | some name =>
      let q := path.segs.dropLast
      match (if q = [] then some (some r.mod)
          else resolveQualifier root fuel { path with segs := q } r.mod) with
      | none => none
      | some none => some none
      | some (some m) =>
        if hasItem root m name then some (some (m, name))
        else
          match findMap (fun p => if p ≠ path then resolveItem root fuel p ⟨m, none⟩ else some none)
              (candidates name (usesAt root m)) with
          | none => none
          | some (some x) => some (some x)
          | some none =>
            match r.own with
            | some (parent, uses) =>
              if parent = m then
                findMap (fun p => if p ≠ path then resolveItem root fuel p r else some none)
                  (candidates name uses)
              else some none
            | none => some none

end Verif.Ir.Resolve
