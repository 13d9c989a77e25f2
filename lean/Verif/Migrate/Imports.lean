import Verif.Analyzer.Edit
import Verif.Ir.UseTree
import Verif.Util.Chars

/-!
# The removal of deprecated imports from e2e tests

Models `deprecated_imports`, `crates/analyzer/src/analysis/migrate/e2e_test.rs:177-304`, for the `use`
items of a module. A `use` tree is given with its layout: the white space and comments around the
commas of its lists.
-/

namespace Verif.Migrate.Imports

open Verif.Ir (Names)
open Verif.Ir.Token (bytes)
open Verif.Analyzer (Edit)

mutual

/-- A `use` tree. A path is the list of its names (a leading `::` is an empty first name). `text` is all
of the text of a tree without braces, `head` that before the braces. `close` is what stands between the
last comma and the closing brace.
As used in `crates/analyzer/src/analysis/migrate/e2e_test.rs:212-304`. -/
inductive Tree where
  | leaf (path : Option Names) (glob : Bool) (alias_ : Option String) (text : List Char)
  | list (path : Option Names) (head : List Char) (items : Items) (close : List Char)

/-- The members of a list, each with the trivia before and after it and whether a comma follows.
As used in `crates/analyzer/src/analysis/migrate/e2e_test.rs:212-304`. -/
inductive Items where
  | nil
  | cons (lead : List Char) (tree : Tree) (trail : List Char) (comma : Bool) (rest : Items)

end

/-- `use_tree.path()`. As used in `crates/analyzer/src/analysis/migrate/e2e_test.rs:212-304`. -/
def Tree.path : Tree → Option Names
  | .leaf path _ _ _ => path
  | .list path _ _ _ => path

/-- A comma, if there is one.
As used in `crates/analyzer/src/analysis/migrate/e2e_test.rs:212-304`. -/
def commaText (comma : Bool) : List Char := if comma then chars! "," else []

mutual

/-- The text of a tree. As used in `crates/analyzer/src/analysis/migrate/e2e_test.rs:212-304`. -/
def Tree.render : Tree → List Char
  | .leaf _ _ _ text => text
  | .list _ head items close => head ++ chars! "{" ++ items.render ++ close ++ chars! "}"

/-- The text of the members of a list.
As used in `crates/analyzer/src/analysis/migrate/e2e_test.rs:212-304`. -/
def Items.render : Items → List Char
  | .nil => []
  | .cons lead tree trail comma rest => lead ++ tree.render ++ trail ++ commaText comma ++ rest.render

end

/-- The names that are deprecated,
`crates/analyzer/src/analysis/migrate/e2e_test.rs:216-221,242-247`. -/
def isDeprecatedName (s : String) : Bool := s == "build_message" || s == "MessageBuilder"

/-- Whether the path of a tree is that of a deprecated item: in a list of `ink_e2e` its whole text
(`crates/analyzer/src/analysis/migrate/e2e_test.rs:242-247`), elsewhere its last segment and its
qualifier (lines 216-226). -/
def deprecatedPath (inE2e : Bool) : Option Names → Bool
  | none => false
  | some p =>
    if inE2e then (match p with | [x] => isDeprecatedName x | _ => false)
    else p.getLast?.any isDeprecatedName && p.dropLast == ["ink_e2e"]

/-- Which lists are looked into: those of `ink_e2e`
(`crates/analyzer/src/analysis/migrate/e2e_test.rs:236-241`, `some true`) and those without a path (lines
275-282, `some false`). -/
def listMode : Option Names → Option Bool
  | none => some false
  | some p => if p = ["ink_e2e"] then some true else none

/-- `node_and_delimiter_range` with a comma, `crates/analyzer/src/analysis/utils.rs:1504-1530`, for the
member of a list from `start` to `stop`. `prev` is the offset of the comma before it. -/
def ownRange (prev : Option Nat) (start stop : Nat) (trail : List Char) (comma : Bool) : Nat × Nat :=
  if comma then (start, stop + bytes trail + 1)
  else
    match prev with
    | some c => (c, stop)
    | none => (start, stop)

/-- What is returned for a list, `crates/analyzer/src/analysis/migrate/e2e_test.rs:258-272,286-303`. -/
def finish (own : Nat × Nat) (r : List (Nat × Nat) × Bool) : List (Nat × Nat) × Bool :=
  if r.1.isEmpty then ([], true) else if r.2 then r else ([own], false)

mutual

/-- `deprecated_imports_inner`, `crates/analyzer/src/analysis/migrate/e2e_test.rs:212-304`, for a tree at
the offset `off`, and, with `inE2e`, the body of the loop over a list of `ink_e2e` (lines 241-256). `own`
is the range of the tree with its comma. -/
def inner (inE2e : Bool) (own : Nat × Nat) (off : Nat) : Tree → List (Nat × Nat) × Bool
  | .leaf path _ _ _ => if deprecatedPath inE2e path then ([own], false) else ([], true)
  | .list path head items _ =>
    if deprecatedPath inE2e path then ([own], false)
    else if inE2e then ([], true)
    else
      match listMode path with
      | none => ([], true)
      | some mode => finish own (innerItems mode none (off + bytes head + 1) items)

/-- The loops over the members of a list,
`crates/analyzer/src/analysis/migrate/e2e_test.rs:241-256,279-284`: the ranges, and whether there is
something that stays. -/
def innerItems (inE2e : Bool) (prev : Option Nat) (off : Nat) : Items → List (Nat × Nat) × Bool
  | .nil => ([], false)
  | .cons lead tree trail comma rest =>
    let start := off + bytes lead
    let stop := start + bytes tree.render
    let a := inner inE2e (ownRange prev start stop trail comma) start tree
    let b := innerItems inE2e (if comma then some (stop + bytes trail) else none)
      (stop + bytes trail + bytes (commaText comma)) rest
    (a.1 ++ b.1, a.2 || b.2)

end

/-- A `use` item: the text up to its tree, the tree and the rest.
As used in `crates/analyzer/src/analysis/migrate/e2e_test.rs:177-210`. -/
structure UseItem where
  before : List Char
  tree : Tree
  after : List Char

/-- The text of an item. As used in `crates/analyzer/src/analysis/migrate/e2e_test.rs:177-210`. -/
def UseItem.render (u : UseItem) : List Char := u.before ++ u.tree.render ++ u.after

/-- `TextEdit::delete`. Models `crates/analyzer/src/analysis/text_edit.rs:57-64`. -/
def delete (r : Nat × Nat) : Edit := ⟨[], r.1, r.2, none⟩

/-- The body of the loop over `use` items,
`crates/analyzer/src/analysis/migrate/e2e_test.rs:192-207`, for an item at the offset `off` that is not
next to a comma. -/
def itemEdits (off : Nat) (u : UseItem) : List Edit :=
  let start := off + bytes u.before
  let r := inner false (start, start + bytes u.tree.render) start u.tree
  if r.1.isEmpty then []
  else if r.2 then r.1.map delete
  else [delete (off, off + bytes u.render)]

/-- The `use` items of a module, each with the text before it.
As used in `crates/analyzer/src/analysis/migrate/e2e_test.rs:177-210`. -/
abbrev Uses := List (List Char × UseItem)

/-- The text up to the last `use` item.
As used in `crates/analyzer/src/analysis/migrate/e2e_test.rs:177-210`. -/
def Uses.render (us : Uses) : List Char := us.flatMap fun x => x.1 ++ x.2.render

/-- `deprecated_imports`, `crates/analyzer/src/analysis/migrate/e2e_test.rs:177-210`, for the module that
the `use` items are in. -/
def edits : Nat → Uses → List Edit
  | _, [] => []
  | off, (gap, u) :: us =>
    itemEdits (off + bytes gap) u ++ edits (off + bytes gap + bytes u.render) us

end Verif.Migrate.Imports
