import Verif.Ir.Selector

/-!
# Flattening `use` trees

Models `flatten_use_tree`, `crates/ir/src/tree/ast_ext.rs:342-392`.
-/

namespace Verif.Ir

/-- Names of a path, in order. Simplified: a path is its segment names; its text is the
names joined with `::` (the code removes whitespace from leaf paths at
`crates/ir/src/tree/ast_ext.rs:386` and from every flattened path at line 283). -/
abbrev Names := List String

/-- Text of a path (`path.to_string()`, `crates/ir/src/tree/ast_ext.rs:362,364,386`). -/
def Names.text (p : Names) : String := "::".intercalate p

/-- A use tree by the branches of `crates/ir/src/tree/ast_ext.rs:374-391`: a list, a glob, a
simple path, or nothing at all (incomplete code). `alias` is the name after `as` (or `_`),
`crates/ir/src/tree/ast_ext.rs:343-349`. -/
inductive UseTree where
  | list (path : Option Names) (subs : List UseTree)
  | glob (path : Option Names) (alias : Option String)
  | leaf (path : Names) (alias : Option String)
  | empty

namespace UseTree

/-- One imported name: path text and alias. As used in `crates/ir/src/tree/ast_ext.rs:342-392`. -/
abbrev Entry := String × Option String

/-- `add_prefix`, `crates/ir/src/tree/ast_ext.rs:350-372`. -/
def addPrefix (path : Option Names) (subs : List Entry) : List Entry :=
  match path with
  | none => subs.filter fun e => e.1 != "self"
  | some pre => subs.map fun e =>
      (if e.1 = "self" then pre.text else pre.text ++ "::" ++ e.1, e.2)

mutual

/-- `flatten_use_tree`, `crates/ir/src/tree/ast_ext.rs:342-392`. -/
def flatten : UseTree → List Entry
  | list path subs => addPrefix path (flattenList subs)
  | glob path alias => addPrefix path [("*", alias)]
  | leaf path alias => [(path.text, alias)]
  | empty => []

/-- `use_trees().flat_map(flatten_use_tree)`, `crates/ir/src/tree/ast_ext.rs:377-379`. -/
def flattenList : List UseTree → List Entry
  | [] => []
  | t :: ts => flatten t ++ flattenList ts

end

end UseTree

end Verif.Ir
