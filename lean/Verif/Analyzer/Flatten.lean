import Verif.Analyzer.Edit
import Verif.Ir.Kinds
import Verif.Util.Sort

/-!
# The "Flatten ink! attribute arguments" action

Models `flatten_attrs`, `crates/analyzer/src/analysis/actions/item.rs:665-706`.
-/

namespace Verif.Analyzer
open Verif.Ir

/-- An argument: its kind and its text (`Display for InkArg`, `crates/ir/src/attrs/args.rs:74-78`).
How the text is built from the parsed argument is not modelled here. -/
structure FlatArg where
  kind : ArgKind
  text : List Char
  deriving DecidableEq

/-- What `flatten_attrs` reads of an ink! attribute (`InkAttribute`,
`crates/ir/src/attrs.rs:16-33`): kind, arguments and text range. -/
structure FlatAttr where
  kind : AttrKind
  args : List FlatArg
  start : Nat
  stop : Nat
  deriving DecidableEq

/-- `matches!(attr.kind(), InkAttributeKind::Arg(_))`,
`crates/analyzer/src/analysis/actions/item.rs:670`. -/
def FlatAttr.isArg (a : FlatAttr) : Bool :=
  match a.kind with
  | .arg _ => true
  | .macro _ => false

/-- The path of the new attribute, `crates/analyzer/src/analysis/actions/item.rs:679-682`. -/
def flatPath : AttrKind → List Char
  | .macro m => m.pathAsStr.toList
  | .arg _ => "ink".toList

/-- itertools `join(", ")`, `crates/analyzer/src/analysis/actions/item.rs:695`. -/
def joinComma : List (List Char) → List Char
  | [] => []
  | [x] => x
  | x :: xs => x ++ ", ".toList ++ joinComma xs

/-- The sorted arguments, `crates/analyzer/src/analysis/actions/item.rs:684-693`. -/
def flatArgs (primary : FlatAttr) (others : List FlatAttr) : List FlatArg :=
  Util.sortBy (fun a => a.kind.sortOrder) (primary.args ++ others.flatMap (·.args))

/-- `flatten_attrs`, `crates/analyzer/src/analysis/actions/item.rs:666-706`, on the ink!
attributes of the target in source order: the edits of the action, if it is offered. -/
def flattenAttrs (attrs : List FlatAttr) : Option (List Edit) :=
  match Util.sortBy (fun a => a.kind.rank) attrs with
  | [] => none
  | primary :: rest =>
    let others := rest.filter (·.isArg)
    if others.isEmpty then none
    else
      some ({ text := "#[".toList ++ flatPath primary.kind ++ "(".toList ++
                joinComma ((flatArgs primary others).map (·.text)) ++ ")]".toList
              start := primary.start
              stop := primary.stop
              snippet := none } ::
        others.map fun a => { text := [], start := a.start, stop := a.stop, snippet := none })

end Verif.Analyzer
