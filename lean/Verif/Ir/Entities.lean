import Verif.Ir.TreeProps
import Verif.Ir.Kinds
import Verif.Util.Sort

/-!
# ink! entities of a syntax tree

Models `ink_closest_descendants` and `ink_callable_closest_descendants`
(`crates/ir/src/tree/utils.rs:136-144,176-184,216-255`). Attributes are of any type `α` with
a kind; nodes are given by their paths.
-/

namespace Verif.Ir.Node

variable {α κ : Type}

/-- `ink_closest_descendants::<T>`, `crates/ir/src/tree/utils.rs:136-144`, for an entity type
of attribute kind `k`: casting an attribute gives an entity iff the attribute has that kind,
and the node of the entity is the attribute's parent (`crates/macro/src/entity.rs:186-240`).
`closestIdx` is `inkClosest` with paths (`closestIdx_map`). -/
def entities (kind : α → AttrKind) (k : AttrKind) (n : Node α κ) : List (List Nat) :=
  ((closestIdx n).filter fun e => kind e.2 == k).map fun e => e.1.dropLast

/-- The node at the path is an `impl` item. As used in `crates/ir/src/tree/utils.rs:216-255`. -/
def implAt (isImpl : κ → Bool) (n : Node α κ) (p : List Nat) : Bool :=
  match n.at? p with
  | some (.node k _) => isImpl k
  | _ => false

/-- `is_possible_callable_ancestor`, `crates/ir/src/tree/utils.rs:216-226`, for the attribute
`a` at path `p`. `parent_ast_item` of an attribute is its parent if that is an item
(`crates/ir/src/tree/ast_ext.rs:27-45`). -/
def peekable (kind : α → AttrKind) (isImpl : κ → Bool) (n : Node α κ) (p : List Nat) (a : α) :
    Bool :=
  kind a == .arg .impl ||
    ((kind a == .arg .namespace || (kind a).isUnknown) && implAt isImpl n p.dropLast)

/-- The closure of `ink_peekable_quasi_closest_descendants`,
`crates/ir/src/tree/utils.rs:238-252`. -/
def callableStep (kind : α → AttrKind) (isImpl : κ → Bool) (k : AttrKind) (n : Node α κ)
    (e : List Nat × α) : List (List Nat) :=
  if kind e.2 == k then [e.1.dropLast]
  else if peekable kind isImpl n e.1 e.2 then
    match n.at? e.1.dropLast with
    | some item => (entities kind k item).map (e.1.dropLast ++ ·)
    | none => []
  else []

/-- `ink_callable_closest_descendants::<T>`, `crates/ir/src/tree/utils.rs:176-184,230-255`. -/
def callables (kind : α → AttrKind) (isImpl : κ → Bool) (k : AttrKind) (n : Node α κ) :
    List (List Nat) :=
  Util.uniqueBy id ((closestIdx n).flatMap (callableStep kind isImpl k n))

end Verif.Ir.Node
