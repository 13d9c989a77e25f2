import Verif.Basic

/-!
# Syntax trees with ink! attributes

Models the traversals of `crates/ir/src/tree/utils.rs:11-101`.
-/

namespace Verif.Ir

/-- A syntax tree: tokens (by their length), `ATTR` nodes (with the ink! attribute they cast
to, if any; `InkAttribute::cast`, `crates/ir/src/attrs.rs:42-57`) and other nodes (by their
syntax kind). Models `SyntaxNode` as far as `crates/ir/src/tree/utils.rs:11-101` reads it. -/
inductive Node (α κ : Type) where
  | tok (len : Nat)
  | attr (ink : Option α) (children : List (Node α κ))
  | node (kind : κ) (children : List (Node α κ))

namespace Node

variable {α κ : Type}

/-- Children of a node. Tokens have none; `SyntaxNode::children` skips tokens, which never
matters below since tokens carry no attributes. As used in `crates/ir/src/tree/utils.rs:24-35`. -/
def children : Node α κ → List (Node α κ)
  | tok _ => []
  | attr _ cs => cs
  | node _ cs => cs

/-- The ink! attribute of an `ATTR` node: `ast::Attr::cast` followed by
`InkAttribute::cast`, `crates/ir/src/tree/utils.rs:14,20`. -/
def ink? : Node α κ → Option α
  | attr a _ => a
  | _ => none

/-- `node.kind() == SyntaxKind::ATTR`, `crates/ir/src/tree/utils.rs:28,69,83`. -/
def isAttr : Node α κ → Bool
  | attr _ _ => true
  | _ => false

/-- `ink_attrs`, `crates/ir/src/tree/utils.rs:18-21`. -/
def inkAttrs (n : Node α κ) : List α := n.children.filterMap ink?

mutual

/-- The ink! attributes among the node and all its descendants, in preorder
(`child.descendants().filter_map(…)`, `crates/ir/src/tree/utils.rs:30-33`). -/
def inkAll : Node α κ → List α
  | tok _ => []
  | attr a cs => a.toList ++ inkAllList cs
  | node _ cs => inkAllList cs

/-- `flat_map` of the above over a list of children.
As used in `crates/ir/src/tree/utils.rs:24-35`. -/
def inkAllList : List (Node α κ) → List α
  | [] => []
  | c :: cs => inkAll c ++ inkAllList cs

end

/-- `ink_attrs_descendants`, `crates/ir/src/tree/utils.rs:24-35`. -/
def inkDescendants (n : Node α κ) : List α := inkAllList (n.children.filter fun c => !c.isAttr)

/-- `ink_attrs_in_scope`, `crates/ir/src/tree/utils.rs:54-61`. -/
def inkInScope (n : Node α κ) : List α := n.inkAttrs ++ n.inkDescendants

mutual

/-- `ink_attrs_closest_descendants`, `crates/ir/src/tree/utils.rs:39-52`. -/
def inkClosest : Node α κ → List α
  | tok _ => []
  | attr _ cs => inkClosestList cs
  | node _ cs => inkClosestList cs

/-- The `flat_map` over the children, `crates/ir/src/tree/utils.rs:42-51`. -/
def inkClosestList : List (Node α κ) → List α
  | [] => []
  | c :: cs =>
    (if !c.inkAttrs.isEmpty then c.inkAttrs else inkClosest c) ++ inkClosestList cs

end

/-- The node at a path of child indices. A node of the tree is identified by its path; its
parent is the path without the last index. As used in `crates/ir/src/tree/utils.rs:64-101`. -/
def at? : Node α κ → List Nat → Option (Node α κ)
  | n, [] => some n
  | n, i :: p => (n.children[i]?).bind fun c => c.at? p

/-- ink! attributes of the node at a path (`ink_attrs(&ancestor)`,
`crates/ir/src/tree/utils.rs:75,92`). -/
def inkAttrsAt (root : Node α κ) (p : List Nat) : List α :=
  match root.at? p with
  | some n => n.inkAttrs
  | none => []

mutual

/-- Text length of a node. As used in `crates/ir/src/tree/utils.rs:64-101`. -/
def len : Node α κ → Nat
  | tok l => l
  | attr _ cs => lenList cs
  | node _ cs => lenList cs

/-- Text length of a list of nodes. As used in `crates/ir/src/tree/utils.rs:64-101`. -/
def lenList : List (Node α κ) → Nat
  | [] => 0
  | c :: cs => len c + lenList cs

end

/-- Text range (start, length) of the node at a path (`SyntaxNode::text_range`,
`crates/ir/src/tree/utils.rs:72-73`). -/
def rangeAt : Node α κ → List Nat → Nat → Option (Nat × Nat)
  | n, [], off => some (off, n.len)
  | n, i :: p, off => (n.children[i]?).bind fun c =>
      c.rangeAt p (off + lenList (n.children.take i))

/-- The paths of the ancestors of a node, the node itself first (`SyntaxNode::ancestors`).
The argument is the reversed path. As used in `crates/ir/src/tree/utils.rs:64-101`. -/
def ancestorPaths : List Nat → List (List Nat)
  | [] => [[]]
  | i :: rp => (i :: rp).reverse :: ancestorPaths rp

/-- Whether the node at the path is an attribute. As used in `crates/ir/src/tree/utils.rs:69,83`. -/
def isAttrAt (root : Node α κ) (p : List Nat) : Bool :=
  match root.at? p with
  | some n => n.isAttr
  | none => false

/-- `ink_attrs_ancestors`, `crates/ir/src/tree/utils.rs:64-76`. -/
def inkAncestors (root : Node α κ) (p : List Nat) : List α :=
  ((ancestorPaths p.reverse).filter fun q =>
    q != p && (!root.isAttrAt p ||
      (if p = [] then none else root.rangeAt p.dropLast 0) != root.rangeAt q 0)).flatMap
    root.inkAttrsAt

/-- The `IterSuccessors` walk of `crates/ir/src/tree/utils.rs:80-101` (with
`crates/ir/src/iter.rs:38-60`): stop at the first node with ink! attributes, else go to the
parent. The argument is the reversed path of the current source. -/
def climb (root : Node α κ) : List Nat → List α
  | [] => root.inkAttrsAt []
  | i :: rp =>
    if !(root.inkAttrsAt (i :: rp).reverse).isEmpty then root.inkAttrsAt (i :: rp).reverse
    else climb root rp

/-- `ink_attrs_closest_ancestors`, `crates/ir/src/tree/utils.rs:80-101`. -/
def inkClosestAncestors (root : Node α κ) (p : List Nat) : List α :=
  match p.reverse with
  | [] => []
  | _ :: rp =>
    if root.isAttrAt p then
      match rp with
      | [] => []
      | _ :: rp' => climb root rp'
    else climb root rp

end Node

end Verif.Ir
