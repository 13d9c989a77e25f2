import Verif.Ir.Tree

/-!
# Covering elements and attributes

Models `focused_element` and `covering_attribute`,
`crates/analyzer/src/analysis/utils.rs:1216-1256`, and rowan's `covering_element` and
`token_at_offset`, on the syntax trees of `Verif.Ir.Tree`.
-/

namespace Verif.Ir.Node

variable {α κ : Type}

mutual

/-- Path of the covering element of a non-empty range (rowan `SyntaxNode::covering_element`, used
at `crates/analyzer/src/analysis/utils.rs:1230`): descend into the child that contains the range as
long as there is one. `off` is the start of the node. -/
def coverPath (s e : Nat) : Node α κ → Nat → List Nat
  | tok _, _ => []
  | attr _ cs, off => coverList s e cs 0 off
  | node _ cs, off => coverList s e cs 0 off

/-- The search among the children (rowan `child_or_token_at_range`): for a non-empty range at most
one child contains it. As used in `crates/analyzer/src/analysis/utils.rs:1230`. -/
def coverList (s e : Nat) : List (Node α κ) → Nat → Nat → List Nat
  | [], _, _ => []
  | c :: cs, i, off =>
    if off ≤ s ∧ e ≤ off + c.len then i :: coverPath s e c off
    else coverList s e cs (i + 1) (off + c.len)

end

mutual

/-- The tokens of a tree in source order, with path, start and length.
As used in `crates/ir/src/tree/item_at_offset.rs:20-48`. -/
def tokens : Node α κ → List Nat → Nat → List (List Nat × Nat × Nat)
  | tok l, path, off => [(path, off, l)]
  | attr _ cs, path, off => tokensList cs path 0 off
  | node _ cs, path, off => tokensList cs path 0 off

/-- See `tokens`. As used in `crates/ir/src/tree/item_at_offset.rs:20-48`. -/
def tokensList : List (Node α κ) → List Nat → Nat → Nat → List (List Nat × Nat × Nat)
  | [], _, _, _ => []
  | c :: cs, path, i, off =>
    tokens c (path ++ [i]) off ++ tokensList cs path (i + 1) (off + c.len)

end

/-- The non-empty tokens at an offset (rowan `SyntaxNode::token_at_offset`, used at
`crates/ir/src/tree/item_at_offset.rs:21`). -/
def touching (root : Node α κ) (o : Nat) : List (List Nat × Nat × Nat) :=
  (root.tokens [] 0).filter fun t => decide (0 < t.2.2 ∧ t.2.1 ≤ o ∧ o ≤ t.2.1 + t.2.2)

/-- `ItemAtOffset::focused_token`, `crates/ir/src/tree/item_at_offset.rs:34-48`. Which tokens are
trivia is given by their paths. -/
def focusedToken (trivia : List Nat → Bool) (root : Node α κ) (o : Nat) : Option (List Nat) :=
  match root.touching o with
  | [] => none
  | [t] => some t.1
  | l :: r :: _ => if trivia l.1 && !trivia r.1 then some r.1 else some l.1

/-- The closest attribute around an element, or the element itself
(`closest_ancestor_ast_type`, `crates/ir/src/tree/ast_ext.rs:12-23`, and the test at
`crates/analyzer/src/analysis/utils.rs:1245-1247`; a token is never an attribute). -/
def closestAttr (root : Node α κ) (p : List Nat) : Option (List Nat) :=
  (ancestorPaths p.reverse).find? root.isAttrAt

/-- `covering_attribute`, `crates/analyzer/src/analysis/utils.rs:1236-1256`. The outer `none` is the
panic of `token_at_offset` for an offset outside the file. -/
def coveringAttr (trivia : List Nat → Bool) (root : Node α κ) (s e : Nat) :
    Option (Option (List Nat)) :=
  if s = e then
    if root.len < s then none
    else some ((focusedToken trivia root s).bind root.closestAttr)
  else if e ≤ root.len then some (root.closestAttr (coverPath s e root 0))
  else some none

end Verif.Ir.Node
