import Verif.Ir.Tree

/-!
# The iterator behind the closest ancestors

Models `crates/ir/src/iter.rs:5-60` and its only use,
`crates/ir/src/tree/utils.rs:80-101`. A wrapped iterator is the list of the items it has still to
give.
-/

namespace Verif.Ir.Succ

/-- `IterSuccessors`, `crates/ir/src/iter.rs:5-17`; the step expression is a parameter of `Call`. -/
structure Iter (T S : Type) where
  nextIter : Option (List T)
  source : S

/-- `IterSuccessors::new`, `crates/ir/src/iter.rs:24-34`. -/
def Iter.new (source : S) : Iter T S := ⟨none, source⟩

/-- The result of a call of `next`, the state behind it, and how many further calls of `next` it
makes, each within the one before it. `IterSuccessors::next`, `crates/ir/src/iter.rs:44-61`. This is
a relation since nothing in the code makes the recursion end. A wrapped iterator that has nothing
more to give is left as it is. -/
inductive Call (step : S → Option (Option (List T) × S)) :
    Iter T S → Option T → Iter T S → Nat → Prop
  /-- `crates/ir/src/iter.rs:46-50` -/
  | item (x : T) (xs : List T) (s : S) : Call step ⟨some (x :: xs), s⟩ (some x) ⟨some xs, s⟩ 0
  /-- `crates/ir/src/iter.rs:53-57` -/
  | again (it : Iter T S) (n : Option (List T)) (s : S) (r : Option T) (it' : Iter T S) (d : Nat) :
      it.nextIter.getD [] = [] → step it.source = some (n, s) → Call step ⟨n, s⟩ r it' d →
      Call step it r it' (d + 1)
  /-- `crates/ir/src/iter.rs:59` -/
  | stop (it : Iter T S) : it.nextIter.getD [] = [] → step it.source = none →
      Call step it none it 0

/-- The items obtained by calling `next` until it gives `None`, as `for` loops and adapters do with
the iterator of `crates/ir/src/tree/utils.rs:81`. -/
inductive Gives (step : S → Option (Option (List T) × S)) : Iter T S → List T → Prop
  | done (it it' : Iter T S) (d : Nat) : Call step it none it' d → Gives step it []
  | more (it it' : Iter T S) (x : T) (xs : List T) (d : Nat) : Call step it (some x) it' d →
      Gives step it' xs → Gives step it (x :: xs)

/-- `SyntaxNode::parent` for reversed paths.
As used in `crates/ir/src/tree/utils.rs:85,87,96`. -/
def parent : List Nat → Option (List Nat)
  | [] => none
  | _ :: rp => some rp

/-- The first source, `crates/ir/src/tree/utils.rs:83-88`. -/
def firstSource (root : Node α κ) (p : List Nat) : Option (List Nat) :=
  if root.isAttrAt p then (parent p.reverse).bind parent else parent p.reverse

/-- The step expression, `crates/ir/src/tree/utils.rs:89-100`. The source is a reversed path. -/
def ancestorStep (root : Node α κ) (source : Option (List Nat)) :
    Option (Option (List α) × Option (List Nat)) :=
  source.map fun rp =>
    if !(root.inkAttrsAt rp.reverse).isEmpty then (some (root.inkAttrsAt rp.reverse), none)
    else (none, parent rp)

end Verif.Ir.Succ
