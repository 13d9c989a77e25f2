import Verif.Analyzer.Move
import Verif.Analyzer.Walk

/-!
# The checks of a contract for misplaced items

Models `ensure_root_items` and `ensure_impl_parent_for_callables`
(`crates/analyzer/src/analysis/diagnostics/contract.rs:631-649,660-674`) and `ensure_callables_in_root`
(`crates/analyzer/src/analysis/diagnostics/contract/ink_impl.rs:346-359`): which items they look at, and
what they report. The check of a single item is modelled in `Verif.Analyzer.Move`, the search for the
items in `Verif.Analyzer.Walk`.
-/

namespace Verif.Analyzer.Root

open Verif.Ir Verif.Ir.Token Verif.Analyzer.Move

mutual

/-- A syntax tree without its text, for the search for ink! entities
(`crates/ir/src/tree/utils.rs:24-61` reads attributes and kinds only). -/
def toNode : Src → Node AttrKind NKind
  | .tok _ t => .tok (bytes t)
  | .node (.attr a) cs => .attr a (toNodes cs)
  | .node (.item k) cs => .node (.item k) (toNodes cs)
  | .node .list cs => .node .list (toNodes cs)
  | .node .other cs => .node .other (toNodes cs)

/-- The same for trees in a row. As used in `crates/ir/src/tree/utils.rs:24-61`. -/
def toNodes : List Src → List (Node AttrKind NKind)
  | [] => []
  | c :: cs => toNode c :: toNodes cs

end

/-- What is asked of syntax kinds (`ast::Impl::can_cast` and the like).
As used in `crates/ir/src/tree/utils.rs:136-255`. -/
def shape : Walk.Shape NKind where
  isImpl k := Move.isImpl (some k)
  isItem k := Move.isItem (some k)
  isTrait k := k == .item .trait
  isList k := k == .list
  isFn k := k == .item .fn

/-- `ensure_root_items`, `crates/analyzer/src/analysis/diagnostics/contract.rs:631-649`, for the contract at
`c`: the items reported, by their paths, with the reports. `implements` says which `impl` items implement an
ink! trait definition (`crates/ir/src/ink_impl.rs:74-83`). -/
def rootItems (implements : List Nat → Bool) (root : Src) (c : List Nat) : List (List Nat × Report) :=
  (Walk.below id (.arg .storage) (toNode root) c).filterMap
      (fun p => (parentContract root .storage c p).map (p, ·)) ++
    ((Walk.below id (.arg .event) (toNode root) c).filterMap
        (fun p => (parentContract root .event c p).map (p, ·)) ++
      (Walk.implsBelow id shape implements (toNode root) c).filterMap
        (fun p => (parentContract root .impl c p).map (p, ·)))

/-- `ensure_impl_parent_for_callables`, `crates/analyzer/src/analysis/diagnostics/contract.rs:660-674`, for the
contract at `c`. -/
def callableParents (known : List Nat → Known) (root : Src) (c : List Nat) : List (List Nat × Report) :=
  (Walk.callablesBelow id shape (.arg .constructor) (toNode root) c).filterMap
      (fun p => (implParent known root p).map (p, ·)) ++
    (Walk.callablesBelow id shape (.arg .message) (toNode root) c).filterMap
      (fun p => (implParent known root p).map (p, ·))

/-- `ensure_callables_in_root`, `crates/analyzer/src/analysis/diagnostics/contract/ink_impl.rs:346-359`, for the
ink! impl at `i` (whose constructors and messages are its closest ones, `crates/ir/src/ink_impl.rs:10-19`). -/
def rootCallables (root : Src) (i : List Nat) : List (List Nat × Report) :=
  (Walk.below id (.arg .constructor) (toNode root) i).filterMap
      (fun p => (parentImpl root i p).map (p, ·)) ++
    (Walk.below id (.arg .message) (toNode root) i).filterMap
      (fun p => (parentImpl root i p).map (p, ·))

end Verif.Analyzer.Root
