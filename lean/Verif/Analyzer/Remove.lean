import Verif.Ir.Meta
import Verif.Ir.Token
import Verif.Util.Sort

/-!
# The range removed with an ink! argument

Models `crates/analyzer/src/analysis/utils.rs:1468-1502,1532-1624` and
`crates/ir/src/attrs/meta.rs:195-223`. A file is the list of its top-most syntax elements.
-/

namespace Verif.Analyzer
open Verif.Ir

/-- A token with its range (`SyntaxToken`, as used at
`crates/analyzer/src/analysis/utils.rs:1469-1502`). -/
structure Leaf where
  kind : Ir.TokKind
  start : Nat
  stop : Nat
  deriving DecidableEq

mutual

/-- The tokens of an element that starts at `o`, in source order (`first_token`, `last_token`,
`next_token` and `prev_token` of rowan, used at
`crates/analyzer/src/analysis/utils.rs:1471-1489,1538-1541`). -/
def leaves (o : Nat) : Elem → List Leaf
  | .tok k s => [⟨k, o, o + s.utf8ByteSize⟩]
  | .tree cs => leavesList o cs
  | .error cs => leavesList o cs

/-- The tokens of a sequence of elements that starts at `o` (see `leaves`,
`crates/analyzer/src/analysis/utils.rs:1471-1489`). -/
def leavesList (o : Nat) : List Elem → List Leaf
  | [] => []
  | c :: cs => leaves o c ++ leavesList (o + c.len) cs

end

/-- The token itself, or the first token of the node
(`crates/analyzer/src/analysis/utils.rs:1589-1592`). -/
def firstLeaf (p : Placed) : Option Leaf := (leaves p.start p.elem).head?

/-- The token itself, or the last token of the node
(`crates/analyzer/src/analysis/utils.rs:1538-1541`). -/
def lastLeaf (p : Placed) : Option Leaf := (leaves p.start p.elem).getLast?

/-- The next delimiter, `crates/analyzer/src/analysis/utils.rs:1471-1476`, for a comma. Tokens are
never empty, so that the tokens after `t` are the ones that start later. -/
def nextDelim (file : List Leaf) (t : Leaf) : Option Leaf :=
  Token.closestWhich (fun l => l.kind == .comma) (fun l => !l.kind.isTrivia)
    (file.dropWhile fun l => l.start ≤ t.start)

/-- The previous delimiter, `crates/analyzer/src/analysis/utils.rs:1482-1487`, for a comma. -/
def prevDelim (file : List Leaf) (t : Leaf) : Option Leaf :=
  Token.closestWhich (fun l => l.kind == .comma) (fun l => !l.kind.isTrivia)
    (file.takeWhile fun l => l.start < t.start).reverse

/-- `token_and_delimiter_range`, `crates/analyzer/src/analysis/utils.rs:1469-1502`, for a comma.
Its `TextRange::new` cannot fail: the start is at or before the token, the end at or after it. -/
def tokenAndDelim (file : List Leaf) (t : Leaf) : Nat × Nat :=
  match nextDelim file t with
  | some d => (t.start, d.stop)
  | none => (((prevDelim file t).getD t).start, t.stop)

/-- The elements of the name (or value) of a meta item, `crates/ir/src/attrs/meta.rs:197-201,207-211`. -/
def optElements (f : α → List Placed) : MetaOpt α → List Placed
  | .ok a => f a
  | .err items => items
  | .none => []

/-- `MetaNameValue::elements`, `crates/ir/src/attrs/meta.rs:195-223`. -/
def metaElements : Meta → List Placed
  | .mk name eq value nested _ _ =>
    Util.sortBy Placed.start (optElements (fun p => [p]) name ++ eq.toList ++
      optElements MetaValue.elements value ++
      match nested with
      | some m => metaElements m
      | none => [])

/-- What the code reads from the attribute of the argument: the number of arguments, whether its kind
is a macro, the range of its token tree and its own range
(`crates/analyzer/src/analysis/utils.rs:1544-1568`). -/
structure RemAttr where
  args : Nat
  isMacro : Bool
  tree : Option (Nat × Nat)
  range : Nat × Nat

/-- The range for an attribute with a single argument,
`crates/analyzer/src/analysis/utils.rs:1552-1567`. -/
def singleRange (a : RemAttr) : Option (Nat × Nat) :=
  if a.args = 1 then (if a.isMacro then a.tree else some a.range) else none

/-- The first token of the argument, `crates/analyzer/src/analysis/utils.rs:1582-1613`: the name (or
the *last* element of a malformed name), else the `=`, else the start of the value. -/
def firstToken (m : Meta) : Option Leaf :=
  (match m.name with
    | .ok p => firstLeaf p
    | .err items => items.getLast?.bind firstLeaf
    | .none => none).or
  ((m.eq.bind firstLeaf).or
    (match m.value with
      | .ok v => v.elements.head?.bind firstLeaf
      | .err items => items.head?.bind firstLeaf
      | .none => none))

/-- The end of the removed range, `crates/analyzer/src/analysis/utils.rs:1571-1575`. -/
def removalStop (file : List Leaf) (m : Meta) (own : Nat × Nat) : Nat :=
  match (metaElements m).getLast?.bind lastLeaf with
  | some t => (tokenAndDelim file t).2
  | none => own.2

/-- The start of the removed range, `crates/analyzer/src/analysis/utils.rs:1578-1620`. -/
def removalStart (file : List Leaf) (m : Meta) (own : Nat × Nat) (stop : Nat) : Nat :=
  if stop = own.2 then
    match firstToken m with
    | some t => (tokenAndDelim file t).1
    | none => own.1
  else own.1

/-- `ink_arg_and_delimiter_removal_range`, `crates/analyzer/src/analysis/utils.rs:1533-1624`. `attr`
is the attribute of the argument, if it has one. `none` is a panic. -/
def removalRange (file : List Leaf) (attr : Option RemAttr) (m : Meta) : Option (Nat × Nat) :=
  match attr.bind singleRange with
  | some r => some r
  | none => m.textRange.bind fun own =>
    rangeNew (removalStart file m own (removalStop file m own)) (removalStop file m own)

end Verif.Analyzer
