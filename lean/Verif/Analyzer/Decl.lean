import Verif.Basic

/-!
# The declaration of an item

Models `ast_item_declaration_range` and `ast_item_terminal_token`,
`crates/analyzer/src/analysis/utils.rs:1285-1442`: the range that diagnostics underline and that decides
which actions are offered.
-/

namespace Verif.Analyzer.Decl

/-- Token kinds: white space, comments that are no doc comments, doc comments, the tokens that are looked
for, and all others. As used in `crates/analyzer/src/analysis/utils.rs:1285-1442`. -/
inductive Tok where
  | ws | comment | doc | semi | lCurly | rCurly | rParen | other
deriving DecidableEq, Repr

/-- `SyntaxKind::is_trivia`, as used in `crates/ir/src/tree/ast_ext.rs:48-58`. -/
def Tok.isTrivia : Tok → Bool
  | .ws | .comment | .doc => true
  | _ => false

/-- Node kinds: attributes, lists in curly brackets (of items, associated items, variants, fields or
statements), fields in parentheses, the body of a function, and everything else.
As used in `crates/analyzer/src/analysis/utils.rs:1285-1442`. -/
inductive NodeKind where
  | attr | list | tuple | body | other
deriving DecidableEq, Repr

/-- A syntax element; tokens have a length.
As used in `crates/analyzer/src/analysis/utils.rs:1285-1442`. -/
inductive Elem where
  | tok (k : Tok) (len : Nat)
  | node (k : NodeKind) (children : List Elem)

mutual

/-- The length of an element. As used in `crates/analyzer/src/analysis/utils.rs:1285-1442`. -/
def len : Elem → Nat
  | .tok _ n => n
  | .node _ cs => lenAll cs

/-- The length of elements. As used in `crates/analyzer/src/analysis/utils.rs:1285-1442`. -/
def lenAll : List Elem → Nat
  | [] => 0
  | c :: cs => len c + lenAll cs

end

mutual

/-- The tokens of an element at an offset, with their kinds and starts (`SyntaxToken::next_token`, as used
in `crates/analyzer/src/analysis/utils.rs:1390`). -/
def leaves (o : Nat) : Elem → List (Tok × Nat)
  | .tok k _ => [(k, o)]
  | .node _ cs => leavesAll o cs

/-- The tokens of elements. As used in `crates/analyzer/src/analysis/utils.rs:1390`. -/
def leavesAll (o : Nat) : List Elem → List (Tok × Nat)
  | [] => []
  | c :: cs => leaves o c ++ leavesAll (o + len c) cs

end

/-- The children of an element. As used in `crates/analyzer/src/analysis/utils.rs:1285-1442`. -/
def Elem.children : Elem → List Elem
  | .tok _ _ => []
  | .node _ cs => cs

/-- Whether an element is a token of a kind.
As used in `crates/analyzer/src/analysis/utils.rs:1285-1442`. -/
def Elem.isTok (k : Tok) : Elem → Bool
  | .tok k' _ => k' == k
  | _ => false

/-- Whether an element is a node of a kind.
As used in `crates/analyzer/src/analysis/utils.rs:1285-1442`. -/
def Elem.isNode (k : NodeKind) : Elem → Bool
  | .node k' _ => k' == k
  | _ => false

/-- The first child with a property, with its start (`support::child`, `support::token` of `ra_ap_syntax`, on
which `item_list`, `l_curly_token` and so on rely, `crates/analyzer/src/analysis/utils.rs:1285-1442`). -/
def find (p : Elem → Bool) (o : Nat) : List Elem → Option (Nat × Elem)
  | [] => none
  | c :: cs => if p c then some (o, c) else find p (o + len c) cs

/-- Kinds of items, as far as they are treated differently: modules, functions, structs, type aliases, those
whose declaration ends with a list (traits, `impl` blocks, enums, unions), and others.
As used in `crates/analyzer/src/analysis/utils.rs:1285-1442`. -/
inductive ItemKind where
  | module | listed | fn | struct | typeAlias | other
deriving DecidableEq, Repr

/-- The end of an element (`TextRange::end`). As used in `crates/analyzer/src/analysis/utils.rs:1369`. -/
def endOf (x : Nat × Elem) : Nat := x.1 + len x.2

/-- The end of the left curly bracket of a list, or of the list if it has none,
`crates/analyzer/src/analysis/utils.rs:1289-1292,1300-1305,1331-1335`. -/
def listEnd (l : Nat × Elem) : Nat :=
  match find (Elem.isTok .lCurly) l.1 l.2.children with
  | some t => endOf t
  | none => endOf l

/-- `semicolon_token().text_range().end()`, `crates/analyzer/src/analysis/utils.rs:1293-1298`. -/
def semiEnd (o : Nat) (cs : List Elem) : Option Nat := (find (Elem.isTok .semi) o cs).map endOf

/-- Where the declaration of an item ends, `crates/analyzer/src/analysis/utils.rs:1286-1369`, for an item
with the given children at the offset. -/
def declEnd (k : ItemKind) (o : Nat) (cs : List Elem) : Option Nat :=
  match k with
  | .module => ((find (Elem.isNode .list) o cs).map listEnd).or (semiEnd o cs)
  | .listed => (find (Elem.isNode .list) o cs).map listEnd
  | .fn =>
    match find (Elem.isNode .body) o cs with
    | some b =>
      match find (Elem.isNode .list) b.1 b.2.children with
      | some l => some (listEnd l)
      | none => some (endOf b)
    | none => semiEnd o cs
  | .struct =>
    match find (fun c => c.isNode .list || c.isNode .tuple) o cs with
    | some l =>
      if l.2.isNode .list then some (listEnd l)
      else ((semiEnd o cs).or ((find (Elem.isTok .rParen) l.1 l.2.children).map endOf)).or
        (some (endOf l))
    | none => semiEnd o cs
  | .typeAlias => semiEnd o cs
  | .other => none

/-- The end of the last child with a property.
As used in `crates/analyzer/src/analysis/utils.rs:1372-1373`. -/
def lastEnd (p : Elem → Bool) (o : Nat) : List Elem → Option Nat
  | [] => none
  | c :: cs => (lastEnd p (o + len c) cs).or (if p c then some (o + len c) else none)

/-- The end of the last doc comment or attribute, `crates/analyzer/src/analysis/utils.rs:1372-1387`. An
attribute is taken to have a last token. -/
def metaEnd (o : Nat) (cs : List Elem) : Option Nat :=
  match lastEnd (Elem.isTok .doc) o cs, lastEnd (Elem.isNode .attr) o cs with
  | some c, some a => some (if c ≥ a then c else a)
  | some c, none => some c
  | none, a => a

/-- Where the declaration of an item starts, `crates/analyzer/src/analysis/utils.rs:1372-1396`. `rest` is
what follows the item in the file. -/
def declStart (o : Nat) (cs rest : List Elem) : Nat :=
  ((metaEnd o cs).bind fun e =>
    ((leavesAll o (cs ++ rest)).find? fun t => decide (e ≤ t.2) && !t.1.isTrivia).map (·.2)).getD o

/-- `ast_item_declaration_range`, `crates/analyzer/src/analysis/utils.rs:1285-1402`. The outer `none` is the
panic of `TextRange::new` for an inverted range. -/
def declRange (k : ItemKind) (o : Nat) (cs rest : List Elem) : Option (Option (Nat × Nat)) :=
  match declEnd k o cs with
  | none => some none
  | some e => if declStart o cs rest ≤ e then some (some (declStart o cs rest, e)) else none

/-- The right curly bracket of a list. As used in `crates/analyzer/src/analysis/utils.rs:1405-1442`. -/
def listClose (l : Nat × Elem) : Option (Nat × Elem) := find (Elem.isTok .rCurly) l.1 l.2.children

/-- `ast_item_terminal_token`, `crates/analyzer/src/analysis/utils.rs:1405-1442`: its range. -/
def terminal (k : ItemKind) (o : Nat) (cs : List Elem) : Option (Nat × Nat) :=
  (match k with
    | .module => ((find (Elem.isNode .list) o cs).bind listClose).or (find (Elem.isTok .semi) o cs)
    | .listed => (find (Elem.isNode .list) o cs).bind listClose
    | .fn => ((find (Elem.isNode .body) o cs).bind fun b =>
        (find (Elem.isNode .list) b.1 b.2.children).bind listClose).or (find (Elem.isTok .semi) o cs)
    | .struct => ((find (fun c => c.isNode .list || c.isNode .tuple) o cs).bind fun l =>
        if l.2.isNode .list then listClose l
        else (find (Elem.isTok .semi) o cs).or (find (Elem.isTok .rParen) l.1 l.2.children)).or
          (find (Elem.isTok .semi) o cs)
    | .typeAlias => find (Elem.isTok .semi) o cs
    | .other => none).map fun (t : Nat × Elem) => (t.1, endOf t)

/-- `is_focused_on_item_declaration`, `crates/analyzer/src/analysis/actions/item.rs:711-717`, for a selection;
`none` is the panic of `declRange`. -/
def onDeclaration (k : ItemKind) (o : Nat) (cs rest : List Elem) (sel : Nat × Nat) : Option Bool :=
  (declRange k o cs rest).map fun d =>
    d.any (fun d => decide (d.1 ≤ sel.1 ∧ sel.2 ≤ d.2)) ||
      (terminal k o cs).any fun t => decide (t.1 ≤ sel.1 ∧ sel.2 ≤ t.2)

/-- `is_focused_on_item_body`, `crates/analyzer/src/analysis/actions/item.rs:722-736`, for a selection; `none`
is the panic of `declRange`. -/
def onBody (k : ItemKind) (o : Nat) (cs rest : List Elem) (sel : Nat × Nat) : Option Bool :=
  (declRange k o cs rest).map fun d =>
    match d, terminal k o cs with
    | some d, some t => decide (d.2 < t.1) && decide (d.2 ≤ sel.1 ∧ sel.2 ≤ t.1)
    | _, _ => false

end Verif.Analyzer.Decl
