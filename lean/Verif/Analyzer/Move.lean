import Verif.Analyzer.Edit
import Verif.Analyzer.Tables

/-!
# Misplaced items and the actions that move them

Models `ensure_contract_parent` and `ensure_impl_parent`
(`crates/analyzer/src/analysis/diagnostics/common.rs:1696-1781`), `ensure_parent_contract`
(`crates/analyzer/src/analysis/diagnostics/contract.rs:581-614`), `ensure_parent_impl`
(`crates/analyzer/src/analysis/diagnostics/contract/ink_impl.rs:307-335`), the insert offsets
(`crates/analyzer/src/analysis/utils.rs:1626-1737,1832-1898`) and `Action::move_item_with_affixes`
(`crates/analyzer/src/analysis/actions.rs:84-136`).
-/

namespace Verif.Analyzer.Move

open Verif.Ir Verif.Ir.Token

/-- Kinds of items (`ast::Item`) as far as they matter here; for an `impl` block, whether it
implements a trait. As used in `crates/analyzer/src/analysis/utils.rs:1626-1737,1832-1898`. -/
inductive IKind where
  | use | struct | enum | union | impl (ofTrait : Bool) | module | fn | trait | other
deriving DecidableEq, Repr

/-- Kinds of syntax nodes: items, lists of items (`ast::ItemList`, `ast::AssocItemList`), attributes
with their ink! kind, if any, and others.
As used in `crates/analyzer/src/analysis/utils.rs:1626-1737,1832-1898`. -/
inductive NKind where
  | item (k : IKind)
  | list
  | attr (ink : Option AttrKind)
  | other
deriving DecidableEq, Repr

/-- A syntax tree with its text; tokens are white space or not.
As used in `crates/analyzer/src/analysis/utils.rs:1626-1737,1832-1898`. -/
inductive Src where
  | tok (ws : Bool) (text : List Char)
  | node (kind : NKind) (children : List Src)

mutual

/-- The text of a tree (`SyntaxNode::to_string`).
As used in `crates/analyzer/src/analysis/actions.rs:94-136`. -/
def Src.text : Src → List Char
  | .tok _ t => t
  | .node _ cs => texts cs

/-- The text of trees in a row. As used in `crates/analyzer/src/analysis/actions.rs:94-136`. -/
def texts : List Src → List Char
  | [] => []
  | c :: cs => c.text ++ texts cs

end

/-- The children of a tree.
As used in `crates/analyzer/src/analysis/diagnostics/common.rs:1697-1781`. -/
def Src.children : Src → List Src
  | .tok _ _ => []
  | .node _ cs => cs

/-- The node at a path.
As used in `crates/analyzer/src/analysis/diagnostics/common.rs:1697-1781`. -/
def Src.at? : Src → List Nat → Option Src
  | n, [] => some n
  | n, i :: p => (n.children[i]?).bind fun c => c.at? p

/-- The kind of a node; tokens have none.
As used in `crates/analyzer/src/analysis/diagnostics/common.rs:1697-1781`. -/
def Src.kind? : Src → Option NKind
  | .tok _ _ => none
  | .node k _ => some k

/-- The kind of the node at a path.
As used in `crates/analyzer/src/analysis/diagnostics/common.rs:1697-1781`. -/
def kindAt (root : Src) (p : List Nat) : Option NKind := (root.at? p).bind Src.kind?

/-- `ast::Item::can_cast`. As used in `crates/ir/src/tree/utils.rs:146-152`. -/
def isItem : Option NKind → Bool
  | some (.item _) => true
  | _ => false

/-- `ast::Impl::can_cast`. As used in `crates/ir/src/traits/ast_type.rs:33-43`. -/
def isImpl : Option NKind → Bool
  | some (.item (.impl _)) => true
  | _ => false

/-- The start of the node at a path (`text_range().start()`), if the tree starts at `o`.
As used in `crates/analyzer/src/analysis/diagnostics/common.rs:1697-1781`. -/
def startAt : Nat → Src → List Nat → Nat
  | o, _, [] => o
  | o, n, i :: p =>
    match n.children[i]? with
    | some c => startAt (o + bytes (texts (n.children.take i))) c p
    | none => o

/-- `closest_ancestor_ast_type::<_, T>`, `crates/ir/src/tree/ast_ext.rs:12-23`: the path of the closest
proper ancestor of such a kind. The argument is the reversed path. -/
def closest (test : Option NKind → Bool) (root : Src) : List Nat → Option (List Nat)
  | [] => none
  | _ :: rp =>
    if test (kindAt root rp.reverse) then some rp.reverse else closest test root rp

/-- The node carries the ink! contract attribute (`ink_attrs(…).find_map(ink_attr_to_entity)`,
`crates/ir/src/tree/utils.rs:18-21,117-123,151`). -/
def Src.isContract (n : Src) : Bool :=
  n.children.any fun c => c.kind? == some (.attr (some (.macro .contract)))

/-- The same for the node at a path. As used in `crates/ir/src/tree/utils.rs:146-160`. -/
def contractAt (root : Src) (p : List Nat) : Bool :=
  match root.at? p with
  | some n => n.isContract
  | none => false

/-- `ink_parent::<Contract>`, `crates/ir/src/tree/utils.rs:146-152`. -/
def inkParentContract (root : Src) (p : List Nat) : Option (List Nat) :=
  (closest isItem root p.reverse).filter (contractAt root)

/-- `ink_ancestors::<Contract>(…).next()`, `crates/ir/src/tree/utils.rs:64-76,155-160` (of an item, which is
no attribute): the closest proper ancestor with the attribute. The argument is the reversed path. -/
def ancestorContract (root : Src) : List Nat → Option (List Nat)
  | [] => none
  | _ :: rp => if contractAt root rp.reverse then some rp.reverse else ancestorContract root rp

/-- The first child that is a list (`item_list()`, `assoc_item_list()`).
As used in `crates/analyzer/src/analysis/diagnostics/common.rs:1709-1716`. -/
def listOf (root : Src) (p : List Nat) : Option (List Nat) :=
  match root.at? p with
  | some n => (n.children.findIdx? fun c => c.kind? == some .list).map fun j => p ++ [j]
  | none => none

/-- `Contract::module` and its item list.
As used in `crates/analyzer/src/analysis/diagnostics/common.rs:1709-1716`. -/
def moduleList (root : Src) (p : List Nat) : Option (List Nat) :=
  if kindAt root p == some (.item .module) then listOf root p else none

/-- An item of a list with its range.
As used in `crates/analyzer/src/analysis/utils.rs:1627-1655`. -/
structure Placed where
  kind : IKind
  start : Nat
  stop : Nat
deriving DecidableEq, Repr

/-- The items of a list whose children start at `o` (`item_list.items()`,
`assoc_item_list.assoc_items()`). As used in `crates/analyzer/src/analysis/utils.rs:1627-1655`. -/
def items : Nat → List Src → List Placed
  | _, [] => []
  | o, c :: cs =>
    (match c.kind? with
      | some (.item k) => [(⟨k, o, o + bytes c.text⟩ : Placed)]
      | _ => []) ++ items (o + bytes c.text) cs

/-- The end of the left curly bracket (`l_curly_token()`).
As used in `crates/analyzer/src/analysis/utils.rs:1627-1655`. -/
def lCurly : Nat → List Src → Option Nat
  | _, [] => none
  | o, .tok _ t :: cs => if t = ['{'] then some (o + bytes t) else lCurly (o + bytes t) cs
  | o, .node k ds :: cs => lCurly (o + bytes (Src.node k ds).text) cs

/-- The end of the last item with a kind.
As used in `crates/analyzer/src/analysis/utils.rs:1659-1694`. -/
def lastStop (test : IKind → Bool) (o : Nat) (cs : List Src) : Option Nat :=
  ((items o cs).filter fun i => test i.kind).getLast?.map (·.stop)

/-- `item_insert_offset_start`, `crates/analyzer/src/analysis/utils.rs:1627-1644`. -/
def insertStart (o : Nat) (cs : List Src) : Nat :=
  (((lastStop (· == .use) o cs).or (lCurly o cs)).or ((items o cs).head?.map (·.start))).getD o

/-- `item_insert_offset_end`, `crates/analyzer/src/analysis/utils.rs:1647-1655`. -/
def insertEnd (o : Nat) (cs : List Src) : Nat :=
  ((items o cs).getLast?.map (·.stop)).getD (insertStart o cs)

/-- `item_insert_offset_after_last_struct_or_start`,
`crates/analyzer/src/analysis/utils.rs:1659-1666`. -/
def insertAfterStruct (o : Nat) (cs : List Src) : Nat :=
  (lastStop (· == .struct) o cs).getD (insertStart o cs)

/-- `ast::Item::Impl(_)`. As used in `crates/analyzer/src/analysis/utils.rs:1659-1694`. -/
def IKind.isImpl : IKind → Bool
  | .impl _ => true
  | _ => false

/-- `item_insert_offset_impl`, `crates/analyzer/src/analysis/utils.rs:1671-1694`. -/
def insertImpl (o : Nat) (cs : List Src) : Nat :=
  (((lastStop IKind.isImpl o cs).or (lastStop (· == .struct) o cs)).or
    (((items o cs).find? fun i => i.kind == .module).map (·.start))).getD (insertEnd o cs)

/-- The scope names used (`"storage"`, `"event"`, `"impl"`).
As used in `crates/analyzer/src/analysis/utils.rs:1697-1712`. -/
inductive Scope where
  | storage | event | impl
deriving DecidableEq, Repr

/-- `item_insert_offset_by_scope_name`, `crates/analyzer/src/analysis/utils.rs:1697-1712`. -/
def insertByScope (s : Scope) : Nat → List Src → Nat :=
  match s with
  | .storage => insertStart
  | .event => insertAfterStruct
  | .impl => insertImpl

/-- `assoc_item_insert_offset_end` with `assoc_item_insert_offset_start`,
`crates/analyzer/src/analysis/utils.rs:1715-1737`. -/
def insertAssocEnd (o : Nat) (cs : List Src) : Nat :=
  ((items o cs).getLast?.map (·.stop)).getD
    (((lCurly o cs).or ((items o cs).head?.map (·.start))).getD o)

/-- The two edits of `Action::move_item_with_affixes`,
`crates/analyzer/src/analysis/actions.rs:94-136`: an insertion and a deletion. `prevWs` is the white
space before the item. -/
def moveItem (text : List Char) (start : Nat) (prevWs : Option (List Char)) (offset : Nat)
    (indent : Option (List Char)) (pre post : Option (List Char)) : Edit × Edit :=
  let plain := match itemIndenting prevWs with
    | some i => reduceIndenting text i
    | none => text
  let indented := match indent with
    | some i => applyIndenting plain i
    | none => plain
  (⟨pre.getD [] ++ indented ++ post.getD [], offset, offset, none⟩,
    ⟨[], start, start + bytes text, none⟩)

/-- The white space right before the node at a path, if any (read by `item_indenting`,
`crates/analyzer/src/analysis/utils.rs:1190-1195`). -/
def wsBefore (root : Src) (p : List Nat) : Option (List Char) :=
  match p.getLast?, root.at? p.dropLast with
  | some (n + 1), some par =>
    match par.children[n]? with
    | some (.tok true t) => some t
    | _ => none
  | _, _ => none

/-- The action that moves the item at `p` into the list at `l` of the node at `q`.
As used in `crates/analyzer/src/analysis/diagnostics/common.rs:1704-1722`. -/
def moveInto (root : Src) (p q l : List Nat) (offset : Nat → List Src → Nat)
    (affixes : Option (List Char × List Char × List Char)) : Option (Edit × Edit) :=
  match root.at? p, root.at? l with
  | some x, some n =>
    let off := offset (startAt 0 root l) n.children
    some (match affixes with
      | none => moveItem x.text (startAt 0 root p) (wsBefore root p) off (some (itemChildrenIndenting (wsBefore root q)))
          none none
      | some (indent, pre, post) => moveItem x.text (startAt 0 root p) (wsBefore root p) off (some indent)
          (some pre) (some post))
  | _, _ => none

/-- A report: the range complained about is the item or the `impl` block; the fix, if any.
As used in `crates/analyzer/src/analysis/diagnostics/common.rs:1704-1722`. -/
structure Report where
  fix : Option (Edit × Edit)
deriving DecidableEq

/-- `ensure_contract_parent`, `crates/analyzer/src/analysis/diagnostics/common.rs:1697-1723`, for the item
at `p`. -/
def contractParent (root : Src) (s : Scope) (p : List Nat) : Option Report :=
  if (inkParentContract root p).isSome then none
  else some ⟨(ancestorContract root p.reverse).bind fun c =>
    (moduleList root c).bind fun l => moveInto root p c l (insertByScope s) none⟩

/-- `ensure_parent_contract`, `crates/analyzer/src/analysis/diagnostics/contract.rs:582-614`, for the item at
`p` and the contract at `c`. -/
def parentContract (root : Src) (s : Scope) (c p : List Nat) : Option Report :=
  if inkParentContract root p == some c then none
  else some ⟨(moduleList root c).bind fun l => moveInto root p c l (insertByScope s) none⟩

/-- `parent_impl_item`, `crates/ir/src/traits/ast_type.rs:33-43`. -/
def parentImplItem (root : Src) (p : List Nat) : Option (List Nat) :=
  if kindAt root p == some (.item .fn) then
    (closest isItem root p.reverse).filter fun q => isImpl (kindAt root q)
  else none

/-- `ensure_parent_impl`, `crates/analyzer/src/analysis/diagnostics/contract/ink_impl.rs:308-335`, for the
function at `p` and the `impl` item at `i`. -/
def parentImpl (root : Src) (i p : List Nat) : Option Report :=
  if parentImplItem root p == some i then none
  else some ⟨(listOf root i).bind fun l => moveInto root p i l insertAssocEnd none⟩

/-- `siblings(Direction::Prev).find_map(ast::Impl::cast)` and the same for the following siblings,
`crates/analyzer/src/analysis/diagnostics/common.rs:1738-1746`. -/
def siblingImpl (root : Src) (p : List Nat) : Option (List Nat) :=
  match p.getLast?, root.at? p.dropLast with
  | some n, some par =>
    let test : Nat → Bool := fun i => isImpl ((par.children[i]?).bind Src.kind?)
    ((((List.range (n + 1)).reverse.find? test).or
      ((List.range' n (par.children.length - n)).find? test))).map fun i => p.dropLast ++ [i]
  | _, _ => none

/-- The closest `impl` block, `crates/analyzer/src/analysis/diagnostics/common.rs:1734-1746`. -/
def closestImpl (root : Src) (p : List Nat) : Option (List Nat) :=
  (closest isImpl root p.reverse).or (siblingImpl root p)

/-- The first `impl` block of no trait in the root of the contract at `c`,
`crates/analyzer/src/analysis/utils.rs:1835-1844`. -/
def rootImpl (root : Src) (c : List Nat) : Option (List Nat) :=
  (moduleList root c).bind fun l =>
    (root.at? l).bind fun n =>
      (n.children.findIdx? fun k => k.kind? == some (.item (.impl false))).map fun j => l ++ [j]

/-- What is known of the contract around: its first ink! `impl` block of no trait
(`contract.impls()`, modelled in `Verif.Analyzer.Walk`) and its name
(`resolve_contract_name`, `crates/analyzer/src/analysis/utils.rs:1904-1921`). -/
structure Known where
  inkImpl : Option (List Nat)
  name : Option (List Char)

/-- `callable_impl_indent_and_affixes`, `crates/analyzer/src/analysis/utils.rs:1886-1898`. -/
def implAffixes (indent name : List Char) : List Char × List Char × List Char :=
  (indent ++ "    ".toList, indent ++ "impl ".toList ++ name ++ " {\n".toList,
    '\n' :: indent ++ ['}'])

/-- The move into the contract at `c`: `callable_insert_offset_indent_and_affixes`,
`crates/analyzer/src/analysis/utils.rs:1832-1882`, with the action made of it,
`crates/analyzer/src/analysis/diagnostics/common.rs:1761-1778`. -/
def moveToContract (known : List Nat → Known) (root : Src) (p c : List Nat) :
    Option (Edit × Edit) :=
  match ((rootImpl root c).or (known c).inkImpl).bind fun i => (listOf root i).map fun l => (i, l) with
  | some (i, l) => moveInto root p i l insertAssocEnd none
  | none =>
    (moduleList root c).bind fun l =>
      (known c).name.bind fun name =>
        moveInto root p c l insertImpl (some (implAffixes (itemChildrenIndenting (wsBefore root c)) name))

/-- `ensure_impl_parent`, `crates/analyzer/src/analysis/diagnostics/common.rs:1726-1781`, for the function
at `p`. -/
def implParent (known : List Nat → Known) (root : Src) (p : List Nat) :
    Option Report :=
  if (parentImplItem root p).isSome then none
  else some ⟨match (closestImpl root p).bind fun i => (listOf root i).map fun l => (i, l) with
    | some (i, l) => moveInto root p i l insertAssocEnd none
    | none => (ancestorContract root p.reverse).bind fun c => moveToContract known root p c⟩

end Verif.Analyzer.Move
