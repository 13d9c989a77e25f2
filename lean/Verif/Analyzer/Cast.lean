import Verif.Analyzer.WalkProps

/-!
# Deriving ink! entities from syntax nodes

Models the functions that `#[ink_analyzer_macro::entity]` generates for the entities
(`crates/macro/src/entity.rs:10-288`): `can_cast`, `cast`, `syntax`, `ast` and `ink_attr` of
`InkEntity` (`crates/ir/src/traits/entity.rs:9-43`), for each way to configure them, and
`ink_parent` (`crates/ir/src/tree/utils.rs:146-153`). The nodes of the file are given by their paths.
-/

namespace Verif.Analyzer.Cast

open Verif.Ir Verif.Analyzer.Walk

variable {α κ φ : Type}

/-- The argument of the attribute of an entity, `Config`, `crates/macro/src/entity.rs:299-308`. The
variants for macros and for arguments are one, as in `attr_kind!`
(`crates/macro/src/entity.rs:34-47`). -/
inductive Config where
  | ast
  | kind (k : AttrKind)
  | call (test : List Nat → Bool)

/-- An entity, `crates/macro/src/entity.rs:247-254`: the node, whether that is of the type that is
expected (`ast` is there), the ink! attribute with its node, and the other fields, which are read from
the node. Simplified: the other fields are of any type. -/
structure Entity (α φ : Type) where
  node : List Nat
  ast : Bool
  inkAttr : Option (List Nat × α)
  fields : φ

/-- The ink! attributes of the node at `p` with their nodes (`ink_attrs`,
`crates/ir/src/tree/utils.rs:18-21`). -/
def attrsOf (file : Node α κ) (p : List Nat) : List (List Nat × α) :=
  match file.at? p with
  | some n => (Node.inkIdx n.children 0).map fun e => (p ++ e.1, e.2)
  | none => []

/-- The node as an ink! attribute (`Attr::cast(…).and_then(InkAttribute::cast)`,
`crates/macro/src/entity.rs:186-187,197-198`). -/
def asAttr (file : Node α κ) (p : List Nat) : Option (List Nat × α) :=
  match file.at? p with
  | some n => n.ink?.map fun a => (p, a)
  | none => none

/-- `can_cast`, `crates/macro/src/entity.rs:174-208`. -/
def canCast (kind : α → AttrKind) (isAst : κ → Bool) (cfg : Config) (file : Node α κ)
    (p : List Nat) : Bool :=
  match cfg with
  | .ast => kindAt isAst file p
  | .kind k =>
    if file.isAttrAt p then (asAttr file p).any fun e => kind e.2 == k
    else (attrsOf file p).any fun e => kind e.2 == k
  | .call test => test p

/-- `root_node`, `crates/macro/src/entity.rs:210-216`: the parent of an attribute, if it has one. -/
def rootNode (file : Node α κ) (p : List Nat) : List Nat :=
  if file.isAttrAt p then (if p = [] then p else p.dropLast) else p

/-- The value of `ink_attr`, `crates/macro/src/entity.rs:181,195-204,207`. -/
def attrInit (kind : α → AttrKind) (cfg : Config) (file : Node α κ) (r : List Nat) :
    Option (List Nat × α) :=
  match cfg with
  | .ast => none
  | .kind k =>
    if file.isAttrAt r then (asAttr file r).filter fun e => kind e.2 == k
    else (attrsOf file r).find? fun e => kind e.2 == k
  | .call _ => none

/-- `self_def`, `crates/macro/src/entity.rs:218-225`. `init` are the initializers of the other fields
(`crates/macro/src/entity.rs:80-104`), which are functions of the node. -/
def selfDef (kind : α → AttrKind) (isAst : κ → Bool) (init : List Nat → φ) (cfg : Config)
    (file : Node α κ) (r : List Nat) : Entity α φ :=
  ⟨r, kindAt isAst file r, attrInit kind cfg file r, init r⟩

/-- `cast`, `crates/macro/src/entity.rs:227-266`. -/
def cast (kind : α → AttrKind) (isAst : κ → Bool) (init : List Nat → φ) (cfg : Config)
    (file : Node α κ) (p : List Nat) : Option (Entity α φ) :=
  match cfg with
  | .ast =>
    if kindAt isAst file p then some (selfDef kind isAst init cfg file (rootNode file p)) else none
  | _ =>
    if canCast kind isAst cfg file p then
      some (selfDef kind isAst init cfg file (rootNode file p))
    else none

/-- `parent_ast_item`, `crates/ir/src/tree/ast_ext.rs:27-45`. Simplified: whether an attribute is one
of the attributes of the item is decided by its place instead of its range. -/
def parentItem (sh : Shape κ) (file : Node α κ) (p : List Nat) : Option (List Nat) :=
  (closestItem sh file p.reverse).filter fun q => !file.isAttrAt p || q == p.dropLast

/-- `ink_parent`, `crates/ir/src/tree/utils.rs:146-153`, with `ink_attr_to_entity`
(`crates/ir/src/tree/utils.rs:120-125`). -/
def inkParent (kind : α → AttrKind) (sh : Shape κ) (isAst : κ → Bool) (init : List Nat → φ)
    (cfg : Config) (file : Node α κ) (p : List Nat) : Option (Entity α φ) :=
  (parentItem sh file p).bind fun q =>
    (attrsOf file q).findSome? fun e => cast kind isAst init cfg file e.1

/-- `ink_closest_descendants`, `crates/ir/src/tree/utils.rs:136-144`, with the entities themselves. -/
def closestOf (kind : α → AttrKind) (isAst : κ → Bool) (init : List Nat → φ) (cfg : Config)
    (file : Node α κ) (p : List Nat) : List (Entity α φ) :=
  match file.at? p with
  | some n => (Node.closestIdx n).filterMap fun e => cast kind isAst init cfg file (p ++ e.1)
  | none => []

/-- `ink_descendants` (`crates/ir/src/tree/utils.rs:127-132`) and `ink_ancestors`
(`crates/ir/src/tree/utils.rs:155-161`) are like this for other lists of attributes: the entities of a
list of nodes of attributes, `crates/ir/src/tree/utils.rs:120-125`. -/
def entitiesOf (kind : α → AttrKind) (isAst : κ → Bool) (init : List Nat → φ) (cfg : Config)
    (file : Node α κ) (attrs : List (List Nat)) : List (Entity α φ) :=
  attrs.filterMap (cast kind isAst init cfg file)

/-- The configuration of `InkImpl`, `crates/ir/src/ink_impl.rs:10,47-71`. -/
def implConfig (kind : α → AttrKind) (sh : Shape κ) (implements : List Nat → Bool)
    (file : Node α κ) : Config :=
  .call (canCastImpl kind sh implements file)

end Verif.Analyzer.Cast
