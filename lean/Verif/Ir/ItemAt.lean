import Verif.Basic

/-!
# The attribute and the item around the token in focus

Models `crates/ir/src/tree/item_at_offset.rs:98-297` and `crates/ir/src/tree/ast_ext.rs:12-82`.
Which token is in focus is the subject of `Verif/Ir/Token.lean`.
-/

namespace Verif.Ir.ItemAt

/-- Items which ink! attributes can annotate, `crates/ir/src/tree/item_at_offset.rs:176-182,252-258`. -/
inductive Word where
  | «mod» | «trait» | «enum» | «struct» | «union» | «fn» | «impl»
deriving DecidableEq, Repr

/-- The token kinds which the search distinguishes, `crates/ir/src/tree/item_at_offset.rs:174-191`:
`SyntaxKind::is_trivia` (white space and comments), `SyntaxKind::is_punct` (here without `]`, which is
punctuation too), the keyword `pub`, keywords of items, and everything else (identifiers, literals and
other keywords). -/
inductive TokKind where
  | whitespace | comment | punct | rBrack | pub | word (w : Word) | other
deriving DecidableEq, Repr

/-- `SyntaxKind::is_trivia`, `crates/ir/src/tree/item_at_offset.rs:188`. -/
def TokKind.isTrivia : TokKind → Bool
  | .whitespace | .comment => true
  | _ => false

/-- `SyntaxKind::is_punct`, `crates/ir/src/tree/item_at_offset.rs:189`. -/
def TokKind.isPunct : TokKind → Bool
  | .punct | .rBrack => true
  | _ => false

/-- The node kinds which are distinguished, `crates/ir/src/tree/item_at_offset.rs:98-100,277-281`:
attributes (with the result of `InkAttribute::cast`), items (`none` for those without a keyword of
`Word`, such as constants), fields of structs and their lists, and everything else. -/
inductive NodeKind where
  | attr (ink : Bool) | item (w : Option Word) | recordField | recordFieldList | other
deriving DecidableEq, Repr

/-- A syntax tree (`SyntaxNode`, `SyntaxToken`, as used in `crates/ir/src/tree/item_at_offset.rs`). -/
inductive Syn where
  | tok (k : TokKind)
  | node (k : NodeKind) (children : List Syn)

/-- An ancestor of the token in focus: its kind and its children before (nearest first) and behind the
child which leads to the token (`SyntaxToken::parent`, `crates/ir/src/tree/ast_ext.rs:17`). -/
structure Frame where
  kind : NodeKind
  before : List Syn
  behind : List Syn

/-- The children of an ancestor, given the child which leads to the token
(`SyntaxNode::children_with_tokens`, on which `r_brack_token` and `mod_token` rely,
`crates/ir/src/tree/item_at_offset.rs:112,252`). -/
def Frame.children (f : Frame) (s : Syn) : List Syn := f.before.reverse ++ s :: f.behind

/-- The ancestor as a tree (`SyntaxToken::parent`, `crates/ir/src/tree/ast_ext.rs:17`). -/
def Frame.fill (f : Frame) (s : Syn) : Syn := .node f.kind (f.children s)

/-- An element with its ancestors, nearest first.
As used in `crates/ir/src/tree/item_at_offset.rs:98-145`. -/
structure Place where
  self : Syn
  up : List Frame

/-- `closest_ancestor_ast_type`, `crates/ir/src/tree/ast_ext.rs:12-23`: the child which leads to the
ancestor found, the ancestor, and its ancestors. -/
def climb (p : NodeKind → Bool) : Syn → List Frame → Option (Syn × Frame × List Frame)
  | _, [] => none
  | s, f :: fs => if p f.kind then some (s, f, fs) else climb p (f.fill s) fs

/-- `ast::Attr::can_cast`, `crates/ir/src/tree/ast_ext.rs:18`. -/
def NodeKind.isAttr : NodeKind → Bool
  | .attr _ => true
  | _ => false

/-- `ast::Item::can_cast`, `crates/ir/src/tree/ast_ext.rs:18`. -/
def NodeKind.isItem : NodeKind → Bool
  | .item _ => true
  | _ => false

/-- `parent_attr`, `crates/ir/src/tree/item_at_offset.rs:98-101`. -/
def parentAttr (p : Place) : Option (Syn × Frame × List Frame) := climb NodeKind.isAttr p.self p.up

/-- A token of a kind among the children.
As used in `crates/ir/src/tree/item_at_offset.rs:98-145`. -/
def hasTok (k : TokKind) (cs : List Syn) : Bool :=
  cs.any fun c => match c with | .tok t => t == k | _ => false

/-- `attr.r_brack_token().is_some()`, `crates/ir/src/tree/item_at_offset.rs:112`. -/
def closed (a : Syn × Frame × List Frame) : Bool := hasTok .rBrack (a.2.1.children a.1)

/-- `ast_ext::parent_ast_item` of an attribute, `crates/ir/src/tree/ast_ext.rs:27-45`. Simplified: an
attribute of the item is a child of it (the code compares the ranges of the attributes of the item). -/
def itemOfAttr (a : Syn × Frame × List Frame) : Option (Syn × Frame × List Frame) :=
  (climb NodeKind.isItem (a.2.1.fill a.1) a.2.2).filter fun _ =>
    match a.2.2 with
    | f :: _ => f.kind.isItem
    | [] => false

/-- `parent_ast_item`, `crates/ir/src/tree/item_at_offset.rs:109-123`. -/
def parentItem (p : Place) : Option (Syn × Frame × List Frame) :=
  match parentAttr p with
  | some a => if closed a then itemOfAttr a else none
  | none => climb NodeKind.isItem p.self p.up

mutual

/-- The tokens of a tree, in order, with their ancestors (`SyntaxToken::next_token`, `prev_token`,
`crates/ir/src/tree/item_at_offset.rs:81-90,170`). -/
def places : Syn → List Frame → List (TokKind × List Frame)
  | .tok t, up => [(t, up)]
  | .node k cs, up => placesList k [] cs up

/-- The tokens of the children of a node.
As used in `crates/ir/src/tree/item_at_offset.rs:87-90`. -/
def placesList (k : NodeKind) (before : List Syn) : List Syn → List Frame → List (TokKind × List Frame)
  | [], _ => []
  | c :: cs, up => places c (⟨k, before, cs⟩ :: up) ++ placesList k (c :: before) cs up

end

/-- The tokens of the children before a child, nearest first; `passed` are the children from there.
As used in `crates/ir/src/tree/item_at_offset.rs:87-90`. -/
def precedingIn (k : NodeKind) : (before passed : List Syn) → List Frame → List (TokKind × List Frame)
  | [], _, _ => []
  | c :: b, passed, up => (places c (⟨k, b, passed⟩ :: up)).reverse ++ precedingIn k b (c :: passed) up

/-- The tokens before an element, nearest first (`SyntaxToken::prev_token`,
`crates/ir/src/tree/item_at_offset.rs:87-90`). -/
def preceding : Syn → List Frame → List (TokKind × List Frame)
  | _, [] => []
  | s, f :: fs => precedingIn f.kind f.before (s :: f.behind) fs ++ preceding (f.fill s) fs

mutual

/-- The kinds of the tokens of a tree, in order.
As used in `crates/ir/src/tree/item_at_offset.rs:170`. -/
def leaves : Syn → List TokKind
  | .tok t => [t]
  | .node _ cs => leavesList cs

/-- The kinds of the tokens of a list of trees.
As used in `crates/ir/src/tree/item_at_offset.rs:170`. -/
def leavesList : List Syn → List TokKind
  | [] => []
  | c :: cs => leaves c ++ leavesList cs

end

/-- The kinds of the tokens behind an element (`SyntaxToken::next_token`,
`crates/ir/src/tree/item_at_offset.rs:170`). -/
def following : List Frame → List TokKind
  | [] => []
  | f :: fs => leavesList f.behind ++ following fs

/-- `prev_non_trivia_token`, `crates/ir/src/tree/item_at_offset.rs:87-90`. -/
def prevSolid (p : Place) : Option (TokKind × List Frame) :=
  (preceding p.self p.up).find? fun t => !t.1.isTrivia

/-- `probable_unclosed_parent_attr`, `crates/ir/src/tree/item_at_offset.rs:129-145`. -/
def probableAttr (p : Place) : Option ((Syn × Frame × List Frame) × Bool) :=
  match parentAttr p with
  | some a => if closed a then none else some (a, true)
  | none =>
    ((prevSolid p).bind fun t => climb NodeKind.isAttr (.tok t.1) t.2).bind fun a =>
      if closed a then none else some (a, false)

/-- `closest_item_which` with the two predicates, `crates/ir/src/tree/ast_ext.rs:61-82` and
`crates/ir/src/tree/item_at_offset.rs:168-192`. -/
def searchWord : List TokKind → Option Word
  | [] => none
  | t :: ts =>
    match t with
    | .word w => some w
    | _ => if !t.isTrivia && !t.isPunct && t != .pub then none else searchWord ts

/-- `probable_parent_ast_item_keyword`, `crates/ir/src/tree/item_at_offset.rs:164-205`. Simplified: the
kind of the keyword, without the flag whether the attribute covers it, which no caller reads. -/
def probableWord (p : Place) : Option Word := (probableAttr p).bind fun _ => searchWord (following p.up)

/-- The keyword of an item, `crates/ir/src/tree/item_at_offset.rs:250-260`. -/
def wordOf (i : Syn × Frame × List Frame) : Option Word :=
  match i.2.1.kind with
  | .item (some w) => if hasTok (.word w) (i.2.1.children i.1) then some w else none
  | _ => none

/-- `normalized_parent_ast_item_keyword`, `crates/ir/src/tree/item_at_offset.rs:248-266`; simplified as
`probableWord`. -/
def normalizedWord (p : Place) : Option Word :=
  match parentItem p with
  | some i => wordOf i
  | none => probableWord p

/-- `InkAttribute::cast`, `crates/ir/src/tree/item_at_offset.rs:105`. -/
def inkOf (a : Syn × Frame × List Frame) : Option (Syn × Frame × List Frame) :=
  if a.2.1.kind = .attr true then some a else none

/-- `normalized_parent_ink_attr`, `crates/ir/src/tree/item_at_offset.rs:104-106,150-156,231-238`, without
the flags. -/
def normalizedInk (p : Place) : Option (Syn × Frame × List Frame) :=
  ((parentAttr p).bind inkOf).or ((probableAttr p).bind fun a => inkOf a.1)

/-- What an attribute annotates, as far as suggestions depend on it: an item with its keyword, or a field
(list) of a struct (`SyntaxKind`, `crates/ir/src/tree/item_at_offset.rs:270-296`). -/
inductive Target where
  | item (w : Word) | field | fieldList
deriving DecidableEq, Repr

/-- `ast_ext::parent_ast_item(&parent)` is a struct, `crates/ir/src/tree/item_at_offset.rs:282-283`. -/
def inStruct (s : Syn) (up : List Frame) : Bool :=
  match climb NodeKind.isItem s up with
  | some (_, f, _) => f.kind == .item (some .struct)
  | none => false

/-- `normalized_parent_item_syntax_kind`, `crates/ir/src/tree/item_at_offset.rs:270-296`. -/
def target (p : Place) : Option Target :=
  match normalizedWord p with
  | some w => some (.item w)
  | none =>
    (normalizedInk p).bind fun a =>
      match a.2.2 with
      | [] => none
      | f :: fs =>
        if (f.kind = .recordField ∨ f.kind = .recordFieldList) ∧
            inStruct (f.fill (a.2.1.fill a.1)) fs = true then
          some (if closed a then (if f.kind = .recordField then .field else .fieldList) else .field)
        else none

end Verif.Ir.ItemAt
