import Verif.Basic

/-!
# Token trees

The part of rust-analyzer's syntax tree that attribute arguments are made of: tokens,
nested token trees (`TOKEN_TREE` nodes) and `ERROR` nodes. The tree itself is an input of
the model (the parser that builds it is outside); text offsets follow from the texts.
-/

namespace Verif.Ir

/-- Token kinds the code distinguishes (`SyntaxKind`, as matched in
`crates/ir/src/attrs/parser.rs`, `crates/ir/src/attrs/meta/value.rs` and
`crates/ir/src/attrs/meta/name.rs`); every other kind is `other`. -/
inductive TokKind where
  | ident | implKw | eq | comma | lParen | rParen | rBrack | underscore | at
  | intNumber | string | trueKw | falseKw | whitespace | comment | other
  deriving DecidableEq, Repr

/-- `SyntaxKind::is_trivia` (used at `crates/ir/src/attrs/parser.rs:131`). -/
def TokKind.isTrivia : TokKind → Bool
  | .whitespace | .comment => true
  | _ => false

/-- A syntax element inside an attribute's token tree: a token, a nested token tree or an
error node (`SyntaxElement`, as used in `crates/ir/src/attrs/parser.rs:22-127`). -/
inductive Elem where
  | tok (k : TokKind) (text : String)
  | tree (cs : List Elem)
  | error (cs : List Elem)

mutual

/-- Source text of an element (`SyntaxElement::to_string`, used at
`crates/ir/src/attrs/parser.rs:92` and `crates/ir/src/attrs/meta/value.rs:64`). -/
def Elem.text : Elem → String
  | .tok _ s => s
  | .tree cs => Elem.textList cs
  | .error cs => Elem.textList cs

/-- Source text of a sequence of elements (`join("")`,
`crates/ir/src/attrs/meta/value.rs:64`). -/
def Elem.textList : List Elem → String
  | [] => ""
  | c :: cs => c.text ++ Elem.textList cs

end

mutual

/-- Length in bytes of an element's text (`text_range().len()`, used throughout
`crates/ir/src/attrs/parser.rs`). -/
def Elem.len : Elem → Nat
  | .tok _ s => s.utf8ByteSize
  | .tree cs => Elem.lenList cs
  | .error cs => Elem.lenList cs

/-- Length in bytes of a sequence of elements (see `Elem.len`;
`crates/ir/src/attrs/parser.rs:22-127`). -/
def Elem.lenList : List Elem → Nat
  | [] => 0
  | c :: cs => c.len + Elem.lenList cs

end

mutual

/-- Kind of the last token below an element (`SyntaxNode::last_token`, used at
`crates/ir/src/attrs/parser.rs:35`; an element without tokens has none). -/
def Elem.lastTok : Elem → Option TokKind
  | .tok k _ => some k
  | .tree cs => Elem.lastTokList cs
  | .error cs => Elem.lastTokList cs

/-- See `Elem.lastTok` (`crates/ir/src/attrs/parser.rs:35`). -/
def Elem.lastTokList : List Elem → Option TokKind
  | [] => none
  | c :: cs => (Elem.lastTokList cs).or c.lastTok

end

namespace Elem

/-- `elem.kind() == T![,]`, `crates/ir/src/attrs/parser.rs:53`. -/
def isComma : Elem → Bool
  | .tok .comma _ => true
  | _ => false

/-- `elem.kind() == T![=]`, `crates/ir/src/attrs/parser.rs:71`. -/
def isEq : Elem → Bool
  | .tok .eq _ => true
  | _ => false

/-- `elem.kind() == SyntaxKind::TOKEN_TREE`, `crates/ir/src/attrs/parser.rs:75`. -/
def isTree : Elem → Bool
  | .tree _ => true
  | _ => false

/-- `elem.kind().is_trivia()`, `crates/ir/src/attrs/parser.rs:131`. -/
def isTrivia : Elem → Bool
  | .tok k _ => k.isTrivia
  | _ => false

/-- Opening parenthesis token (`TokenTree::l_paren_token`,
`crates/ir/src/attrs/parser.rs:23`). -/
def isLParen : Elem → Bool
  | .tok .lParen _ => true
  | _ => false

/-- Closing parenthesis token (`TokenTree::r_paren_token`,
`crates/ir/src/attrs/parser.rs:24`). -/
def isRParen : Elem → Bool
  | .tok .rParen _ => true
  | _ => false

/-- `is_error_wrapped_closing_bracket`, `crates/ir/src/attrs/parser.rs:31-38`. -/
def isErrorRBrack : Elem → Bool
  | .error cs => lastTokList cs == some .rBrack
  | _ => false

end Elem

/-- An element with its start offset (`SyntaxElement::text_range`, used throughout
`crates/ir/src/attrs/parser.rs` and `crates/ir/src/attrs/meta.rs`). -/
structure Placed where
  elem : Elem
  start : Nat

/-- End offset of a placed element (`text_range().end()`, e.g.
`crates/ir/src/attrs/parser.rs:59`). -/
def Placed.stop (p : Placed) : Nat := p.start + p.elem.len

end Verif.Ir
