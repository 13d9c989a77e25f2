import Verif.Basic

/-!
# The token under the cursor

Models `crates/ir/src/tree/item_at_offset.rs:20-92` and the token search of
`crates/ir/src/tree/ast_ext.rs:46-81`.
-/

namespace Verif.Ir.Token

/-- A token: whether it is trivia, and its text.
As used in `crates/ir/src/tree/item_at_offset.rs:20-92`. -/
structure Tok where
  trivia : Bool
  text : List Char
deriving DecidableEq, Repr

/-- UTF-8 length of a text. As used in `crates/ir/src/tree/item_at_offset.rs:20-92`. -/
def bytes : List Char → Nat
  | [] => 0
  | c :: cs => c.utf8Size + bytes cs

/-- A token with its start offset and its index in the file.
As used in `crates/ir/src/tree/item_at_offset.rs:20-92`. -/
structure At where
  tok : Tok
  start : Nat
  index : Nat
deriving DecidableEq, Repr

/-- End offset of a token. As used in `crates/ir/src/tree/item_at_offset.rs:20-92`. -/
def At.stop (a : At) : Nat := a.start + bytes a.tok.text

/-- The tokens of a file with their offsets. A file is its list of tokens.
As used in `crates/ir/src/tree/item_at_offset.rs:20-92`. -/
def place : Nat → Nat → List Tok → List At
  | _, _, [] => []
  | start, index, t :: ts =>
    ⟨t, start, index⟩ :: place (start + bytes t.text) (index + 1) ts

/-- `TokenAtOffset` (rowan, as used at `crates/ir/src/tree/item_at_offset.rs:12`). -/
inductive AtOffset where
  | none
  | single (t : At)
  | between (left right : At)
deriving DecidableEq, Repr

/-- The result for the tokens touching an offset, in order (rowan's `token_at_offset`,
called at `crates/ir/src/tree/item_at_offset.rs:21`). -/
def AtOffset.ofTouching : List At → AtOffset
  | [] => .none
  | [t] => .single t
  | l :: r :: _ => .between l r

/-- `SyntaxNode::token_at_offset` (rowan 0.15, called at
`crates/ir/src/tree/item_at_offset.rs:21`): the tokens whose closed range contains the
offset; the call panics (outer `none`) when the offset is outside the file. -/
def tokenAt (file : List Tok) (offset : Nat) : Option AtOffset :=
  if offset ≤ bytes (file.flatMap Tok.text) then
    some (.ofTouching
      ((place 0 0 file).filter fun t => t.start ≤ offset && offset ≤ t.stop))
  else Option.none

/-- `ItemAtOffset::focused_token`, `crates/ir/src/tree/item_at_offset.rs:34-48`. -/
def AtOffset.focused : AtOffset → Option At
  | none => Option.none
  | single t => some t
  | between l r => if l.tok.trivia && !r.tok.trivia then some r else some l

/-- `str::split_at` at a byte offset; `none` is its panic when the offset is not on a
character boundary (`crates/ir/src/tree/item_at_offset.rs:60`). -/
def splitAt : List Char → Nat → Option (List Char × List Char)
  | cs, 0 => some ([], cs)
  | [], _ + 1 => none
  | c :: cs, n + 1 =>
    if c.utf8Size ≤ n + 1 then
      (splitAt cs (n + 1 - c.utf8Size)).map fun (a, b) => (c :: a, b)
    else none

/-- `ItemAtOffset::focused_token_affixes`, `crates/ir/src/tree/item_at_offset.rs:51-62`;
outer `none` is a panic. -/
def affixes (a : AtOffset) (offset : Nat) : Option (Option (List Char × List Char)) :=
  match a.focused with
  | some t =>
    if t.start ≤ offset then (splitAt t.tok.text (offset - t.start)).map some else none
  | Option.none => some Option.none

/-- `ItemAtOffset::focused_token_prefix`, `crates/ir/src/tree/item_at_offset.rs:65-68`, from
the affixes. -/
def prefixOf (a : Option (List Char × List Char)) : Option (List Char) :=
  a.bind fun x => if x.1 ≠ [] then some x.1 else none

/-- `ItemAtOffset::focused_token_suffix`, `crates/ir/src/tree/item_at_offset.rs:71-74`, from
the affixes. -/
def suffixOf (a : Option (List Char × List Char)) : Option (List Char) :=
  a.bind fun x => if x.2 ≠ [] then some x.2 else none

/-- `ast_ext::closest_item_which`, `crates/ir/src/tree/ast_ext.rs:61-81`, for a step to the
next element of a list (the tokens after the start, nearest first). -/
def closestWhich (goal halt : α → Bool) : List α → Option α
  | [] => none
  | x :: xs => if goal x then some x else if halt x then none else closestWhich goal halt xs

/-- `ItemAtOffset::next_non_trivia_token`, `crates/ir/src/tree/item_at_offset.rs:93-96`
(with `closest_non_trivia_token`, `crates/ir/src/tree/ast_ext.rs:46-58`). -/
def nextNonTrivia (file : List Tok) (t : At) : Option At :=
  closestWhich (fun x => !x.tok.trivia) (fun x => !x.tok.trivia)
    ((place 0 0 file).drop (t.index + 1))

/-- `ItemAtOffset::prev_non_trivia_token`, `crates/ir/src/tree/item_at_offset.rs:87-90`. -/
def prevNonTrivia (file : List Tok) (t : At) : Option At :=
  closestWhich (fun x => !x.tok.trivia) (fun x => !x.tok.trivia)
    ((place 0 0 file).take t.index).reverse

end Verif.Ir.Token
