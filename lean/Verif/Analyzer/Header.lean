import Verif.Analyzer.Edit
import Verif.Ir.TokenProps

/-!
# The rules for item headers and their quick fixes

The rules of `crates/analyzer/src/analysis/diagnostics/common.rs:1195-1694` and of the message,
constructor and `impl` diagnostics about the header of a function, trait, struct or `impl` item:
its visibility, modifiers, generic parameters, receiver, return type and body.

An item is modelled by the parts of its header in source order. The attributes and the text in
front of the item, and the text after it, are the rest of the file.
-/

namespace Verif.Analyzer.Header

open Verif.Ir.Token (bytes)

/-- What a part of a header is: the accessors of the syntax tree that the rules use
(`visibility`, `default_token`, `const_token`, `async_token`, `unsafe_token`, `auto_token`, `abi`,
`fn_token`/`trait_token`/`struct_token`, `name`, `generic_param_list`, `param_list`, `self_param`,
`params`, `dotdotdot_token`, `type_bound_list` with its colon, `generic_arg_list`, `ret_type`,
`where_clause`, `body`, `semicolon_token`; for example
`crates/analyzer/src/analysis/diagnostics/common.rs:1353,1357,1373,1389,1405,1421`).
`selfRef` is a receiver with an `&`, `selfVal` one without; `paramHead` is the `name:` of a variadic
parameter `name: ...`; `path` is a piece of the type of an `impl` block. -/
inductive Role where
  | vis | kDefault | kConst | kAsync | kUnsafe | kAuto | abi | kw | name | generics
  | lparen | selfRef | selfVal | param | paramHead | dots | comma | rparen
  | supers | path | typeArgs | ret | whereClause | body | semi
deriving DecidableEq, Repr

/-- A part of a header: its text, the trivia after it (white space and comments, up to the next
token), and for a return type `-> T` the text of `T`
(`crates/analyzer/src/analysis/diagnostics/message.rs:110-113`). -/
structure Part where
  role : Role
  text : List Char
  gap : List Char
  ty : List Char := []
deriving DecidableEq, Repr

/-- The text of a header.
As used in `crates/analyzer/src/analysis/diagnostics/common.rs:1195-1694`. -/
def render (h : List Part) : List Char := h.flatMap fun p => p.text ++ p.gap

/-- A part with the parts before and after it.
As used in `crates/analyzer/src/analysis/diagnostics/common.rs:1195-1694`. -/
structure Loc where
  pre : List Part
  part : Part
  post : List Part
deriving DecidableEq, Repr

/-- All parts with what is around them.
As used in `crates/analyzer/src/analysis/diagnostics/common.rs:1195-1694`. -/
def locs (pre : List Part) : List Part → List Loc
  | [] => []
  | p :: ps => ⟨pre, p, ps⟩ :: locs (pre ++ [p]) ps

/-- The first child of a kind, as the accessors of the syntax tree return it.
As used in `crates/analyzer/src/analysis/diagnostics/common.rs:1353,1357,1373,1389,1405,1421`. -/
def firstLoc (r : Role) (h : List Part) : Option Loc :=
  (locs [] h).find? fun l => l.part.role == r

/-- The start offset of a part; the item starts at offset `o`.
As used in `crates/analyzer/src/analysis/diagnostics/common.rs:1195-1694`. -/
def Loc.start (o : Nat) (l : Loc) : Nat := o + bytes (render l.pre)

/-- `text_range()` of a part.
As used in `crates/analyzer/src/analysis/diagnostics/common.rs:1195-1694`. -/
def Loc.range (o : Nat) (l : Loc) : Nat × Nat := (l.start o, l.start o + bytes l.part.text)

/-- `token_and_trivia_range` and `node_and_trivia_range`,
`crates/analyzer/src/analysis/utils.rs:1444-1467`: up to the next token that is not trivia. The last
part of the header is taken to be the last token of the file. -/
def Loc.triviaRange (o : Nat) (l : Loc) : Nat × Nat :=
  (l.start o, if l.post.isEmpty then l.start o + bytes l.part.text
    else l.start o + bytes l.part.text + bytes l.part.gap)

/-- `token_and_delimiter_range` and `node_and_delimiter_range`,
`crates/analyzer/src/analysis/utils.rs:1469-1530`, for a comma: with the next comma, or else with the
previous one. -/
def Loc.delimRange (o : Nat) (l : Loc) : Nat × Nat :=
  match l.post.head? with
  | some c =>
    if c.role = .comma then
      (l.start o, l.start o + bytes l.part.text + bytes l.part.gap + bytes c.text)
    else prevCase
  | none => prevCase
where
  /-- No comma follows, `crates/analyzer/src/analysis/utils.rs:1480-1494`. -/
  prevCase : Nat × Nat :=
    match l.pre.getLast? with
    | some c =>
      if c.role = .comma then (o + bytes (render l.pre.dropLast), l.start o + bytes l.part.text)
      else l.range o
    | none => l.range o

/-- The rules. As used in `crates/analyzer/src/analysis/diagnostics/common.rs:1195-1694`. -/
inductive Rule where
  | generics | const | async | «unsafe» | abi | variadic | pubOrInherited
  | auto | pub | supertraits | default | typeArgs
  | inheritedVis | pubVis | selfRef | returnsSelf | selfReceiver | returnType | body
deriving DecidableEq, Repr

/-- A report: the rule (which stands for the message text), the reported range (`none` for the
item itself or its declaration) and the edits of its quick fixes (each has one edit).
As used in `crates/analyzer/src/analysis/diagnostics/common.rs:1195-1694`. -/
structure Report where
  rule : Rule
  range : Option (Nat × Nat)
  fixes : List Edit
deriving DecidableEq, Repr

/-- `TextEdit::delete`. Models `crates/analyzer/src/analysis/text_edit.rs:57-64`. -/
def delete (r : Nat × Nat) : Edit := ⟨[], r.1, r.2, none⟩

/-- A rule that forbids a part, with a quick fix that removes it and the trivia after it; for example
`crates/analyzer/src/analysis/diagnostics/common.rs:1357-1371`. -/
def forbid (rule : Rule) (role : Role) (o : Nat) (h : List Part) : List Report :=
  ((firstLoc role h).map fun l =>
    ⟨rule, some (l.range o), [delete (l.triviaRange o)]⟩).toList

/-- A rule that forbids a part, with a quick fix that removes only the part: `ensure_no_generics`
and `ensure_no_trait_bounds` (`crates/analyzer/src/analysis/diagnostics/common.rs:1292-1340`) and the
bodies of trait functions (`:1668-1684`). -/
def forbidBare (rule : Rule) (role : Role) (o : Nat) (h : List Part) : List Report :=
  ((firstLoc role h).map fun l => ⟨rule, some (l.range o), [delete (l.range o)]⟩).toList

/-- The variadic parameters, `crates/analyzer/src/analysis/diagnostics/common.rs:1429-1452`. -/
def variadic (o : Nat) (h : List Part) : List Report :=
  ((locs [] h).filter fun l => l.part.role == .dots).map fun l =>
    ⟨.variadic, some (l.range o), [delete (l.delimRange o)]⟩

/-- `ensure_fn_invariants`, `crates/analyzer/src/analysis/diagnostics/common.rs:1343-1453`. -/
def fnInvariants (o : Nat) (h : List Part) : List Report :=
  forbidBare .generics .generics o h ++ forbid .const .kConst o h ++ forbid .async .kAsync o h ++
    forbid .unsafe .kUnsafe o h ++ forbid .abi .abi o h ++ variadic o h

/-- The text of an acceptable explicit visibility.
As used in `crates/analyzer/src/analysis/diagnostics/common.rs:1203,1465,1572`. -/
def pubText : List Char := ['p', 'u', 'b']

/-- The visibility test of `ensure_callable_invariants`,
`crates/analyzer/src/analysis/diagnostics/common.rs:1465-1515`. Its branch for a missing visibility is
never taken. -/
def callableVis (o : Nat) (h : List Part) : List Report :=
  match firstLoc .vis h with
  | some l =>
    if l.part.text = pubText then []
    else [⟨.pubOrInherited, some (l.range o),
      [⟨pubText, (l.range o).1, (l.range o).2, none⟩, delete (l.triviaRange o)]⟩]
  | none => []

/-- `ensure_callable_invariants`, `crates/analyzer/src/analysis/diagnostics/common.rs:1455-1519`. -/
def callableInvariants (o : Nat) (h : List Part) : List Report :=
  callableVis o h ++ fnInvariants o h

/-- A `pub` visibility is required: the visibility is replaced, or `pub ` is inserted before the
first of the given tokens; `crates/analyzer/src/analysis/diagnostics/common.rs:1200-1234` (structs),
`:1569-1604` (traits) and
`crates/analyzer/src/analysis/diagnostics/contract/ink_impl.rs:205-276` (callables). -/
def requirePub (rule : Rule) (order : List Role) (o : Nat) (h : List Part) : List Report :=
  match firstLoc .vis h with
  | some l =>
    if l.part.text = pubText then []
    else [⟨rule, some (l.range o), [⟨pubText, (l.range o).1, (l.range o).2, none⟩]⟩]
  | none =>
    [⟨rule, none, ((order.findSome? fun r => firstLoc r h).map fun l =>
      ⟨pubText ++ [' '], l.start o, l.start o, none⟩).toList⟩]

/-- `ensure_trait_invariants`, `crates/analyzer/src/analysis/diagnostics/common.rs:1521-1612`. -/
def traitInvariants (o : Nat) (h : List Part) : List Report :=
  forbid .unsafe .kUnsafe o h ++ forbid .auto .kAuto o h ++ forbidBare .generics .generics o h ++
    requirePub .pub [.kUnsafe, .kAuto, .kw] o h ++ forbidBare .supertraits .supers o h

/-- The header part of `ensure_impl_invariants`,
`crates/analyzer/src/analysis/diagnostics/contract/ink_impl.rs:99-159`. -/
def implInvariants (o : Nat) (h : List Part) : List Report :=
  forbid .default .kDefault o h ++ forbid .unsafe .kUnsafe o h ++
    forbidBare .generics .generics o h ++
    ((locs [] h).filter fun l => l.part.role == .typeArgs).map fun l =>
      ⟨.typeArgs, some (l.range o), [delete (l.range o)]⟩

/-- Where a callable is defined.
As used in `crates/analyzer/src/analysis/diagnostics/contract/ink_impl.rs:186-276`. -/
inductive Place where
  | inherentImpl | traitImpl | traitItem
deriving DecidableEq, Repr

/-- The visibility of callables in `impl` blocks,
`crates/analyzer/src/analysis/diagnostics/contract/ink_impl.rs:186-276`. -/
def implVis (w : Place) (o : Nat) (h : List Part) : List Report :=
  match w with
  | .traitImpl => forbid .inheritedVis .vis o h
  | .inherentImpl =>
    requirePub .pubVis [.kDefault, .kConst, .kAsync, .kUnsafe, .abi, .kw] o h
  | .traitItem => []

/-- No default implementation in traits,
`crates/analyzer/src/analysis/diagnostics/common.rs:1666-1684`. -/
def traitBody (w : Place) (o : Nat) (h : List Part) : List Report :=
  match w with
  | .traitItem => forbidBare .body .body o h
  | _ => []

/-- `params().next().is_some()`: the parameters other than a receiver.
As used in `crates/analyzer/src/analysis/diagnostics/message.rs:75-98`. -/
def hasParams (h : List Part) : Bool :=
  h.any fun p => p.role == .param || p.role == .paramHead || p.role == .dots

/-- `&self` or `&mut self`, followed by a comma if there are parameters
(`crates/analyzer/src/analysis/diagnostics/message.rs:75-98`). -/
def receiverText (mutable : Bool) (h : List Part) : List Char :=
  (if mutable then ['&', 'm', 'u', 't', ' ', 's', 'e', 'l', 'f'] else ['&', 's', 'e', 'l', 'f']) ++
    if hasParams h then [',', ' '] else []

/-- `ensure_receiver_is_self_ref`, `crates/analyzer/src/analysis/diagnostics/message.rs:58-103`. -/
def receiverSelfRef (o : Nat) (h : List Part) : List Report :=
  let self := (locs [] h).find? fun l => l.part.role == .selfRef || l.part.role == .selfVal
  if self.any fun l => l.part.role == .selfRef then []
  else [⟨.selfRef, none, ((firstLoc .lparen h).map fun l =>
    [⟨receiverText false h, (l.range o).2, (l.range o).2, none⟩,
     ⟨receiverText true h, (l.range o).2, (l.range o).2, none⟩]).getD []⟩]

/-- `Self`. As used in `crates/analyzer/src/analysis/diagnostics/message.rs:105-126`. -/
def selfType : List Char := ['S', 'e', 'l', 'f']

/-- `ensure_not_return_self`, `crates/analyzer/src/analysis/diagnostics/message.rs:105-126`. The type
is at the end of the return type node. -/
def notReturnSelf (o : Nat) (h : List Part) : List Report :=
  match firstLoc .ret h with
  | some l =>
    if l.part.ty = selfType then
      [⟨.returnsSelf, some ((l.range o).2 - bytes selfType, (l.range o).2),
        [delete (l.triviaRange o)]⟩]
    else []
  | none => []

/-- `ensure_no_self_receiver`, `crates/analyzer/src/analysis/diagnostics/common.rs:1273-1290`. -/
def noSelfReceiver (o : Nat) (h : List Part) : List Report :=
  (((locs [] h).find? fun l => l.part.role == .selfRef || l.part.role == .selfVal).map fun l =>
    ⟨.selfReceiver, some (l.range o), [delete (l.delimRange o)]⟩).toList

/-- The text that adds a return type
(`crates/analyzer/src/analysis/diagnostics/contract/constructor.rs:88-92`). -/
def retText : List Char := [' ', '-', '>', ' ', 'S', 'e', 'l', 'f']

/-- Its snippet.
As used in `crates/analyzer/src/analysis/diagnostics/contract/constructor.rs:88-92`. -/
def retSnippet : List Char := [' ', '-', '>', ' ', '$', '{', '1', ':', 'S', 'e', 'l', 'f', '}']

/-- `ensure_return_type`,
`crates/analyzer/src/analysis/diagnostics/contract/constructor.rs:60-97`; the parameter list ends
with its closing parenthesis. -/
def requireReturnType (o : Nat) (h : List Part) : List Report :=
  match firstLoc .ret h with
  | some _ => []
  | none => [⟨.returnType, none, ((firstLoc .rparen h).map fun l =>
      ⟨retText, (l.range o).2, (l.range o).2, some retSnippet⟩).toList⟩]

/-- The kinds of items whose headers are checked.
As used in `crates/analyzer/src/analysis/diagnostics/message.rs:33-47`. -/
inductive Kind where
  | message (w : Place) | constructor (w : Place) | extension | «trait» | «impl» | struct
deriving DecidableEq, Repr

/-- All reports about the header of an item:
* messages, `crates/analyzer/src/analysis/diagnostics/message.rs:33-47`,
* constructors, `crates/analyzer/src/analysis/diagnostics/contract/constructor.rs:32-48`,
* extension functions, `crates/analyzer/src/analysis/diagnostics/chain_extension/extension_fn.rs:38-49`,
* traits, `crates/analyzer/src/analysis/diagnostics/trait_definition.rs:39-48`,
* `impl` blocks, `crates/analyzer/src/analysis/diagnostics/contract/ink_impl.rs:42-44`,
* structs, `crates/analyzer/src/analysis/diagnostics/contract/storage.rs:22`,

with the reports about functions that the surrounding `impl` block or trait adds. (Repeated
diagnostics of one function are not distinguished.) -/
def reports (k : Kind) (o : Nat) (h : List Part) : List Report :=
  match k with
  | .message w =>
    implVis w o h ++ traitBody w o h ++ callableInvariants o h ++ receiverSelfRef o h ++
      notReturnSelf o h
  | .constructor w =>
    implVis w o h ++ callableInvariants o h ++ noSelfReceiver o h ++ requireReturnType o h
  | .extension => traitBody .traitItem o h ++ fnInvariants o h ++ noSelfReceiver o h
  | .trait => traitInvariants o h
  | .impl => implInvariants o h
  | .struct => requirePub .pub [.kw] o h

end Verif.Analyzer.Header
