import Verif.Analyzer.Edit
import Verif.Analyzer.Overlap
import Verif.Analyzer.Templates

/-!
# The rules for the members of ink! traits and for inline contract modules

Models `common::ensure_trait_item_invariants`
(`crates/analyzer/src/analysis/diagnostics/common.rs:1627-1694`) with the handlers that the chain
extension diagnostics (`crates/analyzer/src/analysis/diagnostics/chain_extension.rs:149-383`) and the
trait definition diagnostics (`crates/analyzer/src/analysis/diagnostics/trait_definition.rs:72-164`)
give it, and `ensure_inline_module`
(`crates/analyzer/src/analysis/diagnostics/contract.rs:119-167`).

The body of a trait is modelled by its members in source order, each with its text. Not modelled
here: the diagnostics run on functions that are ink! messages or extensions (see `Header.lean`),
and the removal range of wildcard selectors (see `Remove.lean`).
-/

namespace Verif.Analyzer.Members

open Verif.Ir
open Verif.Ir.Token (bytes)

/-! ## Associated types -/

/-- The parts of a type alias that the rules look at: `name`, `generic_param_list`,
`type_bound_list` with its colon, the `where` clause, `eq_token`, `ty`, `semicolon_token`
(`crates/analyzer/src/analysis/diagnostics/chain_extension.rs:157,185,191,198-220`). Attributes and
comments in front of the alias are part of the `type` keyword here. -/
inductive Role where
  | kw | name | generics | bounds | cond | eq | ty | semi
deriving DecidableEq, Repr

/-- A part of a type alias: its text and the trivia up to the next part.
As used in `crates/analyzer/src/analysis/diagnostics/chain_extension.rs:154-236`. -/
structure Piece where
  role : Role
  text : List Char
  gap : List Char
deriving DecidableEq, Repr

/-- The text of a type alias.
As used in `crates/analyzer/src/analysis/diagnostics/chain_extension.rs:154-236`. -/
def renderPieces (a : List Piece) : List Char := a.flatMap fun p => p.text ++ p.gap

/-- The accessors of the syntax tree: the first part of a kind, with what is before and after.
As used in `crates/analyzer/src/analysis/diagnostics/chain_extension.rs:154-236`. -/
def findPiece (r : Role) : List Piece → Option (List Piece × Piece × List Piece)
  | [] => none
  | p :: ps =>
    if p.role = r then some ([], p, ps)
    else (findPiece r ps).map fun x => (p :: x.1, x.2.1, x.2.2)

/-- The rules (standing for the message texts): `const` items, macro calls, associated types
(trait definitions), default implementations, functions without the required attribute, wildcard
selectors; for the associated types of chain extensions the name, generic parameters, bounds and
the default type; a missing and a repeated `ErrorCode` type.
As used in `crates/analyzer/src/analysis/diagnostics/chain_extension.rs:149-383`. -/
inductive Rule where
  | const | macro | assocType | body | annotation | wildcard
  | named | generics | bounds | default | missing | duplicate
deriving DecidableEq, Repr

/-- A report: the rule, the reported range (`none` for the declaration of the trait or function)
and the edits of its quick fix, if it has one.
As used in `crates/analyzer/src/analysis/diagnostics/chain_extension.rs:149-383`. -/
structure Report where
  rule : Rule
  range : Option (Nat × Nat)
  fix : Option (List Edit)
deriving DecidableEq, Repr

/-- A report on a piece of text with a quick fix that deletes it; for example
`crates/analyzer/src/analysis/diagnostics/common.rs:1640-1654`. -/
def removal (rule : Rule) (r : Nat × Nat) : Report := ⟨rule, some r, some [⟨[], r.1, r.2, none⟩]⟩

/-- The required name.
As used in `crates/analyzer/src/analysis/diagnostics/chain_extension.rs:157-183`. -/
def errorCode : List Char := chars! "ErrorCode"

/-- `text_range()` of a part of an alias that starts at offset `o`.
As used in `crates/analyzer/src/analysis/diagnostics/chain_extension.rs:154-236`. -/
def pieceRange (o : Nat) (x : List Piece × Piece × List Piece) : Nat × Nat :=
  (o + bytes (renderPieces x.1), o + bytes (renderPieces x.1) + bytes x.2.1.text)

/-- The name of an associated type of a chain extension,
`crates/analyzer/src/analysis/diagnostics/chain_extension.rs:157-183`. -/
def namedReports (o : Nat) (a : List Piece) : List Report :=
  match findPiece .name a with
  | some x =>
    if x.2.1.text = errorCode then []
    else [⟨.named, some (pieceRange o x),
      some [⟨errorCode, (pieceRange o x).1, (pieceRange o x).2, none⟩]⟩]
  | none => [⟨.named, none, none⟩]

/-- `ensure_no_generics` and `ensure_no_trait_bounds`,
`crates/analyzer/src/analysis/diagnostics/common.rs:1297-1341`. -/
def forbidPiece (rule : Rule) (role : Role) (o : Nat) (a : List Piece) : List Report :=
  match findPiece role a with
  | some x => [removal rule (pieceRange o x)]
  | none => []

/-- Where the default type is inserted,
`crates/analyzer/src/analysis/diagnostics/chain_extension.rs:200-208`. -/
def defaultOffset (o : Nat) (a : List Piece) : Nat :=
  match findPiece .eq a with
  | some x => (pieceRange o x).2
  | none =>
    match findPiece .semi a with
    | some x => (pieceRange o x).1
    | none => o

/-- The prefix and suffix of the inserted default type,
`crates/analyzer/src/analysis/diagnostics/chain_extension.rs:209-218`. -/
def defaultAffixes (a : List Piece) : List Char × List Char :=
  (if (findPiece .eq a).isNone then [' ', '=', ' '] else [],
    if (findPiece .semi a).isNone then [';'] else [])

/-- The default type of an associated type of a chain extension,
`crates/analyzer/src/analysis/diagnostics/chain_extension.rs:198-235`. -/
def defaultReports (o : Nat) (a : List Piece) : List Report :=
  if (findPiece .ty a).isNone then
    let x := defaultAffixes a
    [⟨.default, some (o, o + bytes (renderPieces a)),
      some [⟨x.1 ++ ['(', ')'] ++ x.2, defaultOffset o a, defaultOffset o a,
        some (x.1 ++ ['$', '{', '1', ':', '(', ')', '}'] ++ x.2)⟩]⟩]
  else []

/-- `assoc_type_validator` of chain extensions,
`crates/analyzer/src/analysis/diagnostics/chain_extension.rs:154-236`. -/
def aliasReports (o : Nat) (a : List Piece) : List Report :=
  namedReports o a ++ forbidPiece .generics .generics o a ++ forbidPiece .bounds .bounds o a ++
    defaultReports o a

/-! ## Associated functions -/

/-- An attribute of a function: the kind of an ink! attribute (`none` for other attributes), its
text, the trivia after it, and the kinds of its arguments whose value is `_`.
As used in `crates/analyzer/src/analysis/diagnostics/chain_extension.rs:264-320`. -/
structure FnAttr where
  ink : Option AttrKind
  text : List Char
  gap : List Char
  wildcards : List ArgKind := []
deriving DecidableEq, Repr

/-- An associated function: the comments in front of its attributes, its attributes, its
declaration (with the trivia, and with the semicolon if it has one) and its body.
As used in `crates/analyzer/src/analysis/diagnostics/chain_extension.rs:264-320`. -/
structure FnMember where
  docs : List Char
  attrs : List FnAttr
  decl : List Char
  body : Option (List Char)
deriving DecidableEq, Repr

/-- The text of attributes.
As used in `crates/analyzer/src/analysis/diagnostics/chain_extension.rs:264-320`. -/
def renderAttrs (l : List FnAttr) : List Char := l.flatMap fun a => a.text ++ a.gap

/-- The text of a function.
As used in `crates/analyzer/src/analysis/diagnostics/chain_extension.rs:264-320`. -/
def FnMember.render (f : FnMember) : List Char :=
  f.docs ++ renderAttrs f.attrs ++ f.decl ++ f.body.getD []

/-- The attributes with their ranges; the first one starts at offset `o`.
As used in `crates/analyzer/src/analysis/diagnostics/chain_extension.rs:264-320`. -/
def placeAttrs : Nat → List FnAttr → List (FnAttr × (Nat × Nat))
  | _, [] => []
  | o, a :: as => (a, (o, o + bytes a.text)) :: placeAttrs (o + bytes a.text + bytes a.gap) as

/-- `ink_attrs`, with the kinds and ranges.
As used in `crates/analyzer/src/analysis/diagnostics/chain_extension.rs:264-320`. -/
def inkAttrs (o : Nat) (f : FnMember) : List (AttrKind × (Nat × Nat)) :=
  (placeAttrs (o + bytes f.docs) f.attrs).filterMap fun x => x.1.ink.map fun k => (k, x.2)

/-- `first_ink_attribute_insert_offset` and `ink_attribute_insert_offset`,
`crates/analyzer/src/analysis/utils.rs:971-999,1126-1132`: the start of the first ink! attribute, or
else the first token after the attributes and comments of the function, which is where its
declaration starts. -/
def attrOffset (o : Nat) (f : FnMember) : Nat :=
  match inkAttrs o f with
  | x :: _ => x.2.1
  | [] => o + bytes f.docs + bytes (renderAttrs f.attrs)

/-- The default implementation of a function,
`crates/analyzer/src/analysis/diagnostics/common.rs:1672-1687`. -/
def bodyReports (o : Nat) (f : FnMember) : List Report :=
  match f.body with
  | some b =>
    let s := o + bytes (f.docs ++ renderAttrs f.attrs ++ f.decl)
    [removal .body (s, s + bytes b)]
  | none => []

/-- The quick fix for a function without the required attribute: the attribute is inserted and the
ink! attributes that are not kept are deleted
(`crates/analyzer/src/analysis/diagnostics/chain_extension.rs:297-315`,
`crates/analyzer/src/analysis/diagnostics/trait_definition.rs:106-129`). -/
def annotate (text snippet : List Char) (isSnippet : Bool) (keep : AttrKind → Bool) (o : Nat)
    (f : FnMember) : List Edit :=
  ⟨text, attrOffset o f, attrOffset o f, if isSnippet then some snippet else none⟩ ::
    ((inkAttrs o f).filter fun x => !keep x.1).map fun x => ⟨[], x.2.1, x.2.2, none⟩

/-- Whether a function is an ink! extension or function (`find_map(ink_attr_to_entity)`,
`crates/analyzer/src/analysis/diagnostics/chain_extension.rs:250-251`), or an ink! message
(`crates/analyzer/src/analysis/diagnostics/trait_definition.rs:86-87`): whether it has an attribute of
that kind. -/
def hasKind (k : ArgKind) (f : FnMember) : Bool := f.attrs.any fun a => a.ink == some (.arg k)

/-- The attribute text `#[ink(k = i)]`,
`crates/analyzer/src/analysis/diagnostics/chain_extension.rs:302-304`. -/
def idAttrText (k : ArgKind) (i : List Char) : List Char :=
  chars! "#[ink(" ++ k.name.toList ++ chars! " = " ++ i ++ chars! ")]"

/-- Whether the function has an ink! argument `extension` (`ink_arg_by_kind`,
`crates/analyzer/src/analysis/diagnostics/chain_extension.rs:286-290`). Here, whether one of its
attributes is of that kind; arguments that do not decide the kind of their attribute are not
modelled. -/
def hasExtensionArg (f : FnMember) : Bool := hasKind .extension f

/-- What `assoc_fn_validator` keeps,
`crates/analyzer/src/analysis/diagnostics/chain_extension.rs:309-311`. -/
def keepForChain (k : ArgKind) (a : AttrKind) : Bool :=
  a == .arg k || a == .arg .handleStatus

/-- `assoc_fn_validator`, `crates/analyzer/src/analysis/diagnostics/chain_extension.rs:264-320`, with the
ids that are taken, before and after. -/
def chainFnReports (v : Version) (o : Nat) (f : FnMember) (used : List Nat) :
    List Report × List Nat :=
  if hasKind (idArgKind v) f then ([], used)
  else
    let x := takeId (maxId v) used
    let id := (x.1.getD 1).repr.toList
    if idArgKind v = .function ∧ hasExtensionArg f then ([], x.2)
    else ([⟨.annotation, none, some (annotate (idAttrText (idArgKind v) id)
      (idAttrText (idArgKind v) (['$', '{', '1', ':'] ++ id ++ ['}'])) true
      (keepForChain (idArgKind v)) o f)⟩], x.2)

/-- What is kept for a trait definition,
`crates/analyzer/src/analysis/diagnostics/trait_definition.rs:114-123`. -/
def keepForTrait (a : AttrKind) : Bool :=
  a == .arg .message || a == .arg .default || a == .arg .payable || a == .arg .selector

/-- The function handler of trait definitions,
`crates/analyzer/src/analysis/diagnostics/trait_definition.rs:81-154`; the edits and ranges for wildcards are
not modelled. -/
def traitFnReports (o : Nat) (f : FnMember) : List Report :=
  (if hasKind .message f then []
  else [⟨.annotation, none, some (annotate (chars! "#[ink(message)]") [] false keepForTrait o f)⟩]) ++
  (f.attrs.filter fun a => a.ink.isSome).flatMap fun a =>
    a.wildcards.map fun _ => ⟨.wildcard, none, none⟩

/-! ## Bodies of traits -/

/-- A member of a trait (`ast::AssocItem`).
As used in `crates/analyzer/src/analysis/diagnostics/common.rs:1637-1693`. -/
inductive Member where
  | const (text : List Char)
  | macro (text : List Char)
  | alias (a : List Piece)
  | fn (f : FnMember)
deriving DecidableEq, Repr

/-- The text of a member.
As used in `crates/analyzer/src/analysis/diagnostics/common.rs:1637-1693`. -/
def Member.render : Member → List Char
  | .const t | .macro t => t
  | .alias a => renderPieces a
  | .fn f => f.render

/-- The body of a trait: the members with the trivia after each.
As used in `crates/analyzer/src/analysis/diagnostics/common.rs:1637-1693`. -/
abbrev Body := List (Member × List Char)

/-- The text of a body.
As used in `crates/analyzer/src/analysis/diagnostics/common.rs:1637-1693`. -/
def renderBody (b : Body) : List Char := b.flatMap fun x => x.1.render ++ x.2

/-- `text_range()` of a member at offset `o`.
As used in `crates/analyzer/src/analysis/diagnostics/common.rs:1637-1693`. -/
def memberRange (o : Nat) (m : Member) : Nat × Nat := (o, o + bytes m.render)

/-- The loop of `ensure_trait_item_invariants` for chain extensions,
`crates/analyzer/src/analysis/diagnostics/common.rs:1637-1693`. -/
def chainMembers (v : Version) : Nat → Body → List Nat → List Report
  | _, [], _ => []
  | o, (m, g) :: b, used =>
    let next := o + bytes m.render + bytes g
    match m with
    | .const _ => removal .const (memberRange o m) :: chainMembers v next b used
    | .macro _ => removal .macro (memberRange o m) :: chainMembers v next b used
    | .alias a => aliasReports o a ++ chainMembers v next b used
    | .fn f =>
      let x := chainFnReports v o f used
      bodyReports o f ++ x.1 ++ chainMembers v next b x.2

/-- The loop of `ensure_trait_item_invariants` for trait definitions,
`crates/analyzer/src/analysis/diagnostics/common.rs:1637-1693`, with the handler for associated types of
`crates/analyzer/src/analysis/diagnostics/trait_definition.rs:155-163`. -/
def traitMembers : Nat → Body → List Report
  | _, [] => []
  | o, (m, g) :: b =>
    (match m with
    | .const _ => [removal .const (memberRange o m)]
    | .macro _ => [removal .macro (memberRange o m)]
    | .alias _ => [removal .assocType (memberRange o m)]
    | .fn f => bodyReports o f ++ traitFnReports o f) ++
    traitMembers (o + bytes m.render + bytes g) b

/-- The `ErrorCode` types with their ranges,
`crates/analyzer/src/analysis/diagnostics/chain_extension.rs:335-344`. -/
def errorCodes : Nat → Body → List (Nat × Nat)
  | _, [] => []
  | o, (m, g) :: b =>
    (match m with
    | .alias a =>
      match findPiece .name a with
      | some x => if x.2.1.text = errorCode then [memberRange o m] else []
      | none => []
    | _ => []) ++ errorCodes (o + bytes m.render + bytes g) b

/-- `ensure_error_code_type_quantity`,
`crates/analyzer/src/analysis/diagnostics/chain_extension.rs:329-383`, with `add_error_code`
(`crates/analyzer/src/analysis/actions/entity.rs:377-400`) and `add_error_code_type`
(`crates/analyzer/src/analysis/text_edit/common.rs:292-301`): the type is inserted just after the
opening brace (offset `lo`), indented like a child of the trait. -/
def quantityReports (indent : List Char) (lo o : Nat) (b : Body) : List Report :=
  match errorCodes o b with
  | [] => [⟨.missing, none, some [⟨applyIndenting errorCodePlain indent, lo, lo,
      some (applyIndenting errorCodeSnippet indent)⟩]⟩]
  | _ :: rest => rest.map (removal .duplicate)

/-- `ensure_trait_item_invariants` and `ensure_error_code_type_quantity` of a chain extension,
`crates/analyzer/src/analysis/diagnostics/chain_extension.rs:59,67`. The opening brace ends at offset `lo`, the first member
starts at offset `o`, the ids of the ink! functions of the chain extension are `ids`
(`init_unavailable_ids`, `:498-520`). -/
def chainReports (v : Version) (indent : List Char) (ids : List Nat) (lo o : Nat) (b : Body) :
    List Report :=
  chainMembers v o b ids ++ quantityReports indent lo o b

/-! ## Inline contract modules -/

/-- A `mod` item with an ink! contract attribute: attributes and declaration up to the name, the
trivia after it, the text of an item list `{ … }` and whether there is a semicolon.
As used in `crates/analyzer/src/analysis/diagnostics/contract.rs:119-148`. -/
structure ModItem where
  decl : List Char
  gap : List Char
  items : Option (List Char)
  semi : Bool
deriving DecidableEq, Repr

/-- The text of a module.
As used in `crates/analyzer/src/analysis/diagnostics/contract.rs:119-148`. -/
def ModItem.render (m : ModItem) : List Char :=
  m.decl ++ (if m.items.isSome ∨ m.semi then m.gap else []) ++ m.items.getD [] ++
    (if m.semi then [';'] else [])

/-- The edit of the quick fix of `ensure_inline_module` for a module,
`crates/analyzer/src/analysis/diagnostics/contract.rs:119-148`; `none` if nothing is reported. The contract
starts at offset `o`. -/
def inlineModule (o : Nat) (m : ModItem) : Option Edit :=
  if m.items.isNone then
    some (if m.semi then
      ⟨[' ', '{', '}'], o + bytes (m.decl ++ m.gap), o + bytes (m.decl ++ m.gap) + 1, none⟩
    else ⟨['{', '}'], o, o + bytes m.render, none⟩)
  else none

end Verif.Analyzer.Members
