import Verif.Analyzer.Suggest
import Verif.Analyzer.Edit

/-!
# Completions: the cursor and attribute macros

Models `macro_completions`, `crates/analyzer/src/analysis/completions.rs:60-280`.
-/

namespace Verif.Analyzer.Complete

open Verif.Ir
open Verif.Ir.Token (bytes)

/-- The token kinds that completions distinguish
(`crates/analyzer/src/analysis/completions.rs:72,75,294-303,484,529`); every other kind is `other`. -/
inductive Kind where
  | whitespace | comment | lBrack | lParen | comma | ident | colon | other
deriving DecidableEq, Repr

/-- `SyntaxKind::is_trivia` (`crates/analyzer/src/analysis/completions.rs:495`). -/
def Kind.isTrivia : Kind → Bool
  | .whitespace | .comment => true
  | _ => false

/-- A token of the file. As used in `crates/analyzer/src/analysis/completions.rs:66-113`. -/
structure CTok where
  kind : Kind
  text : List Char
deriving DecidableEq, Repr

/-- Text of a list of tokens (`SyntaxNode::text`, of which the ranges of
`crates/analyzer/src/analysis/completions.rs:108-113` are ranges). -/
def textOf (ts : List CTok) : List Char := ts.flatMap CTok.text

/-- A file with the token in focus (`ItemAtOffset`, `crates/ir/src/tree/item_at_offset.rs:9-48`): the
tokens before it (nearest first), the token, whose text the offset splits in two, and the tokens
after it. Which token is in focus is the subject of `Verif/Ir/Token.lean`. -/
structure Cursor where
  left : List CTok
  kind : Kind
  pre : List Char
  post : List Char
  right : List CTok
deriving DecidableEq, Repr

/-- The text of the token in focus (`focused_token.text()`,
`crates/analyzer/src/analysis/completions.rs:78`). -/
def Cursor.text (c : Cursor) : List Char := c.pre ++ c.post

/-- The token in focus (`focused_token`, `crates/analyzer/src/analysis/completions.rs:69`). -/
def Cursor.focus (c : Cursor) : CTok := ⟨c.kind, c.text⟩

/-- The text of the file (`InkFile::syntax`, `crates/analyzer/src/analysis/completions.rs:66`). -/
def Cursor.doc (c : Cursor) : List Char := textOf c.left.reverse ++ (c.text ++ textOf c.right)

/-- Start of the token in focus (`focused_token.text_range().start()`,
`crates/analyzer/src/analysis/completions.rs:112`). -/
def Cursor.start (c : Cursor) : Nat := bytes (textOf c.left.reverse)

/-- End of the token in focus (`focused_token.text_range().end()`,
`crates/analyzer/src/analysis/completions.rs:109`). -/
def Cursor.stop (c : Cursor) : Nat := c.start + bytes c.text

/-- The offset of the cursor (`crates/analyzer/src/analysis/completions.rs:63`). -/
def Cursor.offset (c : Cursor) : Nat := c.start + bytes c.pre

/-- The cursor at an offset of a file (`file.item_at_offset(offset)`,
`crates/analyzer/src/analysis/completions.rs:66`, with the focused token of
`crates/ir/src/tree/item_at_offset.rs:34-48`); `none` if no token is in focus, or if the offset is not in
the file or not on a character. -/
def cursorAt (file : List CTok) (off : Nat) : Option Cursor :=
  (Token.tokenAt (file.map fun t => ⟨t.kind.isTrivia, t.text⟩) off).bind fun a =>
    a.focused.bind fun t =>
      (file[t.index]?).bind fun x =>
        (Token.splitAt x.text (off - t.start)).map fun y =>
          ⟨(file.take t.index).reverse, x.kind, y.1, y.2, file.drop (t.index + 1)⟩

/-- `focused_token_prefix`, `crates/ir/src/tree/item_at_offset.rs:65-68`. -/
def Cursor.typed (c : Cursor) : Option (List Char) := if c.pre.isEmpty then none else some c.pre

/-- The tokens that are not trivia (`closest_non_trivia_token`, `crates/ir/src/tree/ast_ext.rs:46-58`,
which steps over the others). -/
def solid (ts : List CTok) : List CTok := ts.filter fun t => !t.kind.isTrivia

/-- `prev_non_trivia_token`, `crates/ir/src/tree/item_at_offset.rs:87-90`. -/
def Cursor.prev (c : Cursor) : Option CTok := (solid c.left).head?

/-- The token before `prev_non_trivia_token`,
`crates/analyzer/src/analysis/completions.rs:93-100`. -/
def Cursor.prevPrev (c : Cursor) : Option CTok := (solid c.left).tail.head?

/-- `matches!(text, "ink" | "ink_e2e")`, `crates/analyzer/src/analysis/completions.rs:78`. -/
def isCrate (t : List Char) : Bool := t == "ink".toList || t == "ink_e2e".toList

/-- `matches!(text, "::" | ":")`, `crates/analyzer/src/analysis/completions.rs:80`. -/
def isColon (t : List Char) : Bool := t == "::".toList || t == ":".toList

/-- `focused_token_is_left_bracket`, `crates/analyzer/src/analysis/completions.rs:72`. -/
def Cursor.onBracket (c : Cursor) : Bool := c.kind == .lBrack

/-- `prev_token_is_left_bracket`, `crates/analyzer/src/analysis/completions.rs:73-75`. -/
def Cursor.afterBracket (c : Cursor) : Bool :=
  match c.prev with
  | some t => t.kind == .lBrack
  | none => false

/-- `focused_token_is_ink_crate_name_or_colon_prefix`,
`crates/analyzer/src/analysis/completions.rs:78-80`. -/
def Cursor.onCrateOrColon (c : Cursor) : Bool := isCrate c.text || isColon c.text

/-- `focused_token_is_in_ink_crate_path_segment`,
`crates/analyzer/src/analysis/completions.rs:81-104`. -/
def Cursor.inPath (c : Cursor) : Bool :=
  (isCrate c.text && c.afterBracket) ||
  (isColon c.text && (match c.prev with | some t => isCrate t.text | none => false)) ||
  ((match c.prev with | some t => t.text == "::".toList | none => false) &&
    (match c.prevPrev with | some t => isCrate t.text | none => false))

/-- What is read of the attribute around the cursor (`normalized_parent_attr`,
`crates/analyzer/src/analysis/completions.rs:71`): the first segment of its path (line 173-176), whether
the item has other ink! attributes or macros (lines 117-126), the kind of the item
(`normalized_parent_ast_item_keyword`, line 129-131; the code has the keyword) and the kinds of the
attributes of the enclosing ink! scope (lines 199-205; empty if there is none). -/
structure MacroSite where
  segment : Option (List Char)
  otherInk : Bool
  otherMacro : Bool
  item : Option ItemKind
  scope : List AttrKind

/-- The macros offered in a path when the item is not known,
`crates/analyzer/src/analysis/completions.rs:141-160`. -/
def allMacros : Version → List MacroKind
  | .v5 => [.chainExtension, .contract, .event, .scaleDerive, .storageItem, .test, .traitDefinition,
      .e2eTest]
  | .v4 => [.chainExtension, .contract, .storageItem, .test, .traitDefinition, .e2eTest]

/-- The macros by item, `crates/analyzer/src/analysis/completions.rs:128-167`. -/
def byItem (v : Version) (c : Cursor) (s : MacroSite) : List MacroKind :=
  match s.item with
  | some i => macrosBySyntax i v
  | none => if c.inPath then allMacros v else []

/-- The filter by the crate that is already there,
`crates/analyzer/src/analysis/completions.rs:169-182`. -/
def keepCrate (c : Cursor) (s : MacroSite) (ms : List MacroKind) : List MacroKind :=
  if c.inPath && !isCrate c.text then
    match s.segment with
    | some x => ms.filter fun m => m.crateName.toList == x
    | none => ms
  else ms

/-- The filter by prefix, `crates/analyzer/src/analysis/completions.rs:184-195`. -/
def keepPrefix (c : Cursor) (ms : List MacroKind) : List MacroKind :=
  if !c.onBracket && !c.afterBracket && !c.onCrateOrColon then
    match c.typed with
    | some p => ms.filter fun m => p.isPrefixOf m.macroName.toList
    | none => ms
  else ms

/-- `ink_macro_suggestions`, `crates/analyzer/src/analysis/completions.rs:115-206`. -/
def macroSuggestions (v : Version) (c : Cursor) (s : MacroSite) : List MacroKind :=
  if s.otherInk then []
  else removeMacrosForScope v s.scope (keepPrefix c (keepCrate c s (byItem v c s)))

/-- `edit_range`, `crates/analyzer/src/analysis/completions.rs:107-113`. -/
def macroRange (c : Cursor) : Nat × Nat :=
  if c.onBracket then (c.stop, c.stop) else (c.start, c.stop)

/-- The text for a macro, `crates/analyzer/src/analysis/completions.rs:211-234`. -/
def macroText (c : Cursor) (m : MacroKind) : List Char :=
  (if c.onBracket || c.afterBracket || isCrate c.text then m.crateName.toList else []) ++
  ((if c.onBracket || c.afterBracket || c.onCrateOrColon then "::".toList else []) ++
    m.macroName.toList)

/-- A completion, `crates/analyzer/src/analysis/completions.rs:16-30`, without the kind; the range is
that of the edit. -/
structure Item where
  label : List Char
  edit : Edit
  detail : String
deriving DecidableEq, Repr

/-- A completion for a macro, `crates/analyzer/src/analysis/completions.rs:235-241`. -/
def macroItem (c : Cursor) (m : MacroKind) : Item :=
  ⟨macroText c m, ⟨macroText c m, (macroRange c).1, (macroRange c).2, none⟩,
    "ink! " ++ m.display ++ " attribute macro."⟩

/-- The names of the crates, `crates/analyzer/src/analysis/completions.rs:248-255`. -/
def crateSuggestions (s : MacroSite) : List (List Char × Option (List Char) × String) :=
  if s.otherInk then [("ink()".toList, some "ink($1)".toList, "ink! attribute")]
  else [("ink".toList, none, "ink! attribute macro"),
    ("ink_e2e".toList, none, "ink! e2e attribute macro")]

/-- Completions for the names of the crates, `crates/analyzer/src/analysis/completions.rs:243-277`. -/
def crateItems (c : Cursor) (s : MacroSite) : List Item :=
  match c.typed with
  | some p =>
    ((crateSuggestions s).filter fun x => p.isPrefixOf x.1).map fun x =>
      ⟨x.1, ⟨x.1, (macroRange c).1, (macroRange c).2, x.2.1⟩, x.2.2⟩
  | none => []

/-- `macro_completions`, `crates/analyzer/src/analysis/completions.rs:60-280`; `none`: the cursor is in
no attribute. -/
def macroCompletions (v : Version) (c : Cursor) (site : Option MacroSite) : List Item :=
  match site with
  | none => []
  | some s =>
    if c.onBracket || c.afterBracket || c.inPath then
      if !(macroSuggestions v c s).isEmpty then (macroSuggestions v c s).map (macroItem c)
      else if c.afterBracket && !s.otherMacro then crateItems c s
      else []
    else []

end Verif.Analyzer.Complete
