import Verif.Analyzer.Complete
import Verif.Analyzer.Text

/-!
# Completions of ink! entities

Models `entity_completions`, `crates/analyzer/src/analysis/completions.rs:473-942`: the edit range, the
words of the line, and which entities are offered. The inserted texts are those of
`Verif/Analyzer/Templates.lean`.
-/

namespace Verif.Analyzer.CompleteEntity

open Verif.Ir Verif.Analyzer.Complete
open Verif.Ir.Token (bytes)

/-- `is_inline_token`, `crates/analyzer/src/analysis/completions.rs:505-506`. -/
def inline (t : CTok) : Bool := !t.kind.isTrivia || !t.text.contains '\n'

/-- The inline tokens before the token in focus, nearest first,
`crates/analyzer/src/analysis/completions.rs:508-511`. -/
def lineLeft (c : Cursor) : List CTok := c.left.takeWhile inline

/-- The inline tokens after the token in focus, `crates/analyzer/src/analysis/completions.rs:526-529`. -/
def lineRight (c : Cursor) : List CTok := c.right.takeWhile inline

/-- `line_start()`, `crates/analyzer/src/analysis/completions.rs:507-524`: the start of the first inline
token, or of the token in focus. Tokens tile the file, so this is the end of the tokens before it. -/
def lineStart (c : Cursor) : Nat := bytes (textOf (c.left.dropWhile inline).reverse)

/-- `line_end()`, `crates/analyzer/src/analysis/completions.rs:525-542`: the end of the last inline token,
or of the token in focus. -/
def lineEnd (c : Cursor) : Nat := c.stop + bytes (textOf (lineRight c))

/-- Normalization of the start, `crates/analyzer/src/analysis/completions.rs:563-588`, where the start is
`line_start()`. The token left of it is the first one that is not inline; at the start of the file
there is none, and the first token of the file leaves the start as it is (line 581: the text before
offset 0 has no indent). -/
def indentStart (c : Cursor) : Nat :=
  match c.left.dropWhile inline with
  | [] => lineStart c
  | t :: before =>
    if t.kind = .whitespace then
      bytes (textOf (t :: before).reverse) - bytes (endIndenting t.text)
    else
      match before with
      | [] => lineStart c
      | w :: before =>
        if w.kind = .whitespace then
          if (endIndenting w.text).isEmpty then lineStart c
          else bytes (textOf (w :: before).reverse) - bytes (endIndenting w.text)
        else lineStart c

/-- Normalization of the start, `crates/analyzer/src/analysis/completions.rs:563-588`, where the start is
the offset, behind a newline of the whitespace in focus (the token left of it). -/
def offsetStart (c : Cursor) : Nat := c.offset - bytes (endIndenting c.pre)

/-- The token in focus is whitespace with a newline,
`crates/analyzer/src/analysis/completions.rs:544`. -/
def onNewline (c : Cursor) : Bool := c.kind == .whitespace && c.text.contains '\n'

/-- The token in focus is such whitespace, and the cursor is behind a newline of it
(`crates/analyzer/src/analysis/completions.rs:547`); then `line_start` is not called. -/
def afterNewline (c : Cursor) : Bool := onNewline c && c.pre.contains '\n'

/-- The token in focus is such whitespace, and the cursor is in front of a newline of it
(`crates/analyzer/src/analysis/completions.rs:548`); then `line_end` is not called. -/
def beforeNewline (c : Cursor) : Bool := onNewline c && c.post.contains '\n'

/-- The edit range, `crates/analyzer/src/analysis/completions.rs:543-589`. -/
def range (c : Cursor) : Nat × Nat :=
  (if afterNewline c then offsetStart c else indentStart c,
   if beforeNewline c then c.offset else lineEnd c)

/-- `prev_non_trivia_line_siblings`, `crates/analyzer/src/analysis/completions.rs:502,512-516`. -/
def prevWords (c : Cursor) : List (List Char) :=
  if afterNewline c then [] else (Complete.solid (lineLeft c)).map CTok.text

/-- `next_non_trivia_line_siblings`, `crates/analyzer/src/analysis/completions.rs:503,530-534`. -/
def nextWords (c : Cursor) : List (List Char) :=
  if beforeNewline c then [] else (Complete.solid (lineRight c)).map CTok.text

/-- The end of `last_line_sibling` or of the token in focus,
`crates/analyzer/src/analysis/completions.rs:504,533,655-659`. -/
def lastEnd (c : Cursor) : Nat := if beforeNewline c then c.stop else lineEnd c

/-- `normalized_focused_text`, `crates/analyzer/src/analysis/completions.rs:494-498`. -/
def focusedText (c : Cursor) : List Char := if c.kind.isTrivia then [] else c.text

/-- `str::contains`, used at `crates/analyzer/src/analysis/completions.rs:601,611`. -/
def contains (word : List Char) : List Char → Bool
  | [] => word.isEmpty
  | x :: xs => word.isPrefixOf (x :: xs) || contains word xs

/-- `is_line_affix_of`, `crates/analyzer/src/analysis/completions.rs:591-614`. -/
def isLineAffixOf (c : Cursor) (options : List String) : Bool :=
  ((focusedText c).isEmpty && (prevWords c).isEmpty && (nextWords c).isEmpty) ||
  (!(focusedText c).isEmpty && options.any fun o => contains (focusedText c) o.toList) ||
  (prevWords c ++ nextWords c).any fun w => !w.isEmpty && options.any fun o => contains w o.toList

/-- What is read of an item around the cursor
(`crates/analyzer/src/analysis/completions.rs:679-844`): a module that is an ink! contract (with or
without storage), another module (with `cfg(test)` and `cfg(feature = "e2e-tests")` or not), an `impl`
block (of a trait or not, with ink! functions or not, in an ink! contract or not), an ink! trait
definition, an ink! chain extension (with or without `ErrorCode`), another trait, a struct (an ink! event
or not), or any other item. -/
inductive Around where
  | contract (storage : Bool)
  | mod (test e2e : Bool)
  | impl (ofTrait ink inContract : Bool)
  | traitDef
  | chainExtension (errorCode : Bool)
  | trait
  | struct (event : Bool)
  | other
deriving DecidableEq, Repr

/-- What is read of the syntax around the cursor: whether it is in an attribute (line 490), in a record
field or field list (lines 637-641), the items around it from inside out with their ends
(`parent_ast_item`, lines 651, 668 and 672-673), whether the next token that is not trivia is in an error
node (lines 619-624), and whether the file has a contract (line 846), all of
`crates/analyzer/src/analysis/completions.rs`. -/
structure Ctx where
  inAttr : Bool
  recordField : Bool
  items : List (Around × Nat)
  nextError : Bool
  hasContract : Bool

/-- The entities that are completed (`crates/analyzer/src/analysis/completions.rs:626-940`). -/
inductive Entity where
  | contract | storage | event | eventV2 | test | e2eTest | constructor | message | traitMessage
  | errorCode | extension | topic | traitDef | chainExtension | combineExtensions | storageItem
  | environment
deriving DecidableEq, Repr

/-- `is_record_field_or_ws_only_line`, `crates/analyzer/src/analysis/completions.rs:642-645`. -/
def fieldOrBlank (c : Cursor) (x : Ctx) : Bool :=
  x.recordField || (c.kind == .whitespace && (prevWords c).isEmpty && (nextWords c).isEmpty)

/-- `is_multi_line_focused_item`, `crates/analyzer/src/analysis/completions.rs:646-661`. -/
def multiLine (c : Cursor) (x : Ctx) : Bool :=
  if fieldOrBlank c x then false
  else
    match x.items with
    | (_, stop) :: _ => decide (stop > lastEnd c)
    | [] => false

/-- `parent_item`, `crates/analyzer/src/analysis/completions.rs:667-676`. -/
def parentItem (c : Cursor) (x : Ctx) : Option Around :=
  ((if fieldOrBlank c x then x.items else x.items.tail).head?).map Prod.fst

/-- `version == Version::V5` (`crates/analyzer/src/analysis/completions.rs:628,889`). -/
def isV5 : Version → Bool
  | .v5 => true
  | .v4 => false

/-- An entity if the condition holds (`crates/analyzer/src/analysis/completions.rs:628-637`). -/
def offerIf (b : Bool) (e : Entity) : List Entity := if b then [e] else []

/-- The completions for the items of a parent item,
`crates/analyzer/src/analysis/completions.rs:677-844`. -/
def inItem (v : Version) (c : Cursor) (x : Ctx) : Around → List Entity
  | .contract storage =>
    offerIf (!storage && isLineAffixOf c ["struct", "storage"] && !x.nextError) .storage ++
    offerIf (isV5 v && isLineAffixOf c ["struct", "event"]) .eventV2 ++
    offerIf (isLineAffixOf c ["struct", "event"]) .event
  | .mod test e2e =>
    offerIf (test && isLineAffixOf c ["fn", "test"]) .test ++
    offerIf (e2e && isLineAffixOf c ["async", "fn", "test", "e2e"]) .e2eTest
  | .impl ofTrait ink inContract =>
    if ofTrait then []
    else if !ink && !inContract then []
    else
      offerIf (isLineAffixOf c ["fn", "constructor", "new"]) .constructor ++
      offerIf (isLineAffixOf c ["fn", "message"]) .message
  | .traitDef => offerIf (isLineAffixOf c ["fn", "message"]) .traitMessage
  | .chainExtension errorCode =>
    offerIf (!errorCode && isLineAffixOf c ["type", "error", "code", "ErrorCode"]) .errorCode ++
    offerIf (isLineAffixOf c ["fn", "extension", "function"]) .extension
  | .struct event => offerIf event .topic
  | .trait | .other => []

/-- The completions at the root of the file, `crates/analyzer/src/analysis/completions.rs:845-941`. -/
def atRoot (v : Version) (c : Cursor) (x : Ctx) : List Entity :=
  offerIf (!x.hasContract && isLineAffixOf c ["mod", "contract"] && !x.nextError) .contract ++
  offerIf (isV5 v && isLineAffixOf c ["struct", "event"]) .eventV2 ++
  offerIf (isLineAffixOf c ["trait", "definition", "trait_definition"]) .traitDef ++
  offerIf (isLineAffixOf c ["trait", "chain", "extension", "chain_extension"]) .chainExtension ++
  offerIf (isV5 v && isLineAffixOf c ["ink", "combine", "extensions", "combine_extensions"])
    .combineExtensions ++
  offerIf (isLineAffixOf c ["struct", "enum", "storage", "item", "storage_item"]) .storageItem ++
  offerIf (isLineAffixOf c ["struct", "enum", "environment", "derive", "scale", "scale_derive",
    "scale_info", "encode", "decode", "type", "info", "type_info"]) .environment

/-- `entity_completions`, `crates/analyzer/src/analysis/completions.rs:473-942`: the entities that are
offered, all with the edit range `range c`. -/
def entityCompletions (v : Version) (c : Cursor) (x : Ctx) : List Entity :=
  if c.kind = .comment then []
  else if x.inAttr then []
  else if multiLine c x && !x.nextError then []
  else
    match parentItem c x with
    | some a => inItem v c x a
    | none => atRoot v c x

/-- The label of a completion (`label`, `crates/analyzer/src/analysis/completions.rs:630-930`). -/
def label (v : Version) : Entity → String
  | .contract => "#[ink::contract]..mod contract {...}"
  | .storage => "#[ink(storage)]..pub struct Storage {...}"
  | .event => "#[ink(event)]..pub struct Event {...}"
  | .eventV2 => "#[ink::event]..pub struct Event {...}"
  | .test => "#[ink::test]..fn test(..) {...}"
  | .e2eTest => "#[ink_e2e::test]..async fn test(..) {...}"
  | .constructor => "#[ink(constructor)]..pub fn new(..) {...}"
  | .message => "#[ink(message)]..pub fn message(..) {...}"
  | .traitMessage => "#[ink(message)]..fn message(..);"
  | .errorCode => "type ErrorCode = ..;"
  | .extension =>
    match v with
    | .v5 => "#[ink(function=..)]..pub fn extension(..);"
    | .v4 => "#[ink(extension=..)]..pub fn extension(..);"
  | .topic => "#[ink(topic)]..field: .."
  | .traitDef => "#[ink::trait_definition]..pub trait TraitDefinition {...}"
  | .chainExtension =>
    match v with
    | .v5 => "#[ink::chain_extension(...)]..pub trait ChainExtension {...}"
    | .v4 => "#[ink::chain_extension]..pub trait ChainExtension {...}"
  | .combineExtensions => "ink::combine_extensions! {..}"
  | .storageItem => "#[ink::storage_item]..pub struct StorageItem {...}"
  | .environment =>
    match v with
    | .v5 => "#[ink::scale_derive(TypeInfo)]..pub enum MyEnvironment {...}"
    | .v4 => "#[derive(scale_info::TypeInfo)]..pub enum MyEnvironment {...}"

end Verif.Analyzer.CompleteEntity
