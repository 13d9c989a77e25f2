import Verif.Analyzer.Text
import Verif.Ir.Token

/-!
# Formatting of text edits

Models `crates/analyzer/src/analysis/text_edit.rs:14-327`.
-/

namespace Verif.Analyzer

open Verif.Ir.Token (bytes splitAt)

/-- A text edit. Models `TextEdit`, `crates/analyzer/src/analysis/text_edit.rs:14-22`. Offsets
are in bytes. -/
structure Edit where
  text : List Char
  start : Nat
  stop : Nat
  snippet : Option (List Char)
deriving DecidableEq, Repr

/-- The token kinds that `format_edit` distinguishes
(`crates/analyzer/src/analysis/text_edit.rs:116,176,188,197,232,261`). -/
inductive TokKind where
  | whitespace | lCurly | rCurly | semicolon | comment | other
deriving DecidableEq, Repr

/-- A token of the file. A file is the list of its tokens.
As used in `crates/analyzer/src/analysis/text_edit.rs:111-167`. -/
structure FTok where
  kind : TokKind
  text : List Char
deriving DecidableEq, Repr

/-- A token with its start offset and its index in the file.
As used in `crates/analyzer/src/analysis/text_edit.rs:111-167`. -/
structure FAt where
  tok : FTok
  start : Nat
  index : Nat
deriving DecidableEq, Repr

/-- End offset of a token. As used in `crates/analyzer/src/analysis/text_edit.rs:111-167`. -/
def FAt.stop (a : FAt) : Nat := a.start + bytes a.tok.text

/-- The tokens of a file with their offsets (`SyntaxToken::text_range`).
As used in `crates/analyzer/src/analysis/text_edit.rs:111-167`. -/
def placeToks : Nat → Nat → List FTok → List FAt
  | _, _, [] => []
  | start, index, t :: ts =>
    ⟨t, start, index⟩ :: placeToks (start + bytes t.text) (index + 1) ts

/-- The tokens touching an offset, in order (`token_at_offset`,
`crates/analyzer/src/analysis/text_edit.rs:147,159`). -/
def touchingToks (file : List FTok) (off : Nat) : List FAt :=
  (placeToks 0 0 file).filter fun t => t.start ≤ off && off ≤ t.stop

/-- `prev_token`, `crates/analyzer/src/analysis/text_edit.rs:153`. -/
def prevTok (file : List FTok) (t : FAt) : Option FAt :=
  if t.index = 0 then none else (placeToks 0 0 file)[t.index - 1]?

/-- `next_token`, `crates/analyzer/src/analysis/text_edit.rs:165,179`. -/
def nextTok (file : List FTok) (t : FAt) : Option FAt := (placeToks 0 0 file)[t.index + 1]?

/-- `token_before_option`, `crates/analyzer/src/analysis/text_edit.rs:145-155`: from the
left-biased token at the start offset. -/
def tokBefore (file : List FTok) (off : Nat) : Option FAt :=
  match (touchingToks file off).head? with
  | none => none
  | some t => if t.stop ≤ off then some t else prevTok file t

/-- `token_after_option`, `crates/analyzer/src/analysis/text_edit.rs:157-167`: from the
right-biased token at the end offset. -/
def tokAfter (file : List FTok) (off : Nat) : Option FAt :=
  match (touchingToks file off).getLast? with
  | none => none
  | some t => if off ≤ t.start then some t else nextTok file t

/-- The whitespace token strictly around the edit, `covering_whitespace`,
`crates/analyzer/src/analysis/text_edit.rs:111-120`. At most one token is strictly around a
range, and the covering element of the range is then that token. -/
def coveringWs (file : List FTok) (e : Edit) : Option FAt :=
  (placeToks 0 0 file).find? fun t =>
    t.tok.kind == .whitespace && decide (t.start < e.start) && decide (e.stop < t.stop)

/-- `add_affixes`, `crates/analyzer/src/analysis/text_edit.rs:75-91`. -/
def addAffixes (e : Edit) (affixes : Option (List Char) × Option (List Char)) : Edit :=
  if affixes.1.isSome || affixes.2.isSome then
    { e with
      text := affixes.1.getD [] ++ e.text ++ affixes.2.getD []
      snippet := e.snippet.map fun s => affixes.1.getD [] ++ s ++ affixes.2.getD [] }
  else e

/-- `build_affix`, `crates/analyzer/src/analysis/text_edit.rs:96-98`. -/
def buildAffix (ws : List Char) : Option (List Char) :=
  if startsWithTwoNewlines ws then none else some ['\n']

/-- `affix_edit_between_whitespace_or_file_boundaries`,
`crates/analyzer/src/analysis/text_edit.rs:94-110`. -/
def affixBetween (before after : Option (List Char)) : Option (List Char) × Option (List Char) :=
  match before, after with
  | some b, some a =>
    if b.contains '\n' && a.contains '\n' then (buildAffix b, buildAffix a) else (none, none)
  | some b, none => if b.contains '\n' then (buildAffix b, none) else (none, none)
  | none, some a => if a.contains '\n' then (none, buildAffix a) else (none, none)
  | none, none => (none, none)

/-- Whether there is whitespace or a file boundary,
`crates/analyzer/src/analysis/text_edit.rs:174-177,195-202`. -/
def wsOrEnd : Option FAt → Bool
  | none => true
  | some t => t.tok.kind == .whitespace

/-- The suffix that preserves the formatting of the next item,
`crates/analyzer/src/analysis/text_edit.rs:211-229`. -/
def keepNextSuffix : Option FAt → Option (List Char)
  | none => some ['\n']
  | some t =>
    if t.tok.text.contains '\n' then
      some ('\n' :: ((if startsWithTwoNewlines t.tok.text then ['\n'] else []) ++
        endIndenting t.tok.text))
    else none

/-- `affix_edit_after_whitespace_or_bof`,
`crates/analyzer/src/analysis/text_edit.rs:192-235`. -/
def affixAfterWs (before after : Option FAt) : Option (List Char) × Option (List Char) :=
  if wsOrEnd before && wsOrEnd after then
    affixBetween (before.map (·.tok.text)) (after.map (·.tok.text))
  else if wsOrEnd before then (none, keepNextSuffix before)
  else (none, none)

/-- Whether the text starts with a space or a tab.
As used in `crates/analyzer/src/analysis/text_edit.rs:94-110`. -/
def startsBlank (t : List Char) : Bool := t.head? == some ' ' || t.head? == some '\t'

/-- Prefix for edits at the beginning of blocks,
`crates/analyzer/src/analysis/text_edit.rs:246-259`. `parent` is the parent item of the brace:
`none` if there is none, else the whitespace before the item, if any. -/
def blockPrefix (text : List Char) (parent : Option (Option (List Char))) : Option (List Char) :=
  if text.head? == some '\n' then none
  else some ('\n' :: (if startsBlank text then []
    else ((parent.map itemChildrenIndenting).getD [])))

/-- Suffix for edits at the beginning of blocks,
`crates/analyzer/src/analysis/text_edit.rs:264-279`. -/
def blockSuffix (text : List Char) (after : Option FAt) : Option (List Char) :=
  match after with
  | none => none
  | some t =>
    if (t.tok.kind != .whitespace || !startsWithTwoNewlines t.tok.text) &&
        !(['\n', '\n'].isSuffixOf text) then
      some ('\n' :: (if t.tok.text.head? == some '\n' then [] else ['\n']))
    else none

/-- Prefix for edits after a statement, block or comment,
`crates/analyzer/src/analysis/text_edit.rs:287-306`. -/
def endPrefix (text : List Char) (isComment : Bool) (parent : Option (Option (List Char))) :
    Option (List Char) :=
  if text.head? == some '\n' then none
  else some ('\n' :: ((if isComment then [] else ['\n']) ++
    (if startsBlank text then [] else ((parent.bind itemIndenting).getD []))))

/-- The affixes for inserts and replacements,
`crates/analyzer/src/analysis/text_edit.rs:236-319`. -/
def editAffixes (text : List Char) (before after : Option FAt)
    (parent : Option (Option (List Char))) : Option (List Char) × Option (List Char) :=
  match before with
  | none => affixAfterWs none after
  | some t =>
    match t.tok.kind with
    | .whitespace => affixAfterWs (some t) after
    | .lCurly => (blockPrefix text parent, blockSuffix text after)
    | .semicolon | .rCurly => (endPrefix text false parent, none)
    | .comment => (endPrefix text true parent, none)
    | .other => (none, none)

/-- Whether a delete also takes the whitespace that follows,
`crates/analyzer/src/analysis/text_edit.rs:173-187`. -/
def deletesAfter (file : List FTok) (before : Option FAt) (after : FAt) : Bool :=
  wsOrEnd before && after.tok.kind == .whitespace &&
    !(match nextTok file after with
      | some n => n.tok.kind == .rCurly
      | none => false)

/-- Deletes, `crates/analyzer/src/analysis/text_edit.rs:169-189`. -/
def formatDelete (file : List FTok) (e : Edit) : Edit :=
  match tokAfter file e.stop with
  | none => e
  | some t => if deletesAfter file (tokBefore file e.start) t then { e with stop := t.stop } else e

/-- Edits inside whitespace, `crates/analyzer/src/analysis/text_edit.rs:121-142`. The text after
a replacement is computed by splitting the whitespace at the *distance* of the edit from the
end of the token. `none` is the panic of `split_at`. -/
def formatInside (t : FAt) (e : Edit) : Option Edit :=
  if e.text = [] then some e
  else
    match splitAt t.tok.text (e.start - t.start) with
    | none => none
    | some (before, rest) =>
      if e.start = e.stop then some (addAffixes e (affixBetween (some before) (some rest)))
      else
        match splitAt t.tok.text (t.stop - e.stop) with
        | none => none
        | some (_, after) => some (addAffixes e (affixBetween (some before) (some after)))

/-- `format_edit`, `crates/analyzer/src/analysis/text_edit.rs:72-327`. `parent` gives the parent
item of a token (by index): `none` if there is none, else the text of the whitespace token
before the item, if any (`parent_ast_item` and `item_indenting`). The outer `none` is a panic:
`split_at` off a character boundary, or a range outside the file. -/
def formatEdit (file : List FTok) (parent : Nat → Option (Option (List Char))) (e : Edit) :
    Option Edit :=
  if bytes (file.flatMap FTok.text) < e.stop then none
  else
    match coveringWs file e with
    | some t => formatInside t e
    | none =>
      if e.text = [] then some (formatDelete file e)
      else some (addAffixes e (editAffixes e.text (tokBefore file e.start)
        (tokAfter file e.stop) ((tokBefore file e.start).bind fun t => parent t.index)))

/-- Applying an edit to a text (what the client does with it, LSP `TextEdit`); `none` if the
range is not in the text.
The edits are handed to the client at `crates/lsp-server/src/translator/to_lsp.rs:129-132`. -/
def applyEdit (doc : List Char) (e : Edit) : Option (List Char) :=
  match splitAt doc e.start, splitAt doc e.stop with
  | some (a, _), some (_, b) => if e.start ≤ e.stop then some (a ++ e.text ++ b) else none
  | _, _ => none

end Verif.Analyzer
