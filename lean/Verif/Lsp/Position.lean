import Verif.Lsp.Command

/-!
# Model of position translation

`crates/lsp-server/src/translator/from_lsp.rs:8-45`,
`crates/lsp-server/src/translator/to_lsp.rs:11-49,239-260` and the functions of the pinned
`line-index` 0.1.1 crate which they call. A text is its list of characters, an offset counts
UTF-8 bytes. `u32` bounds are modelled where the code can exceed them with client input.
-/

namespace Verif.Lsp

/-- `TextSize::of`/`str::len`: length in UTF-8 bytes.
As used in `crates/lsp-server/src/translator/to_lsp.rs:11-39`. -/
def utf8Len : List Char → Nat
  | [] => 0
  | c :: cs => c.utf8Size + utf8Len cs

/-- `line_index::WideChar`: a non-ASCII character, as a byte range relative to its line.
Called from `crates/lsp-server/src/translator/to_lsp.rs:11-39`. -/
structure WideChar where
  start : Nat
  stop : Nat
  deriving DecidableEq, Repr

/-- `WideChar::len`, line-index 0.1.1.
Called from `crates/lsp-server/src/translator/to_lsp.rs:11-39`. -/
def WideChar.len (c : WideChar) : Nat := c.stop - c.start

/-- `line_index::WideEncoding`. Called from `crates/lsp-server/src/translator/to_lsp.rs:11-39`. -/
inductive WideEncoding where
  | utf16
  | utf32
  deriving DecidableEq, Repr

/-- `WideChar::wide_len`, line-index 0.1.1.
Called from `crates/lsp-server/src/translator/to_lsp.rs:11-39`. -/
def WideChar.wideLen (c : WideChar) : WideEncoding → Nat
  | .utf16 => if c.len < 4 then 1 else 2
  | .utf32 => 1

/-- `line_index::LineIndex`: offsets just after each line feed, non-ASCII characters per line,
length of the text. Called from `crates/lsp-server/src/translator.rs:20`. -/
structure LineIndex where
  newlines : List Nat
  wide : Nat → List WideChar
  len : Nat

/-- Newline table built by `analyze_source_file`, line-index 0.1.1; `off` is the offset of the
remaining text. Called from `crates/lsp-server/src/translator.rs:20`. -/
def newlineTable : List Char → Nat → List Nat
  | [], _ => []
  | c :: cs, off =>
    if c = '\n' then (off + 1) :: newlineTable cs (off + 1) else newlineTable cs (off + c.utf8Size)

/-- Entry for line `l` of the non-ASCII character table built by `analyze_source_file`,
line-index 0.1.1; the remaining text starts in line `line` at column `col`.
Called from `crates/lsp-server/src/translator.rs:20`. -/
def wideTable (l : Nat) : List Char → Nat → Nat → List WideChar
  | [], _, _ => []
  | c :: cs, line, col =>
    if c = '\n' then wideTable l cs (line + 1) 0
    else if line = l ∧ 1 < c.utf8Size then
      ⟨col, col + c.utf8Size⟩ :: wideTable l cs line (col + c.utf8Size)
    else wideTable l cs line (col + c.utf8Size)

/-- `LineIndex::new`, as called in `crates/lsp-server/src/translator.rs:20`. -/
def LineIndex.new (text : List Char) : LineIndex :=
  { newlines := newlineTable text 0
    wide := fun l => wideTable l text 0 0
    len := utf8Len text }

/-- `LineIndex::start_offset`, line-index 0.1.1.
Called from `crates/lsp-server/src/translator/from_lsp.rs:8-35`. -/
def LineIndex.startOffset (ix : LineIndex) : Nat → Option Nat
  | 0 => some 0
  | k + 1 => ix.newlines[k]?

/-- `LineIndex::try_line_col`, line-index 0.1.1 (`partition_point` on a sorted list).
Called from `crates/lsp-server/src/translator/to_lsp.rs:11-39`. -/
def LineIndex.tryLineCol (ix : LineIndex) (offset : Nat) : Option (Nat × Nat) :=
  if offset > ix.len then none
  else
    let line := (ix.newlines.takeWhile fun it => decide (it ≤ offset)).length
    (ix.startOffset line).map fun start => (line, offset - start)

/-- The loop of `LineIndex::to_wide`, line-index 0.1.1; `limit` is the byte column, `col` the
running result. Called from `crates/lsp-server/src/translator/to_lsp.rs:11-39`. -/
def toWideLoop (enc : WideEncoding) (limit : Nat) : List WideChar → Nat → Option Nat
  | [], col => some col
  | c :: cs, col =>
    if c.stop ≤ limit then
      if c.len - c.wideLen enc ≤ col then toWideLoop enc limit cs (col - (c.len - c.wideLen enc))
      else none
    else some col

/-- The loop of `LineIndex::to_utf8`, line-index 0.1.1, with its `checked_add`.
Called from `crates/lsp-server/src/translator/from_lsp.rs:8-35`. -/
def toUtf8Loop (enc : WideEncoding) : List WideChar → Nat → Option Nat
  | [], col => some col
  | c :: cs, col =>
    if col > c.start then
      if col + (c.len - c.wideLen enc) < 2 ^ 32 then
        toUtf8Loop enc cs (col + (c.len - c.wideLen enc))
      else none
    else some col

/-- Wide encoding for a negotiated encoding, `crates/lsp-server/src/translator/to_lsp.rs:20-28`. -/
def Encoding.wide? : Encoding → Option WideEncoding
  | .utf8 => none
  | .utf16 => some .utf16
  | .utf32 => some .utf32

/-- `to_lsp::position`, `crates/lsp-server/src/translator/to_lsp.rs:11-39`. -/
def toPosition (enc : Encoding) (ix : LineIndex) (offset : Nat) : Option Pos :=
  (ix.tryLineCol offset).bind fun (line, col) =>
    match enc.wide? with
    | some w => (toWideLoop w col (ix.wide line) col).map fun col => ⟨line, col⟩
    | none => some ⟨line, col⟩

/-- `to_lsp::range`, `crates/lsp-server/src/translator/to_lsp.rs:42-49`. -/
def toLspRange (enc : Encoding) (ix : LineIndex) (r : Nat × Nat) : Option (Pos × Pos) :=
  match toPosition enc ix r.1, toPosition enc ix r.2 with
  | some a, some b => some (a, b)
  | _, _ => none

/-- Whether overflow of `u32` additions panics (debug assertions on) or wraps.
Called from `crates/lsp-server/src/translator/from_lsp.rs:8-35`. -/
inductive Build where
  | debug
  | release
  deriving DecidableEq, Repr

/-- `TextSize + TextSize`, text-size 1.1.1: plain `u32` addition.
Called from `crates/lsp-server/src/translator/from_lsp.rs:8-35`. -/
def addSize (b : Build) (x y : Nat) : Panics Nat :=
  if x + y < 2 ^ 32 then .value (x + y)
  else
    match b with
    | .debug => .panic
    | .release => .value ((x + y) % 2 ^ 32)

/-- The byte column of a client position, `crates/lsp-server/src/translator/from_lsp.rs:9-33`. -/
def clientColumn (enc : Encoding) (ix : LineIndex) (p : Pos) : Option Nat :=
  match enc.wide? with
  | some w => toUtf8Loop w (ix.wide p.line) p.character
  | none => some p.character

/-- `from_lsp::offset`, `crates/lsp-server/src/translator/from_lsp.rs:8-35`, including
`LineIndex::offset` (which does not compare the column with the line's length). -/
def fromPosition (b : Build) (enc : Encoding) (ix : LineIndex) (p : Pos) : Panics (Option Nat) :=
  match clientColumn enc ix p with
  | none => .value none
  | some col =>
    match ix.startOffset p.line with
    | none => .value none
    | some start =>
      match addSize b start col with
      | .value o => .value (some o)
      | .panic => .panic

/-- `from_lsp::text_range`, `crates/lsp-server/src/translator/from_lsp.rs:38-45`. -/
def fromLspRange (b : Build) (enc : Encoding) (ix : LineIndex) (r : Pos × Pos) :
    Panics (Option (Nat × Nat)) :=
  match fromPosition b enc ix r.1 with
  | .panic => .panic
  | .value none => .value none
  | .value (some start) =>
    match fromPosition b enc ix r.2 with
    | .panic => .panic
    | .value none => .value none
    | .value (some stop) =>
      if start ≤ stop then
        match textRangeNew start stop with
        | .value r => .value (some r)
        | .panic => .panic
      else .value none

end Verif.Lsp
