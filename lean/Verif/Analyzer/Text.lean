import Verif.Basic

/-!
# Text helpers of the analyzer

Models the indenting helpers and the unique id and name suggestions of
`crates/analyzer/src/analysis/utils.rs:1190-1213,1922-2021`.
-/

namespace Verif.Analyzer

/-- `char::is_whitespace` (Unicode `White_Space`), used at
`crates/analyzer/src/analysis/utils.rs:1204`. -/
def isWs (c : Char) : Bool :=
  let n := c.toNat
  (9 ≤ n && n ≤ 13) || n == 0x20 || n == 0x85 || n == 0xA0 || n == 0x1680 ||
    (0x2000 ≤ n && n ≤ 0x200A) || n == 0x2028 || n == 0x2029 || n == 0x202F || n == 0x205F ||
    n == 0x3000

/-- Splits a text into its lines, each with its `\n` (`str::split_inclusive`, which
`str::lines` is built on; used at `crates/analyzer/src/analysis/utils.rs:1928,1947`). -/
def splitInclusive : List Char → List (List Char)
  | [] => []
  | '\n' :: cs => ['\n'] :: splitInclusive cs
  | c :: cs =>
    match splitInclusive cs with
    | [] => [[c]]
    | l :: ls => (c :: l) :: ls

/-- Strips the line ending of one line: `\n` or `\r\n` (`str::lines`).
As used in `crates/analyzer/src/analysis/utils.rs:1928,1947`. -/
def stripEnding (l : List Char) : List Char :=
  match l.reverse with
  | '\n' :: '\r' :: r => r.reverse
  | '\n' :: r => r.reverse
  | _ => l

/-- `str::lines`, used at `crates/analyzer/src/analysis/utils.rs:1928,1947`. -/
def lines (t : List Char) : List (List Char) := (splitInclusive t).map stripEnding

/-- The loop bodies of `crates/analyzer/src/analysis/utils.rs:1928-1936,1947-1955`: joins the
transformed lines with `\n`, leaving empty lines empty. -/
def joinLines (f : List Char → List Char) : List (List Char) → List Char
  | [] => []
  | [l] => if l.isEmpty then [] else f l
  | l :: ls => (if l.isEmpty then [] else f l) ++ '\n' :: joinLines f ls

/-- `apply_indenting`, `crates/analyzer/src/analysis/utils.rs:1923-1939`. -/
def applyIndenting (t indent : List Char) : List Char :=
  if indent.isEmpty then t else joinLines (fun l => indent ++ l) (lines t)

/-- `line.strip_prefix(indent).unwrap_or(line)`,
`crates/analyzer/src/analysis/utils.rs:1953`. -/
def stripIndent : List Char → List Char → Option (List Char)
  | [], l => some l
  | c :: p, d :: l => if c = d then stripIndent p l else none
  | _ :: _, [] => none

/-- `reduce_indenting`, `crates/analyzer/src/analysis/utils.rs:1942-1958`. -/
def reduceIndenting (t indent : List Char) : List Char :=
  if indent.isEmpty then t else joinLines (fun l => (stripIndent indent l).getD l) (lines t)

/-- `end_indenting`, `crates/analyzer/src/analysis/utils.rs:1200-1206`: the reversed text is
taken while it is whitespace on the same line, and is not reversed back. -/
def endIndenting (ws : List Char) : List Char :=
  ws.reverse.takeWhile fun c => c != '\n' && isWs c

/-- `item_indenting`, `crates/analyzer/src/analysis/utils.rs:1188-1193`. The argument is the
text of the whitespace token right before the item, if there is one. -/
def itemIndenting (prevWs : Option (List Char)) : Option (List Char) := prevWs.map endIndenting

/-- `item_children_indenting`, `crates/analyzer/src/analysis/utils.rs:1209-1213`. -/
def itemChildrenIndenting (prevWs : Option (List Char)) : List Char :=
  match itemIndenting prevWs with
  | some i => if i.isEmpty then "    ".toList else i ++ i
  | none => "    ".toList

/-- Drops whitespace up to the next newline and that newline, if there is one: one step
`[^\S\n]*\n` of the pattern of `starts_with_two_or_more_newlines`,
`crates/analyzer/src/analysis/utils.rs:1963`. -/
def skipNewline : List Char → Option (List Char)
  | [] => none
  | c :: cs => if c = '\n' then some cs else if isWs c then skipNewline cs else none

/-- `starts_with_two_or_more_newlines`, `crates/analyzer/src/analysis/utils.rs:1962-1965`: the
pattern `^([^\S\n]*\n[^\S\n]*){2,}`. -/
def startsWithTwoNewlines (t : List Char) : Bool :=
  match skipNewline t with
  | some r => (skipNewline r).isSome
  | none => false

/-- `suggest_unique_id`, `crates/analyzer/src/analysis/utils.rs:1986-2002`, from a given
candidate. Ids are natural numbers up to `max` (`u16::MAX` or `u32::MAX`). -/
def suggestFrom (max : Nat) (used : List Nat) (id : Nat) : Option Nat :=
  if id ∈ used then
    if id < max then suggestFrom max used (id + 1) else none
  else some id
termination_by max - id

/-- `suggest_unique_id`, `crates/analyzer/src/analysis/utils.rs:1986-2002`. -/
def suggestId (max : Nat) (preferred : Option Nat) (used : List Nat) : Option Nat :=
  suggestFrom max used (preferred.getD 1)

/-- `suggest_unique_id_mut`, `crates/analyzer/src/analysis/utils.rs:1968-1983`. -/
def suggestIdMut (max : Nat) (preferred : Option Nat) (used : List Nat) :
    Option (Nat × List Nat) :=
  (suggestId max preferred used).map fun id => (id, id :: used)

/-- The loop of `suggest_unique_name`, `crates/analyzer/src/analysis/utils.rs:2009-2017`: `fuel`
is `u8::MAX - suffix`, so `suffix == u8::MAX` is `fuel = 0`. -/
def suggestNameLoop (preferred : String) (used : List String) : Nat → String → String
  | 0, name => if name ∈ used then preferred else name
  | fuel + 1, name =>
    if name ∈ used then
      suggestNameLoop preferred used fuel (preferred ++ (255 - (fuel + 1)).repr)
    else name

/-- `suggest_unique_name`, `crates/analyzer/src/analysis/utils.rs:2005-2021`. -/
def suggestName (preferred : String) (used : List String) : String :=
  suggestNameLoop preferred used (255 - 2) preferred

end Verif.Analyzer
