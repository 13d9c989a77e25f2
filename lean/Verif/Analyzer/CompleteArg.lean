import Verif.Analyzer.InsertText
import Verif.Analyzer.Suggest

/-!
# Completions of attribute arguments

Models `argument_completions`, `crates/analyzer/src/analysis/completions.rs:283-470`. Which arguments
are offered is `argCompletions` of `Verif/Analyzer/Suggest.lean`, their text is `insertText` of
`Verif/Analyzer/InsertText.lean`.
-/

namespace Verif.Analyzer.CompleteArg

open Verif.Ir Verif.Analyzer.InsertText

/-- The token in focus and the tokens before it, nearest first (`item_at_offset`,
`crates/analyzer/src/analysis/completions.rs:289-292`). -/
structure ArgCursor where
  left : List Leaf
  focus : Leaf

/-- The kind of `prev_non_trivia_token`, `crates/analyzer/src/analysis/completions.rs:296-298`. -/
def ArgCursor.prev (c : ArgCursor) : Option Ir.TokKind :=
  (c.left.find? fun l => !l.kind.isTrivia).map Leaf.kind

/-- `focused_token_is_left_parenthesis`, `crates/analyzer/src/analysis/completions.rs:295`. -/
def ArgCursor.onParen (c : ArgCursor) : Bool := c.focus.kind == .lParen

/-- `focused_token_is_comma`, `crates/analyzer/src/analysis/completions.rs:299`. -/
def ArgCursor.onComma (c : ArgCursor) : Bool := c.focus.kind == .comma

/-- `prev_non_trivia_token_is_comma`, `crates/analyzer/src/analysis/completions.rs:300-302`. -/
def ArgCursor.afterComma (c : ArgCursor) : Bool := c.prev == some .comma

/-- `prev_token_is_whitespace`, `crates/analyzer/src/analysis/completions.rs:303-305`. -/
def ArgCursor.spaced (c : ArgCursor) : Bool :=
  match c.left.head? with
  | some l => l.kind == .whitespace
  | none => true

/-- The argument context, `crates/analyzer/src/analysis/completions.rs:308-311`. -/
def ArgCursor.inArgs (c : ArgCursor) : Bool :=
  c.onParen || c.prev == some .lParen || c.onComma || c.afterComma

/-- `is_valid_focused_arg`, `crates/analyzer/src/analysis/completions.rs:320-324`, for the kind of an
argument and its meta item; an argument of a known kind has a name and is not empty. `none` is a panic of
`text_range`. -/
def isFocused (off : Nat) (m : Meta) : Option Bool :=
  if (Arg.ofMeta m).kind = .unknown then some false
  else m.textRange.map fun r => decide (r.1 ≤ off ∧ off ≤ r.2)

/-- The innermost argument in focus, from a top-level argument,
`crates/analyzer/src/analysis/completions.rs:327-335`. -/
def deepest (off : Nat) : Meta → Option Meta
  | .mk name eq value nested start stop =>
    match nested with
    | some m => (isFocused off m).bind fun b =>
      if b then deepest off m else some (.mk name eq value (some m) start stop)
    | none => some (.mk name eq value none start stop)

/-- The argument in focus, `crates/analyzer/src/analysis/completions.rs:325-337`; the outer `none` is a
panic. -/
def focusedArg (off : Nat) : List Arg → Option (Option Arg)
  | [] => some none
  | a :: as => (isFocused off a.item).bind fun b =>
    if b then (deepest off a.item).map fun m => some (Arg.ofMeta m) else focusedArg off as

/-- The kind and the name of the argument in focus, and the range from the end of the name to its end,
`crates/analyzer/src/analysis/completions.rs:338-353`. The outer `none` is the panic of `expect` or of
`text_range`. -/
def focusInfo : Option Arg → Option (Option (ArgKind × String × Nat × Nat))
  | none => some none
  | some a =>
    match a.item.name with
    | .ok p => a.item.textRange.map fun r => some (a.kind, p.elem.text, p.stop, r.2)
    | _ => none

/-- A completion, `crates/analyzer/src/analysis/completions.rs:16-30` (its kind is always `Attr`). -/
structure ArgItem where
  label : String
  text : String
  start : Nat
  stop : Nat
  snippet : Option String
  detail : String
deriving DecidableEq

/-- The affixes, `crates/analyzer/src/analysis/completions.rs:432-443`. -/
def affixes (c : ArgCursor) (isNested : Bool) : String × String :=
  if isNested then ("(", ")")
  else if c.onComma || (c.afterComma && !c.spaced) then (" ", "")
  else ("", "")

/-- The range, `crates/analyzer/src/analysis/completions.rs:445-453`. -/
def range (c : ArgCursor) (nested : Option (Nat × Nat)) : Nat × Nat :=
  nested.getD
    (if c.onParen || c.onComma then (c.focus.stop, c.focus.stop) else (c.focus.start, c.focus.stop))

/-- The completion for an argument, `crates/analyzer/src/analysis/completions.rs:431-466`; `nested` is
the edit range of a nested argument. `none` is a panic. -/
def argItem (hash : String → Vector UInt8 32) (c : ArgCursor) (nested : Option (Nat × Nat)) (site : Site)
    (k : ArgKind) : Option ArgItem :=
  (insertText hash k (some (range c nested).2) (some site)).map fun t =>
    let a := affixes c nested.isSome
    { label := t.1
      text := a.1 ++ t.1 ++ a.2
      start := (range c nested).1
      stop := (range c nested).2
      snippet := t.2.map fun s => a.1 ++ s ++ a.2
      detail := "ink! " ++ k.name ++ " attribute argument." }

/-- `argument_completions`, `crates/analyzer/src/analysis/completions.rs:283-470`, in an ink! attribute of
kind `k` with the arguments `args`, of an item with the attributes `attrs`; `typed` is the prefix of the
token in focus. `none` is a panic. -/
def argumentCompletions (hash : String → Vector UInt8 32) (v : Version) (c : ArgCursor) (off : Nat)
    (typed : Option String) (attrs : List AttrV) (k : AttrKind) (args : List Arg)
    (itemKind : Option ItemKind) (scope : List AttrKind) (site : Site) : Option (List ArgItem) :=
  if c.inArgs then
    (focusedArg off args).bind fun f => (focusInfo f).bind fun info =>
      let focused := info.map fun x => (x.1, x.2.1)
      let nested := if (nestedOf focused).isEmpty then none else info.map fun x => x.2.2
      (argCompletions v attrs k itemKind scope focused
        (if c.onParen || c.onComma then none else typed)).mapM (argItem hash c nested site)
  else some []

end Verif.Analyzer.CompleteArg
