import Verif.Ir.Attr
import Verif.Ir.Value
import Verif.Analyzer.Dedup

/-!
# Validation of ink! arguments

Models `crates/analyzer/src/analysis/diagnostics/common.rs:157-446`.
-/

namespace Verif.Analyzer

open Verif.Ir

/-- Whether a text contains another, as decided by the regular expression of `is_url_like`
(`crates/analyzer/src/analysis/diagnostics/common.rs:442-446`). -/
def containsText (pat : List Char) : List Char → Bool
  | [] => pat.isEmpty
  | c :: cs => pat.isPrefixOf (c :: cs) || containsText pat cs

/-- The diagnostics of `validate_arg`. Simplified: message texts and quickfixes (see `ArgFix.lean`) are
represented by the constructor; `crates/analyzer/src/analysis/diagnostics/common.rs:170-188`
(missing, unknown), `:207-222` (unexpected), `:190-206` (bad value), `:366-383` (use nested),
`:384-408` (nested missing), `:413-437` (nested unknown). -/
inductive ArgIssue where
  | missing | unknown | unexpectedValue | badValue | useNested | nestedMissing | nestedUnknown
deriving DecidableEq, Repr

/-- Severity of a diagnostic, `crates/analyzer/src/analysis/diagnostics/common.rs:176-182`;
all others are errors. -/
def ArgIssue.severity : ArgIssue → Severity
  | .unknown => .warning
  | _ => .error

/-- `arg.meta().name().to_string()` is empty
(`crates/analyzer/src/analysis/diagnostics/common.rs:163`, `Display for MetaOption`,
`crates/ir/src/attrs/meta/option.rs:66-78`). -/
def nameIsEmpty (m : Meta) : Bool :=
  match m.name with
  | .ok p => p.elem.text.isEmpty
  | .err items => items.all fun p => p.elem.text.isEmpty
  | .none => true

/-- The value kind expected, `crates/analyzer/src/analysis/diagnostics/common.rs:190-197`.
`attr` is the kind of the attribute. -/
def expectedValue (version : Version) (attr : Option AttrKind) (k : ArgKind) : ValueKind :=
  match version with
  | .v5 => ValueKind.ofArgV5 k (attr.map fun a => decide (a = .arg .constructor))
  | .v4 => ValueKind.ofArg k

/-- Whether a string value is valid,
`crates/analyzer/src/analysis/diagnostics/common.rs:281-294`. -/
def validString (firstIdent : String → Option String) (k : StringKind) (v : MetaValue) : Bool :=
  match v.asString with
  | some s =>
    match k with
    | .hex => v.isHex32
    | .identifier => v.isIdent firstIdent
    | .url => containsText "://".toList s.toList
    | _ => true
  | none => false

/-- `InkArg::value`, `crates/ir/src/attrs/args.rs:57-59`. -/
def okValue (m : Meta) : Option MetaValue :=
  match m.value with
  | .ok v => some v
  | _ => none

/-- The checks of values, `crates/analyzer/src/analysis/diagnostics/common.rs:225-330`, for
the kinds without nested arguments; `none` for the others. -/
def valueOk (firstIdent : String → Option String) (vk : ValueKind) (m : Meta) : Option Bool :=
  match vk with
  | .u16 => some ((okValue m).any fun v => v.asU16.isSome)
  | .u32 => some ((okValue m).any fun v => v.asU32.isSome)
  | .u32OrWildcard => some ((okValue m).any fun v => v.asU32.isSome || v.isWildcard)
  | .u32OrWildcardOrComplement =>
    some ((okValue m).any fun v => v.asU32.isSome || v.isWildcard || v.isAt)
  | .string k => some ((okValue m).any (validString firstIdent k))
  | .bool => some ((okValue m).any fun v => v.asBool.isSome)
  | .path _ => some ((okValue m).any fun v => v.isPath)
  | _ => none

/-- The nested options of a value kind and whether one is required,
`crates/analyzer/src/analysis/diagnostics/common.rs:331-348`. -/
def nestedOptions : ValueKind → List ArgKind × Bool
  | .arg k r => ([k], r)
  | .choice k₁ k₂ r => ([k₁, k₂], r)
  | _ => ([], false)

/-- `validate_arg`, `crates/analyzer/src/analysis/diagnostics/common.rs:157-440`. -/
def validateArg (firstIdent : String → Option String) (version : Version)
    (attr : Option AttrKind) : Meta → ArgKind → List ArgIssue
  | .mk name eq value nested start stop, kind =>
    if kind = .unknown then
      [if nameIsEmpty (.mk name eq value nested start stop) then .missing else .unknown]
    else if expectedValue version attr kind = .none then
      if eq.isSome || value.isSome then [.unexpectedValue] else []
    else
      match valueOk firstIdent (expectedValue version attr kind)
          (.mk name eq value nested start stop) with
      | some ok => if ok then [] else [.badValue]
      | none =>
        match value with
        | .ok _ => [.useNested]
        | _ =>
          match nested with
          | none =>
            if (nestedOptions (expectedValue version attr kind)).2 then [.nestedMissing] else []
          | some m =>
            if (Arg.ofMeta m).kind ∈ (nestedOptions (expectedValue version attr kind)).1 then
              validateArg firstIdent version attr m (Arg.ofMeta m).kind
            else [.nestedUnknown]

end Verif.Analyzer
