import Verif.Analyzer.ArgCheck
import Verif.Analyzer.InsertText
import Verif.Analyzer.Remove

/-!
# The quickfixes for ink! arguments

Models `validate_arg`, `crates/analyzer/src/analysis/diagnostics/common.rs:157-440`, with the ranges and
the quickfixes of its diagnostics. Messages and labels are left out.
-/

namespace Verif.Analyzer.ArgFix
open Verif.Ir Verif.Analyzer.InsertText

/-- A quickfix, which has one edit: the text, its snippet and the range that is replaced
(`crates/analyzer/src/analysis/diagnostics/common.rs:183-188,206-215,226-231,364-373,378-387,410-419`). -/
structure Fix where
  text : String
  snippet : Option String
  range : Nat × Nat

/-- A diagnostic of `validate_arg`: what is reported, where, and the quickfixes
(`crates/analyzer/src/analysis/diagnostics/common.rs:169-189,202-216,221-232,358-374,389-401,420-436`). -/
structure Diag where
  issue : ArgIssue
  range : Nat × Nat
  fixes : List Fix

/-- `arg.meta().name().to_string()`, `crates/analyzer/src/analysis/diagnostics/common.rs:163,355`, with
`Display for MetaOption`, `crates/ir/src/attrs/meta/option.rs:66-78`. -/
def nameText (m : Meta) : String :=
  match m.name with
  | .ok p => p.elem.text
  | .err items => Elem.textList (items.map Placed.elem)
  | .none => ""

/-- The text `name(inner)` with its snippet,
`crates/analyzer/src/analysis/diagnostics/common.rs:368-372,382-386`. -/
def nestFix (name inner : String) (range : Nat × Nat) : Fix :=
  ⟨name ++ "(" ++ inner ++ ")", some (name ++ "(${1:" ++ inner ++ "})"), range⟩

/-- The text of an option with its snippet,
`crates/analyzer/src/analysis/diagnostics/common.rs:414-418`. -/
def optionFix (range : Nat × Nat) (k : ArgKind) : Fix :=
  ⟨k.name, some ("${1:" ++ k.name ++ "}"), range⟩

/-- `validate_arg`, `crates/analyzer/src/analysis/diagnostics/common.rs:157-440`, with
`nested_arg_validator` (`:346-439`). `attr` is the kind of the attribute, `site` what
`ink_arg_insert_text` reads from it, `rem` what the removal of an argument reads from it, and `file` the
tokens of the file. `none` is a panic. -/
def argDiags (hash : String → Vector UInt8 32) (fi : String → Option String) (v : Version)
    (attr : Option AttrKind) (site : Option Site) (file : List Leaf) (rem : Option RemAttr) :
    Meta → ArgKind → Option (List Diag)
  | .mk name eq value nested start stop, kind =>
    let m := Meta.mk name eq value nested start stop
    if kind = .unknown then
      (removalRange file rem m).bind fun r => m.textRange.map fun own =>
        [⟨if nameIsEmpty m then .missing else .unknown, own, [⟨"", none, r⟩]⟩]
    else if expectedValue v attr kind = .none then
      if eq.isSome || value.isSome then
        m.textRange.map fun own => [⟨.unexpectedValue, own, [⟨nameText m, none, own⟩]⟩]
      else some []
    else
      match valueOk fi (expectedValue v attr kind) m with
      | some ok =>
        if ok then some []
        else (insertText hash kind none site).bind fun t => m.textRange.map fun own =>
          [⟨.badValue, own, [⟨t.1, t.2, own⟩]⟩]
      | none =>
        m.textRange.bind fun own =>
        match value with
        | .ok x => some [⟨.useNested, own, [nestFix (nameText m) x.text own]⟩]
        | _ =>
          match nested with
          | none =>
            some (if (nestedOptions (expectedValue v attr kind)).2 then
              [⟨.nestedMissing, own, (nestedOptions (expectedValue v attr kind)).1.map fun k =>
                nestFix (nameText m) k.name own⟩] else [])
          | some m' =>
            if (Arg.ofMeta m').kind ∈ (nestedOptions (expectedValue v attr kind)).1 then
              argDiags hash fi v attr site file rem m' (Arg.ofMeta m').kind
            else
              m'.textRange.map fun r => [⟨.nestedUnknown, r,
                (nestedOptions (expectedValue v attr kind)).1.map (optionFix r)⟩]

end Verif.Analyzer.ArgFix
