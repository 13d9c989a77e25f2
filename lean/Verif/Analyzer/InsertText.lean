import Verif.Analyzer.Insert
import Verif.Analyzer.Overlap

/-!
# The text inserted for an argument

Models `ink_arg_insert_text`, `crates/analyzer/src/analysis/utils.rs:748-968`.
-/

namespace Verif.Analyzer.InsertText
open Verif.Ir

/-- What is read of the parent attribute and its surroundings
(`parent_attr_option`, `crates/analyzer/src/analysis/utils.rs:751`): the tokens of the file, the text
range of the attribute, the kinds of its arguments, whether it is an attribute of a function, the
associated functions of the chain extension that is the parent of this function (`extensions()` and
`functions()`), the messages of the trait definition that is its parent, the contract around it, and
the path of the environment found by `resolution::candidate_adt_by_name_or_external_trait_impl` and
`item_path` (which is a parameter). -/
structure Site where
  file : List Leaf
  start : Nat
  stop : Nat
  args : List ArgKind
  onFn : Bool
  extensions : Option (List ExtFn × List ExtFn)
  traitDef : Option (List CallItem)
  contract : Option ContractItems
  environment : Option String

/-- `token_at_offset(offset).right_biased()` on the attribute,
`crates/analyzer/src/analysis/utils.rs:760-761`: the last token of the attribute that touches the
offset. -/
def Site.tokenAt (s : Site) (off : Nat) : Option Leaf :=
  (s.file.filter fun l => s.start ≤ l.start && l.stop ≤ s.stop && l.start ≤ off &&
    off ≤ l.stop).getLast?

/-- `next_non_trivia_token`, `crates/analyzer/src/analysis/utils.rs:755-783`. The outer `none` is the
panic of `token_at_offset` for an offset outside the attribute. -/
def Site.next (s : Site) (off : Nat) : Option (Option Ir.TokKind) :=
  if s.start ≤ off && off ≤ s.stop then
    some ((s.tokenAt off).bind fun t =>
      ((s.file.filter fun l => t.start ≤ l.start).find? fun l =>
        off ≤ l.start && !l.kind.isTrivia).map Leaf.kind)
  else none

/-- The next token if there is an attribute and an offset,
`crates/analyzer/src/analysis/utils.rs:756-758`. -/
def nextOf (site : Option Site) (off : Option Nat) : Option (Option Ir.TokKind) :=
  match site, off with
  | some s, some o => s.next o
  | _, _ => some none

/-- `insert_equal_token`, `crates/analyzer/src/analysis/utils.rs:784-799`. -/
def insertEqual (site : Option Site) (off : Option Nat) (k : ArgKind) : Option Bool :=
  match ValueKind.ofArg k with
  | .none | .arg .. | .choice .. => some false
  | _ => (nextOf site off).map fun t => t != some .eq

/-- `insert_nested_value`, `crates/analyzer/src/analysis/utils.rs:801-822`. -/
def insertNested (site : Option Site) (off : Option Nat) (equal : Bool) (k : ArgKind) : Option Bool :=
  if equal then some false
  else
    match ValueKind.ofArg k with
    | .arg _ true | .choice _ _ true => (nextOf site off).map fun t => t != some .lParen
    | _ => some false

/-- The ids taken by the associated functions of the chain extension,
`crates/analyzer/src/analysis/utils.rs:848-863` (`extension`) and `:869-884` (`function`). -/
def extensionIds (site : Option Site) (v : Version) : List Nat :=
  match site with
  | some s =>
    if s.onFn then
      match s.extensions with
      | some (es, fs) => (match v with | .v4 => es | .v5 => fs).filterMap (ExtFn.id v)
      | none => []
    else []
  | none => []

/-- The selectors taken by other callables, `crates/analyzer/src/analysis/utils.rs:898-942`. -/
def selectorIds (hash : String → Vector UInt8 32) (site : Option Site) : List Nat :=
  match site with
  | some s =>
    if s.onFn then
      match s.traitDef, s.contract with
      | some ms, _ => ms.filterMap (selectorKey hash)
      | none, some c =>
        (if ArgKind.constructor ∈ s.args then c.constructors else c.messages).filterMap
          (selectorKey hash)
      | none, none => []
    else []
  | none => []

/-- `suggest_unique_id(None, ..).unwrap_or(1)`, `crates/analyzer/src/analysis/utils.rs:864,885,944`. -/
def defaultId (max : Nat) (used : List Nat) : Nat := (suggestId max none used).getD 1

/-- The placeholder `${1:…}` (`crates/analyzer/src/analysis/utils.rs:845,865`). -/
def shown (t : String) : String := "${1:" ++ t ++ "}"

/-- The default value and its snippet, `crates/analyzer/src/analysis/utils.rs:823-952`. -/
def defaultValue (hash : String → Vector UInt8 32) (site : Option Site) : ArgKind → String × String
  | .additionalContracts | .keepAttr | .signatureTopic => ("\"\"", "\"$1\"")
  | .backend => ("node", "${1:node}")
  | .derive | .handleStatus => ("true", "${1:true}")
  | .env | .environment =>
    let path := (site.bind Site.environment).getD "ink::env::DefaultEnvironment"
    (path, shown path)
  | .extension =>
    let id := (defaultId maxU32 (extensionIds site .v4)).repr
    (id, shown id)
  | .function =>
    let id := (defaultId maxU16 (extensionIds site .v5)).repr
    (id, shown id)
  | .namespace => ("\"my_namespace\"", "\"${1:my_namespace}\"")
  | .sandbox => ("ink_e2e::MinimalSandbox", "${1:ink_e2e::MinimalSandbox}")
  | .selector =>
    let id := (defaultId maxU32 (selectorIds hash site)).repr
    (id, shown id)
  | .url => ("\"ws://127.0.0.1:9000\"", "\"${1:ws://127.0.0.1:9000}\"")
  | _ => ("", "")

/-- `ink_arg_insert_text`, `crates/analyzer/src/analysis/utils.rs:748-968`: the text and the snippet.
`none` is a panic. -/
def insertText (hash : String → Vector UInt8 32) (k : ArgKind) (off : Option Nat)
    (site : Option Site) : Option (String × Option String) :=
  (insertEqual site off k).bind fun equal =>
    (insertNested site off equal k).map fun nested =>
      let value := if equal || nested then defaultValue hash site k else ("", "")
      let sign := if equal then " = " else ""
      let l := if nested then "(" else ""
      let r := if nested then ")" else ""
      (k.name ++ sign ++ l ++ value.1 ++ r,
        if equal || nested then some (k.name ++ sign ++ l ++ value.2 ++ r) else none)

end Verif.Analyzer.InsertText
