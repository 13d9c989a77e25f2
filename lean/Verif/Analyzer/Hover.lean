import Verif.Analyzer.Hints
import Verif.Ir.Cover

/-!
# Hover

Models `crates/analyzer/src/analysis/hover.rs:21-145`. Documentation texts are represented by the
names of the constants in `crates/analyzer/src/analysis/hover/{args,macros}.rs`, all of which are
non-empty texts.
-/

namespace Verif.Analyzer
open Verif.Ir

/-- An ink! attribute as read by `hover` (`InkAttribute`, `crates/ir/src/attrs.rs:16-33`), with the
range of its macro path segment (`ink_macro`). -/
structure HoverAttr where
  ink : InkAttr
  macroRange : Option (Nat × Nat)

/-- `Hover`, `crates/analyzer/src/analysis/hover.rs:12-19`. -/
structure Hover where
  range : Nat × Nat
  content : String
  deriving DecidableEq

/-- `content` for arguments, `crates/analyzer/src/analysis/hover.rs:76-128`. -/
def argDoc (v : Version) (primary : Option AttrKind) : ArgKind → String
  | .additionalContracts =>
    if v = .v5 then "ADDITIONAL_CONTRACTS_DOC_V5_DEPRECATED" else "ADDITIONAL_CONTRACTS_DOC"
  | .anonymous => if v = .v5 then "ANONYMOUS_DOC_V5" else "ANONYMOUS_DOC"
  | .backend | .node | .url | .runtimeOnly | .sandbox => if v = .v5 then "BACKEND_DOC" else ""
  | .constructor => "CONSTRUCTOR_DOC"
  | .decode => if v = .v5 then "DECODE_DOC" else ""
  | .default => "DEFAULT_DOC"
  | .derive => "DERIVE_DOC"
  | .encode => if v = .v5 then "ENCODE_DOC" else ""
  | .env | .environment => "ENV_DOC"
  | .event => "EVENT_DOC"
  | .extension => if v = .v5 then "EXTENSION_DOC_V5" else "EXTENSION_DOC"
  | .function => if v = .v5 then "FUNCTION_DOC" else ""
  | .handleStatus => "HANDLE_STATUS_DOC"
  | .impl => "IMPL_DOC"
  | .keepAttr =>
    if v = .v5 then
      if primary = some (.macro .e2eTest) then "KEEP_ATTR_E2E_DOC_V5_DEPRECATED"
      else "KEEP_ATTR_DOC_V5"
    else "KEEP_ATTR_DOC"
  | .message => "MESSAGE_DOC"
  | .namespace => "NAMESPACE_DOC"
  | .payable => "PAYABLE_DOC"
  | .selector => if v = .v5 then "SELECTOR_DOC_V5" else "SELECTOR_DOC"
  | .signatureTopic => if v = .v5 then "SIGNATURE_TOPIC" else ""
  | .storage => "STORAGE_DOC"
  | .topic => if v = .v5 then "TOPIC_DOC_V5" else "TOPIC_DOC"
  | .typeInfo => if v = .v5 then "TYPE_INFO_DOC" else ""
  | .unknown => ""

/-- `content` for macros, `crates/analyzer/src/analysis/hover.rs:129-142`. (The constant `EVENT_DOC`
of `macros.rs` is named apart from the one of `args.rs`.) -/
def macroDoc (v : Version) : MacroKind → String
  | .chainExtension => if v = .v5 then "CHAIN_EXTENSION_DOC_V5" else "CHAIN_EXTENSION_DOC"
  | .contract => "CONTRACT_DOC"
  | .event => if v = .v5 then "macros::EVENT_DOC" else ""
  | .scaleDerive => if v = .v5 then "SCALE_DERIVE_DOC" else ""
  | .storageItem => "STORAGE_ITEM_DOC"
  | .test => "TEST_DOC"
  | .traitDefinition => "TRAIT_DEFINITION_DOC"
  | .e2eTest => "E2E_TEST_DOC"
  | .unknown => ""

/-- `content`, `crates/analyzer/src/analysis/hover.rs:70-144`. -/
def hoverContent (v : Version) (primary : Option AttrKind) : AttrKind → String
  | .arg k => argDoc v primary k
  | .macro m => macroDoc v m

/-- The search for the covered argument, `crates/analyzer/src/analysis/hover.rs:29-32`. The outer
`none` is a panic of `text_range`. -/
def coveredArg (s e : Nat) : List Arg → Option (Option Arg)
  | [] => some none
  | a :: as => a.item.textRange.bind fun r =>
    if r.1 ≤ s ∧ e ≤ r.2 then some (some a) else coveredArg s e as

/-- The range of the hover for an argument, `crates/analyzer/src/analysis/hover.rs:41-44`. -/
def hoverAnchor (a : Arg) : Option (Nat × Nat) := hintAnchor a

/-- The range of the hover for the attribute, `crates/analyzer/src/analysis/hover.rs:53-62`:
`ink_arg_name` is the name of the argument that gave the attribute its kind. -/
def attrAnchor (attr : HoverAttr) (whole : Nat × Nat) : Nat × Nat :=
  match attr.ink.kind with
  | .arg _ =>
    match attr.ink.primary.bind argName with
    | some p => (p.start, p.stop)
    | none => whole
  | .macro _ => attr.macroRange.getD whole

/-- The content of the hover for a covering ink! attribute with text range `whole`,
`crates/analyzer/src/analysis/hover.rs:27-67`. The outer `none` is a panic. -/
def hoverAttr (v : Version) (s e : Nat) (attr : HoverAttr) (whole : Nat × Nat) :
    Option (Option Hover) :=
  (coveredArg s e attr.ink.args).bind fun found =>
    match found with
    | some a =>
      let doc := hoverContent v (if attr.ink.kind ≠ .arg a.kind then some attr.ink.kind else none)
        (.arg a.kind)
      if doc ≠ "" then (hoverAnchor a).map fun r => some { range := r, content := doc }
      else some none
    | none =>
      let doc := hoverContent v none attr.ink.kind
      if doc ≠ "" then some (some { range := attrAnchor attr whole, content := doc })
      else some none

/-- The ink! attribute at a path, with its text range (`InkAttribute::cast` in
`covering_ink_attribute`, `crates/analyzer/src/analysis/utils.rs:1259-1261`). -/
def inkAttrAt (file : Node HoverAttr κ) (p : List Nat) : Option (HoverAttr × (Nat × Nat)) :=
  match file.at? p, file.rangeAt p 0 with
  | some (.attr (some a) _), some (st, l) => some (a, (st, st + l))
  | _, _ => none

/-- `hover`, `crates/analyzer/src/analysis/hover.rs:22-68`. The outer `none` is a panic. -/
def hover (trivia : List Nat → Bool) (file : Node HoverAttr κ) (s e : Nat) (v : Version) :
    Option (Option Hover) :=
  (Node.coveringAttr trivia file s e).bind fun p =>
    match p.bind (inkAttrAt file) with
    | some (attr, whole) => hoverAttr v s e attr whole
    | none => some none

end Verif.Analyzer
