import Verif.Basic
import Verif.Ir.Kinds

/-!
# The tables of ink! attribute compatibility

Models `crates/analyzer/src/analysis/utils.rs:20-444` and `:478-533`.
-/

namespace Verif.Analyzer

open Verif.Ir

/-- `valid_sibling_ink_args`, `crates/analyzer/src/analysis/utils.rs:25-163`. -/
def validSiblings (k : AttrKind) (v : Version) : List ArgKind :=
  match k with
  | .macro m =>
    match m, v with
    | .chainExtension, .v5 => [.extension]
    | .chainExtension, .v4 => []
    | .contract, _ => [.env, .keepAttr]
    | .event, .v5 => [.anonymous, .signatureTopic]
    | .storageItem, _ => [.derive]
    | .test, _ => []
    | .traitDefinition, _ => [.keepAttr, .namespace]
    | .e2eTest, .v5 => [.backend, .environment]
    | .e2eTest, .v4 => [.additionalContracts, .environment, .keepAttr]
    | .scaleDerive, .v5 => [.encode, .decode, .typeInfo]
    | _, _ => []
  | .arg a =>
    match a, v with
    | .storage, _ => []
    | .event, .v5 => [.anonymous, .signatureTopic]
    | .signatureTopic, .v5 => [.event]
    | .event, .v4 => [.anonymous]
    | .anonymous, _ => [.event]
    | .topic, _ => []
    | .impl, _ => [.namespace]
    | .constructor, _ => [.default, .payable, .selector]
    | .message, _ => [.default, .payable, .selector]
    | .env, _ => [.keepAttr]
    | .extension, .v5 => []
    | .extension, .v4 => [.handleStatus]
    | .function, .v5 => [.handleStatus]
    | .derive, _ => []
    | .keepAttr, _ => [.env, .namespace]
    | .namespace, _ => [.keepAttr, .impl]
    | .handleStatus, .v5 => [.function]
    | .handleStatus, .v4 => [.extension]
    | .payable, _ => [.constructor, .default, .message, .selector]
    | .default, _ => [.constructor, .message, .payable, .selector]
    | .selector, _ => [.constructor, .default, .message, .payable]
    | _, _ => []

/-- `valid_quasi_direct_descendant_ink_args`,
`crates/analyzer/src/analysis/utils.rs:170-283`. -/
def validDescendantArgs (k : AttrKind) (v : Version) : List ArgKind :=
  match k with
  | .macro m =>
    match m, v with
    | .chainExtension, .v5 => [.function, .handleStatus]
    | .chainExtension, .v4 => [.extension, .handleStatus]
    | .contract, .v5 =>
      [.anonymous, .constructor, .default, .event, .impl, .message, .namespace, .payable,
       .selector, .signatureTopic, .storage]
    | .contract, .v4 =>
      [.anonymous, .constructor, .default, .event, .impl, .message, .namespace, .payable,
       .selector, .storage]
    | .event, .v5 => [.topic]
    | .traitDefinition, _ => [.default, .message, .payable, .selector]
    | _, _ => []
  | .arg a =>
    match a, v with
    | .event, .v5 | .anonymous, .v5 | .signatureTopic, .v5 => [.topic]
    | .event, .v4 | .anonymous, .v4 => [.topic]
    | .topic, _ => []
    | .env, _ | .keepAttr, _ =>
      [.anonymous, .constructor, .default, .event, .impl, .message, .namespace, .payable,
       .selector, .storage]
    | .impl, _ | .namespace, _ => [.constructor, .default, .message, .payable, .selector]
    | _, _ => []

/-- `valid_quasi_direct_descendant_ink_macros`,
`crates/analyzer/src/analysis/utils.rs:290-361`. -/
def validDescendantMacros (k : AttrKind) (v : Version) : List MacroKind :=
  match k with
  | .macro m =>
    match m, v with
    | .contract, .v5 =>
      [.chainExtension, .event, .scaleDerive, .storageItem, .test, .traitDefinition, .e2eTest]
    | .contract, .v4 => [.chainExtension, .storageItem, .test, .traitDefinition, .e2eTest]
    | .chainExtension, .v5 | .traitDefinition, .v5 | .test, .v5 | .e2eTest, .v5 => [.scaleDerive]
    | _, _ => []
  | .arg a =>
    match a, v with
    | .storage, .v5 | .event, .v5 | .anonymous, .v5 | .signatureTopic, .v5 => []
    | _, .v5 => [.scaleDerive]
    | _, .v4 => []

/-- The syntax kinds told apart by the tables below (`SyntaxKind` of the item node or of its
keyword; the table treats `X` and `X_KW` alike, `crates/analyzer/src/analysis/utils.rs:367-444`).
Every other kind is `other`. -/
inductive ItemKind where
  | module | trait | struct | enum | union | recordField | fn | impl | other
  deriving DecidableEq, Repr

/-- `valid_ink_args_by_syntax_kind`, `crates/analyzer/src/analysis/utils.rs:367-410`. -/
def argsBySyntax (s : ItemKind) (v : Version) : List ArgKind :=
  match s, v with
  | .module, _ => []
  | .trait, _ => []
  | .struct, .v5 => [.anonymous, .event, .signatureTopic, .storage]
  | .struct, .v4 => [.anonymous, .event, .storage]
  | .enum, _ | .union, _ => []
  | .recordField, _ => [.topic]
  | .fn, .v5 => [.constructor, .default, .function, .handleStatus, .message, .payable, .selector]
  | .fn, .v4 => [.constructor, .default, .extension, .handleStatus, .message, .payable, .selector]
  | .impl, _ => [.impl, .namespace]
  | .other, _ => []

/-- `valid_ink_macros_by_syntax_kind`, `crates/analyzer/src/analysis/utils.rs:416-444`. -/
def macrosBySyntax (s : ItemKind) (v : Version) : List MacroKind :=
  match s, v with
  | .module, _ => [.contract]
  | .trait, _ => [.chainExtension, .traitDefinition]
  | .struct, .v5 => [.event, .scaleDerive, .storageItem]
  | .enum, .v5 | .union, .v5 => [.scaleDerive, .storageItem]
  | .enum, .v4 | .struct, .v4 | .union, .v4 => [.storageItem]
  | .fn, _ => [.test, .e2eTest]
  | _, _ => []

/-- `primary_ink_attribute_kind_suggestions`,
`crates/analyzer/src/analysis/utils.rs:482-533`. -/
def primarySuggestions (k : AttrKind) (v : Version) : List AttrKind :=
  match k with
  | .arg a =>
    match a, v with
    | .additionalContracts, .v5 => []
    | .backend, .v5 | .environment, .v5 => [.macro .e2eTest]
    | .additionalContracts, .v4 | .environment, .v4 => [.macro .e2eTest]
    | .anonymous, .v5 | .signatureTopic, .v5 => [.macro .event, .arg .event]
    | .anonymous, .v4 => [.arg .event]
    | .decode, .v5 | .encode, .v5 | .typeInfo, .v5 => [.macro .scaleDerive]
    | .keepAttr, _ => [.macro .contract, .macro .traitDefinition, .macro .e2eTest]
    | .handleStatus, _ => [.arg .extension]
    | .namespace, _ => [.macro .traitDefinition, .arg .impl]
    | .payable, _ | .default, _ | .selector, _ => [.arg .constructor, .arg .message]
    | _, _ => []
  | .macro _ => []

end Verif.Analyzer
