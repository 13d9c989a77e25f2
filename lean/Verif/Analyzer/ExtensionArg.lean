import Verif.Analyzer.InsertText

/-!
# The id of a chain extension

Models `crates/analyzer/src/analysis/diagnostics/chain_extension.rs:80-142` (ink! 5) and
`crates/ir/src/chain_extension.rs:22-27`.
-/

namespace Verif.Analyzer.ExtensionArg
open Verif.Ir Verif.Analyzer.Insert Verif.Analyzer.InsertText

/-- A chain extension: its `ink::chain_extension` attribute in the file (`ink_attr`,
`crates/analyzer/src/analysis/diagnostics/chain_extension.rs:92,100`) and the arguments of the other ink!
attributes of the trait before and behind it (`ink_attrs`, `crates/ir/src/tree/utils.rs:116-118`). -/
structure Ext where
  attr : AttrIn
  argsBefore : List Arg
  argsAfter : List Arg

/-- `extension_arg`, `crates/ir/src/chain_extension.rs:28` with `ink_arg_by_kind`,
`crates/ir/src/tree/utils.rs:116-118`. The outer `none` is a panic. -/
def Ext.extensionArg (pe : ExprParser) (e : Ext) : Option (Option Arg) :=
  (e.attr.args pe).map fun args =>
    (e.argsBefore ++ (args ++ e.argsAfter)).find? fun a => a.kind = .extension

/-- `ChainExtension::id`, `crates/ir/src/chain_extension.rs:24-26`. -/
def Ext.id (pe : ExprParser) (e : Ext) : Option (Option Nat) :=
  (e.extensionArg pe).map fun arg => arg.bind fun a => a.value.bind MetaValue.asU16

/-- The ids in use, `crates/analyzer/src/analysis/diagnostics/chain_extension.rs:110-114`: those of all
chain extensions of the file. The outer `none` is a panic. -/
def idsOf (pe : ExprParser) : List Ext → Option (List Nat)
  | [] => some []
  | e :: es => (e.id pe).bind fun i => (idsOf pe es).map fun is => i.toList ++ is

/-- `ensure_extension_arg`, `crates/analyzer/src/analysis/diagnostics/chain_extension.rs:88-142`: nothing,
or a report with the insertion of its quickfix. The range, the messages and the snippet are left out. The
outer `none` is a panic. -/
def ensureExtensionArg (pe : ExprParser) (file : List Ext) (e : Ext) :
    Option (Option (Option (Nat × String))) :=
  (e.extensionArg pe).bind fun arg =>
    match arg with
    | some _ => some none
    | none =>
      (idsOf pe file).map fun ids =>
        some ((argPlace e.attr none).map fun p =>
          p.insertion ("extension = " ++ (defaultId maxU16 ids).repr))

end Verif.Analyzer.ExtensionArg
