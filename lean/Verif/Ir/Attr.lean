import Verif.Ir.Kinds
import Verif.Ir.Meta
import Verif.Util.Sort

/-!
# ink! attributes

Models `InkArg` (`crates/ir/src/attrs/args.rs`) and `InkAttribute::cast`
(`crates/ir/src/attrs.rs:43-101`).
-/

namespace Verif.Ir

/-- An ink! argument. Models `InkArg`, `crates/ir/src/attrs/args.rs:12-18`. -/
structure Arg where
  kind : ArgKind
  item : Meta

/-- `InkArg::from(MetaNameValue)`, `crates/ir/src/attrs/args.rs:20-31`. -/
def Arg.ofMeta (m : Meta) : Arg :=
  { kind := match m.name with
      | .ok p => ArgKind.ofName p.elem.text
      | _ => .unknown
    item := m }

/-- `InkArg::value`, `crates/ir/src/attrs/args.rs:57-59`. -/
def Arg.value (a : Arg) : Option MetaValue :=
  match a.item.value with
  | .ok v => some v
  | _ => none

/-- `InkArg::nested`, `crates/ir/src/attrs/args.rs:64-66`. -/
def Arg.nested (a : Arg) : Option Arg := a.item.nested.map Arg.ofMeta

/-- The source of an attribute: its path segments and its token tree with its offset
(`ast::Attr`, as read by `crates/ir/src/attrs.rs:36-57`). -/
structure AttrSyntax where
  segments : List String
  tree : Option (Elem × Nat)

/-- `parse_ink_args`, `crates/ir/src/attrs/parser.rs:10-19`. `none` is a panic. -/
def parseInkArgs (pe : ExprParser) (a : AttrSyntax) : Option (List Arg) :=
  match a.tree with
  | some (t, o) => (t.parse pe o).map fun ms => ms.map Arg.ofMeta
  | none => some []

/-- An ink! attribute. Models `InkAttribute`, `crates/ir/src/attrs.rs:16-33` (the kind, the
arguments, and the primary argument from which the kind is derived). -/
structure InkAttr where
  kind : AttrKind
  args : List Arg
  primary : Option Arg

/-- `InkAttribute::can_cast`, `crates/ir/src/attrs.rs:36-40`. -/
def AttrSyntax.canCast (a : AttrSyntax) : Bool :=
  match a.segments with
  | s :: _ => s == "ink" || s == "ink_e2e"
  | [] => false

/-- The kind decided by `InkAttribute::cast`, `crates/ir/src/attrs.rs:54-87`: by path when
there is a second segment, else by the first argument after a stable sort by priority. -/
def castKind (segments : List String) (hasTree : Bool) (args : List Arg) :
    AttrKind × Option Arg :=
  match segments with
  | _ :: _ :: _ :: _ => (.macro .unknown, none)
  | [crate_, name] => (.macro (MacroKind.ofPath crate_ name), none)
  | _ =>
    match (Util.sortBy (fun a => a.kind.sortOrder) args).head? with
    | some primary => (.arg primary.kind, some primary)
    | none => (if hasTree then .arg .unknown else .macro .unknown, none)

/-- `InkAttribute::cast`, `crates/ir/src/attrs.rs:43-101`. The outer `none` is a panic, the
inner one "not an ink! attribute". -/
def castAttr (pe : ExprParser) (a : AttrSyntax) : Option (Option InkAttr) :=
  if a.canCast then
    (parseInkArgs pe a).map fun args =>
      let (kind, primary) := castKind a.segments a.tree.isSome args
      some { kind, args, primary }
  else some none

end Verif.Ir
