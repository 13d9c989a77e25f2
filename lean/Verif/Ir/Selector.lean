import Verif.Ir.Attr
import Verif.Ir.Value
import Verif.Analyzer.Text

/-!
# Selectors

Models `crates/ir/src/selector.rs:15-237`, the argument lookup of
`crates/ir/src/tree/utils.rs:116-118` and `IsInkCallable::selector_arg`
(`crates/ir/src/traits/shared.rs:16-18`).
-/

namespace Verif.Ir

/-- `utils::ink_arg_by_kind`, `crates/ir/src/tree/utils.rs:116-118`: the first argument of
the kind in the first attribute that has one. The node is given by its ink! attributes in
source order. -/
def argByKind (attrs : List InkAttr) (kind : ArgKind) : Option Arg :=
  attrs.findSome? fun attr => attr.args.find? fun arg => arg.kind == kind

/-- `SelectorArgKind`, `crates/ir/src/selector.rs:229-237`. -/
inductive SelectorKind where
  | integer | wildcard | complement | other
deriving DecidableEq, Repr

/-- The selector kind for the token kind of the value, `crates/ir/src/selector.rs:170-175`. -/
def SelectorKind.ofTok : ValueTok → SelectorKind
  | .intNumber => .integer
  | .underscore => .wildcard
  | .at => .complement
  | _ => .other

/-- `SelectorArg`, `crates/ir/src/selector.rs:150-157`, reduced to its kind and the
argument's value. -/
structure SelectorArg where
  kind : SelectorKind
  value : Option MetaValue

/-- `SelectorArg::cast`, `crates/ir/src/selector.rs:166-181`. -/
def SelectorArg.cast (arg : Arg) : Option SelectorArg :=
  if arg.kind = .selector then
    some {
      kind := match arg.value with
        | some v => .ofTok v.kind
        | none => .other
      value := arg.value }
  else none

/-- `u32::to_be_bytes` (used at `crates/ir/src/selector.rs:47,216`). -/
def beBytes (v : Nat) : List UInt8 :=
  [UInt8.ofNat (v / 16777216), UInt8.ofNat (v / 65536), UInt8.ofNat (v / 256), UInt8.ofNat v]

/-- `u32::from_be_bytes` (`Selector::into_be_u32`, `crates/ir/src/selector.rs:93-95`). -/
def beValue (bytes : List UInt8) : Nat :=
  bytes.foldl (fun acc b => acc * 256 + b.toNat) 0

/-- `IIP2_WILDCARD_COMPLEMENT_SELECTOR`, `crates/ir/src/selector.rs:21`. -/
def complementBytes : List UInt8 := [0x9B, 0xAE, 0x9D, 0x5E]

namespace SelectorArg

/-- `SelectorArg::is_wildcard`, `crates/ir/src/selector.rs:194-196`. -/
def isWildcard (s : SelectorArg) : Bool := s.kind = .wildcard

/-- `SelectorArg::as_u32`, `crates/ir/src/selector.rs:220-222`. -/
def asU32 (s : SelectorArg) : Option Nat := s.value.bind MetaValue.asU32

/-- `SelectorArg::is_wildcard_complement`, `crates/ir/src/selector.rs:208-217`. -/
def isComplement (s : SelectorArg) : Bool :=
  s.kind = .complement ||
    (match s.asU32 with
      | some v => beBytes v == complementBytes
      | none => false)

end SelectorArg

/-- A path as the parser builds it: a first segment, whose text includes a leading `::` if
the path has one, followed by `::` separators (with any surrounding trivia) and segments.
Models the parts of `ast::Path` that `crates/ir/src/selector.rs:119-135` reads. -/
inductive TPath where
  | seg (text : String)
  | qual (qualifier : TPath) (sep : String) (text : String)

namespace TPath

/-- `path.qualifier()` (used at `crates/ir/src/selector.rs:122`). -/
def qualifier : TPath → Option TPath
  | seg _ => none
  | qual q _ _ => some q

/-- Whether the path node has a `::` token of its own (`coloncolon_token`, used at
`crates/ir/src/selector.rs:123`): the leading `::` belongs to the first segment, so only a
qualified path has one. -/
def hasColonColon : TPath → Bool
  | seg _ => false
  | qual _ _ _ => true

/-- Source text of the path (`to_string`, `crates/ir/src/selector.rs:125`). -/
def text : TPath → String
  | seg t => t
  | qual q sep t => q.text ++ sep ++ t

/-- Text of the last segment (`segments().last()`, `crates/ir/src/selector.rs:129-133`). -/
def lastSegment : TPath → String
  | seg t => t
  | qual _ _ t => t

end TPath

/-- `String::retain(|c| !c.is_whitespace())` (`crates/ir/src/selector.rs:126`). -/
def dropSpaces (s : String) : String := String.ofList (s.toList.filter fun c => !Analyzer.isWs c)

/-- The parent `impl` item of a callable, as far as selectors depend on it: the trait type
if there is one (`some none` when it is not a path type) and the item's ink! attributes.
As used in `crates/ir/src/selector.rs:98-150`. -/
structure ImplItem where
  trait_ : Option (Option TPath)
  attrs : List InkAttr

/-- An ink! callable, as far as its selector depends on it: its ink! attributes, the
function name if it is a named `fn` item and its parent `impl` item (the accessors of
`IsInkCallable` used in `crates/ir/src/selector.rs:98-146`). -/
structure Callable where
  attrs : List InkAttr
  fnName : Option String
  implItem : Option ImplItem

/-- `IsInkCallable::selector_arg`, `crates/ir/src/traits/shared.rs:16-18`. -/
def Callable.selectorArg (c : Callable) : Option SelectorArg :=
  (argByKind c.attrs .selector).bind SelectorArg.cast

/-- The trait part for a trait path, `crates/ir/src/selector.rs:118-137`. -/
def pathTraitIdent (p : TPath) : Option String :=
  let isFull := match p.qualifier with
    | some q => q.hasColonColon
    | none => false
  let ident := if isFull then dropSpaces p.text else p.lastSegment
  if ident ≠ "" then some ident else none

/-- `Selector::trait_ident`, `crates/ir/src/selector.rs:113-140`. -/
def traitIdent (c : Callable) : Option String :=
  c.implItem.bind fun i => i.trait_.bind fun t => t.bind pathTraitIdent

/-- `Selector::namespace`, `crates/ir/src/selector.rs:143-150`. -/
def namespaceOf (c : Callable) : Option String :=
  c.implItem.bind fun i => (argByKind i.attrs .namespace).bind fun a =>
    a.value.bind MetaValue.asString

/-- `[namespace, trait_ident, Some(ident)].into_iter().flatten().join("::")`,
`crates/ir/src/selector.rs:62-66`. -/
def preHash (c : Callable) (name : String) : String :=
  "::".intercalate ([namespaceOf c, traitIdent c, some name].filterMap id)

/-- `Selector::compose`, `crates/ir/src/selector.rs:41-84`. The BLAKE2b-256 hash of the
UTF-8 bytes of a string is the parameter `hash`. -/
def compose (hash : String → Vector UInt8 32) (c : Callable) : Option (List UInt8) :=
  match c.selectorArg.bind SelectorArg.asU32 with
  | some v => some (beBytes v)
  | none =>
    let fallback := c.fnName.map fun name =>
      let h := hash (preHash c name)
      [h[0], h[1], h[2], h[3]]
    match c.selectorArg with
    | some s => if s.isComplement then some complementBytes else fallback
    | none => fallback

end Verif.Ir
