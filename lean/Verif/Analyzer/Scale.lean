import Verif.Ir.Kinds

/-!
# SCALE codec traits

Models `ensure_impl_scale_codec_traits`
(`crates/analyzer/src/analysis/diagnostics/common.rs:1968-2248`) on the attributes of a type.
-/

namespace Verif.Analyzer

open Verif.Ir

/-- The required traits, `crates/analyzer/src/analysis/diagnostics/common.rs:2049-2068`. -/
inductive ScaleTrait where
  | encode | decode | typeInfo
  deriving DecidableEq, Repr

/-- The order of the table, `crates/analyzer/src/analysis/diagnostics/common.rs:2049-2068`. -/
def ScaleTrait.all : List ScaleTrait := [.encode, .decode, .typeInfo]

/-- `trait_path`, `crates/analyzer/src/analysis/diagnostics/common.rs:2053,2059,2065`. -/
def ScaleTrait.path : ScaleTrait → List Char
  | .encode => "scale::Encode".toList
  | .decode => "scale::Decode".toList
  | .typeInfo => "scale_info::TypeInfo".toList

/-- `arg_kind`, `crates/analyzer/src/analysis/diagnostics/common.rs:2054,2060,2066`. -/
def ScaleTrait.argKind : ScaleTrait → ArgKind
  | .encode => .encode
  | .decode => .decode
  | .typeInfo => .typeInfo

/-- An attribute of the type, as far as it is looked at
(`crates/analyzer/src/analysis/diagnostics/common.rs:1974-2037`): an `ink::scale_derive` attribute
with the kinds of its arguments; a `derive` attribute with the text between its parentheses, if it
has a token tree; a `cfg_attr` attribute with the texts between the parentheses after each
`derive` in it, if it has a token tree; or another attribute. -/
inductive DAttr where
  | scaleDerive (args : List ArgKind)
  | derive (text : Option (List Char))
  | cfgAttr (texts : Option (List (List Char)))
  | other
  deriving DecidableEq

/-- What is not modelled of the resolution of a path: whether the text of a path names the trait
(`path_from_str` and `is_external_crate_item`,
`crates/analyzer/src/analysis/diagnostics/common.rs:1990,2076-2087`), and `char::is_whitespace`
(for `trim_end`, `crates/analyzer/src/analysis/diagnostics/common.rs:2160`). -/
structure ScaleEnv where
  isTrait : ScaleTrait → List Char → Bool
  isWs : Char → Bool

/-- `split(',')`, `crates/analyzer/src/analysis/diagnostics/common.rs:1989`. -/
def splitComma : List Char → List (List Char)
  | [] => [[]]
  | c :: cs =>
    if c = ',' then [] :: splitComma cs
    else
      match splitComma cs with
      | [] => [[c]]
      | w :: ws => (c :: w) :: ws

/-- `meta_to_path_list`, `crates/analyzer/src/analysis/diagnostics/common.rs:1987-1992` (the texts
that do not parse as a path are kept; they name no trait). -/
def metaPaths (text : List Char) : List (List Char) := splitComma (text.filter (· ≠ ' '))

/-- The arguments of an `ink::scale_derive` attribute,
`crates/analyzer/src/analysis/diagnostics/common.rs:1974-1976`. -/
def DAttr.scaleArgs? : DAttr → Option (List ArgKind)
  | .scaleDerive args => some args
  | _ => none

/-- The text of a `derive` attribute,
`crates/analyzer/src/analysis/diagnostics/common.rs:1981-1984`. -/
def DAttr.deriveText? : DAttr → Option (Option (List Char))
  | .derive text => some text
  | _ => none

/-- The derived items of a `cfg_attr` attribute,
`crates/analyzer/src/analysis/diagnostics/common.rs:2003-2037`. -/
def DAttr.conditional? : DAttr → Option (List (List Char))
  | .cfgAttr texts => texts.map fun l => l.flatMap metaPaths
  | _ => none

/-- `scale_derive_attr`, `crates/analyzer/src/analysis/diagnostics/common.rs:1974-1979`. -/
def scaleDeriveArgs (v : Version) (attrs : List DAttr) : Option (List ArgKind) :=
  if v = .v5 then attrs.findSome? (·.scaleArgs?) else none

/-- `standalone_derive_meta`, `crates/analyzer/src/analysis/diagnostics/common.rs:1995-1999`. -/
def standaloneMeta (attrs : List DAttr) : Option (List Char) :=
  (attrs.findSome? (·.deriveText?)).join

/-- `derived_items`, `crates/analyzer/src/analysis/diagnostics/common.rs:2002-2046` (an absent list
is an empty one). -/
def derivedItems (attrs : List DAttr) : List (List Char) :=
  (((standaloneMeta attrs).map metaPaths).getD []) ++
    ((attrs.findSome? (·.conditional?)).getD [])

/-- The filter of `unimplemented_traits`,
`crates/analyzer/src/analysis/diagnostics/common.rs:2070-2106`; `impl` tells for which traits there
is an implementation (`is_implemented`). -/
def scaleMissing (E : ScaleEnv) (v : Version) (attrs : List DAttr) (impl : ScaleTrait → Bool)
    (t : ScaleTrait) : Bool :=
  !((scaleDeriveArgs v attrs).any (·.contains t.argKind)) &&
    !((derivedItems attrs).any (E.isTrait t)) && !impl t

/-- `unimplemented_traits`, `crates/analyzer/src/analysis/diagnostics/common.rs:2049-2107`. -/
def scaleUnimplemented (E : ScaleEnv) (v : Version) (attrs : List DAttr)
    (impl : ScaleTrait → Bool) : List ScaleTrait :=
  ScaleTrait.all.filter (scaleMissing E v attrs impl)

/-- `trait_paths_plain` in version 4,
`crates/analyzer/src/analysis/diagnostics/common.rs:2112-2121`. -/
def traitPathsPlain (l : List ScaleTrait) : List Char := [',', ' '].intercalate (l.map (·.path))

/-- `trim_end`, `crates/analyzer/src/analysis/diagnostics/common.rs:2160`. -/
def trimEnd (isWs : Char → Bool) (t : List Char) : List Char :=
  (t.reverse.dropWhile isWs).reverse

/-- `meta_prefix`, `crates/analyzer/src/analysis/diagnostics/common.rs:2156-2169`. -/
def metaPrefix (E : ScaleEnv) (text : List Char) : List Char :=
  text ++ if (trimEnd E.isWs text).getLast? = some ',' then [] else [',', ' ']

/-- The attribute inserted by the quickfix, as it is read again
(`crates/analyzer/src/analysis/diagnostics/common.rs:2153-2203`): the text between the parentheses
in version 4, the arguments in version 5. -/
def fixedAttr (E : ScaleEnv) (v : Version) (attrs : List DAttr) (missing : List ScaleTrait) :
    DAttr :=
  if v = .v5 then .scaleDerive (missing.map (·.argKind))
  else
    .derive (some ((((standaloneMeta attrs).map (metaPrefix E)).getD []) ++
      traitPathsPlain missing))

/-- `target_attr`, `crates/analyzer/src/analysis/diagnostics/common.rs:2144-2151`: the position of
the attribute that is replaced. -/
def targetAttr (v : Version) (attrs : List DAttr) : Option Nat :=
  if v = .v5 then attrs.findIdx? (·.scaleArgs?.isSome) else attrs.findIdx? (·.deriveText?.isSome)

/-- The attributes after the quickfix: the target is replaced, or the new attribute is added after
the others (`crates/analyzer/src/analysis/diagnostics/common.rs:2153-2203`). `none` if nothing is
reported (`crates/analyzer/src/analysis/diagnostics/common.rs:2110`). -/
def scaleFix (E : ScaleEnv) (v : Version) (attrs : List DAttr) (impl : ScaleTrait → Bool) :
    Option (List DAttr) :=
  let missing := scaleUnimplemented E v attrs impl
  if missing.isEmpty then none
  else
    match targetAttr v attrs with
    | some i => some (attrs.set i (fixedAttr E v attrs missing))
    | none => some (attrs ++ [fixedAttr E v attrs missing])

end Verif.Analyzer
