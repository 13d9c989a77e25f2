import Verif.Analyzer.Scale
import Verif.Analyzer.AttrActions

/-!
# The text edit for missing SCALE codec traits

Models the quick fix of `ensure_impl_scale_codec_traits`
(`crates/analyzer/src/analysis/diagnostics/common.rs:1968-2248`) on the source of the type; which traits
are missing is decided in `Verif.Analyzer.Scale`. The message, the labels and the range of the diagnostic
are left out.
-/

namespace Verif.Analyzer.ScaleText
open Verif.Ir Verif.Analyzer.Insert Verif.Analyzer.AttrActions

/-- A closing parenthesis (`r_paren_token`, `crates/analyzer/src/analysis/utils.rs:2078,2083`). -/
def isRParen : Elem → Bool
  | .tok .rParen _ => true
  | _ => false

/-- An opening parenthesis (`l_paren_token`, `crates/analyzer/src/analysis/utils.rs:2082`). -/
def isLParen : Elem → Bool
  | .tok .lParen _ => true
  | _ => false

/-- The elements of `token_tree_to_non_delimited_meta_string`,
`crates/analyzer/src/analysis/utils.rs:2077-2085`. -/
def inside (cs : List Elem) : List Elem :=
  (cs.drop (if cs.any isLParen then 1 else 0)).takeWhile fun e => !isRParen e

/-- `token_tree_to_non_delimited_meta_string`, `crates/analyzer/src/analysis/utils.rs:2077-2085`. -/
def metaString (cs : List Elem) : String := Elem.textList (inside cs)

/-- The text of the path of an attribute
(`crates/analyzer/src/analysis/diagnostics/common.rs:1981-1984,2003-2007`): what is behind `#[` without
white space and comments around it. An attribute with a value (`#[derive = 1]`) has another text here. -/
def pathText (a : OwnAttr) : String :=
  Elem.textList (((a.head.dropWhile fun e => e.isTrivia || ["#", "!", "["].contains e.text).reverse.dropWhile
    Elem.isTrivia).reverse)

mutual

/-- The texts of the tokens that are not white space or comments
(for `closest_non_trivia_token`, `crates/analyzer/src/analysis/diagnostics/common.rs:2015-2022`). -/
def solidTexts : Elem → List String
  | .tok k s => if k.isTrivia then [] else [s]
  | .tree cs => solidTextsList cs
  | .error cs => solidTextsList cs

/-- The same for several elements
(`crates/analyzer/src/analysis/diagnostics/common.rs:2015-2022`). -/
def solidTextsList : List Elem → List String
  | [] => []
  | c :: cs => solidTexts c ++ solidTextsList cs

end

/-- The texts behind `derive` in a `cfg_attr` attribute,
`crates/analyzer/src/analysis/diagnostics/common.rs:2009-2032`; `prev` is the token in front. -/
def afterDerive (prev : Option String) : List Elem → List (List Char)
  | [] => []
  | e :: es =>
    (match e with
      | .tree cs => if prev = some "derive" then [(metaString cs).toList] else []
      | _ => []) ++ afterDerive ((solidTexts e).getLast?.or prev) es

/-- An attribute as far as it is looked at,
`crates/analyzer/src/analysis/diagnostics/common.rs:1974-2037`. -/
def classify (a : OwnAttr) : DAttr :=
  match a.ink with
  | some ⟨.macro .scaleDerive, args⟩ => .scaleDerive args
  | _ =>
    if pathText a = "derive" then .derive (a.tree.map fun cs => (metaString cs).toList)
    else if pathText a = "cfg_attr" then .cfgAttr (a.tree.map (afterDerive none))
    else .other

/-- The attributes of the type as far as they are looked at,
`crates/analyzer/src/analysis/diagnostics/common.rs:1974-2037`. -/
def classes (t : Target) : List DAttr := t.attrs.map fun a => classify a.2.1

/-- The edit: the replaced range, the text and the snippet
(`TextEdit::new`, `crates/analyzer/src/analysis/diagnostics/common.rs:2238-2242`). -/
structure Change where
  start : Nat
  stop : Nat
  text : String
  snippet : String
deriving DecidableEq

/-- What a trait is called in the attribute,
`crates/analyzer/src/analysis/diagnostics/common.rs:2114-2120`. -/
def traitName (v : Version) (t : ScaleTrait) : String :=
  if v = .v5 then t.argKind.name else String.ofList t.path

/-- `trait_paths_plain`, `crates/analyzer/src/analysis/diagnostics/common.rs:2112-2121`. -/
def plain (v : Version) (l : List ScaleTrait) : String := ", ".intercalate (l.map (traitName v))

/-- A tab stop, `crates/analyzer/src/analysis/diagnostics/common.rs:2126-2134`. -/
def tabStop (i : Nat) (s : String) : String := "${" ++ (i + 1).repr ++ ":" ++ s ++ "}"

/-- `trait_paths_snippet`, `crates/analyzer/src/analysis/diagnostics/common.rs:2122-2136`. -/
def tabStops (v : Version) (l : List ScaleTrait) : String :=
  ", ".intercalate (l.mapIdx fun i t => tabStop i (traitName v t))

/-- `attr_path`, `crates/analyzer/src/analysis/diagnostics/common.rs:2144-2151`. -/
def attrPath (v : Version) : String := if v = .v5 then "ink::scale_derive" else "derive"

/-- The text of the attribute,
`crates/analyzer/src/analysis/diagnostics/common.rs:2171-2174,2176-2179,2185,2202`. -/
def attrText (v : Version) (pre names : String) : String :=
  "#[" ++ attrPath v ++ "(" ++ pre ++ names ++ ")]"

/-- `meta_prefix` for an attribute that is replaced,
`crates/analyzer/src/analysis/diagnostics/common.rs:2156-2169`. -/
def keptText (E : ScaleEnv) (v : Version) (attrs : List DAttr) : String :=
  if v = .v4 then String.ofList (((standaloneMeta attrs).map (metaPrefix E)).getD []) else ""

/-- The place of a new attribute,
`crates/analyzer/src/analysis/diagnostics/common.rs:2186-2201`. -/
def newOffset (t : Target) : Nat :=
  (((t.attrs.getLast?.bind lastToken).bind (nextSolid (leavesList 0 t.file))).map Leaf.start).getD
    (Elem.lenList t.before)

/-- The edit of the quick fix of `ensure_impl_scale_codec_traits`,
`crates/analyzer/src/analysis/diagnostics/common.rs:2110-2243`; `none` if nothing is reported. -/
def scaleEdit (E : ScaleEnv) (v : Version) (t : Target) (impl : ScaleTrait → Bool) : Option Change :=
  let missing := scaleUnimplemented E v (classes t) impl
  if missing.isEmpty then none
  else
    match (targetAttr v (classes t)).bind fun i => t.attrs[i]? with
    | some a =>
      let pre := keptText E v (classes t)
      some ⟨Elem.lenList a.1, Elem.lenList a.1 + Elem.lenList a.2.1.elems,
        attrText v pre (plain v missing), attrText v pre (tabStops v missing)⟩
    | none =>
      some ⟨newOffset t, newOffset t, attrText v "" (plain v missing), attrText v "" (tabStops v missing)⟩

end Verif.Analyzer.ScaleText
