import Verif.Ir.Syntax

/-!
# Attribute argument parsing

Models `crates/ir/src/attrs/parser.rs` and the meta items of `crates/ir/src/attrs/meta.rs`.
A panic (failed assertion) is `none`.
-/

namespace Verif.Ir

/-- `MetaOption`, `crates/ir/src/attrs/meta/option.rs:7-15`: a valid value, a
non-empty sequence of elements that is not one, or nothing. -/
inductive MetaOpt (α : Type) where
  | ok (a : α)
  | err (items : List Placed)
  | none

/-- `MetaOption::is_some`, `crates/ir/src/attrs/meta/option.rs:34-36`. -/
def MetaOpt.isSome : MetaOpt α → Bool
  | .none => false
  | _ => true

/-- Result of `MetaValue::kind`, `crates/ir/src/attrs/meta/value.rs:86-98`: the token kind
of a literal or symbol, or `PATH`. -/
inductive ValueTok where
  | underscore | at | intNumber | string | trueKw | falseKw | path | otherLiteral
  deriving DecidableEq, Repr

/-- `MetaValue`, `crates/ir/src/attrs/meta/value.rs:15-24`. The re-parsed expression is
represented by its kind and its text (`Display`, lines 245-256), which is all the code
reads from it. -/
structure MetaValue where
  elements : List Placed
  kind : ValueTok
  text : String

/-- A meta item. Models `MetaNameValue`, `crates/ir/src/attrs/meta.rs:26-49` (without the
back link to the parent token tree). -/
inductive Meta where
  | mk (name : MetaOpt Placed) (eq : Option Placed) (value : MetaOpt MetaValue)
      (nested : Option Meta) (start : Nat) (stop : Option Nat)

namespace Meta

/-- `MetaNameValue::name`, `crates/ir/src/attrs/meta.rs:105-107`. -/
def name : Meta → MetaOpt Placed
  | mk n _ _ _ _ _ => n

/-- `MetaNameValue::eq`, `crates/ir/src/attrs/meta.rs:110-112`. -/
def eq : Meta → Option Placed
  | mk _ e _ _ _ _ => e

/-- `MetaNameValue::value`, `crates/ir/src/attrs/meta.rs:115-117`. -/
def value : Meta → MetaOpt MetaValue
  | mk _ _ v _ _ _ => v

/-- `MetaNameValue::nested`, `crates/ir/src/attrs/meta.rs:120-122`. -/
def nested : Meta → Option Meta
  | mk _ _ _ n _ _ => n

/-- `MetaNameValue::new`, `crates/ir/src/attrs/meta.rs:58-75` with its assertion. -/
def new? (name : MetaOpt Placed) (eq : Option Placed) (value : MetaOpt MetaValue)
    (nested : Option Meta) (start : Nat) : Option Meta :=
  if name.isSome || eq.isSome || value.isSome || nested.isSome then
    some (mk name eq value nested start .none)
  else Option.none

/-- `MetaNameValue::empty`, `crates/ir/src/attrs/meta.rs:82-97` with its assertions; the
parent token tree spans `[ttStart, ttStop]`. -/
def empty? (start : Nat) (stop : Option Nat) (ttStart ttStop : Nat) : Option Meta :=
  if ttStart ≤ start ∧ start ≤ ttStop ∧ (stop.all fun e => ttStart ≤ e && e ≤ ttStop) = true then
    some (mk .none .none .none .none start stop)
  else Option.none

end Meta

/-- `TextRange::new`, which asserts `start <= end` (used at
`crates/ir/src/attrs/meta.rs:138,184` and `crates/ir/src/attrs/meta/value.rs:116`). -/
def rangeNew (s e : Nat) : Option (Nat × Nat) := if s ≤ e then some (s, e) else none

/-- `MetaValue::text_range`, `crates/ir/src/attrs/meta/value.rs:101-133`: from the first
to the last non-trivia element, with the whole sequence as fallback. `none` is a panic. -/
def MetaValue.textRange (v : MetaValue) : Option (Nat × Nat) :=
  let solid := v.elements.filter fun p => !p.elem.isTrivia
  match v.elements.head?, v.elements.getLast? with
  | some first, some last =>
    rangeNew ((solid.head?.map Placed.start).getD first.start)
      ((solid.getLast?.map Placed.stop).getD last.start)
  | _, _ => none

/-- `get_items_text_range`, `crates/ir/src/attrs/meta.rs:137-142`: nothing for an empty
sequence; the outer `none` is a panic of `TextRange::new`. -/
def itemsRange (items : List Placed) : Option (Option (Nat × Nat)) :=
  match items.head?, items.getLast? with
  | some first, some last => (rangeNew first.start last.stop).map some
  | _, _ => some none

/-- The running `(start, end)` of `update_start_and_end`,
`crates/ir/src/attrs/meta.rs:130-135`. -/
def updateRange (acc : Option (Nat × Nat)) (r : Nat × Nat) : Option (Nat × Nat) :=
  match acc with
  | none => some r
  | some (s, _) => some (s, r.2)

/-- Contribution of the name or value part to the running range,
`crates/ir/src/attrs/meta.rs:145-155,168-178`; `none` is a panic. -/
def optRange (f : α → Option (Nat × Nat)) (acc : Option (Nat × Nat)) :
    MetaOpt α → Option (Option (Nat × Nat))
  | .ok a => (f a).map (updateRange acc)
  | .err items => (itemsRange items).map fun r =>
      match r with
      | some r => updateRange acc r
      | none => acc
  | .none => some acc

/-- Contribution of the `=` token to the running range,
`crates/ir/src/attrs/meta.rs:158-160`. -/
def eqRange (acc : Option (Nat × Nat)) : Option Placed → Option (Nat × Nat)
  | some p => updateRange acc (p.start, p.stop)
  | none => acc

/-- `MetaNameValue::text_range`, `crates/ir/src/attrs/meta.rs:125-188`. `none` is a panic
of `TextRange::new`. -/
def Meta.textRange : Meta → Option (Nat × Nat)
  | .mk name eq value nested start stop =>
    (optRange (fun p => some (p.start, p.stop)) none name).bind fun r₁ =>
    (match nested with
      | some m => (m.textRange).map (updateRange (eqRange r₁ eq))
      | none => some (eqRange r₁ eq)).bind fun r₃ =>
    (optRange MetaValue.textRange r₃ value).bind fun r₄ =>
    rangeNew ((r₄.map Prod.fst).getD start) (((r₄.map Prod.snd).or stop).getD start)

/-- A placed element together with the result of parsing it as a token tree. The code
parses a nested tree on demand (`crates/ir/src/attrs/parser.rs:87`); parsing is a pure
function, so the model computes it eagerly and consults it only where the code does. -/
structure Annot where
  placed : Placed
  parsed : Option (List Meta)

/-- The element of an annotated element (`crates/ir/src/attrs/parser.rs:41-42`). -/
def Annot.elem (a : Annot) : Elem := a.placed.elem

/-- itertools `group_by`: maximal runs of elements of equal key
(`crates/ir/src/attrs/parser.rs:53`). -/
def groupRuns (key : α → Bool) : List α → List (Bool × List α)
  | [] => []
  | x :: xs =>
    match groupRuns key xs with
    | [] => [(key x, [x])]
    | (k, g) :: rest =>
      if key x = k then (k, x :: g) :: rest else (key x, [x]) :: (k, g) :: rest

/-- `parse_meta_name`, `crates/ir/src/attrs/parser.rs:130-149` with `MetaName::cast`
(`crates/ir/src/attrs/meta/name.rs:12-20`): exactly one non-trivia element, an identifier
or the `impl` keyword. -/
def parseName (elems : List Placed) : MetaOpt Placed :=
  match elems.filter fun p => !p.elem.isTrivia with
  | [] => .none
  | [p] =>
    match p.elem with
    | .tok .ident _ | .tok .implKw _ => .ok p
    | _ => .err elems
  | _ => .err elems

/-- The external expression parser `ra_ap_syntax::hacks::parse_expr_from_str` restricted
to literals and paths (`crates/ir/src/attrs/meta/value.rs:65-66`): the kind and the text
of the expression. A parameter of the model; nothing is assumed about it here. -/
abbrev ExprParser := String → Option (ValueTok × String)

/-- `MetaValue::parse`, `crates/ir/src/attrs/meta/value.rs:33-77`. -/
def parseValue (pe : ExprParser) (elems : List Placed) : Option MetaValue :=
  if elems.isEmpty then none
  else
    let asExpr : Option MetaValue :=
      (pe (Elem.textList (elems.map Placed.elem))).map fun (k, t) =>
        { elements := elems, kind := k, text := t }
    match elems.filter fun p => !p.elem.isTrivia with
    | [p] =>
      match p.elem with
      | .tok .underscore t => some { elements := elems, kind := .underscore, text := t }
      | .tok .at t => some { elements := elems, kind := .at, text := t }
      | _ => asExpr
    | _ => asExpr

/-- `parse_meta_value`, `crates/ir/src/attrs/parser.rs:152-161`. -/
def parseMetaValue (pe : ExprParser) (elems : List Placed) : MetaOpt MetaValue :=
  if elems.isEmpty then .none
  else
    match parseValue pe elems with
    | some v => .ok v
    | none => .err elems

/-- The nested meta item of one argument, `crates/ir/src/attrs/parser.rs:83-101`: `name` is
the part before the `=`. The outer `none` is a panic. -/
def nestedOf (name : List Annot) (ttStart ttStop : Nat) : Option (Option Meta) :=
  match name.filter fun a => a.elem.isTree with
  | [t] =>
    match t.parsed with
    | none => none
    | some [m] => some (some m)
    | some _ =>
      if t.elem.text = "(" ∨ t.elem.text = "()" then
        (Meta.empty? t.placed.start (some t.placed.stop) ttStart ttStop).map some
      else some none
  | _ => some none

/-- One comma separated argument, `crates/ir/src/attrs/parser.rs:63-123`. `sep` is the end
of the last separator, `[ttStart, ttStop]` the enclosing token tree. `none` is a panic. -/
def buildItem (pe : ExprParser) (ttStart ttStop sep : Nat) (group : List Annot) :
    Option Meta :=
  let name := group.takeWhile fun a => !a.elem.isEq
  let rest := group.dropWhile fun a => !a.elem.isEq
  let eq := rest.head?.map Annot.placed
  let value := rest.tail.map Annot.placed
  (nestedOf name ttStart ttStop).bind fun nested =>
  let nameElems := (if nested.isSome then name.filter fun a => !a.elem.isTree else name).map
    Annot.placed
  let metaName := parseName nameElems
  let metaValue := parseMetaValue pe value
  if metaName.isSome || eq.isSome || metaValue.isSome || nested.isSome then
    Meta.new? metaName eq metaValue nested sep
  else
    Meta.empty? sep none ttStart ttStop

/-- The loop over comma groups, `crates/ir/src/attrs/parser.rs:54-126`. -/
def itemsOf (pe : ExprParser) (ttStart ttStop : Nat) : Nat → List (Bool × List Annot) →
    Option (List Meta)
  | _, [] => some []
  | sep, (true, g) :: rest =>
    let sep' := match g.head? with
      | some comma => comma.placed.stop
      | none => sep
    itemsOf pe ttStart ttStop sep' rest
  | sep, (false, g) :: rest =>
    (buildItem pe ttStart ttStop sep g).bind fun m =>
    (itemsOf pe ttStart ttStop sep rest).map fun ms => m :: ms

/-- The elements between the parentheses, `crates/ir/src/attrs/parser.rs:40-51`: skip the
opening parenthesis, stop before the closing one or before an unbalanced bracket.
Simplified: the code compares with the *first* `)` child; a token tree's first child is
never a `)`, so this is the first `)` after the skip. -/
def content (children : List Annot) : List Annot :=
  (children.drop (if children.any fun a => a.elem.isLParen then 1 else 0)).takeWhile
    fun a => !a.elem.isRParen && !a.elem.isErrorRBrack

/-- Start of the first argument, `crates/ir/src/attrs/parser.rs:26-29`. -/
def firstSep (ttStart : Nat) (children : List Annot) : Nat :=
  match children.find? fun a => a.elem.isLParen with
  | some p => p.placed.stop
  | none => ttStart

mutual

/-- `parse_meta_items`, `crates/ir/src/attrs/parser.rs:22-127`, on an element that starts
at offset `o`. Only token trees are parsed. `none` is a panic. -/
def Elem.parse (pe : ExprParser) (o : Nat) : Elem → Option (List Meta)
  | .tree cs =>
    let children := annotate pe o cs
    itemsOf pe o (o + Elem.lenList cs) (firstSep o children)
      (groupRuns (fun a => a.elem.isComma) (content children))
  | .tok _ _ => some []
  | .error _ => some []

/-- Children of a token tree with their offsets (`children_with_tokens`,
`crates/ir/src/attrs/parser.rs:41-42`), annotated as explained at `Annot`. -/
def annotate (pe : ExprParser) (o : Nat) : List Elem → List Annot
  | [] => []
  | c :: cs => ⟨⟨c, o⟩, c.parse pe o⟩ :: annotate pe (o + c.len) cs

end

end Verif.Ir
