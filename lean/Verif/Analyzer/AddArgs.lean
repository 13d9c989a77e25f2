import Verif.Analyzer.AttrActions
import Verif.Analyzer.TraitImpl

/-!
# Adding the arguments that a trait definition declares to the function that implements a message

Models the edits of `ensure_trait_definition_impl_message_args`
(`crates/analyzer/src/analysis/diagnostics/contract/ink_impl.rs:824-910`) and
`first_ink_attribute_insert_offset` (`crates/analyzer/src/analysis/utils.rs:1126-1132`).
-/

namespace Verif.Analyzer.AddArgs
open Verif.Ir Verif.Analyzer.Insert Verif.Analyzer.AttrActions

/-- Whether an attribute can be extended,
`crates/analyzer/src/analysis/diagnostics/contract/ink_impl.rs:826-829`. -/
def fits (v : Version) (a : List Elem × OwnAttr × List Lead) : Bool :=
  match a.2.1.ink with
  | some ⟨.arg k, _⟩ => (allowedMessageArgs v).contains k
  | _ => false

/-- `Ord` of ink! attributes (`crates/ir/src/attrs.rs:152-185`), as used by `sorted` at
`crates/analyzer/src/analysis/diagnostics/contract/ink_impl.rs:830`. -/
def inkRank (a : List Elem × OwnAttr × List Lead) : Nat :=
  (a.2.1.ink.map fun p => p.kind.rank).getD 0

/-- `ink_attr_option`,
`crates/analyzer/src/analysis/diagnostics/contract/ink_impl.rs:825-831`. -/
def extendable (v : Version) (t : Target) : Option (List Elem × OwnAttr × List Lead) :=
  (Util.sortBy inkRank (t.inkAttrs.filter (fits v))).head?

/-- The text of an argument (`Display for InkArg`, `crates/ir/src/attrs/args.rs:76-80`). -/
def shown (a : TArg) : String := String.ofList a.text

/-- `.join(", ")`,
`crates/analyzer/src/analysis/diagnostics/contract/ink_impl.rs:852,888-891,902`. -/
def joined (args : List TArg) : String := ", ".intercalate (args.map shown)

/-- `first_ink_attribute_insert_offset`, `crates/analyzer/src/analysis/utils.rs:1126-1132`. -/
def firstAttrOffset (t : Target) : Nat :=
  (t.inkAttrs.head?.map fun a => Elem.lenList a.1).getD t.insertOffset

/-- The edits when `message` is missing and `p` is the place for it,
`crates/analyzer/src/analysis/diagnostics/contract/ink_impl.rs:842-881`. -/
def messageEdits (a : AttrIn) (p : Place) (first : TArg) (others : List TArg) : List (Nat × String) :=
  if joined others = "" then [p.insertion (shown first)]
  else
    match argPlace a none with
    | some q => [p.insertion (shown first), q.insertion (joined others)]
    | none => [p.insertion (", ".intercalate [shown first, joined others])]

/-- The edits that extend an attribute,
`crates/analyzer/src/analysis/diagnostics/contract/ink_impl.rs:841-898`. The outer `none` is a panic. -/
def extendEdits (pe : ExprParser) (a : AttrIn) (first : TArg) (others : List TArg) :
    Option (Option (List (Nat × String))) :=
  if first.kind = .message then
    (firstPlace pe a).map fun p => p.map fun p => messageEdits a p first others
  else some ((argPlace a none).map fun p => [p.insertion (joined (first :: others))])

/-- The edit that adds an attribute,
`crates/analyzer/src/analysis/diagnostics/contract/ink_impl.rs:899-910`. -/
def newEdits (t : Target) (first : TArg) (others : List TArg) : List (Nat × String) :=
  [(if first.kind = .message then firstAttrOffset t else t.insertOffset,
    inkText (joined (first :: others)))]

/-- `missing_arg_edits`, `crates/analyzer/src/analysis/diagnostics/contract/ink_impl.rs:823-910`: the
insertions for the missing arguments (sorted). `none` is a panic. -/
def addEdits (pe : ExprParser) (v : Version) (t : Target) : List TArg → Option (List (Nat × String))
  | [] => some []
  | first :: others =>
    match extendable v t with
    | some a => (extendEdits pe (attrIn t a) first others).map fun e => e.getD (newEdits t first others)
    | none => some (newEdits t first others)

end Verif.Analyzer.AddArgs
