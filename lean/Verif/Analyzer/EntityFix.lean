import Verif.Analyzer.Entity
import Verif.Analyzer.Remove
import Verif.Ir.Attr

/-!
# The quickfixes for the attributes of one item

Models the quickfixes of `ensure_no_duplicate_attributes_and_arguments` and of
`validate_entity_attributes` (`crates/analyzer/src/analysis/diagnostics/common.rs:451-1138`) by what
they do to the ink! attributes of the item as they are written: which attributes there are, in
which order, and which arguments they have. That the text edits do this to an attribute is the
subject of C51 and C105 (removing arguments), C79 (adding and moving arguments, replacing an
attribute by a macro) and C80 (the inserted arguments are read back with their kinds).
-/

namespace Verif.Analyzer.EntityFix

open Verif.Ir

/-- How an ink! attribute is written: with the path of a macro, or `#[ink]` with or without
parentheses (the cases told apart at `crates/ir/src/attrs.rs:57-90`). -/
inductive Form where
  | path (m : MacroKind)
  | ink (tree : Bool)
  deriving DecidableEq, Repr

/-- An ink! attribute as it is written: its form and the kinds of its arguments
(`InkAttribute`, `crates/ir/src/attrs.rs:16-33`). -/
structure Written where
  form : Form
  args : List ArgKind
  deriving DecidableEq, Repr

/-- The kind of the attribute, `InkAttribute::cast`, `crates/ir/src/attrs.rs:57-90`. -/
def Written.kind (w : Written) : AttrKind :=
  match w.form with
  | .path m => .macro m
  | .ink tree =>
    match (Util.sortBy ArgKind.sortOrder w.args).head? with
    | some k => .arg k
    | none => if tree then .arg .unknown else .macro .unknown

/-- What the checks read of the attribute (`InkAttribute::kind`, `InkAttribute::args`,
`crates/ir/src/attrs.rs:107-114`). -/
def Written.view (w : Written) : AttrV := { kind := w.kind, args := w.args }

/-- `Action::remove_attribute`, `crates/analyzer/src/analysis/actions.rs:64-71`. -/
def removeAttr (item : List Written) (i : Nat) : List Written := item.eraseIdx i

/-- Deleting the range of `ink_arg_and_delimiter_removal_range`,
`crates/analyzer/src/analysis/utils.rs:1533-1624`: the only argument of a macro goes with the
parentheses, the only argument of another attribute with the attribute. -/
def removeArg (item : List Written) (q : Nat × Nat) : List Written :=
  match item[q.1]? with
  | none => item
  | some w =>
    if w.args.length = 1 then
      match w.kind with
      | .macro _ => item.set q.1 { w with args := [] }
      | .arg _ => item.eraseIdx q.1
    else item.set q.1 { w with args := w.args.eraseIdx q.2 }

/-- Inserting an argument at the place of `first_ink_arg_insert_offset_and_affixes`,
`crates/analyzer/src/analysis/utils.rs:1135-1187` (the attribute is closed, so there is such a
place). An attribute without parentheses gets them. -/
def insertFirst (k : ArgKind) (w : Written) : Written :=
  { form := match w.form with
      | .ink _ => .ink true
      | f => f
    args := k :: w.args }

/-- Deleting the first argument of a kind and inserting it as the first argument,
`crates/analyzer/src/analysis/diagnostics/common.rs:806-847`. There is no fix without it. -/
def moveArgFirst (k : ArgKind) (w : Written) : List Written :=
  match w.args.findIdx? (· == k) with
  | some j => [{ w with args := k :: w.args.eraseIdx j }]
  | none => []

/-- `add_primary_ink_attribute`, `crates/analyzer/src/analysis/diagnostics/common.rs:859-890`. -/
def addAttrFirst (item : List Written) : AttrKind → List Written
  | .arg k => { form := .ink true, args := [k] } :: item
  | .macro m => { form := .path m, args := [] } :: item

/-- One of the fixes for a missing main attribute,
`crates/analyzer/src/analysis/diagnostics/common.rs:893-963`. -/
def primaryFix (item : List Written) (w : Written) (p : Nat) : AttrKind → List Written
  | .arg k => item.set p (insertFirst k w)
  | .macro m =>
    match w.kind with
    | .arg _ => item.set p { form := .path m, args := w.args }
    | .macro _ => addAttrFirst item (.macro m)

/-- The fix for an attribute that conflicts with the main attribute,
`crates/analyzer/src/analysis/diagnostics/common.rs:1044-1082`. The deletions of several arguments
are taken to have their combined effect (see `C111_negation_overlap` for when they overlap). -/
def conflictFix (v : Version) (P : AttrKind) (item : List Written) (w : Written) (i : Nat) :
    List Written :=
  match P, w.kind with
  | .arg _, .arg _ =>
    if (w.args.filter fun k => !decide (k ∈ validSiblings P v)).length = w.args.length then
      removeAttr item i
    else item.set i { w with args := w.args.filter fun k => decide (k ∈ validSiblings P v) }
  | _, _ => removeAttr item i

/-- The ranges that this fix deletes if some arguments fit,
`crates/analyzer/src/analysis/diagnostics/common.rs:1048-1075`. `file` are the tokens of the file. -/
def conflictRanges (file : List Leaf) (v : Version) (P : AttrKind) (args : List Arg)
    (attr : RemAttr) : Option (List (Nat × Nat)) :=
  (args.filter fun a => !decide (a.kind ∈ validSiblings P v)).mapM fun a =>
    removalRange file (some attr) a.item

/-- The quickfixes of a report of `validate_entity_attributes`, by what they leave of the item,
`crates/analyzer/src/analysis/diagnostics/common.rs:584-595,611-638,657-664,691-697,713-719,
760-770,806-847,891-986,1044-1082,1121-1129`. `P` is the kind of the main attribute. -/
def entityFixes (v : Version) (P : AttrKind) (item : List Written) :
    EntityDiag → List (List Written)
  | .anonymousSignature q | .deprecatedAdditional q | .deprecatedKeepAttr q | .conflictArg q =>
    [removeArg item q]
  | .missingExtension i =>
    (item[i]?).toList.map fun w => item.set i (insertFirst .extension w)
  | .deprecatedExtension q =>
    (item[q.1]?).toList.map fun w => item.set q.1 { w with args := w.args.set q.2 .function }
  | .notFirst i => (item[i]?).toList.map fun w => w :: item.eraseIdx i
  | .argNotFirst i =>
    (item[i]?).toList.flatMap fun w =>
      match w.kind with
      | .arg k => (moveArgFirst k w).map fun w' => item.set i w'
      | .macro _ => []
  | .needsPrimary i =>
    (item[i]?).toList.flatMap fun w =>
      (primarySuggestions P v).map fun s => primaryFix item w i s
  | .conflictAttr i => (item[i]?).toList.map fun w => conflictFix v P item w i

/-- The quickfixes of a report of `ensure_no_duplicate_attributes_and_arguments`,
`crates/analyzer/src/analysis/diagnostics/common.rs:465,475-485`. -/
def dupFixes (item : List Written) : DupDiag → List (List Written)
  | .macro i => [removeAttr item i]
  | .arg q => [removeArg item q]

/-- All reports for one item with their quickfixes, in order,
`crates/analyzer/src/analysis/diagnostics/common.rs:59-71`. -/
def itemFixes (v : Version) (inChainExt : Bool) (item : List Written) :
    List (List (List Written)) :=
  ((duplicates (item.map Written.view)).map (dupFixes item)) ++
  match primaryCandidate (item.map Written.view) with
  | none => []
  | some (P, _) =>
    (validateEntity v inChainExt (item.map Written.view)).map (entityFixes v P.kind item)

end Verif.Analyzer.EntityFix
