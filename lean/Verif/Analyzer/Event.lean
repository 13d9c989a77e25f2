import Verif.Ir.Kinds
import Verif.Analyzer.Edit
import Verif.Migrate.Imports

/-!
# The rules for events and topics

Models `ensure_no_generics_on_struct`, `ensure_only_ink_topic_descendants` and
`ensure_no_cfg_event_fields` (`crates/analyzer/src/analysis/diagnostics/event.rs:66-137`) and
`ensure_struct_field` (`crates/analyzer/src/analysis/diagnostics/event/topic.rs:31-43`) with their
quickfixes. Simplified: ink! attributes stand on fields only (not inside their types), so that the
descendants of the event are the attributes of its fields.
-/

namespace Verif.Analyzer.Event

open Verif.Ir (AttrKind ArgKind)
open Verif.Ir.Token (bytes)

/-- A part of a field: an attribute (the text of its path if it has one, the kind of the ink! attribute
it is, if any, and its text), or any other text.
As used in `crates/analyzer/src/analysis/diagnostics/event.rs:90-137`. -/
inductive Piece where
  | attr (path : Option (List Char)) (ink : Option AttrKind) (text : List Char)
  | other (text : List Char)
deriving DecidableEq, Repr

/-- The text of a part. As used in `crates/analyzer/src/analysis/diagnostics/event.rs:90-137`. -/
def Piece.text : Piece → List Char
  | .attr _ _ t => t
  | .other t => t

/-- The text of parts. As used in `crates/analyzer/src/analysis/diagnostics/event.rs:90-137`. -/
def renderPieces (ps : List Piece) : List Char := ps.flatMap Piece.text

/-- A field with its parts and the text after it (a comma, white space).
As used in `crates/analyzer/src/analysis/diagnostics/event.rs:90-137`. -/
structure Field where
  pieces : List Piece
  after : List Char
deriving DecidableEq, Repr

/-- The text of a field with the text after it.
As used in `crates/analyzer/src/analysis/diagnostics/event.rs:90-137`. -/
def Field.render (f : Field) : List Char := renderPieces f.pieces ++ f.after

/-- The text of fields. As used in `crates/analyzer/src/analysis/diagnostics/event.rs:90-137`. -/
def renderFields (fs : List Field) : List Char := fs.flatMap Field.render

/-- An event: the text up to its name, its generic parameters, the text up to the first field, whether
the fields are in braces (`RecordFieldList`) or in parentheses (`TupleFieldList`), the fields, and the text
after them. As used in `crates/analyzer/src/analysis/diagnostics/event.rs:46-137`. -/
structure Event where
  before : List Char
  generics : Option (List Char)
  middle : List Char
  record : Bool
  fields : List Field
  after : List Char
deriving DecidableEq, Repr

/-- The text up to the first field.
As used in `crates/analyzer/src/analysis/diagnostics/event.rs:46-137`. -/
def Event.head (e : Event) : List Char := e.before ++ e.generics.getD [] ++ e.middle

/-- The text of an event. As used in `crates/analyzer/src/analysis/diagnostics/event.rs:46-137`. -/
def Event.render (e : Event) : List Char := e.head ++ renderFields e.fields ++ e.after

/-- Parts with their offsets (`text_range`).
As used in `crates/analyzer/src/analysis/diagnostics/event.rs:90-137`. -/
def placePieces : Nat → List Piece → List (Piece × Nat)
  | _, [] => []
  | off, p :: ps => (p, off) :: placePieces (off + bytes p.text) ps

/-- Fields with their offsets (`text_range`).
As used in `crates/analyzer/src/analysis/diagnostics/event.rs:90-137`. -/
def placeFields : Nat → List Field → List (Field × Nat)
  | _, [] => []
  | off, f :: fs => (f, off) :: placeFields (off + bytes f.render) fs

/-- The rules. As used in `crates/analyzer/src/analysis/diagnostics/event.rs:74,97,120`. -/
inductive Rule where
  | generics | notTopic | notField | cfg
deriving DecidableEq, Repr

/-- A diagnostic: its rule, its range and the range that its quickfix deletes
(`Action::remove_attribute`, `crates/analyzer/src/analysis/actions.rs:63-71`). -/
structure Report where
  rule : Rule
  range : Nat × Nat
  fix : Nat × Nat
deriving DecidableEq, Repr

/-- `ensure_no_generics_on_struct`, `crates/analyzer/src/analysis/diagnostics/event.rs:66-85`, for an
event at `off`. -/
def genericsRule (off : Nat) (e : Event) : List Report :=
  match e.generics with
  | some g =>
    let start := off + bytes e.before
    [⟨.generics, (start, start + bytes g), (start, start + bytes g)⟩]
  | none => []

/-- The body of the loop of `ensure_only_ink_topic_descendants`,
`crates/analyzer/src/analysis/diagnostics/event.rs:94-103`. -/
def notTopic (p : Piece × Nat) : Option Report :=
  match p.1 with
  | .attr _ (some k) t =>
    if k ≠ .arg .topic then some ⟨.notTopic, (p.2, p.2 + bytes t), (p.2, p.2 + bytes t)⟩ else none
  | _ => none

/-- `ensure_only_ink_topic_descendants`, `crates/analyzer/src/analysis/diagnostics/event.rs:90-104`. -/
def notTopicRule (off : Nat) (e : Event) : List Report :=
  (placeFields (off + bytes e.head) e.fields).flatMap fun f =>
    (placePieces f.2 f.1.pieces).filterMap notTopic

/-- `ensure_struct_field`, `crates/analyzer/src/analysis/diagnostics/event/topic.rs:31-43`, for an
attribute of a field at `start` to `stop`. A topic is a `RecordField`
(`crates/ir/src/topic.rs:8-11`). -/
def notField (record : Bool) (field : Nat × Nat) (p : Piece × Nat) : Option Report :=
  match p.1 with
  | .attr _ (some k) t =>
    if k = .arg .topic && !record then some ⟨.notField, field, (p.2, p.2 + bytes t)⟩ else none
  | _ => none

/-- `ensure_struct_field` for all topics of an event
(`crates/analyzer/src/analysis/diagnostics/event.rs:54-57`). -/
def notFieldRule (off : Nat) (e : Event) : List Report :=
  (placeFields (off + bytes e.head) e.fields).flatMap fun f =>
    (placePieces f.2 f.1.pieces).filterMap
      (notField e.record (f.2, f.2 + bytes (renderPieces f.1.pieces)))

/-- The body of the loop of `ensure_no_cfg_event_fields`,
`crates/analyzer/src/analysis/diagnostics/event.rs:116-133`. -/
def cfgAttr (p : Piece × Nat) : Option Report :=
  match p.1 with
  | .attr (some path) _ t =>
    if path = chars! "cfg" then some ⟨.cfg, (p.2, p.2 + bytes t), (p.2, p.2 + bytes t)⟩ else none
  | _ => none

/-- `ensure_no_cfg_event_fields`, `crates/analyzer/src/analysis/diagnostics/event.rs:109-137`. -/
def cfgRule (off : Nat) (e : Event) : List Report :=
  if e.record then
    (placeFields (off + bytes e.head) e.fields).flatMap fun f =>
      (placePieces f.2 f.1.pieces).filterMap cfgAttr
  else []

/-- The reports of these rules in the order of `diagnostics`,
`crates/analyzer/src/analysis/diagnostics/event.rs:46-60`. -/
def reports (off : Nat) (e : Event) : List Report :=
  genericsRule off e ++ notTopicRule off e ++ notFieldRule off e ++ cfgRule off e

/-- The edit of a quickfix (`TextEdit::delete`).
As used in `crates/analyzer/src/analysis/text_edit.rs:57-64`. -/
def Report.edit (r : Report) : Edit := Verif.Migrate.Imports.delete r.fix

end Verif.Analyzer.Event
