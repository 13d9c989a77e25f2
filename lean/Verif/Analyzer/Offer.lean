import Verif.Analyzer.Move

/-!
# The actions that add ink! entities

Models `actions`, `item_ink_entity_actions` and `root_ink_entity_actions`
(`crates/analyzer/src/analysis/actions/item.rs:16-130,296-663,708-736`) with the positions chosen by
`crates/analyzer/src/analysis/actions/entity.rs`. Labels and the texts that are inserted are left out
(the texts are in `Verif.Analyzer.Templates`).
-/

namespace Verif.Analyzer.Offer

open Verif.Ir Verif.Ir.Token Verif.Analyzer.Move

/-- What an action adds or starts.
As used in `crates/analyzer/src/analysis/actions/item.rs:296-663`. -/
inductive What where
  | migrate | extract | contract | traitDefinition | chainExtension | combineExtensions
  | storageItem | environment | storage | event | eventV2 | topic | constructor | message
  | errorCode | extension | test | e2eTest
deriving DecidableEq, Repr

/-- An action: what, and the range that is replaced (none for actions without edits).
As used in `crates/analyzer/src/analysis/actions/item.rs:296-663`. -/
structure Act where
  what : What
  place : Option (Nat × Nat)
deriving DecidableEq, Repr

/-- What is known of a contract: whether it has a storage (`contract.storage()`), one of its ink! `impl`
blocks is of no trait, one of its messages has a wildcard selector; where
`callable_insert_offset_indent_and_affixes` puts a function (modelled in `Verif.Analyzer.Move`),
whether the contract has a name, and the start of the contract.
As used in `crates/analyzer/src/analysis/actions/item.rs:296-599`. -/
structure Contract where
  hasStorage : Bool
  hasInherent : Bool
  wildcard : Bool
  callable : Option Nat
  named : Bool
  start : Nat
deriving DecidableEq, Repr

/-- Kinds of items, with what matters of their ink! attributes. For an `impl` block: whether it is of a
trait, whether it is an ink! `impl` block or directly in a contract, and whether a message of its
contract or its own has a wildcard selector.
As used in `crates/analyzer/src/analysis/actions/item.rs:296-599`. -/
inductive Kind where
  | module (contract : Option Contract) (cfgTest cfgE2e : Bool)
  | impl (ofTrait ink wildcard : Bool)
  | chainExtension (hasErrorCode : Bool)
  | traitDefinition
  | event
  | eventV2
  | storageItem
  | other
deriving DecidableEq, Repr

/-- An item: the start of its declaration behind comments and attributes
(`ast_item_declaration_range`, `crates/analyzer/src/analysis/utils.rs:1372-1396`), its list in brackets with
its start, its semicolon, and the place `field_insert_offset_end_and_affixes`
(`crates/analyzer/src/analysis/utils.rs:1777-1827`) gives for a field, if it is a `struct` with fields.
Items with neither brackets nor semicolon, and `struct`s with fields in parentheses, have no list. -/
structure Item where
  kind : Kind
  declStart : Nat
  list : Option (Nat × List Src)
  semi : Option (Nat × Nat)
  field : Option Nat

/-- `r_curly_token().text_range()` in the children of a list that start at `o`.
As used in `crates/analyzer/src/analysis/utils.rs:1400-1440`. -/
def rCurly : Nat → List Src → Option (Nat × Nat)
  | _, [] => none
  | o, .tok _ t :: cs =>
    if t = ['}'] then some (o, o + bytes t) else rCurly (o + bytes t) cs
  | o, .node k ds :: cs => rCurly (o + bytes (Src.node k ds).text) cs

/-- `ast_item_declaration_range`, `crates/analyzer/src/analysis/utils.rs:1285-1397`. -/
def Item.decl (i : Item) : Option (Nat × Nat) :=
  (match i.list with
    | some (o, cs) => some ((lCurly o cs).getD (o + bytes (texts cs)))
    | none => i.semi.map Prod.snd).map fun e => (i.declStart, e)

/-- `ast_item_terminal_token`, `crates/analyzer/src/analysis/utils.rs:1400-1440`. -/
def Item.terminal (i : Item) : Option (Nat × Nat) :=
  (i.list.bind fun l => rCurly l.1 l.2).or i.semi

/-- `TextRange::contains_range`.
As used in `crates/analyzer/src/analysis/actions/item.rs:711-736`. -/
def within (r s : Nat × Nat) : Bool := decide (s.1 ≤ r.1 ∧ r.2 ≤ s.2)

/-- `is_focused_on_item_declaration`, `crates/analyzer/src/analysis/actions/item.rs:711-717`. -/
def onDeclaration (i : Item) (r : Nat × Nat) : Bool :=
  i.decl.any (within r) || i.terminal.any (within r)

/-- `is_focused_on_item_body`, `crates/analyzer/src/analysis/actions/item.rs:722-736`. -/
def onBody (i : Item) (r : Nat × Nat) : Bool :=
  match i.decl, i.terminal with
  | some d, some t => decide (d.2 < t.1) && within r (d.2, t.1)
  | _, _ => false

/-- The focused element: whether it is white space, its range, and whether it is right below the root of
the file. As used in `crates/analyzer/src/analysis/actions/item.rs:17-125`. -/
structure Focus where
  ws : Bool
  range : Nat × Nat
  inRoot : Bool
deriving DecidableEq, Repr

/-- `focused_elem_edit_range`, `crates/analyzer/src/analysis/actions/item.rs:25-34`. -/
def editRange (f : Focus) (r : Nat × Nat) : Nat × Nat :=
  if f.ws && within r f.range then r else (f.range.2, f.range.2)

/-- An action at the range, or else at an offset, if there is one.
As used in `crates/analyzer/src/analysis/actions/entity.rs:29-36,55-62,278-285,310-317,333-340,359-366,385-392,412-419,447-454,473-480`. -/
def addAt (w : What) (range : Option (Nat × Nat)) (offset : Option Nat) : List Act :=
  match range.or (offset.map fun o => (o, o)) with
  | some r => [⟨w, some r⟩]
  | none => []

/-- `assoc_item_insert_offset_start`, `crates/analyzer/src/analysis/utils.rs:1715-1725`. -/
def insertAssocStart (o : Nat) (cs : List Src) : Nat :=
  ((lCurly o cs).or ((items o cs).head?.map (·.start))).getD o

/-- The offset of a function of the list of an item, if it has one.
As used in `crates/analyzer/src/analysis/actions/entity.rs:29-36,55-62,278-285,310-317,333-340,359-366,385-392,412-419,447-454,473-480`. -/
def Item.offset (i : Item) (f : Nat → List Src → Nat) : Option Nat :=
  i.list.map fun l => f l.1 l.2

/-- The position of `add_callable_to_contract`,
`crates/analyzer/src/analysis/actions/entity.rs:118-189`: a range is used if it is in an `impl` block
(which is only possible behind a comment) or if the contract has a name. `inImpl` says the former. -/
def addCallable (w : What) (inImpl : Bool) (c : Contract) (range : Option (Nat × Nat)) : List Act :=
  addAt w (if inImpl || c.named then range else none) c.callable

/-- `item_ink_entity_actions`, `crates/analyzer/src/analysis/actions/item.rs:296-599`. -/
def itemActs (v : Version) (inImpl : Bool) (i : Item) (range : Option (Nat × Nat)) : List Act :=
  match i.kind with
  | .module (some c) _ _ =>
    (if v = .v4 then [⟨.migrate, none⟩] else []) ++
    (if c.hasStorage then [] else addAt .storage range (i.offset insertStart)) ++
    (if v = .v5 then [(⟨.eventV2, some (c.start, c.start)⟩ : Act)] else []) ++
    addAt .event range (i.offset insertAfterStruct) ++
    (if range.isNone || (range.any (onBody i) && !c.hasInherent) then
      addCallable .constructor inImpl c range ++
        (if v != .v5 || !c.wildcard then addCallable .message inImpl c range else [])
    else [])
  | .module none test e2e =>
    (if test then addAt .test range (i.offset insertEnd) else []) ++
      (if e2e then addAt .e2eTest range (i.offset insertEnd) else [])
  | .impl ofTrait ink wildcard =>
    if !ofTrait && ink then
      addAt .constructor range (i.offset insertAssocEnd) ++
        (if v != .v5 || !wildcard then addAt .message range (i.offset insertAssocEnd) else [])
    else []
  | .chainExtension hasErrorCode =>
    (if v = .v4 then [⟨.migrate, none⟩] else []) ++
    (if hasErrorCode then [] else addAt .errorCode range (i.offset insertAssocStart)) ++
    addAt .extension range (i.offset insertAssocEnd)
  | .traitDefinition =>
    (if v = .v4 then [⟨.migrate, none⟩] else []) ++ addAt .message range (i.offset insertAssocEnd)
  | .event => addAt .topic range i.field ++ (if v = .v5 then [⟨.extract, none⟩] else [])
  | .eventV2 => addAt .topic range i.field ++ [⟨.extract, none⟩]
  | .storageItem => if v = .v4 then [⟨.migrate, none⟩] else []
  | .other => []

/-- `root_ink_entity_actions`, `crates/analyzer/src/analysis/actions/item.rs:602-663`. -/
def rootActs (v : Version) (hasContract : Bool) (r : Nat × Nat) : List Act :=
  (if v = .v4 then [⟨.migrate, none⟩] else []) ++
  (if hasContract then [] else [⟨.contract, some r⟩]) ++
  (if v = .v5 then [⟨.eventV2, some r⟩] else []) ++
  [⟨.traitDefinition, some r⟩, ⟨.chainExtension, some r⟩] ++
  (if v = .v5 then [⟨.combineExtensions, some r⟩] else []) ++
  [⟨.storageItem, some r⟩, ⟨.environment, some r⟩]

/-- Where the selection is: the focused element, whether an attribute covers it, the item around it, and
whether it is in a field of a `struct`; then the file: whether it has a contract, and its length.
As used in `crates/analyzer/src/analysis/actions/item.rs:17-125`. -/
structure Point where
  focus : Option Focus
  inAttr : Bool
  item : Option Item
  onField : Bool
  inImpl : Bool
  hasContract : Bool
  len : Nat

/-- The ink! entity actions of `actions`, `crates/analyzer/src/analysis/actions/item.rs:17-125`. -/
def acts (v : Version) (p : Point) (r : Nat × Nat) : List Act :=
  match p.focus with
  | some f =>
    if p.inAttr then []
    else match p.item with
      | some i =>
        let body := onBody i r
        if onDeclaration i r || (body && !p.onField) then
          itemActs v p.inImpl i (if body then some (editRange f r) else none)
        else []
      | none => if f.inRoot then rootActs v p.hasContract (editRange f r) else []
  | none =>
    if p.len = 0 ∧ r = (0, 0) then rootActs v p.hasContract r else []

/-! ## Fields -/

/-- A field of a `struct` in its list: its text, what comes before its comma, whether there is a comma,
and what comes behind (white space and comments).
As used in `crates/analyzer/src/analysis/utils.rs:1777-1827`. -/
structure Field where
  text : List Char
  gap : List Char
  comma : Bool
  after : List Char
deriving DecidableEq, Repr

/-- The text of a field with what belongs to it.
As used in `crates/analyzer/src/analysis/utils.rs:1777-1827`. -/
def Field.full (f : Field) : List Char :=
  f.text ++ f.gap ++ (if f.comma then [','] else []) ++ f.after

/-- The text of a list of fields; `tuple` says whether it is in parentheses.
As used in `crates/analyzer/src/analysis/utils.rs:1777-1827`. -/
def fieldsText (tuple : Bool) (lead : List Char) (fs : List Field) : List Char :=
  (if tuple then '(' else '{') :: lead ++ fs.flatMap Field.full ++ [if tuple then ')' else '}']

/-- `field_insert_offset_end_and_affixes`, `crates/analyzer/src/analysis/utils.rs:1777-1827`, for a list
that starts at `o` (and has its brackets): the offset and the prefix. -/
def fieldPlace (tuple : Bool) (o : Nat) (lead : List Char) (fs : List Field) :
    Nat × List Char :=
  match fs.getLast? with
  | some f =>
    let start := o + 1 + bytes lead + bytes (fs.dropLast.flatMap Field.full)
    if f.comma then (start + bytes (f.text ++ f.gap ++ [',']), if tuple then [] else ['\n'])
    else (start + bytes f.text, [',', if tuple then ' ' else '\n'])
  | none => (o + 1, [])

/-- `add_topic`, `crates/analyzer/src/analysis/text_edit/common.rs:154-191`, without a range. `text` is
the indented text of the field. -/
def topicEdit (tuple : Bool) (o : Nat) (lead : List Char) (fs : List Field) (text : List Char) :
    Edit :=
  let p := fieldPlace tuple o lead fs
  ⟨p.2 ++ text, p.1, p.1, none⟩

end Verif.Analyzer.Offer
