import Verif.Analyzer.Edit
import Verif.Analyzer.Scale
import Verif.Analyzer.Snippet
import Verif.Util.Chars

/-!
# Migration of derives, events and chain extensions

Models `events`, `chain_extensions` and `scale_derive`,
`crates/analyzer/src/analysis/migrate.rs:41-335`.
-/

namespace Verif.Migrate

open Verif.Analyzer Verif.Ir

/-! ## SCALE derives -/

/-- The elements of the token tree of a `cfg_attr` attribute that `scale_derive` distinguishes
(`crates/analyzer/src/analysis/migrate.rs:179-197,270-289`). -/
inductive CKind where
  | comma | trivia | derive | tree | other
deriving DecidableEq

/-- An element of the token tree of a `cfg_attr` attribute, between its parentheses. For a
nested token tree `text` is the text between its own parentheses
(`crates/analyzer/src/analysis/utils.rs:2077-2085`). -/
structure CElem where
  kind : CKind
  text : List Char
  start : Nat
  stop : Nat
deriving DecidableEq

/-- What `scale_derive` distinguishes of an attribute
(`crates/analyzer/src/analysis/migrate.rs:167-200`): a `derive` attribute with the text between
the parentheses and the range of its token tree, a `cfg_attr` attribute with the elements
between its parentheses, or another attribute. Token trees without closing parenthesis are not
modelled. -/
inductive DForm where
  | derive (tree : Option (List Char × Nat × Nat))
  | cfg (elems : Option (List CElem))
  | other
deriving DecidableEq

/-- An attribute with its range and the start of the item it belongs to
(`parent_or_attr_start`, `crates/analyzer/src/analysis/migrate.rs:236-239`). -/
structure DeriveAttr where
  start : Nat
  stop : Nat
  item : Nat
  form : DForm
deriving DecidableEq

/-- The `derive` of a `cfg_attr` attribute: the elements before it (in reverse order), the
`derive` token, its token tree and the elements after it
(`crates/analyzer/src/analysis/migrate.rs:179-197,252-264`). -/
structure CfgDerive where
  before : List CElem
  token : CElem
  tree : CElem
  after : List CElem
deriving DecidableEq

/-- The first token tree after a `derive` token,
`crates/analyzer/src/analysis/migrate.rs:179-197`; `seen` are the elements before, in reverse
order. -/
def findDerive (seen : List CElem) : List CElem → Option CfgDerive
  | [] => none
  | e :: es =>
    match e.kind, seen.dropWhile fun s => s.kind == .trivia with
    | .tree, d :: before =>
      if d.kind = .derive then some ⟨before, d, e, es⟩ else findDerive (e :: seen) es
    | _, _ => findDerive (e :: seen) es

/-- `derive_meta`, `crates/analyzer/src/analysis/migrate.rs:175-200`: the text between the
parentheses and the range of the token tree. -/
def deriveMeta (a : DeriveAttr) : Option (List Char × Nat × Nat) :=
  match a.form with
  | .derive tree => tree
  | .cfg elems =>
    (elems.bind (findDerive [])).map fun d => (d.tree.text, d.tree.start, d.tree.stop)
  | .other => none

/-- The classification of the derived names, `crates/analyzer/src/analysis/migrate.rs:203-231`.
`res` tells which SCALE trait a name denotes for the attribute (`path_from_str` and
`is_external_crate_item`, not modelled). -/
def scaleItems (res : DeriveAttr → List Char → Option ScaleTrait) (a : DeriveAttr) :
    List ScaleTrait :=
  match deriveMeta a with
  | some (t, _) => (metaPaths t).filterMap (res a)
  | none => []

/-- `non_scale_items`, `crates/analyzer/src/analysis/migrate.rs:204,223-230`. -/
def otherItems (res : DeriveAttr → List Char → Option ScaleTrait) (a : DeriveAttr) :
    List (List Char) :=
  match deriveMeta a with
  | some (t, _) => (metaPaths t).filter fun n => (res a n).isNone
  | none => []

/-- `has_other_attrs`, `crates/analyzer/src/analysis/migrate.rs:266-290`. -/
def hasOtherAttrs (elems : List CElem) (d : CfgDerive) : Bool :=
  ((elems.dropWhile fun e => e.kind != .comma).drop 1).any fun e =>
    e.kind != .trivia && (e.start < d.token.start || d.tree.stop < e.stop)

/-- The first element that is not trivia, if it is a comma (`closest_item_which`,
`crates/analyzer/src/analysis/utils.rs:1471-1487`, within a token tree). -/
def commaAt (l : List CElem) : Option CElem :=
  match l.dropWhile fun s => s.kind == .trivia with
  | c :: _ => if c.kind = .comma then some c else none
  | [] => none

/-- The deleted range for a `derive` among other attributes of a `cfg_attr`,
`crates/analyzer/src/analysis/migrate.rs:292-310`. -/
def cfgDeriveRange (d : CfgDerive) : Nat × Nat :=
  match commaAt d.after with
  | some c => (d.token.start, c.stop)
  | none => (((commaAt d.before).getD d.token).start, d.tree.stop)

/-- The edit that removes the SCALE derives from an attribute,
`crates/analyzer/src/analysis/migrate.rs:246-323`. -/
def attrEdit (res : DeriveAttr → List Char → Option ScaleTrait) (a : DeriveAttr) : List Edit :=
  match deriveMeta a with
  | none => []
  | some (_, s, e) =>
    if (scaleItems res a).isEmpty then []
    else if (otherItems res a).isEmpty then
      match a.form with
      | .cfg (some elems) =>
        match findDerive [] elems with
        | some d =>
          if hasOtherAttrs elems d then [⟨[], (cfgDeriveRange d).1, (cfgDeriveRange d).2, none⟩]
          else [⟨[], a.start, a.stop, none⟩]
        | none => []
      | _ => [⟨[], a.start, a.stop, none⟩]
    else
      [⟨['('] ++ [',', ' '].intercalate (otherItems res a) ++ [')'], s, e, none⟩]

/-- `scale_items_map` after one attribute,
`crates/analyzer/src/analysis/migrate.rs:235-244`; the entries are kept in order of insertion. -/
def addScale (m : List (Nat × Nat × List ScaleTrait)) (key start : Nat) (ts : List ScaleTrait) :
    List (Nat × Nat × List ScaleTrait) :=
  if m.any fun e => e.1 == key then
    m.map fun e => if e.1 = key then (e.1, e.2.1, e.2.2 ++ ts) else e
  else m ++ [(key, start, ts)]

/-- `scale_items_map`, `crates/analyzer/src/analysis/migrate.rs:153-155,235-244`. -/
def scaleMap (res : DeriveAttr → List Char → Option ScaleTrait)
    (m : List (Nat × Nat × List ScaleTrait)) : List DeriveAttr → List (Nat × Nat × List ScaleTrait)
  | [] => m
  | a :: as =>
    scaleMap res
      (if (scaleItems res a).isEmpty then m else addScale m a.item a.start (scaleItems res a)) as

/-- The inserted attribute, `crates/analyzer/src/analysis/migrate.rs:328-334`. -/
def scaleInsert (e : Nat × Nat × List ScaleTrait) : Edit :=
  ⟨chars! "#[ink::scale_derive(" ++
    [',', ' '].intercalate (e.2.2.map fun t => t.argKind.name.toList) ++ [')', ']'],
    e.2.1, e.2.1, none⟩

/-- `scale_derive`, `crates/analyzer/src/analysis/migrate.rs:152-335`. The map is iterated in an
arbitrary order, given by `perm`. -/
def scaleDerive (res : DeriveAttr → List Char → Option ScaleTrait)
    (perm : List (Nat × Nat × List ScaleTrait) → List (Nat × Nat × List ScaleTrait))
    (attrs : List DeriveAttr) : List Edit :=
  attrs.flatMap (attrEdit res) ++ (perm (scaleMap res [] attrs)).map scaleInsert

/-! ## Events -/

/-- A legacy event, `crates/analyzer/src/analysis/migrate.rs:51-106`: its text and range, the
text of its ink! attribute (if any), whether it has an `anonymous` argument, the text of the
attribute with the `anonymous` argument if it is another attribute, its indentation and its
name. -/
structure LegacyEvent where
  code : List Char
  start : Nat
  stop : Nat
  attr : Option (List Char)
  anonymous : Bool
  anonymousAttr : Option (List Char)
  indent : Option (List Char)
  name : Option (List Char)

/-- A contract, `crates/analyzer/src/analysis/migrate.rs:42-49`. -/
structure EventContract where
  start : Nat
  indent : Option (List Char)
  useOffset : Option Nat
  events : List LegacyEvent

/-- The attribute of a standalone event, `crates/analyzer/src/analysis/migrate.rs:57-64`. -/
def eventAttr (anonymous : Bool) : List Char :=
  if anonymous then chars! "#[ink::event(anonymous)]" else chars! "#[ink::event]"

/-- The code of the standalone event before indenting,
`crates/analyzer/src/analysis/migrate.rs:54-79`. -/
def eventCode (e : LegacyEvent) (attr : List Char) : List Char :=
  let code := replaceAll attr (eventAttr e.anonymous) e.code
  match e.anonymousAttr with
  | some t => replaceAll t [] code
  | none => code

/-- The code of the standalone event, `crates/analyzer/src/analysis/migrate.rs:54-87`. -/
def movedCode (c : EventContract) (e : LegacyEvent) (attr : List Char) : List Char :=
  let code := eventCode e attr
  let code := match e.indent with
    | some i => reduceIndenting code i
    | none => code
  match c.indent with
  | some i => applyIndenting code i
  | none => code

/-- The edits for one event, `crates/analyzer/src/analysis/migrate.rs:51-105`. -/
def eventEdits (c : EventContract) (e : LegacyEvent) : List Edit :=
  match e.attr with
  | none => []
  | some attr =>
    [⟨movedCode c e attr, c.start, c.start, none⟩] ++
      (match c.useOffset, e.name with
        | some o, some n => [⟨chars! "use super::" ++ n ++ [';'], o, o, none⟩]
        | _, _ => []) ++
      [⟨[], e.start, e.stop, none⟩]

/-- `events`, `crates/analyzer/src/analysis/migrate.rs:42-108`. -/
def eventsMigration (cs : List EventContract) : List Edit :=
  cs.flatMap fun c => c.events.flatMap (eventEdits c)

/-! ## Chain extensions -/

/-- A chain extension, `crates/analyzer/src/analysis/migrate.rs:118-148`: its id (if it has an
`extension` argument with a `u16` value), whether it has an `extension` argument, the offset
and the affixes for a new argument (if it has an ink! attribute and there is a place for it), and
the ranges of the names of the `extension` arguments of its functions. -/
structure MigExt where
  id : Option Nat
  hasArg : Bool
  insert : Option (Nat × List Char × List Char)
  functions : List (Option (Nat × Nat))

/-- The missing `extension` argument, `crates/analyzer/src/analysis/migrate.rs:119-137`; the
result is the edit and the ids that are then unavailable. -/
def extArg (used : List Nat) (x : MigExt) : List Edit × List Nat :=
  if x.hasArg then ([], used)
  else
    match x.insert with
    | some (o, pre, post) =>
      let id := (suggestId 65535 none used).getD 1
      ([⟨pre ++ chars! "extension = " ++ (toString id).toList ++ post, o, o, none⟩], id :: used)
    | none => ([], used)

/-- The renamed arguments of the functions,
`crates/analyzer/src/analysis/migrate.rs:139-147`. -/
def functionEdits (x : MigExt) : List Edit :=
  (x.functions.filterMap fun r => r).map fun r => ⟨chars! "function", r.1, r.2, none⟩

/-- The loop over the chain extensions, `crates/analyzer/src/analysis/migrate.rs:118-148`. -/
def extEdits (used : List Nat) : List MigExt → List Edit
  | [] => []
  | x :: xs => (extArg used x).1 ++ functionEdits x ++ extEdits (extArg used x).2 xs

/-- `chain_extensions`, `crates/analyzer/src/analysis/migrate.rs:111-149`. -/
def extensionsMigration (xs : List MigExt) : List Edit := extEdits (xs.filterMap (·.id)) xs

end Verif.Migrate
