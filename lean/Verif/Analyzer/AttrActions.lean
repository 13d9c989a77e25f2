import Verif.Analyzer.InsertText
import Verif.Analyzer.Suggest
import Verif.Analyzer.Offer
import Verif.Ir.Kinds

/-!
# The actions that add ink! attributes and arguments

Models `ink_macro_actions` and `ink_arg_actions` with their caller
(`crates/analyzer/src/analysis/actions/item.rs:17-125,133-293`), the actions on an attribute
(`crates/analyzer/src/analysis/actions/attr.rs:11-106`) and `ink_attribute_insert_offset`
(`crates/analyzer/src/analysis/utils.rs:972-999`). Labels and the ranges of the actions are left out.
-/

namespace Verif.Analyzer.AttrActions
open Verif.Ir Verif.Analyzer.Insert Verif.Analyzer.InsertText

/-- An attribute of a node: what it is to ink! (nothing for other attributes), the elements in front of
its token tree (`#[` and the path), the children of the token tree, the elements between the tree and
the closing bracket, and whether there is a closing bracket (`ast::Attr` and `InkAttribute`, as read at
`crates/analyzer/src/analysis/utils.rs:972-991,1018-1024`). -/
structure OwnAttr where
  ink : Option AttrV
  head : List Elem
  tree : Option (List Elem)
  gap : List Elem
  closed : Bool

/-- The elements of an attribute (`syntax()`, `crates/analyzer/src/analysis/utils.rs:977,985`). -/
def OwnAttr.elems (a : OwnAttr) : List Elem :=
  a.head ++ ((a.tree.map Elem.tree).toList ++ (a.gap ++ if a.closed then [.tok .rBrack "]"] else []))

/-- A child of a node in front of everything but attributes, white space and comments
(`node.children()` and `first_token`, `crates/analyzer/src/analysis/utils.rs:980-993`). -/
inductive Lead where
  | attr (a : OwnAttr)
  | trivia (k : Ir.TokKind) (text : String)

/-- The elements of such a child (`crates/analyzer/src/analysis/utils.rs:980-993`). -/
def Lead.elems : Lead → List Elem
  | .attr a => a.elems
  | .trivia k s => [.tok k s]

/-- The elements of several such children (`crates/analyzer/src/analysis/utils.rs:980-993`). -/
def leadElems (l : List Lead) : List Elem := l.flatMap Lead.elems

/-- An item or field in its file: what is in front of it, its attributes with the white space and the
comments around them, its other tokens, and the rest of the file (the `target` of
`crates/analyzer/src/analysis/actions/item.rs:56-61`). -/
structure Target where
  before : List Elem
  lead : List Lead
  body : List Elem
  after : List Elem

/-- The elements of the whole file (`crates/analyzer/src/analysis/actions/item.rs:56-61`). -/
def Target.file (t : Target) : List Elem := t.before ++ (leadElems t.lead ++ (t.body ++ t.after))

/-- The attributes among the children with the elements of the file in front of them
(`node.children().filter_map(ast::Attr::cast)`, `crates/analyzer/src/analysis/utils.rs:980-982`). -/
def attrsFrom (before : List Elem) : List Lead → List (List Elem × OwnAttr × List Lead)
  | [] => []
  | .attr a :: ls => (before, a, ls) :: attrsFrom (before ++ a.elems) ls
  | .trivia k s :: ls => attrsFrom (before ++ [.tok k s]) ls

/-- All attributes (`crates/analyzer/src/analysis/utils.rs:980-982`). -/
def Target.attrs (t : Target) : List (List Elem × OwnAttr × List Lead) := attrsFrom t.before t.lead

/-- The ink! attributes (`ink_attrs`, `crates/analyzer/src/analysis/utils.rs:973`). -/
def Target.inkAttrs (t : Target) : List (List Elem × OwnAttr × List Lead) :=
  t.attrs.filter fun a => a.2.1.ink.isSome

/-- What the ink! attributes are (`ink_attrs`, as read at
`crates/analyzer/src/analysis/actions/item.rs:140,189-193`). -/
def Target.inkKinds (t : Target) : List AttrV := t.inkAttrs.filterMap fun a => a.2.1.ink

/-- The last token of an attribute (`crates/analyzer/src/analysis/utils.rs:974-988`). -/
def lastToken (a : List Elem × OwnAttr × List Lead) : Option Leaf :=
  (leavesList (Elem.lenList a.1) a.2.1.elems).getLast?

/-- The token behind which the place is searched, `crates/analyzer/src/analysis/utils.rs:973-993`. -/
def Target.anchor (t : Target) : Option Leaf :=
  ((t.inkAttrs.getLast?.bind lastToken).or (t.attrs.getLast?.bind lastToken)).or
    ((leavesList (Elem.lenList t.before) (leadElems t.lead ++ t.body)).head?.filter fun l =>
      l.kind.isTrivia)

/-- `closest_non_trivia_token(.., next_token)`, `crates/ir/src/tree/ast_ext.rs:48-58`: the first token
behind the given one that is not white space or a comment (tokens are never empty). -/
def nextSolid (file : List Leaf) (l : Leaf) : Option Leaf :=
  (file.dropWhile fun x => x.start ≤ l.start).find? fun x => !x.kind.isTrivia

/-- `ink_attribute_insert_offset`, `crates/analyzer/src/analysis/utils.rs:972-999`. -/
def Target.insertOffset (t : Target) : Nat :=
  ((t.anchor.bind (nextSolid (leavesList 0 t.file))).map Leaf.start).getD (Elem.lenList t.before)

/-- An edit of an action: the offset, the inserted text and the snippet
(`TextEdit::insert_with_snippet`, `crates/analyzer/src/analysis/actions/item.rs:258-285`). -/
structure Edit where
  offset : Nat
  text : String
  snippet : Option String
deriving DecidableEq

/-- What an action adds (its label, `crates/analyzer/src/analysis/actions/item.rs:166,247` and
`crates/analyzer/src/analysis/actions/attr.rs:36,53,84`). -/
inductive What where
  | macro (m : MacroKind)
  | arg (k : ArgKind)
  | migrate
  | extract
deriving DecidableEq

/-- An action (`Action`, `crates/analyzer/src/analysis/actions/item.rs:165-173,246-287`). -/
structure Act where
  what : What
  edit : Option Edit
deriving DecidableEq

/-- What else is read for the default value of an argument: the surroundings of the item (the fields of
`InsertText.Site` that do not come from the attribute,
`crates/analyzer/src/analysis/utils.rs:823-952`). -/
structure Around where
  onFn : Bool
  extensions : Option (List ExtFn × List ExtFn)
  traitDef : Option (List CallItem)
  contract : Option ContractItems
  environment : Option String

/-- The attribute in its file (`crates/analyzer/src/analysis/utils.rs:1018-1024`). -/
def attrIn (t : Target) (a : List Elem × OwnAttr × List Lead) : AttrIn :=
  ⟨a.1 ++ a.2.1.head, a.2.1.tree, a.2.1.gap, a.2.1.closed, leadElems a.2.2 ++ (t.body ++ t.after)⟩

/-- The attribute as parent of the inserted argument
(`parent_attr_option`, `crates/analyzer/src/analysis/utils.rs:751`). -/
def siteOf (around : Around) (t : Target) (a : List Elem × OwnAttr × List Lead) : Site :=
  { file := leavesList 0 t.file
    start := Elem.lenList a.1
    stop := Elem.lenList a.1 + Elem.lenList a.2.1.elems
    args := (a.2.1.ink.map AttrV.args).getD []
    onFn := around.onFn
    extensions := around.extensions
    traitDef := around.traitDef
    contract := around.contract
    environment := around.environment }

/-- The text of a new attribute macro, `crates/analyzer/src/analysis/actions/item.rs:169`. -/
def macroText (m : MacroKind) : String := "#[" ++ m.pathAsStr ++ "]"

/-- `ink_macro_actions`, `crates/analyzer/src/analysis/actions/item.rs:133-176`. -/
def macroActs (v : Version) (t : Target) (kind : ItemKind) (scope : List AttrKind)
    (cfgTest cfgE2e : Bool) : List Act :=
  (itemMacroSuggestions v t.inkKinds kind scope cfgTest cfgE2e).map fun m =>
    ⟨.macro m, some ⟨t.insertOffset, macroText m, none⟩⟩

/-- The edit that extends an attribute, `crates/analyzer/src/analysis/actions/item.rs:233-285` and
`crates/analyzer/src/analysis/actions/attr.rs:80-102`. `none` is a panic. -/
def extendEdit (hash : String → Vector UInt8 32) (k : ArgKind) (p : Place) (s : Site) : Option Edit :=
  (insertText hash k (some p.offset) (some s)).map fun r =>
    ⟨p.offset, (p.insertion r.1).2, r.2.map fun x => (p.insertion x).2⟩

/-- The text of a new attribute, `crates/analyzer/src/analysis/actions/item.rs:265,279`. -/
def inkText (s : String) : String := "#[ink(" ++ s ++ ")]"

/-- The edit that adds an attribute, `crates/analyzer/src/analysis/actions/item.rs:233-285`. `none` is a
panic. -/
def newEdit (hash : String → Vector UInt8 32) (k : ArgKind) (off : Nat) : Option Edit :=
  (insertText hash k (some off) none).map fun r => ⟨off, inkText r.1, r.2.map inkText⟩

/-- The primary ink! attribute, `crates/analyzer/src/analysis/actions/item.rs:189-193`. -/
def Target.candidate (t : Target) : Option (List Elem × OwnAttr × List Lead) :=
  (primaryCandidate t.inkKinds).bind fun c => t.inkAttrs[c.2]?

/-- The edit of one argument, `crates/analyzer/src/analysis/actions/item.rs:229-286`. `none` is a
panic. -/
def argEdit (hash : String → Vector UInt8 32) (around : Around) (t : Target) (k : ArgKind) :
    Option Edit :=
  match t.candidate.bind fun a => (argPlace (attrIn t a) (some k)).map fun p => (a, p) with
  | some (a, p) => extendEdit hash k p (siteOf around t a)
  | none => newEdit hash k t.insertOffset

/-- `ink_arg_actions`, `crates/analyzer/src/analysis/actions/item.rs:179-293`. `none` is a panic. -/
def argActs (hash : String → Vector UInt8 32) (around : Around) (v : Version) (t : Target)
    (kind : ItemKind) (isTraitImpl isTraitDefImplMessage : Bool) (scope : List AttrKind) :
    Option (List Act) :=
  (itemArgSuggestions v t.inkKinds kind isTraitImpl isTraitDefImplMessage scope).mapM fun k =>
    (argEdit hash around t k).map fun e => ⟨.arg k, some e⟩

/-- The attribute actions of `actions`, `crates/analyzer/src/analysis/actions/item.rs:17-82` (without
those that flatten attributes, see `Verif.Analyzer.Flatten`): whether there is a focused element, whether
it is in an attribute, whether there is an item around it, and whether it is in a field of a struct or on
the declaration. -/
def itemActions (hash : String → Vector UInt8 32) (around : Around) (v : Version) (t : Target)
    (focused inAttr inItem onField onDeclaration : Bool) (kind : ItemKind)
    (isTraitImpl isTraitDefImplMessage : Bool) (scope : List AttrKind) (cfgTest cfgE2e : Bool) :
    Option (List Act) :=
  if focused && !inAttr && inItem && (onField || onDeclaration) then
    (argActs hash around v t kind isTraitImpl isTraitDefImplMessage scope).map fun l =>
      macroActs v t kind scope cfgTest cfgE2e ++ l
  else some []

/-- The actions of an attribute that start something,
`crates/analyzer/src/analysis/actions/attr.rs:28-62`. -/
def startActs (v : Version) (k : AttrKind) : List Act :=
  (if v = .v4 ∧ k ∈ [.macro .contract, .macro .traitDefinition, .macro .chainExtension,
      .macro .storageItem] then [⟨.migrate, none⟩] else []) ++
  (if v = .v5 ∧ k ∈ [.macro .event, .arg .event] then [⟨.extract, none⟩] else [])

/-- The action for one argument, `crates/analyzer/src/analysis/actions/attr.rs:74-103`. `none` is a
panic. -/
def attrArg (hash : String → Vector UInt8 32) (around : Around) (t : Target)
    (a : List Elem × OwnAttr × List Lead) (q : ArgKind) : Option (List Act) :=
  match argPlace (attrIn t a) (some q) with
  | some p => (extendEdit hash q p (siteOf around t a)).map fun e => [⟨.arg q, some e⟩]
  | none => some []

/-- `actions`, `crates/analyzer/src/analysis/actions/attr.rs:11-106`, for the attribute `a` (of kind `k`)
of `t` under the cursor. `none` is a panic. -/
def attrActions (hash : String → Vector UInt8 32) (around : Around) (v : Version) (t : Target)
    (a : List Elem × OwnAttr × List Lead) (k : AttrKind) (isTraitDefImplMessage : Bool)
    (scope : List AttrKind) : Option (List Act) :=
  if a.2.1.closed && !isTraitDefImplMessage then
    ((attrArgSuggestions v t.inkKinds k a.2.1.closed isTraitDefImplMessage scope).mapM
      (attrArg hash around t a)).map fun l => startActs v k ++ l.flatten
  else some []

end Verif.Analyzer.AttrActions
