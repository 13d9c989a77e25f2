import Verif.Analyzer.Edit
import Verif.Analyzer.Tables
import Verif.Util.Chars
import Verif.Util.Sort

/-!
# Implementations of ink! trait definitions

Models `crates/analyzer/src/analysis/diagnostics/contract/ink_impl.rs:361-928`. The resolution
of the implemented trait (`crates/ir/src/ink_impl.rs:74-83`) is an input: the functions below
get the messages and the method names of the resolved trait definition.
-/

namespace Verif.Analyzer

open Verif.Ir

/-- A piece of source: a sequence of syntax elements, each with its text and whether it is a
trivia token (whitespace or a comment). Models the children of a `SyntaxNode`
(`crates/analyzer/src/analysis/utils.rs:2054-2061`) and the elements of a `MetaValue`
(`crates/ir/src/attrs/meta/value.rs:235-243`). -/
abbrev Elements := List (Bool × List Char)

/-- `SyntaxNode::to_string`, as used at
`crates/analyzer/src/analysis/diagnostics/contract/ink_impl.rs:664`. -/
def Elements.text (es : Elements) : List Char := es.flatMap (·.2)

/-- `strip_trivia`, `crates/analyzer/src/analysis/utils.rs:2055-2059` and
`crates/ir/src/attrs/meta/value.rs:236-241`. -/
def Elements.stripped (es : Elements) : List Char :=
  (es.filter fun e => !e.1).flatMap (·.2)

/-- `is_trivia_insensitive_eq`, `crates/analyzer/src/analysis/utils.rs:2054-2061`, and
`MetaValue::trivia_insensitive_eq`, `crates/ir/src/attrs/meta/value.rs:235-243`. -/
def triviaEq (a b : Elements) : Bool := a.stripped == b.stripped

/-- A part of a function signature (parameter list or return type) with its text range.
As used in `crates/analyzer/src/analysis/diagnostics/contract/ink_impl.rs:635-699`. -/
structure SigPart where
  elems : Elements
  range : Nat × Nat
deriving DecidableEq

/-- An ink! argument, as read by
`crates/analyzer/src/analysis/diagnostics/contract/ink_impl.rs:736-812`: kind, value, text
(`Display for InkArg`), text range and removal range
(`utils::ink_arg_and_delimiter_removal_range`, modelled in `Verif.Analyzer.Remove`). -/
structure TArg where
  kind : ArgKind
  value : Option Elements
  text : List Char
  range : Nat × Nat
  removal : Nat × Nat
deriving DecidableEq

/-- An ink! attribute of a function,
`crates/analyzer/src/analysis/diagnostics/contract/ink_impl.rs:723-736`. -/
structure TAttr where
  kind : AttrKind
  args : List TArg
  range : Nat × Nat
deriving DecidableEq

/-- A message of an ink! trait definition, as read by
`crates/analyzer/src/analysis/diagnostics/contract/ink_impl.rs:374-385,434-498,562-587`: the
name of its function (`none` also when the message is not a function), its parameter list and
return type, the texts of the receiver and of the other parameters, the text of the returned
type, and its ink! arguments (`ink_args`). -/
structure TraitMsg where
  name : Option String
  params : Option SigPart
  ret : Option SigPart
  paramTexts : Option (Option (List Char) × List (List Char))
  retType : Option (List Char)
  args : List TArg
deriving DecidableEq

/-- A function of the implementation, as read by
`crates/analyzer/src/analysis/diagnostics/contract/ink_impl.rs:407-502`. `range` is the range
of the whole item, `declRange` the one of its declaration
(`utils::ast_item_declaration_range` or else the whole item). -/
structure ImplFn where
  name : Option (String × (Nat × Nat))
  params : Option SigPart
  ret : Option SigPart
  attrs : List TAttr
  range : Nat × Nat
  declRange : Nat × Nat
deriving DecidableEq

/-- An associated item of the implementation (`ast::AssocItem`),
`crates/analyzer/src/analysis/diagnostics/contract/ink_impl.rs:405-514`. -/
inductive AssocItem where
  | fn (f : ImplFn)
  | other (range : Nat × Nat)
deriving DecidableEq

/-- What a diagnostic of `ensure_trait_definition_impl_invariants` is about. One constructor
for each message text of
`crates/analyzer/src/analysis/diagnostics/contract/ink_impl.rs:415,506,613,651,674,726,751,773,798,912`. -/
inductive TraitIssue where
  | undeclaredMethod (name : String)
  | notAMessage
  | missingMessages
  | signatureMismatch (part : String)
  | signatureUndeclared (part : String)
  | macroAttr
  | missingValue (kind : ArgKind)
  | valueMismatch (kind : ArgKind)
  | undeclaredArg (kind : ArgKind)
  | missingArgs (texts : List (List Char))
deriving DecidableEq

/-- A diagnostic with the edits of its quickfix (the model leaves out the label, which is
fixed per issue).
As used in `crates/analyzer/src/analysis/diagnostics/contract/ink_impl.rs:365-928`. -/
structure TraitDiag where
  issue : TraitIssue
  range : Nat × Nat
  edits : List Edit
deriving DecidableEq

/-- `TextEdit::delete`, `crates/analyzer/src/analysis/text_edit.rs:57-64`. -/
def deleteRange (r : Nat × Nat) : Edit := ⟨[], r.1, r.2, none⟩

/-- `TextEdit::replace`, `crates/analyzer/src/analysis/text_edit.rs:47-50`. -/
def replaceRange (t : List Char) (r : Nat × Nat) : Edit := ⟨t, r.1, r.2, none⟩

/-- A message has a usable name,
`crates/analyzer/src/analysis/diagnostics/contract/ink_impl.rs:378-383`. -/
def TraitMsg.named (m : TraitMsg) : Bool :=
  match m.name with
  | some n => n != ""
  | none => false

/-- `message_index`, `crates/analyzer/src/analysis/diagnostics/contract/ink_impl.rs:374-385`:
the values of the map; of messages with the same name the last one is kept. The list stands
for a `HashMap`, so its order has no meaning. -/
def messageIndex : List TraitMsg → List TraitMsg
  | [] => []
  | m :: ms =>
    if m.named && !(ms.any fun m' => m'.name == m.name) then m :: messageIndex ms
    else messageIndex ms

/-- `message_index.get`,
`crates/analyzer/src/analysis/diagnostics/contract/ink_impl.rs:410`. -/
def findMessage (ms : List TraitMsg) (n : String) : Option TraitMsg :=
  (messageIndex ms).find? fun m => m.name == some n

/-- `verify_signature_part_match`,
`crates/analyzer/src/analysis/diagnostics/contract/ink_impl.rs:635-699`. -/
def matchPart (declared implemented : Option SigPart) (diagRange replRange : Nat × Nat)
    (label : String) (removeLabel : Option String) : List TraitDiag :=
  match declared, implemented with
  | some d, none => [⟨.signatureMismatch label, diagRange, [replaceRange d.elems.text replRange]⟩]
  | some d, some i =>
    if triviaEq i.elems d.elems then []
    else [⟨.signatureMismatch label, diagRange, [replaceRange d.elems.text replRange]⟩]
  | none, some i =>
    [⟨.signatureUndeclared (removeLabel.getD label), i.range, [deleteRange i.range]⟩]
  | none, none => []

/-- The two calls of `verify_signature_part_match` with their ranges,
`crates/analyzer/src/analysis/diagnostics/contract/ink_impl.rs:434-498`. -/
def matchSignature (m : TraitMsg) (f : ImplFn) (nameRange : Nat × Nat) : List TraitDiag :=
  let paramsDiag := (f.params.map SigPart.range).getD nameRange
  let paramsRepl := (f.params.map SigPart.range).getD (nameRange.2, nameRange.2)
  let after := paramsDiag.2
  let retDiag := (f.ret.map SigPart.range).getD (nameRange.1, after)
  let retRepl := (f.ret.map SigPart.range).getD (after, after)
  matchPart m.params f.params paramsDiag paramsRepl "parameter list" (some "parameters") ++
    matchPart m.ret f.ret retDiag retRepl "return type" none

/-- `allowed_arg_kinds`,
`crates/analyzer/src/analysis/diagnostics/contract/ink_impl.rs:709-715`. -/
def allowedMessageArgs (v : Version) : List ArgKind :=
  .message :: validSiblings (.arg .message) v

/-- `ink_arg_index`, `crates/analyzer/src/analysis/diagnostics/contract/ink_impl.rs:718-721`:
the values of the map, the last argument of each known kind. -/
def argIndex : List TArg → List TArg
  | [] => []
  | a :: as =>
    if a.kind != .unknown && !(as.any fun a' => a'.kind == a.kind) then a :: argIndex as
    else argIndex as

/-- `ink_arg_index.get`,
`crates/analyzer/src/analysis/diagnostics/contract/ink_impl.rs:737`. -/
def declaredArg (declared : List TArg) (k : ArgKind) : Option TArg :=
  (argIndex declared).find? fun a => a.kind == k

/-- The comparison of the value of an argument with the declared one,
`crates/analyzer/src/analysis/diagnostics/contract/ink_impl.rs:745-792`. -/
def checkValue (d a : TArg) : List TraitDiag :=
  match d.value with
  | none => []
  | some dv =>
    if ValueKind.ofArg a.kind = .none then []
    else
      match a.value with
      | none => [⟨.missingValue a.kind, a.range, [replaceRange d.text a.range]⟩]
      | some av =>
        if triviaEq av dv then []
        else [⟨.valueMismatch a.kind, a.range, [replaceRange d.text a.range]⟩]

/-- The body of the loop over arguments,
`crates/analyzer/src/analysis/diagnostics/contract/ink_impl.rs:736-813`. -/
def checkArg (declared : List TArg) (isMacro : Bool) (a : TArg) : List TraitDiag :=
  match declaredArg declared a.kind with
  | some d => checkValue d a
  | none =>
    if isMacro then [] else [⟨.undeclaredArg a.kind, a.range, [deleteRange a.removal]⟩]

/-- `matches!(attr.kind(), InkAttributeKind::Macro(_))`,
`crates/analyzer/src/analysis/diagnostics/contract/ink_impl.rs:724`. -/
def TAttr.isMacro (t : TAttr) : Bool :=
  match t.kind with
  | .macro _ => true
  | .arg _ => false

/-- The body of the loop over attributes,
`crates/analyzer/src/analysis/diagnostics/contract/ink_impl.rs:723-814`. -/
def checkAttr (declared : List TArg) (t : TAttr) : List TraitDiag :=
  (if t.isMacro then [⟨.macroAttr, t.range, [deleteRange t.range]⟩] else []) ++
    t.args.flatMap (checkArg declared t.isMacro)

/-- `missing_args`, `crates/analyzer/src/analysis/diagnostics/contract/ink_impl.rs:816-822`.
`order` is the iteration order of the map. -/
def missingArgs (order : List TArg → List TArg) (v : Version) (declared : List TArg)
    (attrs : List TAttr) : List TArg :=
  Util.sortBy (fun a => a.kind.sortOrder) ((order (argIndex declared)).filter fun a =>
    !(attrs.any fun t => t.args.any fun a' => a'.kind == a.kind) &&
      (allowedMessageArgs v).contains a.kind)

/-- `ensure_trait_definition_impl_message_args`,
`crates/analyzer/src/analysis/diagnostics/contract/ink_impl.rs:702-928`. The edits that
add missing arguments (lines 824-910) are in `Verif.Analyzer.AddArgs`. -/
def matchArgs (order : List TArg → List TArg) (v : Version) (m : TraitMsg) (f : ImplFn) :
    List TraitDiag :=
  f.attrs.flatMap (checkAttr m.args) ++
    match missingArgs order v m.args f.attrs with
    | [] => []
    | missing => [⟨.missingArgs (missing.map TArg.text), f.declRange, []⟩]

/-- The body of the loop over associated items,
`crates/analyzer/src/analysis/diagnostics/contract/ink_impl.rs:404-515`. -/
def checkItem (order : List TArg → List TArg) (v : Version) (messages : List TraitMsg)
    (methods : List String) : AssocItem → List TraitDiag
  | .fn f =>
    match f.name with
    | none => []
    | some (n, nameRange) =>
      match findMessage messages n with
      | none =>
        if methods.contains n then []
        else [⟨.undeclaredMethod n, f.range, [deleteRange f.range]⟩]
      | some m => matchArgs order v m f ++ matchSignature m f nameRange
  | .other r => [⟨.notAMessage, r, [deleteRange r]⟩]

/-- `seen_messages`, `crates/analyzer/src/analysis/diagnostics/contract/ink_impl.rs:401,424`. -/
def seenMessages (messages : List TraitMsg) (items : List AssocItem) : List String :=
  items.filterMap fun
    | .fn f => f.name.bind fun p => (findMessage messages p.1).map fun _ => p.1
    | .other _ => none

/-- `missing_messages`,
`crates/analyzer/src/analysis/diagnostics/contract/ink_impl.rs:519-530`. `order` is the
iteration order of the map. -/
def missingMessages (order : List TraitMsg → List TraitMsg) (messages : List TraitMsg)
    (items : List AssocItem) : List TraitMsg :=
  (order (messageIndex messages)).filter fun m =>
    match m.name with
    | some n => n != "" && !(seenMessages messages items).contains n
    | none => false

/-- `params`, `crates/analyzer/src/analysis/diagnostics/contract/ink_impl.rs:562-575`. -/
def stubParams (self : Option (List Char)) (others : List (List Char)) : List Char :=
  self.getD [] ++
    (if self.isSome && !(List.intercalate [',', ' '] others).isEmpty then [',', ' '] else []) ++
    List.intercalate [',', ' '] others

/-- `fn_sig`, `crates/analyzer/src/analysis/diagnostics/contract/ink_impl.rs:576-587`. -/
def stubSig (n : String) (m : TraitMsg) : List Char :=
  chars! "fn " ++ n.toList ++ ['('] ++
    ((m.paramTexts.map fun p => stubParams p.1 p.2).getD []) ++ [')'] ++
    (if m.retType.isSome then chars! " -> " else []) ++ m.retType.getD []

/-- The loop that builds the stubs and their snippets,
`crates/analyzer/src/analysis/diagnostics/contract/ink_impl.rs:556-600`. The arguments are
`edit_option`, `snippet_option` and `snippet_idx`. -/
def stubs : Option (List Char) → Option (List Char) → Nat → List TraitMsg →
    Option (List Char) × Option (List Char)
  | edit, snippet, _, [] => (edit, snippet)
  | edit, snippet, idx, m :: ms =>
    match m.name with
    | none => stubs edit snippet idx ms
    | some n =>
      let spacing : List Char := if idx > 1 then ['\n', '\n'] else []
      stubs
        (some (edit.getD [] ++ spacing ++ stubSig n m ++ chars! " {\n    todo!()\n}"))
        (some (snippet.getD [] ++ spacing ++ stubSig n m ++ chars! " {\n    ${" ++
          idx.repr.toList ++ chars! ":todo!()}\n}"))
        (idx + 1) ms

/-- The implementation, as read by
`crates/analyzer/src/analysis/diagnostics/contract/ink_impl.rs:403,532-555`: its associated
items (`none` without an item list), the insertion offset
(`utils::assoc_item_insert_offset_end`, or the end of the item), the indenting of its children
and its own, and its declaration range. -/
structure TraitImpl where
  items : Option (List AssocItem)
  insertAt : Nat
  childIndent : List Char
  indent : List Char
  declRange : Nat × Nat

/-- `format_edit`, `crates/analyzer/src/analysis/diagnostics/contract/ink_impl.rs:601-611`. -/
def TraitImpl.format (i : TraitImpl) (edit : List Char) : List Char :=
  (if i.items.isNone then [' ', '{'] else []) ++ applyIndenting edit i.childIndent ++
    (if i.items.isNone then i.indent ++ ['}'] else [])

/-- The diagnostic for missing messages,
`crates/analyzer/src/analysis/diagnostics/contract/ink_impl.rs:531-630`. -/
def missingDiag (i : TraitImpl) (missing : List TraitMsg) : List TraitDiag :=
  match missing with
  | [] => []
  | ms =>
    [⟨.missingMessages, i.declRange,
      match stubs none none 1 ms with
      | (some edit, snippet) => [⟨i.format edit, i.insertAt, i.insertAt, snippet.map i.format⟩]
      | (none, _) => []⟩]

/-- `ensure_trait_definition_impl_invariants`,
`crates/analyzer/src/analysis/diagnostics/contract/ink_impl.rs:365-632`, for a resolved trait
definition with the given messages and method names (`method_names`, lines 386-400). -/
def checkTraitImpl (orderArgs : List TArg → List TArg) (orderMsgs : List TraitMsg → List TraitMsg)
    (v : Version) (messages : List TraitMsg) (methods : List String) (i : TraitImpl) :
    List TraitDiag :=
  (i.items.getD []).flatMap (checkItem orderArgs v messages methods) ++
    missingDiag i (missingMessages orderMsgs messages (i.items.getD []))

end Verif.Analyzer
