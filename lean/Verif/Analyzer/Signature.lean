import Verif.Analyzer.Hints
import Verif.Analyzer.Suggest
import Verif.Util.Chars

/-!
# Signature help

Models `crates/analyzer/src/analysis/signature_help.rs:10-378`. Positions within a label are counted in characters; all names of arguments and value
kinds are ASCII (`paramText_ascii`), so that these are byte offsets. Labels are shorter than 4 GiB.
-/

namespace Verif.Analyzer

open Verif.Ir

/-- `SignatureHelp` with the ranges and the details of its parameters,
`crates/analyzer/src/analysis/signature_help.rs:10-33` (its own `detail` is always `None`). -/
structure SigHelp where
  label : List Char
  range : Nat × Nat
  params : List (Nat × Nat)
  active : Option Nat
  docs : List (Option (List Char))
  deriving DecidableEq

/-- What is read of the focused argument: its kind and its name, if it has one
(`crates/analyzer/src/analysis/signature_help.rs:297,301-304`). -/
structure FocusedArg where
  kind : ArgKind
  name : Option (List Char)
  deriving DecidableEq

/-- `arg_value_kind`, `crates/analyzer/src/analysis/signature_help.rs:245-256`. -/
def sigValueKind (v : Version) (args : List ArgKind) (k : ArgKind) : ValueKind :=
  if v = .v5 then
    ValueKind.ofArgV5 k (if args.contains .constructor then some true else none)
  else ValueKind.ofArg k

/-- `param`, `crates/analyzer/src/analysis/signature_help.rs:257-264`. -/
def paramText (v : Version) (args : List ArgKind) (k : ArgKind) : List Char :=
  k.name.toList ++ (if sigValueKind v args k = .none then [] else [':', ' ']) ++
    (sigValueKind v args k).display.toList

/-- `InkArgKind::detail`, `crates/ir/src/attrs/args.rs:357-394`. -/
def argDetail (k : ArgKind) (v : Version) : List Char :=
  match k, v with
  | .additionalContracts, .v5 => chars! "ink! attribute argument `additional_contracts` is deprecated. See https://github.com/paritytech/ink/pull/2098 for details."
  | .additionalContracts, _ => chars! "Tells the ink! e2e test runner which additional contracts to build before executing the test."
  | .anonymous, _ => chars! "Tells the ink! codegen to treat the ink! event as anonymous which omits the event signature as topic upon emitting."
  | .backend, .v5 => chars! "Tells the ink! e2e test runner which type of architecture to use to execute the test."
  | .constructor, _ => chars! "Flags a function for the ink! storage `struct` as a constructor making it available to the API for instantiating the contract."
  | .decode, .v5 => chars! "Derives an implementation of the `ink::scale::Decode` trait."
  | .default, _ => chars! "Tells UI to treat the ink! message or ink! constructor as the default choice in selection widgets (e.g dropdowns)."
  | .derive, _ => chars! "A configuration parameter used to enable/disable auto deriving of all required storage traits."
  | .encode, .v5 => chars! "Derives an implementation of the `ink::scale::Encode` trait."
  | .env, _ => chars! "Tells the ink! code generator which environment to use for the ink! smart contract."
  | .environment, _ => chars! "Tells the ink! e2e test runner which environment to use to execute the test."
  | .event, _ => chars! "Defines an ink! event."
  | .extension, .v5 => chars! "Determines the unique ID of the chain extension."
  | .extension, _ => chars! "Determines the unique function ID of the chain extension function."
  | .function, .v5 => chars! "Determines the unique function ID of the chain extension function."
  | .handleStatus, _ => chars! "Assumes that the returned status code of the chain extension function always indicates success and therefore always loads and decodes the output buffer of the call."
  | .impl, _ => chars! "Tells the ink! codegen that some implementation block shall be granted access to ink! internals even without it containing any ink! messages or ink! constructors."
  | .keepAttr, _ => chars! "Tells the ink! code generator which attributes should be passed to call builders."
  | .message, _ => chars! "Flags a method for the ink! storage `struct` as a message making it available to the API for calling the contract."
  | .namespace, _ => chars! "Changes the resulting selectors of all the ink! messages and ink! constructors within the trait implementation."
  | .node, .v5 => chars! "Tells the ink! e2e test runner to use the standard approach of running dedicated single-node blockchain in a background process to execute the test."
  | .payable, _ => chars! "Allows receiving value as part of the call of the ink! message."
  | .runtimeOnly, .v5 => chars! "Tells the ink! e2e test runner to use the lightweight approach of skipping the node layer by running a runtime emulator within `TestExternalities` (using drink! library) in the same process as the test."
  | .sandbox, .v5 => chars! "Tells the ink! e2e test runner which runtime emulator to use when executing the test."
  | .selector, _ => chars! "The `u32` variant specifies a concrete dispatch selector for the flagged entity, which allows a contract author to precisely control the selectors of their APIs making it possible to rename their API without breakage.\n\nWhile the `_` variant specifies a fallback message that is invoked if no other ink! message matches a selector."
  | .signatureTopic, .v5 => chars! "Specifies custom signature topic of the event that allows to use manually specified shared event definition."
  | .storage, _ => chars! "Defines the ink! storage `struct`."
  | .topic, _ => chars! "Tells the ink! codegen to provide a topic hash for the given field."
  | .typeInfo, .v5 => chars! "Derives an implementation of the `ink::scale_info::TypeInfo` trait."
  | .url, _ => chars! "Tells the ink! e2e test runner which node url to connect to before executing the test."
  | _, _ => []

/-- `doc` and the `detail` of a parameter, `crates/analyzer/src/analysis/signature_help.rs:282-291`:
the non-empty ones of the two texts, separated by an empty line. -/
def paramDoc (v : Version) (args : List ArgKind) (k : ArgKind) : Option (List Char) :=
  let doc := ['\n', '\n'].intercalate
    ([(valueDetail (sigValueKind v args k)).toList, argDetail k v].filter (!·.isEmpty))
  if !doc.isEmpty then some doc else none

/-- The variables of the loop, `crates/analyzer/src/analysis/signature_help.rs:237-241`. -/
structure SigState where
  signature : List Char
  params : List (Nat × Nat)
  active : Option Nat
  byPrefix : Option Nat
  docs : List (Option (List Char))

/-- Whether the focused argument has the given kind,
`crates/analyzer/src/analysis/signature_help.rs:297`. -/
def focusKind (focused : Option FocusedArg) (k : ArgKind) : Bool :=
  focused.any fun f => f.kind = k

/-- Whether the name of the focused argument is a non-empty prefix of the name of the kind,
`crates/analyzer/src/analysis/signature_help.rs:300-305`. -/
def focusPrefix (focused : Option FocusedArg) (k : ArgKind) : Bool :=
  focused.any fun f => f.name.any fun n => !n.isEmpty && n.isPrefixOf k.name.toList

/-- The start of a parameter, `crates/analyzer/src/analysis/signature_help.rs:266-270`. -/
def sigStart (signature : List Char) : Nat :=
  if signature.isEmpty then signature.length else signature.length + 2

/-- The signature with one more parameter,
`crates/analyzer/src/analysis/signature_help.rs:273-280`. -/
def sigPush (signature param : List Char) : List Char :=
  signature ++ ((if signature.isEmpty then [] else [',', ' ']) ++ param)

/-- The update of `active_param`, `crates/analyzer/src/analysis/signature_help.rs:294-298`. -/
def sigActive (focused : Option FocusedArg) (k : ArgKind) (idx : Nat) (active : Option Nat) :
    Option Nat :=
  if active.isNone && focusKind focused k then some idx else active

/-- The update of `active_param_by_prefix`,
`crates/analyzer/src/analysis/signature_help.rs:294-309`. -/
def sigByPrefix (focused : Option FocusedArg) (k : ArgKind) (idx : Nat)
    (active byPrefix : Option Nat) : Option Nat :=
  if active.isNone && !focusKind focused k && byPrefix.isNone && focusPrefix focused k then some idx
  else byPrefix

/-- The loop body, `crates/analyzer/src/analysis/signature_help.rs:244-310`. -/
def sigStep (v : Version) (args : List ArgKind) (focused : Option FocusedArg) (st : SigState)
    (k : ArgKind) : SigState :=
  { signature := sigPush st.signature (paramText v args k)
    params := st.params ++
      [(sigStart st.signature, sigStart st.signature + (paramText v args k).length)]
    active := sigActive focused k st.params.length st.active
    byPrefix := sigByPrefix focused k st.params.length st.active st.byPrefix
    docs := st.docs ++ [paramDoc v args k] }

/-- `args.iter().sorted()`, `crates/analyzer/src/analysis/signature_help.rs:244`
(`Ord for InkArgKind` compares the rank, `crates/ir/src/attrs/args.rs:397-404`). -/
def sigSorted (args : List ArgKind) : List ArgKind := Util.sortBy ArgKind.sortOrder args

/-- The state after the loop, `crates/analyzer/src/analysis/signature_help.rs:244-310`. -/
def sigLoop (v : Version) (args : List ArgKind) (focused : Option FocusedArg) : SigState :=
  (sigSorted args).foldl (sigStep v args focused) ⟨[], [], none, none, []⟩

/-- `add_signature`, `crates/analyzer/src/analysis/signature_help.rs:230-323`: the signatures it
adds. -/
def addSignature (v : Version) (args : List ArgKind) (focused : Option FocusedArg)
    (range : Nat × Nat) : List SigHelp :=
  let st := sigLoop v args focused
  if !st.signature.isEmpty && !st.params.isEmpty then
    [{ label := st.signature, range, params := st.params
       active := (st.active.or st.byPrefix).or (some 0), docs := st.docs }]
  else []

/-- The arguments of `anchor_signature`,
`crates/analyzer/src/analysis/signature_help.rs:334-340`. -/
def anchorArgs (v : Version) (k : ArgKind) : List ArgKind := k :: validSiblings (.arg k) v

/-- `anchor_signature`, `crates/analyzer/src/analysis/signature_help.rs:326-342`. -/
def anchorSignature (v : Version) (k : ArgKind) (focused : Option FocusedArg)
    (range : Nat × Nat) : List SigHelp := addSignature v (anchorArgs v k) focused range

/-- `primary_args`, `crates/analyzer/src/analysis/signature_help.rs:362-368`. -/
def relatedPrimary (v : Version) (k : ArgKind) : List ArgKind :=
  (anchorArgs v k).filter (·.isEntityType)

/-- `complementary_signature`, `crates/analyzer/src/analysis/signature_help.rs:345-378`. -/
def complementarySignature (v : Version) (k : ArgKind) (focused : Option FocusedArg)
    (range : Nat × Nat) : List SigHelp :=
  (if k = .namespace then addSignature v [k] focused range else []) ++
    if (relatedPrimary v k).isEmpty then anchorSignature v k focused range
    else (relatedPrimary v k).flatMap fun p => anchorSignature v p focused range

/-- The filter on possible arguments,
`crates/analyzer/src/analysis/signature_help.rs:134-142`. -/
def possibleArg (focused : Option FocusedArg) (k : ArgKind) : Bool :=
  focused.all fun f => f.name.all fun n => n.isEmpty || n.isPrefixOf k.name.toList

/-- The replacement of complementary arguments,
`crates/analyzer/src/analysis/signature_help.rs:145-166`. -/
def toPrimary (v : Version) (k : ArgKind) : List ArgKind :=
  if k.isEntityType || k == .namespace then [k]
  else if (relatedPrimary v k).isEmpty then [k] else relatedPrimary v k

/-- The key of the deduplication, `crates/analyzer/src/analysis/signature_help.rs:169-179` (as
a sorted list of names instead of its comma separated text; no name contains a comma). -/
def sigKey (v : Version) (k : ArgKind) : List String :=
  ((validSiblings (.arg k) v ++ [k]).map (·.name)).mergeSort fun a b => a ≤ b

/-- The arguments for which signatures are offered for an unknown argument,
`crates/analyzer/src/analysis/signature_help.rs:132-179`. -/
def guessedArgs (v : Version) (focused : Option FocusedArg) (possible : List ArgKind) :
    List ArgKind :=
  Util.uniqueBy (sigKey v)
    (Util.sortBy ArgKind.sortOrder ((possible.filter (possibleArg focused)).flatMap (toPrimary v)))

/-- The signatures for one guess, `crates/analyzer/src/analysis/signature_help.rs:180-200`. -/
def guessSignature (v : Version) (focused : Option FocusedArg) (range : Nat × Nat) (k : ArgKind) :
    List SigHelp :=
  if k.isEntityType then anchorSignature v k focused range
  else if k.isComplementary then complementarySignature v k focused range
  else []

/-- The possible arguments, `crates/analyzer/src/analysis/signature_help.rs:119-131`; `scope` is
`none` if the attribute's parent is not of the kind of the item. -/
def possibleArgs (v : Version) (item : ItemKind) (scope : Option (List AttrKind)) :
    List ArgKind :=
  match scope with
  | some s => removeForScope v s (argsBySyntax item v)
  | none => argsBySyntax item v

/-- What signature help depends on: the attribute's kind, the kind of the primary attribute of the
item (`crates/analyzer/src/analysis/signature_help.rs:81-95`), the kind of the item and the scope
of the attribute (`crates/analyzer/src/analysis/signature_help.rs:114-131`). -/
structure SigContext where
  kind : AttrKind
  primary : Option AttrKind
  item : Option ItemKind
  scope : Option (List AttrKind)

/-- The separate primary argument, `crates/analyzer/src/analysis/signature_help.rs:90-95`. -/
def separateEntity : Option AttrKind → Option ArgKind
  | some (.arg k) => if k.isEntityType then some k else none
  | _ => none

/-- The signatures for an argument attribute,
`crates/analyzer/src/analysis/signature_help.rs:77-202`. -/
def argSignatures (v : Version) (c : SigContext) (k : ArgKind) (focused : Option FocusedArg)
    (range : Nat × Nat) : List SigHelp :=
  if k.isEntityType then anchorSignature v k focused range
  else
    match separateEntity c.primary with
    | some p => anchorSignature v p focused range
    | none =>
      if k ≠ .unknown then complementarySignature v k focused range
      else
        match c.item with
        | some item =>
          (guessedArgs v focused (possibleArgs v item c.scope)).flatMap
            (guessSignature v focused range)
        | none => []

/-- The signatures for a macro attribute,
`crates/analyzer/src/analysis/signature_help.rs:204-216`. -/
def macroSignatures (v : Version) (k : AttrKind) (focused : Option FocusedArg)
    (range : Nat × Nat) : List SigHelp :=
  if (validSiblings k v).isEmpty then [] else addSignature v (validSiblings k v) focused range

/-- The parentheses of a token tree (`crates/analyzer/src/analysis/signature_help.rs:43-66`):
its range, the end of its opening and the start of its closing parenthesis. -/
structure ParenTree where
  start : Nat
  stop : Nat
  lparen : Option Nat
  rparen : Option Nat

/-- `is_focused_on_arguments`, `crates/analyzer/src/analysis/signature_help.rs:45-54`
(`TextRange::contains` excludes the end). -/
def focusedOnArgs (t : ParenTree) (offset : Nat) : Bool :=
  (t.start ≤ offset && offset < t.stop) && t.lparen.any (· ≤ offset) &&
    t.rparen.all (offset ≤ ·)

/-- `range`, `crates/analyzer/src/analysis/signature_help.rs:57-66`. -/
def sigRange (t : ParenTree) : Nat × Nat := (t.lparen.getD t.start, t.rparen.getD t.stop)

/-- `focused_arg`, `crates/analyzer/src/analysis/signature_help.rs:69-72`, among the arguments of
the attribute with their ranges. -/
def focusedArg (args : List ((Nat × Nat) × FocusedArg)) (offset : Nat) : Option FocusedArg :=
  (args.find? fun a => a.1.1 ≤ offset && offset ≤ a.1.2).map (·.2)

/-- The signatures before deduplication,
`crates/analyzer/src/analysis/signature_help.rs:39-220`. -/
def rawSignatures (v : Version) (c : SigContext) (t : ParenTree)
    (args : List ((Nat × Nat) × FocusedArg)) (offset : Nat) : List SigHelp :=
  if focusedOnArgs t offset then
    match c.kind with
    | .arg k => argSignatures v c k (focusedArg args offset) (sigRange t)
    | .macro k => macroSignatures v (.macro k) (focusedArg args offset) (sigRange t)
  else []

/-- `signature_help`, `crates/analyzer/src/analysis/signature_help.rs:35-227`, for an offset whose
parent is an ink! attribute with a token tree. -/
def signatureHelp (v : Version) (c : SigContext) (t : ParenTree)
    (args : List ((Nat × Nat) × FocusedArg)) (offset : Nat) : List SigHelp :=
  Util.uniqueBy (fun s => (s.label, s.range)) (rawSignatures v c t args offset)

end Verif.Analyzer
