import Verif.Basic

/-!
# ink! attribute macro and argument kinds

Models the tables of `crates/ir/src/attrs.rs` and `crates/ir/src/attrs/args.rs`.
-/

namespace Verif.Ir

/-- Argument kinds. Models `InkArgKind`, `crates/ir/src/attrs/args.rs:97-156`. -/
inductive ArgKind where
  | additionalContracts
  | anonymous
  | backend
  | constructor
  | decode
  | default
  | derive
  | encode
  | env
  | environment
  | event
  | extension
  | function
  | handleStatus
  | impl
  | keepAttr
  | message
  | «namespace»
  | node
  | payable
  | runtimeOnly
  | sandbox
  | selector
  | signatureTopic
  | storage
  | topic
  | typeInfo
  | url
  | unknown
  deriving DecidableEq, Repr

/-- Macro kinds. Models `InkMacroKind`, `crates/ir/src/attrs.rs:209-230`. -/
inductive MacroKind where
  | chainExtension
  | contract
  | event
  | scaleDerive
  | storageItem
  | test
  | traitDefinition
  | e2eTest
  | unknown
  deriving DecidableEq, Repr

namespace ArgKind

/-- `InkArgKind::from(&str)`, `crates/ir/src/attrs/args.rs:158-222`. -/
def ofName : String → ArgKind
  | "additional_contracts" => .additionalContracts
  | "anonymous" => .anonymous
  | "backend" => .backend
  | "constructor" => .constructor
  | "Decode" => .decode
  | "default" => .default
  | "derive" => .derive
  | "Encode" => .encode
  | "env" => .env
  | "environment" => .environment
  | "event" => .event
  | "extension" => .extension
  | "function" => .function
  | "handle_status" => .handleStatus
  | "impl" => .impl
  | "keep_attr" => .keepAttr
  | "message" => .message
  | "namespace" => .namespace
  | "node" => .node
  | "payable" => .payable
  | "runtime_only" => .runtimeOnly
  | "sandbox" => .sandbox
  | "selector" => .selector
  | "signature_topic" => .signatureTopic
  | "storage" => .storage
  | "topic" => .topic
  | "TypeInfo" => .typeInfo
  | "url" => .url
  | _ => .unknown

/-- `Display for InkArgKind`, `crates/ir/src/attrs/args.rs:224-291`. -/
def name : ArgKind → String
  | .additionalContracts => "additional_contracts"
  | .anonymous => "anonymous"
  | .backend => "backend"
  | .constructor => "constructor"
  | .decode => "Decode"
  | .default => "default"
  | .derive => "derive"
  | .encode => "Encode"
  | .env => "env"
  | .environment => "environment"
  | .event => "event"
  | .extension => "extension"
  | .function => "function"
  | .handleStatus => "handle_status"
  | .impl => "impl"
  | .keepAttr => "keep_attr"
  | .message => "message"
  | .namespace => "namespace"
  | .node => "node"
  | .payable => "payable"
  | .runtimeOnly => "runtime_only"
  | .sandbox => "sandbox"
  | .selector => "selector"
  | .signatureTopic => "signature_topic"
  | .storage => "storage"
  | .topic => "topic"
  | .typeInfo => "TypeInfo"
  | .url => "url"
  | .unknown => "unknown"

/-- `ink_arg_kind_sort_order`, `crates/ir/src/attrs/args.rs:297-338`. -/
def sortOrder : ArgKind → Nat
  | .constructor | .event | .extension | .function | .impl | .message | .storage | .topic => 0
  | .additionalContracts | .anonymous | .backend | .decode | .default | .derive | .encode | .env
  | .environment | .handleStatus | .keepAttr | .namespace | .node | .payable | .runtimeOnly | .sandbox
  | .selector | .signatureTopic | .typeInfo | .url => 1
  | .unknown => 10

/-- `InkArgKind::is_entity_type`, `crates/ir/src/attrs/args.rs:343-345`. -/
def isEntityType (k : ArgKind) : Bool := k.sortOrder == 0

/-- `InkArgKind::is_complementary`, `crates/ir/src/attrs/args.rs:353-355`. -/
def isComplementary (k : ArgKind) : Bool := k.sortOrder == 1

/-- Every argument kind, in the declaration order of `crates/ir/src/attrs/args.rs:97-156`
(a listing for exhaustive checks, not a function of the code). -/
def all : List ArgKind :=
  [.additionalContracts, .anonymous, .backend, .constructor, .decode, .default,
   .derive, .encode, .env, .environment, .event, .extension,
   .function, .handleStatus, .impl, .keepAttr, .message, .namespace,
   .node, .payable, .runtimeOnly, .sandbox, .selector, .signatureTopic,
   .storage, .topic, .typeInfo, .url, .unknown]

theorem mem_all (k : ArgKind) : k ∈ all := by cases k <;> decide

end ArgKind

namespace MacroKind

/-- `InkMacroKind::from((&str, &str))`, `crates/ir/src/attrs.rs:232-260`. -/
def ofPath (crate_ name : String) : MacroKind :=
  match crate_ with
  | "ink" =>
    match name with
    | "chain_extension" => .chainExtension
    | "contract" => .contract
    | "event" => .event
    | "scale_derive" => .scaleDerive
    | "storage_item" => .storageItem
    | "test" => .test
    | "trait_definition" => .traitDefinition
    | _ => .unknown
  | "ink_e2e" =>
    match name with
    | "test" => .e2eTest
    | _ => .unknown
  | _ => .unknown

/-- `Display for InkMacroKind`, `crates/ir/src/attrs.rs:262-289`. -/
def display : MacroKind → String
  | .chainExtension => "chain_extension"
  | .contract => "contract"
  | .event => "event"
  | .scaleDerive => "scale_derive"
  | .storageItem => "storage_item"
  | .test => "test"
  | .traitDefinition => "trait_definition"
  | .e2eTest => "e2e test"
  | .unknown => "unknown"

/-- `InkMacroKind::path_as_str`, `crates/ir/src/attrs.rs:295-316`. -/
def pathAsStr : MacroKind → String
  | .chainExtension => "ink::chain_extension"
  | .contract => "ink::contract"
  | .event => "ink::event"
  | .scaleDerive => "ink::scale_derive"
  | .storageItem => "ink::storage_item"
  | .test => "ink::test"
  | .traitDefinition => "ink::trait_definition"
  | .e2eTest => "ink_e2e::test"
  | .unknown => ""

/-- `InkMacroKind::macro_name`, `crates/ir/src/attrs.rs:321-342`. -/
def macroName : MacroKind → String
  | .chainExtension => "chain_extension"
  | .contract => "contract"
  | .event => "event"
  | .scaleDerive => "scale_derive"
  | .storageItem => "storage_item"
  | .test => "test"
  | .traitDefinition => "trait_definition"
  | .e2eTest => "test"
  | .unknown => ""

/-- `InkMacroKind::crate_name`, `crates/ir/src/attrs.rs:347-366`. -/
def crateName : MacroKind → String
  | .chainExtension | .contract | .event | .scaleDerive | .storageItem | .test
  | .traitDefinition => "ink"
  | .e2eTest => "ink_e2e"
  | .unknown => ""

/-- Every macro kind, in the declaration order of `crates/ir/src/attrs.rs:209-230`
(a listing for exhaustive checks, not a function of the code). -/
def all : List MacroKind :=
  [.chainExtension, .contract, .event, .scaleDerive, .storageItem, .test,
   .traitDefinition, .e2eTest, .unknown]

theorem mem_all (k : MacroKind) : k ∈ all := by cases k <;> decide

end MacroKind

/-- Attribute kinds. Models `InkAttributeKind`, `crates/ir/src/attrs.rs:164-170`. -/
inductive AttrKind where
  | macro (k : MacroKind)
  | arg (k : ArgKind)
  deriving DecidableEq, Repr

namespace AttrKind

/-- `InkAttributeKind::is_unknown`, `crates/ir/src/attrs.rs:199-205`. -/
def isUnknown : AttrKind → Bool
  | .macro .unknown => true
  | .arg .unknown => true
  | _ => false

/-- The rank behind `Ord for InkAttributeKind`, `crates/ir/src/attrs.rs:172-185`: macros
are equal to each other and before every argument, arguments compare by
`ArgKind.sortOrder`. -/
def rank : AttrKind → Nat
  | .macro _ => 0
  | .arg k => 1 + k.sortOrder

/-- Every attribute kind (a listing for exhaustive checks; models the type at
`crates/ir/src/attrs.rs:164-170`). -/
def all : List AttrKind := MacroKind.all.map .macro ++ ArgKind.all.map .arg

theorem mem_all (k : AttrKind) : k ∈ all := by
  cases k with
  | «macro» k => exact List.mem_append_left _ (List.mem_map_of_mem (MacroKind.mem_all k))
  | arg k => exact List.mem_append_right _ (List.mem_map_of_mem (ArgKind.mem_all k))

end AttrKind

/-- `InkArgValueStringKind`, `crates/ir/src/attrs/args.rs:431-440`. -/
inductive StringKind where
  | commaList | default | hex | identifier | spaceList | url
  deriving DecidableEq, Repr

/-- `InkArgValuePathKind`, `crates/ir/src/attrs/args.rs:443-449`. -/
inductive PathKind where
  | default | environment | sandbox
  deriving DecidableEq, Repr

/-- `InkArgValueKind`, `crates/ir/src/attrs/args.rs:414-427`. -/
inductive ValueKind where
  | none
  | u16
  | u32
  | u32OrWildcard
  | u32OrWildcardOrComplement
  | string (k : StringKind)
  | bool
  | path (k : PathKind)
  | arg (k : ArgKind) (required : Bool)
  | choice (k₁ k₂ : ArgKind) (required : Bool)
  deriving DecidableEq, Repr

namespace ValueKind

/-- `InkArgValueKind::from(InkArgKind)`, `crates/ir/src/attrs/args.rs:459-487`. -/
def ofArg : ArgKind → ValueKind
  | .additionalContracts => .string .spaceList
  | .backend => .choice .node .runtimeOnly true
  | .env | .environment => .path .environment
  | .extension => .u32
  | .function => .u16
  | .handleStatus | .derive => .bool
  | .keepAttr => .string .commaList
  | .namespace => .string .identifier
  | .node => .arg .url false
  | .runtimeOnly => .arg .sandbox false
  | .sandbox => .path .sandbox
  | .selector => .u32OrWildcard
  | .signatureTopic => .string .hex
  | .url => .string .url
  | _ => .none

/-- `InkArgValueKind::from_v5`, `crates/ir/src/attrs/args.rs:490-498`. -/
def ofArgV5 (k : ArgKind) (isConstructor : Option Bool) : ValueKind :=
  match k with
  | .extension => .u16
  | .selector =>
    if isConstructor = some true then .u32OrWildcard else .u32OrWildcardOrComplement
  | k => ofArg k

/-- `Display for InkArgValueKind`, `crates/ir/src/attrs/args.rs:501-525`. -/
def display : ValueKind → String
  | .u16 => "u16"
  | .u32 => "u32"
  | .u32OrWildcard => "u32 | _"
  | .u32OrWildcardOrComplement => "u32 | _ | @"
  | .string _ => "&str"
  | .bool => "bool"
  | .path .environment => "impl Environment"
  | .path .sandbox => "impl drink::Sandbox"
  | .path .default => "Path"
  | .arg k true => k.name
  | .choice k₁ k₂ true => k₁.name ++ " | " ++ k₂.name
  | _ => ""

end ValueKind

end Verif.Ir
