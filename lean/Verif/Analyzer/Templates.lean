import Verif.Analyzer.Snippet
import Verif.Analyzer.Project
import Verif.Util.Chars

/-!
# Texts inserted for ink! entities

Models the remaining templates of `crates/analyzer/src/codegen/snippets.rs` and the functions
of `crates/analyzer/src/analysis/text_edit/common.rs` that put names, ids and paths into them.
The template texts are copied literally from the source.
-/

namespace Verif.Analyzer

set_option maxRecDepth 10000

/-- `STORAGE_PLAIN`, `crates/analyzer/src/codegen/snippets.rs:3-4`. -/
def storagePlain : List Char :=
  chars! "#[ink(storage)]\npub struct Storage {}"

/-- `STORAGE_SNIPPET`, `crates/analyzer/src/codegen/snippets.rs:5-8`. -/
def storageSnippet : List Char :=
  chars! "#[ink(storage)]\npub struct ${1:Storage} {\n    $2\n}"

/-- `ERROR_CODE_PLAIN`, `crates/analyzer/src/codegen/snippets.rs:52`. -/
def errorCodePlain : List Char :=
  chars! "type ErrorCode = ();"

/-- `ERROR_CODE_SNIPPET`, `crates/analyzer/src/codegen/snippets.rs:53`. -/
def errorCodeSnippet : List Char :=
  chars! "type ErrorCode = ${1:()};"

/-- `TRAIT_DEFINITION_PLAIN`, `crates/analyzer/src/codegen/snippets.rs:278-282`. -/
def traitDefinitionPlain : List Char :=
  chars! "#[ink::trait_definition]\npub trait TraitDefinition {\n    \
  #[ink(message)]\n    fn my_message(&self);\n}"

/-- `TRAIT_DEFINITION_SNIPPET`, `crates/analyzer/src/codegen/snippets.rs:283-287`. -/
def traitDefinitionSnippet : List Char :=
  chars! "#[ink::trait_definition]\npub trait ${1:TraitDefinition} {\n    \
  #[ink(message)]\n    fn ${2:my_message}(&${3:self});\n}"

/-- `CHAIN_EXTENSION_PLAIN`, `crates/analyzer/src/codegen/snippets.rs:289-310`. -/
def chainExtensionPlain : List Char :=
  chars! "#[ink::chain_extension]\npub trait ChainExtension {\n    \
  type ErrorCode = CustomErrorCode;\n\n    #[ink(extension = 1)]\n    \
  fn my_extension();\n}\n\n\
  #[derive(scale::Encode, scale::Decode, scale_info::TypeInfo)]\n\
  pub enum CustomErrorCode {\n  CustomError,\n}\n\n\
  impl ink::env::chain_extension::FromStatusCode for CustomErrorCode {\n  \
  fn from_status_code(status_code: u32) -> Result<(), Self> {\n    \
  match status_code {\n      0 => Ok(()),\n      \
  1 => Err(Self::CustomError),\n      \
  _ => panic!(\"encountered unknown status code\"),\n    }\n  }\n}"

/-- `CHAIN_EXTENSION_SNIPPET`, `crates/analyzer/src/codegen/snippets.rs:311-332`. -/
def chainExtensionSnippet : List Char :=
  chars! "#[ink::chain_extension]\npub trait ${1:ChainExtension} {\n    \
  type ErrorCode = ${2:CustomErrorCode};\n\n    #[ink(extension = ${3:1})]\n    \
  fn ${4:my_extension}();\n}\n\n\
  #[derive(scale::Encode, scale::Decode, scale_info::TypeInfo)]\n\
  pub enum ${2:CustomErrorCode} {\n  ${5:CustomError},\n}\n\n\
  impl ink::env::chain_extension::FromStatusCode for ${2:CustomErrorCode} {\n  \
  fn from_status_code(${6:status_code}: u32) -> Result<(), Self> {\n    \
  match ${6:status_code} {\n      0 => Ok(()),\n      \
  1 => Err(Self::${5:CustomError}),\n      \
  _ => panic!(\"encountered unknown status code\"),\n    }\n  }\n}"

/-- `CHAIN_EXTENSION_PLAIN_V5`, `crates/analyzer/src/codegen/snippets.rs:334-355`. -/
def chainExtensionPlainV5 : List Char :=
  chars! "#[ink::chain_extension(extension = 1)]\npub trait ChainExtension {\n    \
  type ErrorCode = CustomErrorCode;\n\n    #[ink(function = 1)]\n    \
  fn my_function();\n}\n\n#[ink::scale_derive(Encode, Decode, TypeInfo)]\n\
  pub enum CustomErrorCode {\n  CustomError,\n}\n\n\
  impl ink::env::chain_extension::FromStatusCode for CustomErrorCode {\n  \
  fn from_status_code(status_code: u32) -> Result<(), Self> {\n    \
  match status_code {\n      0 => Ok(()),\n      \
  1 => Err(Self::CustomError),\n      \
  _ => panic!(\"encountered unknown status code\"),\n    }\n  }\n}"

/-- `CHAIN_EXTENSION_SNIPPET_V5`, `crates/analyzer/src/codegen/snippets.rs:356-377`. -/
def chainExtensionSnippetV5 : List Char :=
  chars! "#[ink::chain_extension(extension = ${1:1})]\n\
  pub trait ${2:ChainExtension} {\n    type ErrorCode = ${3:CustomErrorCode};\n\
  \n    #[ink(function = ${4:1})]\n    fn ${5:my_function}();\n}\n\n\
  #[ink::scale_derive(Encode, Decode, TypeInfo)]\n\
  pub enum ${3:CustomErrorCode} {\n  ${6:CustomError},\n}\n\n\
  impl ink::env::chain_extension::FromStatusCode for ${3:CustomErrorCode} {\n  \
  fn from_status_code(${7:status_code}: u32) -> Result<(), Self> {\n    \
  match ${7:status_code} {\n      0 => Ok(()),\n      \
  1 => Err(Self::${6:CustomError}),\n      \
  _ => panic!(\"encountered unknown status code\"),\n    }\n  }\n}"

/-- `COMBINE_EXTENSIONS_PLAIN`, `crates/analyzer/src/codegen/snippets.rs:379-384`. -/
def combineExtensionsPlain : List Char :=
  chars! "ink::combine_extensions! {\n    pub struct CombinedChainExtension {\n        \
  pub ext1: Extension1,\n        pub ext2: Extension2,\n    }\n}"

/-- `COMBINE_EXTENSIONS_SNIPPET`, `crates/analyzer/src/codegen/snippets.rs:385-390`. -/
def combineExtensionsSnippet : List Char :=
  chars! "ink::combine_extensions! {\n    \
  pub struct ${1:CombinedChainExtension} {\n        \
  pub ${2:ext1}: ${3:Extension1},\n        pub ${4:ext2}: ${5:Extension2},\n    \
  }\n}"

/-- `STORAGE_ITEM_PLAIN`, `crates/analyzer/src/codegen/snippets.rs:392-393`. -/
def storageItemPlain : List Char :=
  chars! "#[ink::storage_item]\npub struct StorageItem {}"

/-- `STORAGE_ITEM_SNIPPET`, `crates/analyzer/src/codegen/snippets.rs:394-397`. -/
def storageItemSnippet : List Char :=
  chars! "#[ink::storage_item]\npub ${1:struct} ${2:StorageItem} {\n    $3\n}"

/-- `ENVIRONMENT_PLAIN`, `crates/analyzer/src/codegen/snippets.rs:399-412`. -/
def environmentPlain : List Char :=
  chars! "#[derive(Debug, Clone, PartialEq, Eq)]\n\
  #[cfg_attr(feature = \"std\", derive(scale_info::TypeInfo))]\n\
  pub enum MyEnvironment {}\n\n\
  impl ink::env::Environment for MyEnvironment {\n    \
  const MAX_EVENT_TOPICS: usize = 4;\n\n    \
  type AccountId = ::ink::primitives::AccountId;\n    type Balance = u128;\n    \
  type Hash = ::ink::primitives::Hash;\n    type Timestamp = u64;\n    \
  type BlockNumber = u32;\n    \
  type ChainExtension = ::ink::env::NoChainExtension;\n}"

/-- `ENVIRONMENT_SNIPPET`, `crates/analyzer/src/codegen/snippets.rs:414-429`. -/
def environmentSnippet : List Char :=
  chars! "#[derive(Debug, Clone, PartialEq, Eq)]\n\
  #[cfg_attr(feature = \"std\", derive(scale_info::TypeInfo))]\n\
  pub ${1:enum} ${2:MyEnvironment} {\n    $3\n}\n\n\
  impl ink::env::Environment for ${4:MyEnvironment} {\n    \
  const MAX_EVENT_TOPICS: usize = ${5:4};\n\n    \
  type AccountId = ${6:::ink::primitives::AccountId};\n    \
  type Balance = ${7:u128};\n    type Hash = ${8:::ink::primitives::Hash};\n    \
  type Timestamp = ${9:u64};\n    type BlockNumber = ${10:u32};\n    \
  type ChainExtension = ${11:::ink::env::NoChainExtension};\n}"

/-- `ENVIRONMENT_PLAIN_V5`, `crates/analyzer/src/codegen/snippets.rs:431-444`. -/
def environmentPlainV5 : List Char :=
  chars! "#[derive(Debug, Clone, PartialEq, Eq)]\n#[ink::scale_derive(TypeInfo)]\n\
  pub enum MyEnvironment {}\n\n\
  impl ink::env::Environment for MyEnvironment {\n    \
  const MAX_EVENT_TOPICS: usize = 4;\n\n    \
  type AccountId = ::ink::primitives::AccountId;\n    type Balance = u128;\n    \
  type Hash = ::ink::primitives::Hash;\n    type Timestamp = u64;\n    \
  type BlockNumber = u32;\n    \
  type ChainExtension = ::ink::env::NoChainExtension;\n}"

/-- `ENVIRONMENT_SNIPPET_V5`, `crates/analyzer/src/codegen/snippets.rs:446-461`. -/
def environmentSnippetV5 : List Char :=
  chars! "#[derive(Debug, Clone, PartialEq, Eq)]\n#[ink::scale_derive(TypeInfo)]\n\
  pub ${1:enum} ${2:MyEnvironment} {\n    $3\n}\n\n\
  impl ink::env::Environment for ${4:MyEnvironment} {\n    \
  const MAX_EVENT_TOPICS: usize = ${5:4};\n\n    \
  type AccountId = ${6:::ink::primitives::AccountId};\n    \
  type Balance = ${7:u128};\n    type Hash = ${8:::ink::primitives::Hash};\n    \
  type Timestamp = ${9:u64};\n    type BlockNumber = ${10:u32};\n    \
  type ChainExtension = ${11:::ink::env::NoChainExtension};\n}"

/-- `ENVIRONMENT_IMPL_PLAIN`, `crates/analyzer/src/codegen/snippets.rs:463-472`. -/
def environmentImplPlain : List Char :=
  chars! "impl ink::env::Environment for MyEnvironment {\n    \
  const MAX_EVENT_TOPICS: usize = 4;\n\n    \
  type AccountId = ::ink::primitives::AccountId;\n    type Balance = u128;\n    \
  type Hash = ::ink::primitives::Hash;\n    type Timestamp = u64;\n    \
  type BlockNumber = u32;\n    \
  type ChainExtension = ::ink::env::NoChainExtension;\n}"

/-- `ENVIRONMENT_IMPL_SNIPPET`, `crates/analyzer/src/codegen/snippets.rs:474-483`. -/
def environmentImplSnippet : List Char :=
  chars! "impl ink::env::Environment for ${1:MyEnvironment} {\n    \
  const MAX_EVENT_TOPICS: usize = ${2:4};\n\n    \
  type AccountId = ${3:::ink::primitives::AccountId};\n    \
  type Balance = ${4:u128};\n    type Hash = ${5:::ink::primitives::Hash};\n    \
  type Timestamp = ${6:u64};\n    type BlockNumber = ${7:u32};\n    \
  type ChainExtension = ${8:::ink::env::NoChainExtension};\n}"

/-- `FROM_STATUS_CODE_IMPL_PLAIN`, `crates/analyzer/src/codegen/snippets.rs:485-489`. -/
def fromStatusCodeImplPlain : List Char :=
  chars! "impl ink::env::chain_extension::FromStatusCode for MyErrorCode {\n    \
  fn from_status_code(status_code: u32) -> Result<(), Self> {\n        \
  todo!()\n    }\n}"

/-- `FROM_STATUS_CODE_IMPL_SNIPPET`, `crates/analyzer/src/codegen/snippets.rs:491-495`. -/
def fromStatusCodeImplSnippet : List Char :=
  chars! "impl ink::env::chain_extension::FromStatusCode for MyErrorCode {\n    \
  fn from_status_code(status_code: u32) -> Result<(), Self> {\n        \
  ${1:todo!()}\n    }\n}"

/-- A plain text and the snippet offered to editors that support snippets: the two texts of a
`TextEdit`, `crates/analyzer/src/analysis/text_edit.rs:13-21`. -/
structure Insertion where
  plain : List Char
  snippet : List Char
  deriving DecidableEq

/-- `text_edit_with_indent`, `crates/analyzer/src/analysis/text_edit/common.rs:42-59` (without
the range; the snippet is always given by the functions below). -/
def Insertion.withIndent (t : Insertion) (indent : Option (List Char)) : Insertion :=
  match indent with
  | some i => ⟨applyIndenting t.plain i, applyIndenting t.snippet i⟩
  | none => t

/-- `unique_text_and_snippet`, `crates/analyzer/src/analysis/text_edit/common.rs:28-39`. -/
def uniqueInsertion (text snippet preferred : String) (used : List String) : Insertion :=
  ⟨uniqueText text preferred used, uniqueText snippet preferred used⟩

/-- `add_contract`, `crates/analyzer/src/analysis/text_edit/common.rs:76-91`. -/
def contractInsertion : Version → Insertion
  | .v5 => ⟨contractPlainV5, contractSnippetV5⟩
  | .v4 => ⟨contractPlain, contractSnippet⟩

/-- `add_storage`, `crates/analyzer/src/analysis/text_edit/common.rs:94-119`; the argument is
the result of `utils::resolve_contract_name`. -/
def storageInsertion : Option (List Char) → Insertion
  | some name =>
    ⟨replaceAll (chars! "Storage") name storagePlain,
      replaceAll (chars! "Storage") name storageSnippet⟩
  | none => ⟨storagePlain, storageSnippet⟩

/-- `add_event_v1`, `crates/analyzer/src/analysis/text_edit/common.rs:122-134`. -/
def eventInsertion (used : List String) : Insertion :=
  uniqueInsertion eventPlain eventSnippet "Event" used

/-- `add_event_v2`, `crates/analyzer/src/analysis/text_edit/common.rs:137-151`; the argument is
absent if no module is given. -/
def eventInsertionV2 : Option (List String) → Insertion
  | some used => uniqueInsertion eventPlainV2 eventSnippetV2 "Event" used
  | none => ⟨eventPlainV2.toList, eventSnippetV2.toList⟩

/-- The texts of `add_topic`, `crates/analyzer/src/analysis/text_edit/common.rs:175` (without
the affixes that depend on the position). -/
def topicInsertion (used : List String) : Insertion :=
  uniqueInsertion topicPlain topicSnippet "my_topic" used

/-- `add_constructor_to_impl`, `crates/analyzer/src/analysis/text_edit/common.rs:210-222`, and
`add_constructor_to_contract`, `crates/analyzer/src/analysis/actions/entity.rs:202-219`. -/
def constructorInsertion (used : List String) : Insertion :=
  uniqueInsertion constructorPlain constructorSnippet "new" used

/-- `add_message_to_impl`, `crates/analyzer/src/analysis/text_edit/common.rs:225-237`, and
`add_message_to_contract`, `crates/analyzer/src/analysis/actions/entity.rs:223-240`. -/
def messageInsertion (used : List String) : Insertion :=
  uniqueInsertion messagePlain messageSnippet "my_message" used

/-- The texts of `add_message_selector_to_contract`,
`crates/analyzer/src/analysis/actions/entity.rs:244-265`. -/
def messageSelectorInsertion (selector : List Char) (fnName : String) (used : List String) :
    Insertion :=
  let t := uniqueInsertion messagePlain messageSnippet fnName used
  let attr := chars! "#[ink(message, selector = " ++ selector ++ chars! ")]"
  ⟨replaceAll (chars! "#[ink(message)]") attr t.plain,
    replaceAll (chars! "#[ink(message)]") attr t.snippet⟩

/-- The message that complements a wildcard selector,
`crates/analyzer/src/analysis/diagnostics/contract.rs:467-475`. -/
def handlerInsertion (used : List String) : Insertion :=
  messageSelectorInsertion (chars! "@") "handler" used

/-- `add_trait_def`, `crates/analyzer/src/analysis/text_edit/common.rs:240-247`. -/
def traitDefInsertion : Insertion := ⟨traitDefinitionPlain, traitDefinitionSnippet⟩

/-- `add_message_to_trait_def`, `crates/analyzer/src/analysis/text_edit/common.rs:250-271`. -/
def traitMessageInsertion (used : List String) : Insertion :=
  uniqueInsertion traitMessagePlain traitMessageSnippet "my_message" used

/-- `add_chain_extension`, `crates/analyzer/src/analysis/text_edit/common.rs:274-289`. -/
def chainExtensionInsertion : Version → Insertion
  | .v5 => ⟨chainExtensionPlainV5, chainExtensionSnippetV5⟩
  | .v4 => ⟨chainExtensionPlain, chainExtensionSnippet⟩

/-- `add_error_code_type`, `crates/analyzer/src/analysis/text_edit/common.rs:292-301`. -/
def errorCodeInsertion : Insertion := ⟨errorCodePlain, errorCodeSnippet⟩

/-- The texts of `add_extension` for the suggested name and id,
`crates/analyzer/src/analysis/text_edit/common.rs:316-341`. -/
def extensionTexts (v : Version) (name : List Char) (id : Nat) : Insertion :=
  let t : Insertion := match v with
    | .v5 => ⟨replaceAll (chars! "my_function") name extensionFnPlainV5.toList,
        replaceAll (chars! "my_function") name extensionFnSnippetV5.toList⟩
    | .v4 => ⟨replaceAll (chars! "my_extension") name extensionFnPlain.toList,
        replaceAll (chars! "my_extension") name extensionFnSnippet.toList⟩
  if id > 1 then
    ⟨replaceAll (chars! "1)]") (id.repr.toList ++ chars! ")]") t.plain,
      replaceAll (chars! "1})]") (id.repr.toList ++ chars! "})]") t.snippet⟩
  else t

/-- `add_extension`, `crates/analyzer/src/analysis/text_edit/common.rs:304-347`. -/
def extensionInsertion (v : Version) (extensions functions : List (String × Nat)) : Insertion :=
  extensionTexts v (addExtension v extensions functions).1.toList
    (addExtension v extensions functions).2

/-- The fields of `add_combine_extensions` from the index on,
`crates/analyzer/src/analysis/text_edit/common.rs:367-376`. -/
def combineFields : Nat → List (List Char) → List (List Char × List Char)
  | _, [] => []
  | idx, path :: paths =>
    (chars! "        pub ext" ++ (idx + 1).repr.toList ++ chars! ": " ++ path ++ chars! ",",
      chars! "        pub ${" ++ (1 + idx * 2 + 1).repr.toList ++ chars! ":ext" ++
        (idx + 1).repr.toList ++ chars! "}: ${" ++ (1 + idx * 2 + 1 + 1).repr.toList ++
        chars! ":" ++ path ++ chars! "},") :: combineFields (idx + 1) paths

/-- `[String]::join("\n")`, used at `crates/analyzer/src/analysis/text_edit/common.rs:386,394`. -/
def joinLf : List (List Char) → List Char
  | [] => []
  | [l] => l
  | l :: ls => l ++ chars! "\n" ++ joinLf ls

/-- `add_combine_extensions`, `crates/analyzer/src/analysis/text_edit/common.rs:351-408`; the
argument lists the paths of the chain extensions of the file (`resolution::item_path`), it is
empty if there is no file. -/
def combineInsertion (paths : List (List Char)) : Insertion :=
  let fields := combineFields 0 paths
  if fields.isEmpty then ⟨combineExtensionsPlain, combineExtensionsSnippet⟩
  else
    ⟨replaceAll
        (if fields.length > 1 then
          chars! "        pub ext1: Extension1,\n        pub ext2: Extension2,"
        else chars! "        pub ext1: Extension1,")
        (joinLf (fields.map (·.1))) combineExtensionsPlain,
      replaceAll
        (if fields.length > 1 then
          chars! "        pub ${2:ext1}: ${3:Extension1},\n        pub ${4:ext2}: ${5:Extension2},"
        else chars! "        pub ${2:ext1}: ${3:Extension1},")
        (joinLf (fields.map (·.2))) combineExtensionsSnippet⟩

/-- `add_storage_item`, `crates/analyzer/src/analysis/text_edit/common.rs:411-418`. -/
def storageItemInsertion : Insertion := ⟨storageItemPlain, storageItemSnippet⟩

/-- `add_environment`, `crates/analyzer/src/analysis/text_edit/common.rs:421-436`. -/
def environmentInsertion : Version → Insertion
  | .v5 => ⟨environmentPlainV5, environmentSnippetV5⟩
  | .v4 => ⟨environmentPlain, environmentSnippet⟩

/-- The implementation offered for an environment type,
`crates/analyzer/src/analysis/diagnostics/environment.rs:111-112`. -/
def environmentImplInsertion (name : List Char) : Insertion :=
  ⟨replaceAll (chars! "MyEnvironment") name environmentImplPlain,
    replaceAll (chars! "MyEnvironment") name environmentImplSnippet⟩

/-- The implementation offered for an error code type,
`crates/analyzer/src/analysis/diagnostics/chain_extension/error_code.rs:107-108`. -/
def statusCodeImplInsertion (name : List Char) : Insertion :=
  ⟨replaceAll (chars! "MyErrorCode") name fromStatusCodeImplPlain,
    replaceAll (chars! "MyErrorCode") name fromStatusCodeImplSnippet⟩

/-- `add_test`, `crates/analyzer/src/analysis/text_edit/common.rs:439-451`. -/
def testInsertion (used : List String) : Insertion :=
  uniqueInsertion inkTestPlain inkTestSnippet "it_works" used

/-- `add_e2e_test`, `crates/analyzer/src/analysis/text_edit/common.rs:454-478`. -/
def e2eTestInsertion (v : Version) (used : List String) : Insertion :=
  uniqueInsertion (match v with | .v5 => inkE2eTestPlainV5 | .v4 => inkE2eTestPlain)
    (match v with | .v5 => inkE2eTestSnippetV5 | .v4 => inkE2eTestSnippet) "it_works" used

end Verif.Analyzer
