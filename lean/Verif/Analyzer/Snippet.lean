import Verif.Analyzer.Text

/-!
# Snippets for generated items

Models the templates of `crates/analyzer/src/codegen/snippets.rs` that are inserted with a
unique name and the functions of `crates/analyzer/src/analysis/text_edit/common.rs` that fill
them in. The template texts are copied literally from the source.
-/

namespace Verif.Analyzer

/-- The scan of `str::replace` (non-overlapping matches, left to right): `skip` characters
belong to a match that has been replaced. Used at
`crates/analyzer/src/analysis/text_edit/common.rs:36-37`. -/
def replaceGo (pat rep : List Char) : Nat → List Char → List Char
  | _, [] => []
  | k + 1, _ :: cs => replaceGo pat rep k cs
  | 0, c :: cs =>
    if pat.isPrefixOf (c :: cs) then rep ++ replaceGo pat rep (pat.length - 1) cs
    else c :: replaceGo pat rep 0 cs

/-- `str::replace` for a non-empty pattern, as used at
`crates/analyzer/src/analysis/text_edit/common.rs:36-37`. -/
def replaceAll (pat rep t : List Char) : List Char := replaceGo pat rep 0 t

/-- `unique_text_and_snippet`, `crates/analyzer/src/analysis/text_edit/common.rs:28-39` (for
one of the two texts). -/
def uniqueText (text preferred : String) (used : List String) : List Char :=
  replaceAll preferred.toList (suggestName preferred used).toList text.toList

/-- `EVENT_PLAIN`, `crates/analyzer/src/codegen/snippets.rs:10-11`. -/
def eventPlain : String :=
  "#[ink(event)]\npub struct Event {}"

/-- `EVENT_SNIPPET`, `crates/analyzer/src/codegen/snippets.rs:12-15`. -/
def eventSnippet : String :=
  "#[ink(event)]\npub struct ${1:Event} {\n    $2\n}"

/-- `EVENT_PLAIN_V2`, `crates/analyzer/src/codegen/snippets.rs:17-18`. -/
def eventPlainV2 : String :=
  "#[ink::event]\npub struct Event {}"

/-- `EVENT_SNIPPET_V2`, `crates/analyzer/src/codegen/snippets.rs:19-22`. -/
def eventSnippetV2 : String :=
  "#[ink::event]\npub struct ${1:Event} {\n    $2\n}"

/-- `TOPIC_PLAIN`, `crates/analyzer/src/codegen/snippets.rs:24-25`. -/
def topicPlain : String :=
  "#[ink(topic)]\nmy_topic: bool,"

/-- `TOPIC_SNIPPET`, `crates/analyzer/src/codegen/snippets.rs:26-27`. -/
def topicSnippet : String :=
  "#[ink(topic)]\n${1:my_topic}: ${2:bool},"

/-- `CONSTRUCTOR_PLAIN`, `crates/analyzer/src/codegen/snippets.rs:29-32`. -/
def constructorPlain : String :=
  "#[ink(constructor)]\npub fn new() -> Self {\n    todo!()\n}"

/-- `CONSTRUCTOR_SNIPPET`, `crates/analyzer/src/codegen/snippets.rs:33-36`. -/
def constructorSnippet : String :=
  "#[ink(constructor)]\npub fn ${1:new}() -> ${2:Self} {\n    ${3:todo!()}\n}"

/-- `MESSAGE_PLAIN`, `crates/analyzer/src/codegen/snippets.rs:38-41`. -/
def messagePlain : String :=
  "#[ink(message)]\npub fn my_message(&self) {\n    todo!()\n}"

/-- `MESSAGE_SNIPPET`, `crates/analyzer/src/codegen/snippets.rs:42-45`. -/
def messageSnippet : String :=
  "#[ink(message)]\npub fn ${1:my_message}(&${2:self}) {\n    ${3:todo!()}\n}"

/-- `TRAIT_MESSAGE_PLAIN`, `crates/analyzer/src/codegen/snippets.rs:47-48`. -/
def traitMessagePlain : String :=
  "#[ink(message)]\nfn my_message(&self);"

/-- `TRAIT_MESSAGE_SNIPPET`, `crates/analyzer/src/codegen/snippets.rs:49-50`. -/
def traitMessageSnippet : String :=
  "#[ink(message)]\nfn ${1:my_message}(&${2:self});"

/-- `EXTENSION_FN_PLAIN`, `crates/analyzer/src/codegen/snippets.rs:55-56`. -/
def extensionFnPlain : String :=
  "#[ink(extension = 1)]\nfn my_extension();"

/-- `EXTENSION_FN_SNIPPET`, `crates/analyzer/src/codegen/snippets.rs:57-58`. -/
def extensionFnSnippet : String :=
  "#[ink(extension = ${1:1})]\nfn ${2:my_extension}();"

/-- `EXTENSION_FN_PLAIN_V5`, `crates/analyzer/src/codegen/snippets.rs:60-61`. -/
def extensionFnPlainV5 : String :=
  "#[ink(function = 1)]\nfn my_function();"

/-- `EXTENSION_FN_SNIPPET_V5`, `crates/analyzer/src/codegen/snippets.rs:62-63`. -/
def extensionFnSnippetV5 : String :=
  "#[ink(function = ${1:1})]\nfn ${2:my_function}();"

/-- `INK_TEST_PLAIN`, `crates/analyzer/src/codegen/snippets.rs:65-68`. -/
def inkTestPlain : String :=
  "#[ink::test]\nfn it_works() {\n    todo!()\n}"

/-- `INK_TEST_SNIPPET`, `crates/analyzer/src/codegen/snippets.rs:69-72`. -/
def inkTestSnippet : String :=
  "#[ink::test]\nfn ${1:it_works}() {\n    ${2:todo!()}\n}"

/-- `INK_E2E_TEST_PLAIN`, `crates/analyzer/src/codegen/snippets.rs:74-79`. -/
def inkE2eTestPlain : String :=
  "#[ink_e2e::test]\nasync fn it_works(mut client: ink_e2e::Client<C, E>) -> std::result::Result<(), Box<dyn std::error::Error>> {\n    todo!();\n\n    Ok(())\n}"

/-- `INK_E2E_TEST_SNIPPET`, `crates/analyzer/src/codegen/snippets.rs:80-85`. -/
def inkE2eTestSnippet : String :=
  "#[ink_e2e::test]\nasync fn ${1:it_works}(${2:mut client: ink_e2e::Client<C, E>}) -> ${3:std::result::Result<(), Box<dyn std::error::Error>>} {\n    ${4:todo!();}\n\n    Ok(())\n}"

/-- `INK_E2E_TEST_PLAIN_V5`, `crates/analyzer/src/codegen/snippets.rs:87-92`. -/
def inkE2eTestPlainV5 : String :=
  "#[ink_e2e::test]\nasync fn it_works<Client: E2EBackend>(mut client: Client) -> std::result::Result<(), Box<dyn std::error::Error>> {\n    todo!();\n\n    Ok(())\n}"

/-- `INK_E2E_TEST_SNIPPET_V5`, `crates/analyzer/src/codegen/snippets.rs:93-98`. -/
def inkE2eTestSnippetV5 : String :=
  "#[ink_e2e::test]\nasync fn ${1:it_works}<${2:Client: E2EBackend}>(${3:mut client: Client}) -> ${4:std::result::Result<(), Box<dyn std::error::Error>>} {\n    ${5:todo!();}\n\n    Ok(())\n}"

/-- The templates filled in with a unique name and the name they prefer, at
`crates/analyzer/src/analysis/text_edit/common.rs:124,144,181,214,231,262,318-330,435,457`. -/
def namedTemplates : List (String × String) :=
  [(eventPlain, "Event"),
   (eventSnippet, "Event"),
   (eventPlainV2, "Event"),
   (eventSnippetV2, "Event"),
   (topicPlain, "my_topic"),
   (topicSnippet, "my_topic"),
   (constructorPlain, "new"),
   (constructorSnippet, "new"),
   (messagePlain, "my_message"),
   (messageSnippet, "my_message"),
   (traitMessagePlain, "my_message"),
   (traitMessageSnippet, "my_message"),
   (extensionFnPlain, "my_extension"),
   (extensionFnSnippet, "my_extension"),
   (extensionFnPlainV5, "my_function"),
   (extensionFnSnippetV5, "my_function"),
   (inkTestPlain, "it_works"),
   (inkTestSnippet, "it_works"),
   (inkE2eTestPlain, "it_works"),
   (inkE2eTestSnippet, "it_works"),
   (inkE2eTestPlainV5, "it_works"),
   (inkE2eTestSnippetV5, "it_works")]

/-- The names `add_extension` considers taken,
`crates/analyzer/src/analysis/text_edit/common.rs:310-315`: those of the `extensions` only, in
both versions (`functions` are the ink! 5 counterpart, `crates/ir/src/chain_extension.rs:15-18`). -/
def takenExtensionNames (extensions _functions : List (String × Nat)) : List String :=
  extensions.map (·.1)

/-- The name and id of the function that `add_extension` inserts,
`crates/analyzer/src/analysis/text_edit/common.rs:302-341`. Functions are given by name and
id. Ids in this function are `u32` (`Extension::id`). -/
def addExtension (v : Version) (extensions functions : List (String × Nat)) : String × Nat :=
  (suggestName (match v with | .v5 => "my_function" | .v4 => "my_extension")
      (takenExtensionNames extensions functions),
    (suggestId 4294967295 none (extensions.map (·.2))).getD 1)

end Verif.Analyzer
