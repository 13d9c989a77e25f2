import Verif.Analyzer.Snippet
import Verif.Util.Chars

/-!
# New projects

Models `new_project` (`crates/analyzer/src/codegen.rs:46-106`), `pascal_case`
(`crates/analyzer/src/utils.rs:6-20`) and the project templates of
`crates/analyzer/src/codegen/snippets.rs`.
-/

namespace Verif.Analyzer

/-- `CONTRACT_PLAIN`, `crates/analyzer/src/codegen/snippets.rs:100-142`. -/
def contractPlain : List Char :=
  chars! "#![cfg_attr(not(feature = \"std\"), no_std)]\n\n#[ink::contract]\n\
  pub mod my_contract {\n    #[ink(storage)]\n    \
  pub struct MyContract {}\n\n    impl MyContract {\n        \
  #[ink(constructor)]\n        pub fn new() -> Self {\n            \
  todo!()\n        }\n\n        #[ink(message)]\n        \
  pub fn my_message(&self) {\n            todo!()\n        }\n    \
  }\n\n    #[cfg(test)]\n    mod tests {\n        use super::*;\n\n        \
  #[ink::test]\n        fn it_works() {\n            todo!()\n        \
  }\n    }\n\n    #[cfg(all(test, feature = \"e2e-tests\"))]\n    \
  mod e2e_tests {\n        use super::*;\n\n        \
  type E2EResult<T> = std::result::Result<T, Box<dyn std::error::Error>>;\n\
  \n        #[ink_e2e::test]\n        \
  async fn it_works(mut client: ink_e2e::Client<C, E>) -> E2EResult<()> {\n            \
  todo!();\n\n            Ok(())\n        }\n    }\n}"

/-- `CONTRACT_SNIPPET`, `crates/analyzer/src/codegen/snippets.rs:143-187`. -/
def contractSnippet : List Char :=
  chars! "#![cfg_attr(not(feature = \"std\"), no_std)]\n\n#[ink::contract]\n\
  pub mod ${1:my_contract} {\n    #[ink(storage)]\n    \
  pub struct ${2:MyContract} {\n        $3\n    }\n\n    \
  impl ${2:MyContract} {\n        #[ink(constructor)]\n        \
  pub fn ${4:new}() -> ${5:Self} {\n            ${6:todo!()}\n        \
  }\n\n        #[ink(message)]\n        \
  pub fn ${7:my_message}(&${8:self}) {\n            ${9:todo!()}\n        \
  }\n    }\n\n    #[cfg(test)]\n    mod tests {\n        \
  use super::*;\n\n        #[ink::test]\n        \
  fn ${10:it_works}() {\n            ${11:todo!()}\n        }\n    \
  }\n\n    #[cfg(all(test, feature = \"e2e-tests\"))]\n    \
  mod e2e_tests {\n        use super::*;\n\n        \
  type E2EResult<T> = std::result::Result<T, Box<dyn std::error::Error>>;\n\
  \n        #[ink_e2e::test]\n        \
  async fn ${12:it_works}(${13:mut client: ink_e2e::Client<C, E>}) -> ${14:E2EResult<()>} {\n            \
  ${15:todo!();}\n\n            Ok(())\n        }\n    }\n}"

/-- `CONTRACT_PLAIN_V5`, `crates/analyzer/src/codegen/snippets.rs:189-231`. -/
def contractPlainV5 : List Char :=
  chars! "#![cfg_attr(not(feature = \"std\"), no_std)]\n\n#[ink::contract]\n\
  pub mod my_contract {\n    #[ink(storage)]\n    \
  pub struct MyContract {}\n\n    impl MyContract {\n        \
  #[ink(constructor)]\n        pub fn new() -> Self {\n            \
  todo!()\n        }\n\n        #[ink(message)]\n        \
  pub fn my_message(&self) {\n            todo!()\n        }\n    \
  }\n\n    #[cfg(test)]\n    mod tests {\n        use super::*;\n\n        \
  #[ink::test]\n        fn it_works() {\n            todo!()\n        \
  }\n    }\n\n    #[cfg(all(test, feature = \"e2e-tests\"))]\n    \
  mod e2e_tests {\n        use super::*;\n\n        \
  type E2EResult<T> = std::result::Result<T, Box<dyn std::error::Error>>;\n\
  \n        #[ink_e2e::test]\n        \
  async fn it_works<Client: E2EBackend>(mut client: Client) -> E2EResult<()> {\n            \
  todo!();\n\n            Ok(())\n        }\n    }\n}"

/-- `CONTRACT_SNIPPET_V5`, `crates/analyzer/src/codegen/snippets.rs:232-276`. -/
def contractSnippetV5 : List Char :=
  chars! "#![cfg_attr(not(feature = \"std\"), no_std)]\n\n#[ink::contract]\n\
  pub mod ${1:my_contract} {\n    #[ink(storage)]\n    \
  pub struct ${2:MyContract} {\n        $3\n    }\n\n    \
  impl ${2:MyContract} {\n        #[ink(constructor)]\n        \
  pub fn ${4:new}() -> ${5:Self} {\n            ${6:todo!()}\n        \
  }\n\n        #[ink(message)]\n        \
  pub fn ${7:my_message}(&${8:self}) {\n            ${9:todo!()}\n        \
  }\n    }\n\n    #[cfg(test)]\n    mod tests {\n        \
  use super::*;\n\n        #[ink::test]\n        \
  fn ${10:it_works}() {\n            ${11:todo!()}\n        }\n    \
  }\n\n    #[cfg(all(test, feature = \"e2e-tests\"))]\n    \
  mod e2e_tests {\n        use super::*;\n\n        \
  type E2EResult<T> = std::result::Result<T, Box<dyn std::error::Error>>;\n\
  \n        #[ink_e2e::test]\n        \
  async fn ${12:it_works}<${13:Client: E2EBackend}>(${14:mut client: Client}) -> ${15:E2EResult<()>} {\n            \
  ${16:todo!();}\n\n            Ok(())\n        }\n    }\n}"

/-- `CARGO_TOML_PLAIN`, `crates/analyzer/src/codegen/snippets.rs:497-523`. -/
def cargoPlain : List Char :=
  chars! "[package]\nname = \"my_contract\"\nversion = \"0.1.0\"\n\
  authors = [\"[your_name] <[your_email]>\"]\nedition = \"2021\"\n\n\
  [dependencies]\nink = { version = \"4.3.0\", default-features = false }\n\n\
  scale = { package = \"parity-scale-codec\", version = \"3\", default-features = false, features = [\"derive\"] }\n\
  scale-info = { version = \"2.6\", default-features = false, features = [\"derive\"], optional = true }\n\
  \n[dev-dependencies]\nink_e2e = \"4.3.0\"\n\n[lib]\npath = \"lib.rs\"\n\n\
  [features]\ndefault = [\"std\"]\nstd = [\n    \"ink/std\",\n    \"scale/std\",\n    \
  \"scale-info/std\",\n]\nink-as-dependency = []\ne2e-tests = []"

/-- `CARGO_TOML_SNIPPET`, `crates/analyzer/src/codegen/snippets.rs:524-550`. -/
def cargoSnippet : List Char :=
  chars! "[package]\nname = \"${1:my_contract}\"\nversion = \"0.1.0\"\n\
  authors = [\"${2:[your_name]} <${3:[your_email]}>\"]\nedition = \"2021\"\n\n\
  [dependencies]\nink = { version = \"4.3.0\", default-features = false }\n\n\
  scale = { package = \"parity-scale-codec\", version = \"3\", default-features = false, features = [\"derive\"] }\n\
  scale-info = { version = \"2.6\", default-features = false, features = [\"derive\"], optional = true }\n\
  \n[dev-dependencies]\nink_e2e = \"4.3.0\"\n\n[lib]\npath = \"lib.rs\"\n\n\
  [features]\ndefault = [\"std\"]\nstd = [\n    \"ink/std\",\n    \"scale/std\",\n    \
  \"scale-info/std\",\n]\nink-as-dependency = []\ne2e-tests = []"

/-- `CARGO_TOML_PLAIN_V5`, `crates/analyzer/src/codegen/snippets.rs:552-573`. -/
def cargoPlainV5 : List Char :=
  chars! "[package]\nname = \"my_contract\"\nversion = \"0.1.0\"\n\
  authors = [\"[your_name] <[your_email]>\"]\nedition = \"2021\"\n\n\
  [dependencies]\nink = { version = \"5.0.0\", default-features = false }\n\n\
  [dev-dependencies]\nink_e2e = { version = \"5.0.0\" }\n\n[lib]\n\
  path = \"lib.rs\"\n\n[features]\ndefault = [\"std\"]\nstd = [\n    \"ink/std\",\n\
  ]\nink-as-dependency = []\ne2e-tests = []"

/-- `CARGO_TOML_SNIPPET_V5`, `crates/analyzer/src/codegen/snippets.rs:574-595`. -/
def cargoSnippetV5 : List Char :=
  chars! "[package]\nname = \"${1:my_contract}\"\nversion = \"0.1.0\"\n\
  authors = [\"${2:[your_name]} <${3:[your_email]}>\"]\nedition = \"2021\"\n\n\
  [dependencies]\nink = { version = \"5.0.0\", default-features = false }\n\n\
  [dev-dependencies]\nink_e2e = { version = \"5.0.0\" }\n\n[lib]\n\
  path = \"lib.rs\"\n\n[features]\ndefault = [\"std\"]\nstd = [\n    \"ink/std\",\n\
  ]\nink-as-dependency = []\ne2e-tests = []"

/-- `char::to_ascii_uppercase`, used at `crates/analyzer/src/utils.rs:13`. -/
def asciiUpper (c : Char) : Char := c.toUpper

/-- The loop of `pascal_case`, `crates/analyzer/src/utils.rs:9-18`. -/
def pascalGo : Bool → List Char → List Char
  | _, [] => []
  | capitalize, c :: cs =>
    if c = '_' then pascalGo true cs
    else if capitalize then asciiUpper c :: pascalGo false cs
    else c :: pascalGo false cs

/-- `pascal_case`, `crates/analyzer/src/utils.rs:6-20`. -/
def pascalCase (name : List Char) : List Char := pascalGo true name

/-- `Error`, `crates/analyzer/src/codegen.rs:33-43`. -/
inductive ProjectError
  | packageName
  | contractName
  deriving DecidableEq

/-- `Project` and `ProjectFile`, `crates/analyzer/src/codegen.rs:13-29` (all snippets are
present). -/
structure Project where
  libPlain : List Char
  libSnippet : List Char
  cargoPlain : List Char
  cargoSnippet : List Char
  deriving DecidableEq

/-- `module_name`, `crates/analyzer/src/codegen.rs:64`. -/
def moduleName (name : List Char) : List Char := replaceAll ['-'] ['_'] name

/-- The two replacements of `crates/analyzer/src/codegen.rs:76-77,84-85`. -/
def fillLib (template : List Char) (m s : List Char) : List Char :=
  replaceAll (chars! "MyContract") s (replaceAll (chars! "my_contract") m template)

/-- The replacement of `crates/analyzer/src/codegen.rs:95,102`. -/
def fillCargo (template : List Char) (name : List Char) : List Char :=
  replaceAll (chars! "my_contract") name template

/-- `new_project`, `crates/analyzer/src/codegen.rs:46-106`. `isAlphabetic` and `isNumeric` are
`char::is_alphabetic` and `char::is_numeric` (`char::is_alphanumeric` is their disjunction);
`v5` tells whether the version is `Version::V5`. -/
def newProject (isAlphabetic isNumeric : Char → Bool) (name : List Char) (v5 : Bool) :
    Except ProjectError Project :=
  if name.isEmpty ||
      !name.all (fun c => isAlphabetic c || isNumeric c || c == '_' || c == '-') then
    .error .packageName
  else if !(name.head?.any isAlphabetic) then .error .contractName
  else
    .ok {
      libPlain := fillLib (if v5 then contractPlainV5 else contractPlain) (moduleName name)
        (pascalCase (moduleName name))
      libSnippet := fillLib (if v5 then contractSnippetV5 else contractSnippet) (moduleName name)
        (pascalCase (moduleName name))
      cargoPlain := fillCargo (if v5 then cargoPlainV5 else cargoPlain) name
      cargoSnippet := fillCargo (if v5 then cargoSnippetV5 else cargoSnippet) name }

end Verif.Analyzer
