import Verif.Analyzer.CompleteEntity
import Verif.Analyzer.Templates

/-!
# The texts inserted by completions for entities
-/

namespace Verif.Analyzer.CompleteEntity

open Verif.Ir

/-- The texts a completion for an entity may insert, `crates/analyzer/src/analysis/completions.rs:623-935`.
What they depend on in the rest of the file (names in use, the name of the contract, paths of chain
extensions) is left open. Indents, and the affixes of a topic, are left out. -/
inductive Inserts (v : Version) : Entity → Insertion → Prop
  | contract : Inserts v .contract (contractInsertion v)
  | storage (name : Option (List Char)) : Inserts v .storage (storageInsertion name)
  | event (used : List String) : Inserts v .event (eventInsertion used)
  | eventV2 (used : Option (List String)) : Inserts v .eventV2 (eventInsertionV2 used)
  | test (used : List String) : Inserts v .test (testInsertion used)
  | e2eTest (used : List String) : Inserts v .e2eTest (e2eTestInsertion v used)
  | constructor (used : List String) : Inserts v .constructor (constructorInsertion used)
  | message (used : List String) : Inserts v .message (messageInsertion used)
  | traitMessage (used : List String) : Inserts v .traitMessage (traitMessageInsertion used)
  | errorCode : Inserts v .errorCode errorCodeInsertion
  | extension (es fs : List (String × Nat)) : Inserts v .extension (extensionInsertion v es fs)
  | topic (used : List String) : Inserts v .topic (topicInsertion used)
  | traitDef : Inserts v .traitDef traitDefInsertion
  | chainExtension : Inserts v .chainExtension (chainExtensionInsertion v)
  | combineExtensions (paths : List (List Char)) : Inserts v .combineExtensions (combineInsertion paths)
  | storageItem : Inserts v .storageItem storageItemInsertion
  | environment : Inserts v .environment (environmentInsertion v)

end Verif.Analyzer.CompleteEntity
