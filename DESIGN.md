# Formal model of ink-analyzer: design

The model is written in Lean 4 (`lean/Verif`). It is a set of total, computable
functions that follow the Rust functions of `/repo` one by one. Theorems about these
functions are the deliverable. The Rust code is never run; the link to the code is the
citation (file and lines) carried by every definition.

## Trusted base

* Lean 4.33.0's kernel.
* Axioms: only `propext`, `Classical.choice` and `Quot.sound` (section "Axioms" at the
  end lists them per theorem; `lean/Verif/Audit.lean` prints them during the build).
* The reading of `/repo` that each definition cites.
* The model's *parameters*: outside behaviour enters as an arbitrary function argument,
  and theorems quantify over it. What is assumed of each parameter is recorded below.

## Common modelling decisions

* Text offsets (`TextSize`, u32) are `Nat`; a document longer than 4 GiB is not modelled.
* `HashMap`/`HashSet` become association functions or lists; where the code iterates
  over one, the theorem quantifies over every iteration order.
* A Rust panic is an explicit `none`/error value of the modelled function.
* Parser output (rust-analyzer's syntax tree) is an input of the model: token lists,
  rose trees of nodes and attribute records. The rust-analyzer parser itself is outside.
* External crates that are small and semantic (`line_index`, itertools `unique_by`,
  `sorted`, `TextRange`) are modelled from their documented behaviour and cited.

## Plan per property

| Id | What is modelled | How it is proved |
|----|------------------|------------------|
| C01 | `Memory`, `Dispatcher` notification path as `step : State -> Msg -> State x Outputs` | refinement to a two-line fold over the client history; induction over histories, any drain order |
| C02 | `process_changes`, `publish_diagnostics` | invariant "change set empty between messages", then per-step output equation |
| C03 | `handle_request`, router, `process_command_response` | case analysis, output filter has exactly one response with the id |
| C04 | `RequestRouter` | unfold the chain for all methods |
| C05 | `main_loop` | the full claim is false (malformed notification params); negation with witness and `_partial` theorem characterising exactly when the loop stops |
| C06 | snapshot map with language version and fuel counter | invariant over histories with an arbitrary version oracle |
| C07 | `process_command_response`, `handle_response` | case analysis; prefix ids are mutually exclusive |
| C08, C09 | `line_index` conversions and translator | induction over characters for UTF-8/16/32 |
| C10, C11 | capability functions | list induction; emitted kinds claim is false (`refactor.extract`), negation plus partial |
| C12 | `signature_help` translator | list search lemmas |
| C13 | `package_name` over characters | loop invariant over the string, character classes as parameters with recorded laws |
| C14 | manifest as ordered tables, `migrate_cargo_toml` | frame and idempotence by list induction |
| C15 | `find_cargo_toml` over an arbitrary existence predicate | induction on depth |
| C16 | `guess_version`, `is_v5_version_string` | the regular expression is modelled as a matcher; iff with a search spec |
| C17 | directory name search loop | loop invariant |
| C18 | kind tables | finite tables by cases, strings by `split` |
| C19 | `InkAttribute::cast` | stable sort minimum lemma |
| C20 | `parse_meta_items` state machine over tokens | induction over tokens; the "never fails" clause is false of `text_range`, negation plus partial |
| C21 | `as_int` | positional notation spec, induction; `_`/suffix literals recorded as rejected |
| C22 | `Selector::compose`, `trait_ident` | cases; the trait-path clause is false of the code, negation plus partial |
| C23, C24 | rose trees | mutual induction |
| C25 | use trees | mutual induction against a leaf-enumeration spec |
| C26 | resolution of aliases | false (cyclic aliases), witness that no fuel suffices; partial: terminates under an acyclicity measure |
| C27 | `focused_token` | cases |
| C28 | suggestion filters | membership lemmas |
| C29 | sibling tables | finite tables; exceptions recorded as negations |
| C30, C31 | unique id and name search | bounded search induction; name claim false after 254 tries, negation plus partial |
| C32, C33 | indenting | induction over lines; C33 false for mixed tabs and spaces |
| C34 | `format_edit` | whitespace-insensitive equality of applied edits |
| C35, C36 | `unique_by`, stable sort | generic list theorems instantiated |
| C37 | duplicate detection | fold with seen sets against "earlier occurrence" spec |
| C38-C41 | selector and id checks | fold against spec |
| C42 | `validate_arg` | exhaustive cases, structural induction on nesting |
| C43 | `validate_entity_attributes` decision core | cases over the model of siblings |
| C44 | `add_signature` | induction over parameters |
| C45 | `new_project` | validation iff; substitution claim false for names containing `MyContract`, partial |
| C46 | `ensure_no_ink_identifiers` | rename claim false, partial |
| C47 | `item_path` | false for nesting of two or more modules, partial |
| C48 | scale codec quickfix | false in v5 with an existing partial `scale_derive`, partial |
| C49 | migration edit ranges | false for in-contract events with derives, partial |
| C50 | e2e visitor over expression trees | false (receiver check does not stop), partial |
| C51 | removal range over token lists | induction |
| C52, C53 | inlay hints, hover | list lemmas |
| C54 | trait impl check | membership iff |
| C55 | `parse_range` and argument decoding | false (inverted range panics), partial |
| C56 | `flatten_attrs` | permutation and sortedness |
| C57 | quantity checks | length case analysis |
| C58 | descendant tables | membership iff |
| C59 | `code_action`, `handle_code_action_resolve`, `handle_execute_command` | round trip of the action data through JSON |
| C60 | `offset` of `from_lsp` | false (columns are not checked), characterisation of what is accepted |
| C61 | macro suggestions of items | exact membership, table of macros spelled out |
| C62 | `ink_callable_closest_descendants` | mutual induction over trees, characterisation by paths |
| C63 | missing-message quick fix | induction over messages, any map order; last clause false |
| C64 | signature comparison of trait implementations | false inside parameters, both implications that hold |
| C65 | ink! arguments of trait implementations | list membership iff |
| C66 | migration of SCALE derives | name lists through the attribute model; false for two derives in one condition |
| C67 | migration of events | text replacement; false for comments containing the attribute text |
| C68 | migration of chain extensions | id search invariant |
| C69 | `signature_help` | list characterisation over C28/C29 tables |
| C70 | snippets and plain texts | a reader of the snippet syntax (spec) against the templates, for any indent and names |
| C71 | `validate_entity_attributes` reports | exact order and completeness |
| C72 | `format_edit` | layout classification of the text around the edit |
| C73 | tables of valid siblings and parents | finite tables against tables written from the ink! documentation |
| C74 | header rules of functions and types | header as a list of parts, one rule after the other, fixes applied to the text |
| C75 | `resolve_item` and friends | soundness and completeness against an inductive "denotes" relation |
| C76 | attribute parser | induction over written arguments (specification of what was written) |
| C77 | `to_lsp` and request handlers | decision logic; false for some announcements about code actions |
| C78 | member rules of chain extensions and trait definitions | list induction over members; fixes applied to the text |
| C79 | insertion places and affixes of arguments, "make first" fix, printing | file as element lists; inserted text re-read with C76 |
| C80 | `ink_arg_insert_text` | per kind: inserted text as a written argument (C76) accepted by `validateArg` (C42) |
| C81 | `macro_completions`: focus, context, offered macros and crates, edit range | file as token list split at the cursor; edit compared with the path written out |
| C82 | `argument_completions`: context, argument in focus, affixes, edit range | attribute as a list of written arguments (C76), inserted text from C80; the result is re-read |
| C83 | `entity_completions`: edit range, words of the line, offered entities, labels and the texts they insert | file as token list split at the cursor; the line is specified by newlines; syntax around the cursor is an input |
| C84 | the walk of `file::diagnostics`, `contract::diagnostics` and the entities below; scope check of each visited item | items as paths in the syntax tree; places specified by an inductive relation independent of the walk; coverage by induction on depth |
| C85 | `extract`, `remove_attrs_and_docs`, `item_insert_offset_start` | item as a list of children, module as a list of items with their gaps; both edits applied to the text of the file |
| C86 | `ensure_custom_types_impl_scale_codec_traits`, `extract_custom_types`, `extract_resolvable_custom_types` | types as trees; use specified by an inductive relation; size induction; both deduplications shown lossless |
| C87 | `Analyzer/Move.lean`: syntax trees with text, closest items/contracts/`impl` blocks, insert offsets, the two edits of a move; `ensure_contract_parent`, `ensure_parent_contract`, `ensure_impl_parent`, `ensure_parent_impl`. The ink! `impl` blocks and the name of a contract are parameters. | Reported iff misplaced: closest ancestor by induction over the path. Moves: the text of the tree split at the item and at the slot, both orders of the two edits; then the closest ancestors in the tree with the item moved. Partial: up to white space; two negations (trait `impl`, string literals). |
| C88 | `Analyzer/Offer.lean`: `actions`, `item_ink_entity_actions`, `root_ink_entity_actions`, the focus tests, declaration ranges and terminal tokens, the insert offsets and the edit of a topic. Kinds of items and what is known of contracts are data; labels and texts are left out. | Offered iff wanted: case analysis over kinds. Places: the slot lemmas of C87 for the declaration, decompositions of the body for the body. Topics: the text split at the last field. Three negations. |
| C89 | `Analyzer/External.lean`: `is_external_crate_item`, `external_crate_uses_and_aliases_in_scope`, `match_path_to_external_crate_in_scope`; hash sets and maps are lists in visiting order, recursion with fuel (running out is an explicit value). Types of type aliases are data. | Soundness: induction over fuel against the relations Refers/Binds/Is. Completeness: induction over the steps that the code follows. Termination: layers of modules. Partial; eight negations. |
| C90 | `Migrate/HostFn.lean`: the visitor of `migrate/host_fn.rs` over expressions with ranges and roles; whether a path stands for an item of the crate is a parameter (C89). | The edits are a permutation of those of the reached expressions (induction over expressions); each edit characterised by `Records`; disjointness by ranges. Partial; six negations. |
| C91 | `Migrate/Imports.lean`: `deprecated_imports` and `node_and_delimiter_range` over use trees with their layout. Both loops of the code are one function with a flag for lists of `ink_e2e`. | The edits applied to the text give the text of the pruned tree (mutual induction over trees and lists); its imports are compared by the specification of C25. Partial; three negations. |
| C92 | `Analyzer/Environment.lean`: `item_path`, the searches by name and by trait of `resolution.rs`, and the rules for environments and error codes over the module trees of C75 and the recognition of C89. | The path of a fix is resolved by cases on the depth; acceptance is an iff with `Denotes` (C75) and `Is` (C89); the added `impl` is recognised by `C89_direct`. Partial; four negations. |
| C93 | `Migrate/TestFn.lean`: `attribute`, `fn_sig` and the imports of `fn_body` over arguments with their layout, signatures, and the elements of a file, module or body. | The edits are a permutation of the removals in document order; these are applied to the text by induction over the arguments. The import place is characterised by the last doc comment or `use`. |
| C94 | `Analyzer/Cfg.lean`: the two regular expressions as parts with a matcher, `is_cfg_test_attr`, `is_cfg_e2e_tests_attr`, and the search for such ancestors, joined with the filter of `Suggest.lean`. White space is ASCII white space. | A match is a segment between two delimiters of the text; the segments of a rendered predicate are those of its options (mutual induction over predicates). Semantics of predicates as a separate specification. |
| C95 | `Analyzer/Event.lean`: the rules for generics, ink! attributes, topics and `cfg` attributes of an event over its text (parts of fields with attributes), with the deletions of their quickfixes. ink! attributes inside the type of a field are left out. | The reports of each rule are characterised by where the attribute stands in the text (`Found`); a deletion is shown to give the text of the event without that part, and the reports are counted by the tests of the rules, so that one less attribute is fewer reports. Negations for fields in parentheses. |
| C96 | The handlers of the three project commands, the maps they return and their conversion to document changes; URI/path conversion, the file system and the printing of TOML are parameters. | A client applying workspace edits is specified as a function (places by position, stable order, refusal of overlaps and of overwriting). Translated edits mean the same to the client as byte edits in every encoding (positions of prefixes are distinct); the rest by composition for every order of the maps. |
| C97 | `parent_attr`, `parent_ast_item`, `probable_unclosed_parent_attr`, `probable_parent_ast_item_keyword`, `normalized_*` over syntax trees with a path to the token in focus (`Ir/ItemAt.lean`) | induction over the ancestors for the closest attribute and item, induction over the tokens behind the cursor for the keyword (an equivalence), mutual induction over trees for the token before the cursor |
| C98 | `ensure_extension_arg`, `ChainExtension::id` and the ids of the file over the attribute text of C79 (`Analyzer/ExtensionArg.lean`) | composition of the insertion (C79), the reading of arguments (C76) and of integers (C21), and the freshness of ids (C30), by induction over the arguments and the chain extensions of the file |
| C99 | `run_server`, `initialize` and `server_capabilities` with `initialize_start`/`initialize_finish` of `lsp-server` 0.7.6 in front of the server loop (`Lsp/Session.lean`) | induction over the messages before `initialize`; the loop is that of C01–C07; the announced methods are compared with the routing of C04 |
| C100 | the reports of missing storage, constructors, messages and callables with their fixes: `ensure_storage_quantity` (missing part), `ensure_contains_constructor`, `ensure_contains_message`, `ensure_annotation_or_contains_callable`, `add_*_to_*`, `resolve_contract_name`, `callable_insert_offset_indent_and_affixes` (`Analyzer/Missing.lean`, over the trees of C87 and the walks of C84) | positions in trees with a node added (`shift`); the walks of C84 give what is found; texts by the templates of C70 and indenting of C32 |
| C101 | `run_generic_diagnostics`, `ensure_no_unknown_ink_attributes`, `ink_attrs_in_scope`, `unique_by(text_range)` of annotated nodes, `ensure_fn`, `ensure_trait`, `ensure_adt`, `ensure_impl`, `ensure_inline_module`/`ensure_pub_struct` for other items, `Action::remove_attribute`, `Action::remove_item` | Attributes in scope are those at paths below, by mutual induction over the tree; two annotated nodes with the same range are the same node (an attribute outside the inner node has text, diverging paths have disjoint ranges); the fix leaves the tree without the node, so the walk of C84 no longer gets there. |
| C102 | The actions for macros and arguments on items and on attributes, and `ink_attribute_insert_offset` (`AttrActions.lean`), over a file split into what precedes the item, its attributes with white space and comments, its other tokens and the rest; the decisions are those of `Suggest`, the places those of `Insert`, the texts those of `InsertText`. | Offers by composing C28 and C61; the insert offset is characterised by `Spot` (induction over the attributes); edits by composing C79 and C80 with a lemma that the place lies inside the attribute; reading by C76. Partial for the same arguments and layouts as C79 and C80. |
| C103 | The text edit of `ensure_impl_scale_codec_traits`, `token_tree_to_non_delimited_meta_string`, the reading of `derive`, `cfg_attr` and `ink::scale_derive` attributes off their tokens (`ScaleText.lean`), over the files of C102 | Refinement: the attributes read after the edit are those of `scaleFix` (C48), by splitting the attributes at the replaced one; the place by the lemma on the next token of C102; snippets by running the reader over the at most seven lists of missing traits. Partial: see the note. |
| C104 | `add_*` of `actions/entity.rs` (`EntityActions.lean`): host check, name and id suggestions, indentation, place and edit; the constructors and messages of a contract with the `impl` block around the place as a parameter. | The added node is given by `Entity.new`, independently of the templates; place by `Gap` (a place between two children, in white space) and, without a chosen place, by the slots of C87/C88; names by C31, ids by C30; belonging by the lemmas on `putIn` of C100; `C104_place` shows that the places C88 chooses are gaps. |
| C105 | `implNamespace` (`RemoveRead.lean`) on top of `Remove.lean` and the argument parser of `Meta.lean`. | The list of written arguments without the removed one is a specification (`without`); the text left by the deletion is its source, and reading it (C76) gives the kinds and values of the old list without that index. |
| C106 | `missing_arg_edits` with the choice of the attribute to extend, both insertion places and the new attribute | the two insertions are composed (the later one first) from the places of C79; what is read afterwards is compared argument by argument with what was read before and with the declaration, through C76; the place of a new attribute as in C102 |
| C107 | `Analyzer/Complement.lean`: texts, ranges and quickfixes of `validate_wildcard_complement_selector` on top of the reports of `Analyzer/Overlap.lean`; the place of a new argument and the action that adds a message are parameters (modelled in `Analyzer/Insert.lean`, `Analyzer/Templates.lean`) | A relation `Applied` says what is read about the messages after each quickfix; a measure on what is said about the messages falls with every step. The text level ties the edits to that relation: replacing and adding through the parser of argument lists (C76, C79), removing through C105, the added message through its fixed text |
| C108 | the functions that the entity macro generates: `can_cast`, the node, `ink_attr`, `ast` and `cast` for each configuration; `ink_parent`, `ink_closest_descendants` with entities; the configuration of ink! impls | case analysis on whether the node is an attribute; the list of attributes of a node by induction on its children; how often an entity is listed by induction on the path; the closest item by the lemma of C84 |
| C109 | the rules and quickfixes of C38 and C39; the items after the quickfixes are given by what the quickfix writes as the value | a repeated item keeps an earlier first item, which is never changed; the new numbers are distinct and unused (C38, C39); pigeonhole for the quickfix being offered |
| C110 | `validate_arg` with the ranges and quickfixes of its diagnostics (`Analyzer/ArgFix.lean`), on top of the parser of arguments (C20), the checks of values (C42) and the default texts (C80) | `ArgFixProps.lean`: the range of an argument as it is being written, wherever it is nested; each quickfix gives a text that is the file with another argument in its place; reading this one reports nothing or something with fewer quickfixes to go. Six negations |
| C111 | the quickfixes of `ensure_no_duplicate_attributes_and_arguments` and `validate_entity_attributes` by what they leave of the attributes of the item (`Analyzer/EntityFix.lean`), on top of the reports of C37, C43 and C71; the deleted ranges for the overlap | `EntityFixProps.lean`: a relation `Step` says what each quickfix does; the model gives exactly these. A measure (attributes, arguments, and what the main attribute still lacks) falls with every step; case analysis over the reports, with lemmas on which attribute is the main one after an attribute was changed. Three negations |
| C112 | `migrate` as a whole: the steps one after the other, `unique`, `format_edits` (`Migrate/Whole.lean`, on top of the models of the steps) | every edit is shown to lie at a place of the file (`Site`); edits at one place do not overlap by the theorems about the steps (C49, C90, C91, C93), those at different places if the places are apart; formatting by C34/C72; negations: general for the last `use` item, concrete for host functions in e2e tests |
| C113 | the struct and the module of `extract`, `parent_ast_item`, `focused_element` and the two places that offer an extraction, on the syntax trees of `Ir/Tree.lean` (`Analyzer/ExtractAt.lean`); which attributes are closed, which nodes implement trait messages, whether the selection is on the item, and the declaration range are parameters (the latter assumed to lie in the struct and to contain its keyword) | the covering element of the offered range is shown to lead back to the same attribute or struct (lemmas of `Ir/CoverProps.lean`: covering elements contain the range and are inside everything that does), then the choice of the module is the innermost one; negations by concrete trees |
| C114 | `ast_item_declaration_range`, `ast_item_terminal_token`, `is_focused_on_item_declaration` and `is_focused_on_item_body` on trees of tokens with lengths (`Analyzer/Decl.lean`); the children of an item are reduced to the kinds the functions look at; the panic of `TextRange::new` is an error value | start: leaves before the end of the last doc comment or attribute are excluded by their offsets, those behind it are space up to the core of the item; end: case analysis of a specification by the shape of the item (`Block`, `Statement`); negations concrete |
| C115 | no further code: the translation of positions (`Lsp/Position.lean`) and of code actions (`Lsp/Translate.lean`) against a specification of a client by LSP 3.17 (`Lsp/ClientProps.lean`: line ends, clamping, positions sent) | the client is shown to find the place it sends a position for; the number of line ends of client and server agree iff there is no lone `\r`; edits by composition with C77; negations concrete |
| C116 | `Lsp/Crash.lean`: the four requests from the position sent by the client up to the lookup of the offset in the tree (`ItemAtOffset::new`, `focused_element`, `covering_attribute`, `parent_ast_item`); the rest is a parameter | translation of a column inside and after its line by induction over the line; exact condition for the panic; negation concrete |
| C117 | `Lsp/Screen.lean`: the diagnostics of a snapshot from the reports of the rules to the published list, on top of the server loop (`Lsp/Server.lean`), the deduplication (`Analyzer/Dedup.lean`) and the translation (`Lsp/Translate.lean`) | induction over the session with C02 for the last message; composition with C35 and C77. Specification: the last publication for a document replaces earlier ones |
| C118 | `Lsp/Bulb`: the answer to a request for code actions from the raw reports and actions of a snapshot (`codeActions`), through the removal of repeats, the sorting and both translations of positions; the session of `Lsp/Server` around it | for a request: the representative of a fix in the list without repeats is a quick fix with the same edits (`unique_first`), its edits are sent and read at the same places (C77, C115); for a session: composition with C01 (answers from the current text) and C117 (what is shown); a concrete text with a lone `\r` for which it is false |
| C119 | nothing new; `Analyzer/Complete*`, `CompleteArg*`, `CompleteEntity*` and `Lsp/Translate` together | The demand of LSP on the range of a completion (`Demanded`) is shown equivalent to a statement about the text (`Fits`), for every encoding; then for macros and arguments an exact criterion is proved, for entities it follows from C83. Negations: white space over several lines behind `#[`, and the cursor in front of an argument that nests others. |
| C120 | `Lsp/Ask`: the answers to requests for completions, hover, hints and signatures from the snapshot of an open document; the analyzer is a parameter | composition of C01 (answers from the current text), C77 (translation) and C115 (how a client reads positions); the specification says which part of its text the client takes each range for. Negation: a text with a lone `\r` |
| C121 | `MetaValue::as_string` (`Ir/Value.lean`) against a grammar of the string literals of Rust (pieces with what they stand for, raw literals) | `StringProps.lean`: a piece with a quote stands for a quote, every piece but a plain character is longer than what it stands for; so the text read is the value exactly if all pieces are plain. Negations for raw literals and urls |
| C122 | the `detail` table of argument kinds and the details of parameters (`Analyzer/Signature.lean`), with the model of signature help of C44 and C69 | which lists of arguments are shown is C69; that their members exist in the version is checked over the whole (finite) tables; the texts follow the order of the parameters by induction over the loop. Negation: an ink! 5 argument written in an ink! 4 project |
| C123 | `IterSuccessors` as a state machine whose `next` is a relation (nothing in the code bounds the recursion), and its only use (`Ir/Successors.lean`) | the items equal the concatenation along the chain of sources (both directions, by induction over calls and over the chain); determinism gives that it stays ended; for ancestors the chain is shown to exist and to agree with C24, and the height of the source bounds the nesting |
| C124 | the models of C28, C69, C81, C82 and C102 together | membership in both lists through C28, C81 and C102; tables of siblings for signatures; four negations |
| C125 | the model of C112 (all steps of the migration) | each step has no edits iff its part of `Current` holds, through C66, C90 and C50; induction over chained calls; four negations |
| C126 | the main loop of C01 with the panics of C116 and C55 added (`Lsp/Fall.lean`) | one request: cases on the method, through where a position is taken to be (C116) and the decoding of command arguments (C55); sessions: induction over the messages with the invariant of C01; a negation |
| C127 | `ensure_root_items`, `ensure_impl_parent_for_callables` and `ensure_callables_in_root` (`Analyzer/Root.lean`), with the search of C84 and the checks of single items of C87 on one tree | a map between the two models of trees keeps paths, kinds and attributes; membership in the lists of reports through C84 and C87; two negations |

## Parameters and what is assumed of them

Behaviour outside of the modelled code enters as arguments of definitions and theorems. Every
assumption is a visible hypothesis; the list says where to look.

* Syntax. Trees, token lists and attribute elements are inputs. `Elem.wf` (elements of an attribute
  nest as the parser nests them), `Full`/`FullList` (no token is empty), `AttrWf`, `AttrV.Wf`,
  `FileWf`, `NonEmpty` tokens, `RangesOk`/`AttrRanges` (text ranges lie inside the file in source
  order) hold of every rust-analyzer tree. `Written`, `Ends` (C76, C79, C80) say how a written
  argument list is shaped into a token tree; that the text after an edit is lexed into the stated
  elements is part of this reading. A printed value counts as one token (C79, C80).
* `ExprParser` (parse of a value as an expression): arbitrary; C79 adds `Reprints` (what it has
  printed is read again as the same), C80 adds `Reads` (literals and paths are read as what they are,
  met by `literalPe`). `firstIdent` (first identifier of a string): arbitrary.
* `hash` (BLAKE2b of selectors): arbitrary function.
* Iteration orders of `HashMap`/`HashSet`: permutation parameters or quantified lists (TraitImpl,
  scaleDerive, C75 use scopes, C17/C56).
* `isAlphabetic`/`isNumeric` (C13), `ScaleEnv.Lawful` (C48): laws recorded as structures. `isWs` is
  Unicode `White_Space`.
* Name resolution: `Res` of C66, `environment` of C80, `parent` of `formatEdit` and the insert offsets
  and affixes of C68 are inputs. C75 models resolution itself, over a module tree given as input,
  with fuel; the result is shown not to depend on it.
* `Ranges` (text ranges of arguments and values), `trivia` of `focusedToken`, `SigContext`/`ParenTree`
  (C44, C69), `FlatArg` texts, `Parsed`, `Made`, `isImpl` and other kind predicates (C62): inputs.
* `Shape` (which syntax kinds are impls, items, traits, item lists, functions) and `implements` (an impl
  implements an ink! trait definition) of C84: inputs.
* `norm`/`RemovesTrivia` of C64: the text of an element without its trivia.
* C70: names and paths are `Clean`, indents are `IndentText`; the name of the contract and the result
  of `item_path` are inputs.
* C74: a header is a list of parts (`Wf`, `spaced`), words are made of `wordChar`. C78: a trait body is
  a list of members, a type alias a list of parts (`WfAlias`); kinds of attributes, indents and ids in
  use are inputs; wildcard removal ranges are not modelled.
* C77: analysis results are parameters of the handlers; ranges lie on characters (`OnChars`); the
  negotiation of documentation formats is not modelled.
* Documentation texts of hovers are represented by the names of their constants. The documented tables
  of C29 and C73 are written from the ink! documentation, not from the code.
* C90: whether a path stands for an item of the crate is a parameter; macro bodies are not looked into.
* C96: `Host` (conversion of URIs and paths, file system) with `HostLaws`, and `ManifestText` (edits of
  the text of a manifest; `C14` says what they do to the parsed manifest). `Url::parse` keeps a final slash.
* C98: `ReadsInts` (the expression parser reads decimal numbers as such). C99: the handshake of `lsp-server` 0.7.6
  (`initialize_start`, `initialize_finish`) is modelled from its source. C100: the names of items and
  which `impl` items implement an ink! trait definition are inputs.
* `chars! "…"` is notation for a list of characters; the kernel checks the expansion.
* C09: totality is that of release builds (no overflow checks); C60 has the overflow case.

## Not modelled

* The rust-analyzer parser and lexer, `salsa`, `cargo_metadata`, JSON and TOML text formats (JSON
  values and ordered TOML tables are modelled), threads and channels, file access other than
  `Host` and existence predicates.
* Labels and documentation of completions and actions.
* Rules for storage items and tests beyond the shared header and attribute rules.
* Documentation texts (`hover/args.rs`, `hover/macros.rs`), test utilities, `main.rs`.

## Modelled code

Per module of the model, the lines of `/repo` that its definitions cite.

| Module | Code |
|--------|------|
| `Analyzer/AddArgs` | `analyzer/src/analysis/diagnostics/contract/ink_impl.rs` 823-910; `analyzer/src/analysis/utils.rs` 1126-1132; `ir/src/attrs.rs` 152-185; `ir/src/attrs/args.rs` 76-80 |
| `Analyzer/ArgCheck` | `analyzer/src/analysis/diagnostics/common.rs` 157-446; `ir/src/attrs/args.rs` 57-59; `ir/src/attrs/meta/option.rs` 66-78 |
| `Analyzer/ArgFix` | `analyzer/src/analysis/diagnostics/common.rs` 157-440; `ir/src/attrs/meta/option.rs` 66-78 |
| `Analyzer/AttrActions` | `analyzer/src/analysis/actions/attr.rs` 11-106; `analyzer/src/analysis/actions/item.rs` 17-125, 133-293; `analyzer/src/analysis/utils.rs` 751, 823-952, 972-999, 1018-1024; `ir/src/tree/ast_ext.rs` 48-58 |
| `Analyzer/Cast` | `ir/src/ink_impl.rs` 10, 47-71; `ir/src/traits/entity.rs` 9-43; `ir/src/tree/ast_ext.rs` 27-45; `ir/src/tree/utils.rs` 18-21, 120-132, 136-161; `macro/src/entity.rs` 10-288, 299-308 |
| `Analyzer/Cfg` | `analyzer/src/analysis/utils.rs` 695-742 |
| `Analyzer/Complement` | `analyzer/src/analysis/actions.rs` 74-81; `analyzer/src/analysis/actions/entity.rs` 242-265; `analyzer/src/analysis/diagnostics/contract.rs` 425-579; `analyzer/src/analysis/utils.rs` 1006-1122 |
| `Analyzer/Complete` | `analyzer/src/analysis/completions.rs` 16-30, 60-280, 294-303, 484, 495, 529; `ir/src/tree/ast_ext.rs` 46-58; `ir/src/tree/item_at_offset.rs` 9-48, 65-68, 87-90 |
| `Analyzer/CompleteArg` | `analyzer/src/analysis/completions.rs` 16-30, 283-470 |
| `Analyzer/CompleteEntity` | `analyzer/src/analysis/completions.rs` 473-942 |
| `Analyzer/CompleteText` | `analyzer/src/analysis/completions.rs` 623-935 |
| `Analyzer/Decl` | `analyzer/src/analysis/actions/item.rs` 711-717, 722-736; `analyzer/src/analysis/utils.rs` 1285-1442; `ir/src/tree/ast_ext.rs` 48-58 |
| `Analyzer/Dedup` | `analyzer/src/analysis.rs` 62-80; `analyzer/src/analysis/actions.rs` 17-62, 139-161; `analyzer/src/analysis/diagnostics.rs` 48-98 |
| `Analyzer/Edit` | `analyzer/src/analysis/text_edit.rs` 14-327; `lsp-server/src/translator/to_lsp.rs` 129-132 |
| `Analyzer/Entity` | `analyzer/src/analysis/diagnostics/common.rs` 451-494, 519-1138; `analyzer/src/analysis/utils.rs` 446-476; `ir/src/attrs.rs` 16-33, 107-114 |
| `Analyzer/EntityActions` | `analyzer/src/analysis/actions/entity.rs` 22-71, 85-113, 118-187, 202-219, 223-240, 268-491; `analyzer/src/analysis/text_edit/common.rs` 61-73, 94-134, 154-237, 250-271, 292-347, 439-478 |
| `Analyzer/EntityFix` | `analyzer/src/analysis/actions.rs` 64-71; `analyzer/src/analysis/diagnostics/common.rs` 59-71, 451-1138; `analyzer/src/analysis/utils.rs` 1135-1187, 1533-1624; `ir/src/attrs.rs` 16-33, 57-90, 107-114 |
| `Analyzer/Environment` | `analyzer/src/analysis/diagnostics/chain_extension/error_code.rs` 10-11, 20-113, 131-183; `analyzer/src/analysis/diagnostics/common.rs` 1911-1963; `analyzer/src/analysis/diagnostics/environment.rs` 11-115; `analyzer/src/codegen/snippets.rs` 463, 485; `analyzer/src/resolution.rs` 14-73, 232-289 |
| `Analyzer/Event` | `analyzer/src/analysis/actions.rs` 63-71; `analyzer/src/analysis/diagnostics/event.rs` 46-137; `analyzer/src/analysis/diagnostics/event/topic.rs` 31-43; `analyzer/src/analysis/text_edit.rs` 57-64; `ir/src/topic.rs` 8-11 |
| `Analyzer/ExtensionArg` | `analyzer/src/analysis/diagnostics/chain_extension.rs` 80-142; `ir/src/chain_extension.rs` 22-28; `ir/src/tree/utils.rs` 116-118 |
| `Analyzer/ExtensionTypes` | `analyzer/src/analysis/diagnostics/chain_extension/extension_fn.rs` 65-188 |
| `Analyzer/External` | `analyzer/src/resolution.rs` 76-229, 292-411; `ir/src/tree/ast_ext.rs` 265-306 |
| `Analyzer/Extract` | `analyzer/src/analysis/extract.rs` 14-94; `analyzer/src/analysis/utils.rs` 1626-1644; `ir/src/tree/utils.rs` 116-118 |
| `Analyzer/ExtractAt` | `analyzer/src/analysis/actions/attr.rs` 11-62; `analyzer/src/analysis/actions/item.rs` 17-125, 521-563; `analyzer/src/analysis/extract.rs` 29-51; `analyzer/src/analysis/utils.rs` 1216-1233, 1269-1397; `ir/src/tree/ast_ext.rs` 12-23, 27-45 |
| `Analyzer/Flatten` | `analyzer/src/analysis/actions/item.rs` 665-706; `ir/src/attrs.rs` 16-33; `ir/src/attrs/args.rs` 74-78 |
| `Analyzer/Generic` | `analyzer/src/analysis/actions.rs` 64-81; `analyzer/src/analysis/diagnostics/chain_extension.rs` 46; `analyzer/src/analysis/diagnostics/chain_extension/extension_fn.rs` 34; `analyzer/src/analysis/diagnostics/common.rs` 26-73, 117-143, 1195-1275; `analyzer/src/analysis/diagnostics/contract.rs` 30-33, 149-169; `analyzer/src/analysis/diagnostics/contract/constructor.rs` 25; `analyzer/src/analysis/diagnostics/contract/ink_impl.rs` 38, 86-95; `analyzer/src/analysis/diagnostics/contract/storage.rs` 22; `analyzer/src/analysis/diagnostics/event.rs` 29; `analyzer/src/analysis/diagnostics/file.rs` 13-57; `analyzer/src/analysis/diagnostics/ink_e2e_test.rs` 22; `analyzer/src/analysis/diagnostics/ink_test.rs` 24; `analyzer/src/analysis/diagnostics/message.rs` 25; `analyzer/src/analysis/diagnostics/storage_item.rs` 20, 38-55; `analyzer/src/analysis/diagnostics/trait_definition.rs` 34; `ir/src/constructor.rs` 11-12; `ir/src/event.rs` 12; `ir/src/ink_impl.rs` 13-14, 28-32; `ir/src/storage.rs` 9-10; `ir/src/storage_item.rs` 9-10; `ir/src/trait_definition.rs` 12-13; `ir/src/tree/utils.rs` 18-34, 55-61; `macro/src/entity.rs` 174-260 |
| `Analyzer/Header` | `analyzer/src/analysis/diagnostics/chain_extension/extension_fn.rs` 38-49; `analyzer/src/analysis/diagnostics/common.rs` 1195-1694; `analyzer/src/analysis/diagnostics/contract/constructor.rs` 32-48, 60-97; `analyzer/src/analysis/diagnostics/contract/ink_impl.rs` 42-44, 99-159, 186-276; `analyzer/src/analysis/diagnostics/contract/storage.rs` 22; `analyzer/src/analysis/diagnostics/message.rs` 33-47, 58-126; `analyzer/src/analysis/diagnostics/trait_definition.rs` 39-48; `analyzer/src/analysis/text_edit.rs` 57-64; `analyzer/src/analysis/utils.rs` 1444-1530 |
| `Analyzer/Hints` | `analyzer/src/analysis/inlay_hints.rs` 9-69; `ir/src/attrs/args.rs` 51-53, 539-566 |
| `Analyzer/Hover` | `analyzer/src/analysis/hover.rs` 12-145; `analyzer/src/analysis/utils.rs` 1259-1261; `ir/src/attrs.rs` 16-33 |
| `Analyzer/Insert` | `analyzer/src/analysis/actions/attr.rs` 86-93; `analyzer/src/analysis/diagnostics/common.rs` 618-632, 809-849, 938-949; `analyzer/src/analysis/migrate.rs` 127-134; `analyzer/src/analysis/utils.rs` 1006-1122, 1135-1185; `ir/src/attrs.rs` 43-101; `ir/src/attrs/args.rs` 76-80; `ir/src/attrs/meta.rs` 226-245; `ir/src/attrs/meta/option.rs` 67-79 |
| `Analyzer/InsertText` | `analyzer/src/analysis/utils.rs` 748-968 |
| `Analyzer/Members` | `analyzer/src/analysis/actions/entity.rs` 377-400; `analyzer/src/analysis/diagnostics/chain_extension.rs` 59, 67, 149-383; `analyzer/src/analysis/diagnostics/common.rs` 1297-1341, 1627-1694; `analyzer/src/analysis/diagnostics/contract.rs` 119-167; `analyzer/src/analysis/diagnostics/trait_definition.rs` 72-164; `analyzer/src/analysis/text_edit/common.rs` 292-301; `analyzer/src/analysis/utils.rs` 971-999, 1126-1132 |
| `Analyzer/Missing` | `analyzer/src/analysis/actions/entity.rs` 22-45, 118-198, 202-219, 223-240, 303-370; `analyzer/src/analysis/diagnostics/common.rs` 1141-1146; `analyzer/src/analysis/diagnostics/contract.rs` 176-242; `analyzer/src/analysis/diagnostics/contract/ink_impl.rs` 282-305; `analyzer/src/analysis/diagnostics/trait_definition.rs` 178-201; `analyzer/src/analysis/text_edit/common.rs` 94-119, 193-237, 250-271; `analyzer/src/analysis/utils.rs` 1832-1882, 1886-1898, 1904-1920; `ir/src/contract.rs` 22-27; `ir/src/tree/utils.rs` 11-101, 136-255 |
| `Analyzer/Move` | `analyzer/src/analysis/actions.rs` 84-136; `analyzer/src/analysis/diagnostics/common.rs` 1696-1781; `analyzer/src/analysis/diagnostics/contract.rs` 581-614; `analyzer/src/analysis/diagnostics/contract/ink_impl.rs` 307-335; `analyzer/src/analysis/utils.rs` 1190-1195, 1626-1737, 1832-1898, 1904-1921; `ir/src/traits/ast_type.rs` 33-43; `ir/src/tree/ast_ext.rs` 12-23; `ir/src/tree/utils.rs` 18-21, 64-76, 117-123, 146-160 |
| `Analyzer/Offer` | `analyzer/src/analysis/actions/entity.rs` 29-36, 55-62, 118-189, 278-285, 310-317, 333-340, 359-366, 385-392, 412-419, 447-454, 473-480; `analyzer/src/analysis/actions/item.rs` 16-130, 296-663, 708-736; `analyzer/src/analysis/text_edit/common.rs` 154-191; `analyzer/src/analysis/utils.rs` 1285-1440, 1715-1725, 1777-1827 |
| `Analyzer/Overlap` | `analyzer/src/analysis/diagnostics/chain_extension.rs` 152-326, 385-476, 496-517; `analyzer/src/analysis/diagnostics/contract.rs` 244-579; `analyzer/src/analysis/utils.rs` 1533-1624, 1968-1983; `ir/src/traits/shared.rs` 64-72; `ir/src/tree/utils.rs` 110-113 |
| `Analyzer/Project` | `analyzer/src/codegen.rs` 13-29, 33-106; `analyzer/src/codegen/snippets.rs` 100-276, 497-595; `analyzer/src/utils.rs` 6-20 |
| `Analyzer/Remove` | `analyzer/src/analysis/utils.rs` 1468-1502, 1532-1624; `ir/src/attrs/meta.rs` 195-223 |
| `Analyzer/RemoveRead` | `analyzer/src/analysis/diagnostics/contract/ink_impl.rs` 165-184; `ir/src/tree/utils.rs` 116-118 |
| `Analyzer/Reserved` | `analyzer/src/analysis/diagnostics/common.rs` 77-104; `analyzer/src/resolution.rs` 14-30 |
| `Analyzer/Root` | `analyzer/src/analysis/diagnostics/contract.rs` 631-649, 660-674; `analyzer/src/analysis/diagnostics/contract/ink_impl.rs` 346-359; `ir/src/ink_impl.rs` 10-19, 74-83; `ir/src/tree/utils.rs` 24-61, 136-255 |
| `Analyzer/Scale` | `analyzer/src/analysis/diagnostics/common.rs` 1968-2248 |
| `Analyzer/ScaleText` | `analyzer/src/analysis/diagnostics/common.rs` 1968-2248; `analyzer/src/analysis/utils.rs` 2077-2085 |
| `Analyzer/Scope` | `analyzer/src/analysis/diagnostics/common.rs` 1141-1193, 1782-1907; `analyzer/src/analysis/diagnostics/contract.rs` 24-60, 176-242; `analyzer/src/analysis/diagnostics/file.rs` 64-98; `ir/src/attrs.rs` 132-139 |
| `Analyzer/Signature` | `analyzer/src/analysis/signature_help.rs` 10-378; `ir/src/attrs/args.rs` 357-404 |
| `Analyzer/Snippet` | `analyzer/src/analysis/text_edit/common.rs` 28-39, 124, 144, 181, 214, 231, 262, 302-341, 435, 457; `analyzer/src/codegen/snippets.rs` 10-50, 55-98; `ir/src/chain_extension.rs` 15-18 |
| `Analyzer/Suggest` | `analyzer/src/analysis/actions/attr.rs` 11-106; `analyzer/src/analysis/actions/item.rs` 133-293; `analyzer/src/analysis/completions.rs` 283-470; `analyzer/src/analysis/utils.rs` 535-721 |
| `Analyzer/Tables` | `analyzer/src/analysis/utils.rs` 20-444, 482-533 |
| `Analyzer/Templates` | `analyzer/src/analysis/actions/entity.rs` 202-219, 223-240, 244-265; `analyzer/src/analysis/diagnostics/chain_extension/error_code.rs` 107-108; `analyzer/src/analysis/diagnostics/contract.rs` 467-475; `analyzer/src/analysis/diagnostics/environment.rs` 111-112; `analyzer/src/analysis/text_edit.rs` 13-21; `analyzer/src/analysis/text_edit/common.rs` 28-59, 76-151, 175, 210-347, 351-478; `analyzer/src/codegen/snippets.rs` 3-8, 52-53, 278-495 |
| `Analyzer/Text` | `analyzer/src/analysis/utils.rs` 1188-1213, 1922-2021 |
| `Analyzer/TraitImpl` | `analyzer/src/analysis/diagnostics/contract/ink_impl.rs` 361-928; `analyzer/src/analysis/text_edit.rs` 47-50, 57-64; `analyzer/src/analysis/utils.rs` 2054-2061; `ir/src/attrs/meta/value.rs` 235-243; `ir/src/ink_impl.rs` 74-83 |
| `Analyzer/Walk` | `analyzer/src/analysis/diagnostics/chain_extension.rs` 29-78, 252-257, 268-274, 482-494; `analyzer/src/analysis/diagnostics/chain_extension/extension_fn.rs` 56-62; `analyzer/src/analysis/diagnostics/common.rs` 1637-1671; `analyzer/src/analysis/diagnostics/contract.rs` 27-112, 679-691; `analyzer/src/analysis/diagnostics/contract/constructor.rs` 50-56; `analyzer/src/analysis/diagnostics/contract/ink_impl.rs` 933-945; `analyzer/src/analysis/diagnostics/contract/storage.rs` 35; `analyzer/src/analysis/diagnostics/event.rs` 19-62, 94-109; `analyzer/src/analysis/diagnostics/event/topic.rs` 25; `analyzer/src/analysis/diagnostics/file.rs` 13-57; `analyzer/src/analysis/diagnostics/ink_e2e_test.rs` 27-33; `analyzer/src/analysis/diagnostics/ink_test.rs` 29-35; `analyzer/src/analysis/diagnostics/message.rs` 48-50; `analyzer/src/analysis/diagnostics/storage_item.rs` 25; `analyzer/src/analysis/diagnostics/trait_definition.rs` 24-60, 86-90, 208-220; `ir/src/contract.rs` 22-27; `ir/src/file.rs` 16-27; `ir/src/ink_impl.rs` 47-83; `ir/src/traits/ast_type.rs` 33-43; `ir/src/tree/ast_ext.rs` 12-45; `ir/src/tree/utils.rs` 136-255; `macro/src/entity.rs` 88-100 |
| `Basic` | `ir/src/lib.rs` 115-120; `lsp-server/src/dispatch.rs` 125-128; `lsp-server/src/dispatch/handlers/request.rs` 322-323 |
| `Ir/Attr` | `ir/src/attrs.rs` 16-101; `ir/src/attrs/args.rs` 12-31, 57-59, 64-66; `ir/src/attrs/parser.rs` 10-19 |
| `Ir/Cover` | `analyzer/src/analysis/utils.rs` 1216-1256; `ir/src/tree/ast_ext.rs` 12-23; `ir/src/tree/item_at_offset.rs` 20-48 |
| `Ir/Entities` | `ir/src/tree/ast_ext.rs` 27-45; `ir/src/tree/utils.rs` 136-144, 176-184, 216-255; `macro/src/entity.rs` 186-240 |
| `Ir/ItemAt` | `ir/src/tree/ast_ext.rs` 12-82; `ir/src/tree/item_at_offset.rs` 81-90, 98-297 |
| `Ir/Kinds` | `ir/src/attrs.rs` 164-185, 199-205, 209-289, 295-316, 321-342, 347-366; `ir/src/attrs/args.rs` 97-291, 297-338, 343-345, 353-355, 414-427, 431-449, 459-525 |
| `Ir/Meta` | `ir/src/attrs/meta.rs` 26-49, 58-75, 82-97, 105-188; `ir/src/attrs/meta/name.rs` 12-20; `ir/src/attrs/meta/option.rs` 7-15, 34-36; `ir/src/attrs/meta/value.rs` 15-24, 33-77, 86-133; `ir/src/attrs/parser.rs` 22-161 |
| `Ir/Resolve` | `ir/src/tree/ast_ext.rs` 83-300, 327-329, 333-349 |
| `Ir/Selector` | `ir/src/selector.rs` 15-237; `ir/src/traits/shared.rs` 16-18; `ir/src/tree/utils.rs` 116-118 |
| `Ir/Successors` | `ir/src/iter.rs` 5-61; `ir/src/tree/utils.rs` 80-101 |
| `Ir/Syntax` | `ir/src/attrs/meta/value.rs` 64; `ir/src/attrs/parser.rs` 22-127, 131 |
| `Ir/Token` | `ir/src/tree/ast_ext.rs` 46-81; `ir/src/tree/item_at_offset.rs` 12, 20-96 |
| `Ir/Tree` | `ir/src/attrs.rs` 42-57; `ir/src/iter.rs` 38-60; `ir/src/tree/utils.rs` 11-101 |
| `Ir/UseTree` | `ir/src/tree/ast_ext.rs` 342-392 |
| `Ir/Value` | `ir/src/attrs/meta/value.rs` 136-233 |
| `Lsp/Ask` | `analyzer/src/analysis.rs` 56-59, 81-94; `lsp-server/src/dispatch/handlers/request.rs` 8-83, 182-246 |
| `Lsp/Bulb` | `analyzer/src/analysis.rs` 62-80; `analyzer/src/analysis/actions.rs` 17-62; `analyzer/src/analysis/text_edit.rs` 14-22; `lsp-server/src/dispatch/handlers/request.rs` 85-122; `lsp-server/src/translator/to_lsp.rs` 118-219 |
| `Lsp/Capabilities` | `lsp-server/src/initialize.rs` 44, 68-78, 90-97; `lsp-server/src/utils.rs` 13-136 |
| `Lsp/Command` | `analyzer/src/analysis/actions.rs` 17-38; `lsp-server/src/dispatch/handlers/request.rs` 124-180, 249-331; `lsp-server/src/translator/to_lsp.rs` 118-219 |
| `Lsp/Crash` | `analyzer/src/analysis.rs` 62-79; `analyzer/src/analysis/actions.rs` 41-48; `analyzer/src/analysis/actions/attr.rs` 11-14; `analyzer/src/analysis/actions/item.rs` 17-36; `analyzer/src/analysis/completions.rs` 43-68; `analyzer/src/analysis/hover.rs` 22-27; `analyzer/src/analysis/signature_help.rs` 35-40; `analyzer/src/analysis/utils.rs` 1216-1233, 1260-1262; `ir/src/traits/entity.rs` 40-42; `ir/src/tree/item_at_offset.rs` 18-24; `lsp-server/src/dispatch/handlers/request.rs` 8-33, 53-78, 85-103, 212-233 |
| `Lsp/Fall` | `analyzer/src/analysis/extract.rs` 29-33; `lsp-server/src/dispatch.rs` 27-63, 77-99, 143-158; `lsp-server/src/dispatch/handlers/command.rs` 138-156; `lsp-server/src/dispatch/handlers/request.rs` 9-121, 183-246, 317-331; `lsp-server/src/dispatch/routers/request.rs` 31-89 |
| `Lsp/Manifest` | `lsp-server/src/dispatch/handlers/command.rs` 291-394 |
| `Lsp/Memory` | `lsp-server/src/memory.rs` 5-8, 12-64 |
| `Lsp/Package` | `lsp-server/src/dispatch/handlers/command.rs` 166-210, 241-246, 272-286, 402-450 |
| `Lsp/Position` | `lsp-server/src/translator.rs` 20; `lsp-server/src/translator/from_lsp.rs` 8-45; `lsp-server/src/translator/to_lsp.rs` 11-49, 239-260 |
| `Lsp/Project` | `lsp-server/src/dispatch.rs` 252-262, 421-549; `lsp-server/src/dispatch/handlers/command.rs` 291-394; `lsp-server/src/utils.rs` 139-161 |
| `Lsp/Screen` | `analyzer/src/analysis.rs` 50-52; `analyzer/src/analysis/diagnostics.rs` 71-98; `lsp-server/src/dispatch/actions.rs` 17-24; `lsp-server/src/translator/to_lsp.rs` 51-65 |
| `Lsp/Server` | `lsp-server/src/dispatch.rs` 27-418; `lsp-server/src/dispatch/actions.rs` 7-38; `lsp-server/src/dispatch/handlers/notification.rs` 10-54; `lsp-server/src/dispatch/handlers/request.rs` 9-121, 183-246; `lsp-server/src/dispatch/routers/notification.rs` 8-11, 23-54; `lsp-server/src/dispatch/routers/request.rs` 8-13, 31-89, 93-104; `lsp-server/src/initialize.rs` 13; `lsp-server/src/utils.rs` 115-120 |
| `Lsp/Session` | `lsp-server/src/initialize.rs` 9-102; `lsp-server/src/main.rs` 39-53 |
| `Lsp/SignatureHelp` | `analyzer/src/analysis/signature_help.rs` 10-22; `lsp-server/src/translator/to_lsp.rs` 263-338 |
| `Lsp/Translate` | `analyzer/src/analysis/actions.rs` 17-28; `analyzer/src/analysis/completions.rs` 16-52; `analyzer/src/analysis/diagnostics.rs` 48-68; `analyzer/src/analysis/hover.rs` 9-16; `analyzer/src/analysis/inlay_hints.rs` 10-22; `analyzer/src/analysis/signature_help.rs` 9-32; `lsp-server/src/dispatch/handlers/request.rs` 8-122, 182-246; `lsp-server/src/translator.rs` 10-23; `lsp-server/src/translator/to_lsp.rs` 11-117, 127-134, 221-338 |
| `Lsp/Workspace` | `analyzer/src/analysis/extract.rs` 14-26; `lsp-server/src/dispatch.rs` 77-99; `lsp-server/src/dispatch/handlers/command.rs` 13-288, 452-538; `lsp-server/src/dispatch/handlers/request.rs` 162-176 |
| `Migrate/Derive` | `analyzer/src/analysis/migrate.rs` 41-335; `analyzer/src/analysis/utils.rs` 1471-1487, 2077-2085 |
| `Migrate/E2e` | `analyzer/src/analysis/migrate/e2e_test.rs` 86-92, 109, 308-598, 607-669; `analyzer/src/analysis/migrate/traversal.rs` 30-192 |
| `Migrate/HostFn` | `analyzer/src/analysis/migrate/common.rs` 8-28; `analyzer/src/analysis/migrate/host_fn.rs` 13-21, 36-257; `analyzer/src/analysis/migrate/traversal.rs` 143-192 |
| `Migrate/Imports` | `analyzer/src/analysis/migrate/e2e_test.rs` 177-304; `analyzer/src/analysis/text_edit.rs` 57-64; `analyzer/src/analysis/utils.rs` 1504-1530 |
| `Migrate/TestFn` | `analyzer/src/analysis/migrate/e2e_test.rs` 37-175; `analyzer/src/analysis/utils.rs` 1533-1644 |
| `Migrate/Whole` | `analyzer/src/analysis/migrate.rs` 18-40; `analyzer/src/analysis/migrate/e2e_test.rs` 16-35, 100-175; `analyzer/src/analysis/text_edit.rs` 67-72 |
| `Util/Sort` | `analyzer/src/analysis/actions.rs` 97-103; `analyzer/src/analysis/actions/item.rs` 666-706; `analyzer/src/analysis/diagnostics.rs` 93-97; `ir/src/attrs.rs` 82; `ir/src/attrs/meta.rs` 225-227 |

## Where the code does not meet the claim

Each item is a theorem with a concrete witness (or a general statement) that the full claim is false of
the code; the matching `_partial` theorems say what holds.

* `C05_negation`: **C05 is false of the code**: a `didOpen` notification with unreadable parameters ends the message loop.
* `C11_negation`: **C11 is false of the code**: for a client which only lists `quickfix` (and something the server does not know) the server advertises only `quickfix`, but emits the other kinds just the same; and `refactor.extract` is never advertised.
* `C13_negation`: With a name which has a character whose lowercase is not a single letter, the package name has a character which is neither a lowercase letter, nor a digit, nor a hyphen.
* `C14_recognised_negation`: When the dependency was inherited from the workspace, the migrated project need not be recognised as ink! 5: the entry keeps `workspace = true` and the workspace decides.
* `C16_inherited_negation`: A package that inherits its requirement from the workspace table of its own manifest is not recognised: the search for the workspace starts one directory above.
* `C16_major_negation`: A requirement for any 5.x version can be taken for ink! 4.
* `C16_minor_negation`: A 4.x requirement can be taken for ink! 5.
* `C20_count_negation`: The count clause is false as stated: consecutive commas are grouped, so `a,,b` has two commas and two items, while `a,,,b` has three commas and still only two items, and `,` has one comma and no item.
* `C20_range_negation`: Computing a range is *not* total: for `#[ink((a)=)]` (an argument that starts with a nested parenthesised list and has no value) `text_range` panics.
* `C20_range_negation_name`: Also `#[ink((a) x)]` panics, without any `=`.
* `C21_negation`: The claim is false for literals with separators, suffixes or other radices: Rust reads `1_000`, `1u32`, `0xFF_FF` and `0b1`, the analyzer rejects them.
* `C22_negation_namespace`: The constructors or messages with the same name of two `impl`s of the same trait (or of none) get the same selector if their namespaces are raw string literals with as many hashes, whatever the namespaces are: they are reported as overlapping (see C38).
* `C22_trait_negation`: `impl ::a::C for …` uses `C` although the path is absolute, and `impl a::b::C for …` uses the full path although it is relative.
* `C25_negation`: `use a::{{self}};` imports `a`, but flattening loses it.
* `C26_negation_globs`: Resolution does not terminate for modules that re-export each other with globs.
* `C26_negation_module`: Resolution does not terminate for a reference from a module, e.g. the environment of `#[ink::contract(env = crate::E)] mod c { use super::*; use crate::E; }` where `E` is not an item of the file: the code resolves again what the module itself imports. No import is cyclic here.
* `C26_negation_two_globs`: Resolution does not terminate for any qualified path into another crate in a file with two glob imports from other crates, e.g. `ink::env::DefaultEnvironment` in a file with `use ink::*; use std::*;`.
* `C28_negation_conflict`: The claim is false for ambiguous primary arguments: on `#[ink(namespace = "…", keep_attr = "…")]` (accepted without a conflict) the argument `impl` is suggested, although no ink! attribute takes both `impl` and `keep_attr`.
* `C28_negation_scope`: The scope clause is false for scopes that allow no ink! arguments: on an `#[ink(event)]` struct inside an `#[ink(message)]` function, `anonymous` is suggested although nothing is allowed there.
* `C28_negation_trait_impl`: Attribute actions and completions do not look at the item: inside `#[ink(impl)]` on a trait implementation `namespace` is suggested, which the code action on the item itself rightly leaves out.
* `C29_negation`: The claim is false for ink! 5: `extension` is suggested as the primary of `handle_status` (and `ink_e2e::test` as the primary of `keep_attr`), although the two may not be combined in ink! 5.
* `C31_negation`: For every preferred name there are 254 taken names for which a taken name is suggested.
* `C31_negation_handler`: The message offered as the complement of a wildcard selector is not given a name free in the contract: it is always named `my_message`.
* `C31_negation_v5`: In ink! 5 the existing functions are not considered: adding a function twice gives two functions with the same name and the same id.
* `C32_negation`: With a final line feed, or with Windows line endings, indenting changes more than line starts and cannot be undone.
* `C33_negation`: A line indented with a tab followed by a space gets the indent "space, tab".
* `C34_negation_panic`: Replacing part of a whitespace token can panic, if the token contains a wide character: the whitespace is split at the distance of the edit from the end of the token.
* `C34_negation_unaligned`: A delete that ends inside a token takes the rest of the token along.
* `C35_negation`: Two diagnostics whose edits differ in whitespace only can both be reported although they offer the same edits after formatting.
* `C39_negation_exhausted`: When all ids are in use, 1 is suggested over and over.
* `C39_negation_streams`: A trait with two functions of id 1 and one without id: the same new id is proposed twice, so that applying both quickfixes gives overlapping ids again.
* `C40_negation`: Two messages with wildcard selectors without a report, and a single message with a report.
* `C42_negation`: The full claim fails: `message(x)`, `selector = 1(x)` and `backend(node =)` are accepted, and an unknown argument is accepted with a warning only.
* `C42_negation_topic`: 64 spaces are accepted as the 32 bytes of a signature topic.
* `C43_negation_first`: The claim is false for the first attribute: in `#[ink(storage)] #[ink::contract]` the `storage` attribute conflicts with `ink::contract`, but only "`#[ink::contract]` should be the first ink! attribute" is reported.
* `C43_negation_pair`: False conflict: `#[ink::storage_item(derive = false)] #[ink::scale_derive(Encode)]` is valid ink! 5 (each attribute alone is accepted and the two macros may be combined), yet `Encode` is reported as conflicting with the `storage_item` macro.
* `C45_negation`: The full claim fails: the module of the project `xMyContract` is named `xXMyContract`.
* `C46_negation`: The full claim fails: the rename of `__ink___in__ink_k_x` is `__ink_x`, which is reported, and the rename of `__ink_1` is `1`, which is no identifier.
* `C47_negation`: The full claim fails: for an item `T` in `mod a { mod b { … } }` the path is `crate::b::a::T`.
* `C48_negation`: The full claim fails: in version 5 the quickfix for `#[ink::scale_derive(Encode)]` replaces it by `#[ink::scale_derive(Decode, TypeInfo)]`, and `Encode` is no longer derived.
* `C48_negation_report`: Moreover a type may be reported although it has all traits, if it derives them by a second `derive` attribute, and an empty `derive` attribute gets a list that starts with a comma.
* `C49_negation_chained`: C49 is false: the call chained to a message builder call is replaced as a whole, and so are calls inside of it.
* `C49_negation_event`: C49 is false: the deletion of a legacy event overlaps the edit of a SCALE derive on it.
* `C49_negation_nested`: C49 is false: in `x.call(s, client.balance(a), v, l)` both the inner name and the whole argument list are replaced.
* `C50_negation_condition`: C50 is false: a client call in the condition of an `if` is not rewritten.
* `C50_negation_receiver`: C50 is false: a call of `balance` on any other receiver is rewritten too.
* `C51_negation_comment`: A comment between the argument and its comma is removed with them.
* `C51_negation_name`: Of an argument whose name is not a single identifier only the last element is removed: removing `a b` from `(message, a b)` leaves `(message, a )`.
* `C51_negation_nested`: The closing parenthesis of a nested argument is left behind: removing `backend(node)` from `(backend(node), payable)` leaves `(), payable)`, and removing it from `(payable, backend(node))` leaves `(payable))`.
* `C51_negation_space`: With a space before the closing parenthesis the comma stays: removing `selector = 1` from `(message, selector = 1 )` leaves `(message, )`.
* `C54_negation`: C54 is false as stated: the trait definition declares the message `get` and a method `aux` that is not a message; an implementation with functions `get` and `aux` (or with only unexpected methods) has no diagnostic, although `aux` is not a message.
* `C55_negation`: **C55 is false of the code**: an `extractEvent` command whose range is inverted panics.
* `C56_negation_order`: Ties are *not* in source order in general: `#[ink(selector = 1)] #[ink(message, default)]` becomes `#[ink(message, default, selector = 1)]`.
* `C56_negation_unknown`: The path of the primary attribute is *not* kept if it is an unknown macro: `#[ink::xyz] #[ink(message)]` becomes `#[(message)]`, which is not an ink! attribute.
* `C57_negation`: The full claim fails: a contract with exactly one storage struct, annotated twice, is reported to have an extra storage: that very struct.
* `C58_negation`: The full claim fails: kinds not allowed in the scope are not reported when another attribute leads the item (even an unknown one), nor is `extension` in an ink! 5 chain extension.
* `C60_boundary_negation`: In UTF-8, a column inside a multi-byte character is accepted and gives an offset which is not a character boundary.
* `C60_negation`: A position after the end of its line, or even of the document, is accepted and gives an offset outside of the document.
* `C60_overflow_negation`: With overflow checks on, a client range can crash the translation: a range ending at the largest column of the second line of a two-line document.
* `C63_negation`: C63 is false where it says that nothing further is reported for the added functions: a stub has no ink! attribute, so it is always reported for the missing `message` argument.
* `C64_negation`: C64 is false as stated: `(&self, a:u8)` is reported against the declared `(&self, a: u8)`, although the two differ in whitespace only.
* `C66_negation`: C66 is false for conditional derives: of two `derive`s in one `cfg_attr` only the first is migrated. Its condition is lost: the derive under condition `x` becomes unconditional.
* `C67_negation`: C67 is false: the text of the attribute is replaced in comments too.
* `C68_negation`: In a file which uses all ids from 1 on, each chain extension without `extension` argument gets the id 1 nevertheless.
* `C70_negation_single`: With a single chain extension, a field for the inexistent `Extension2` is inserted as well.
* `C72_negation_depth`: The indent of the items of a block is computed by doubling the indent of the block's item: from the second level on, the new item is not lined up with its neighbours. Here a function is put into an implementation block that is indented by 8 and whose items are indented by 12.
* `C73_negation_field`: `scale_derive` is listed inside of a field with a `topic` attribute, which holds no types.
* `C73_negation_topic`: In a contract whose attribute starts with `env` or `keep_attr`, `signature_topic` is not listed, although the contract takes it.
* `C74_negation_body`: The fix that removes the body of a trait function leaves neither a body nor a semicolon.
* `C74_negation_glue`: The fix for a visibility that is directly followed by `fn` joins the two keywords.
* `C74_negation_value`: The fix for a receiver by value keeps it, behind the new one.
* `C74_negation_variadic`: The fix for a named variadic parameter leaves its name and colon.
* `C75_negation_alias`: An alias for an unqualified path is not followed: `X` is not found in `struct Y; type X = Y;`.
* `C75_negation_global`: A leading `::` before a single name is ignored: `::X` finds the item of the current module.
* `C75_negation_nested`: A module inside of another module is never entered by name: `self::b::S` (or `b::S`) is not found in module `a` of `mod a { mod b { struct S; } }`.
* `C75_negation_own`: The imports of a reference module are used for qualified paths as well: seen from the module `c` of `mod d { struct X; } mod c { use super::d::X; }`, the path `super::X`, which denotes nothing, is resolved to `d::X`.
* `C75_negation_super`: A repeated `super` is not followed: `super::super::S` is not found in module `a::b` of `struct S; mod a { mod b { .. } }`.
* `C75_negation_text`: A re-export with the same text as the import that leads to it is not followed: `X` is not found in module `b::c` of `struct X; mod b { pub use super::X; mod c { use super::X; } }`.
* `C76_negation_empty`: So is the white space of an empty argument list: `#[ink( )]` has one argument.
* `C76_negation_trailing`: White space after a trailing comma is read as an argument: `#[ink(message, )]` has two.
* `C77_negation_data`: **C77 is false of the code** (data): a client which resolves edits but does not keep the data of an action gets actions which only carry data.
* `C77_negation_literals`: **C77 is false of the code** (literals): code actions are sent to a client which did not announce code action literals and therefore only understands commands.
* `C77_negation_resolve`: **C77 is false of the code** (resolving): a client which resolves edits and keeps data, but lists no kind of code action the server knows, gets an action without edit or command from a server which did not announce that it resolves.
* `C78_negation_both`: A single type with another name gets two reports whose quick fixes, applied together, give two `ErrorCode` types.
* `C78_negation_default`: The default type for a type with neither `=` nor semicolon is inserted in front of it.
* `C78_negation_inline`: The quick fix for a contract module with neither a body nor a semicolon deletes the contract.
* `C78_negation_rename`: A type with another name next to the `ErrorCode` type gets the same quick fix as the only type: renaming it gives two `ErrorCode` types, where there was no report on their number.
* `C78_negation_wildcard`: A wildcard of any argument is reported as a wildcard selector.
* `C79_negation_brackets`: To a list in square brackets a second list in parentheses is added.
* `C79_negation_empty`: Between parentheses with just white space a comma is inserted in front of the argument, or behind it when it is a primary one.
* `C79_negation_move`: Moving the last argument of a list with a trailing comma to the front leaves white space behind the trailing comma, which the analyzer takes for a further argument.
* `C79_negation_trailing`: Behind a trailing comma followed by white space another comma is inserted.
* `C80_negation_alone`: Without an attribute to extend, the first id is suggested whatever ids are in use: on an associated function without ink! attributes the action inserts `function = 1`.
* `C80_negation_exhausted`: When all ids are taken, the first one is suggested again.
* `C80_negation_split`: The selector suggested for a constructor may be that of another one, if its argument `constructor` is in another attribute.
* `C80_negation_topic`: The default value of `signature_topic` is not accepted.
* `C81_negation_bracket`: With a space in front of the closing bracket, the bracket is in focus and is replaced: `#[ ]` becomes `#[ ink::contract` and the attribute is not closed any more.
* `C81_negation_crate`: On the name of the crate in a complete path, the macro is written twice.
* `C81_negation_name`: Between the colons and the name of a macro, the name is written twice.
* `C81_negation_nested`: Any opening bracket counts, also one among the arguments of another attribute.
* `C81_negation_word`: In front of a word that is already there, the macro is glued to it.
* `C82_negation_glued`: Accepting a completion in front of another argument joins the two names: `#[ink(payable)]` becomes `#[ink(messagepayable)]`.
* `C82_negation_nested`: Accepting a completion for a nested argument that has been started leaves its closing parenthesis behind the new one: `#[ink_e2e::test(backend(run))]` becomes `#[ink_e2e::test(backend(node)))]`.
* `C82_negation_paren`: Accepting a completion in front of the closing parenthesis, behind `, `, replaces the parenthesis: `#[ink(message, )]` becomes `#[ink(message, payable]`. (Between white space and another token, the token in focus is the other token.)
* `C83_negation_code`: Other code on the line is replaced as well: in `pub struct A; st`, accepting a completion for `st` deletes the struct in front of it.
* `C83_negation_comment`: A comment over several lines in front of the line is deleted if it is indented itself.
* `C83_negation_literal`: With a literal over several lines on the line, all of its lines are replaced.
* `C83_negation_shown`: The label of an extension does not show its attribute as it is inserted.
* `C83_negation_trailing`: A comment behind the word is deleted: `st // keep`.
* `C84_negation_derive`: Finding: an ink! attribute inside an item whose leading attribute is `scale_derive` (ink! 5) is neither checked nor reported: no rules are run on such an item.
* `C84_negation_function`: Finding: `#[ink(function = …)]` in an ink! 5 chain extension on something else than a function of the trait, here a function inside a default body, is neither checked by the rules for extension functions nor reported as misplaced. (The same attribute spelled `extension` is checked.)
* `C84_negation_impl`: Finding: `#[ink(impl)]` on something that is not an item, such as a struct field, in a contract is neither checked by the rules for ink! impls nor reported as misplaced.
* `C84_negation_trait`: Finding: an `impl` of an ink! trait definition in a contract is not found as an ink! impl unless it has an ink! attribute on or in it: `impl` items are looked for among the children of the module node, where there are none. An implementation of an ink! trait in which all ink! attributes are missing is therefore not checked at all.
* `C85_negation_dropped`: Finding: other ink! attributes of the event are lost, here a `scale_derive` macro.
* `C85_negation_glued`: Finding: a comment between two words of the declaration is moved in front, and the whitespace behind it is dropped; if there was none before it, the words are glued together.
* `C85_negation_inner`: Finding: the import is put in front of inner attributes of the module, which must come first.
* `C85_negation_private`: Finding: an event or a field that is private to the contract stays private in its new package, where the contract can no longer import the event or set the field; and the file of the new package has no `no_std` attribute.
* `C86_negation_inner`: The type arguments of a local type are not looked at: for `fn f(&self, x: A<B>)` with local types `A` and `B`, only `A` is checked, although `A<B>` can be encoded only if `B` can.
* `C87_negation_string`: Moving an item changes the string literals of more than one line in it, because their lines are re-indented too.
* `C87_negation_trait`: A misplaced message is moved into the `impl` block of a trait next to it, which cannot have further methods, although the contract has an `impl` block of its own.
* `C88_negation_closing`: Full claim of `C88_body_partial`: no. In `mod m {⏎}` with the cursor right before the closing bracket, the focused token is the bracket, and a test goes behind it, outside of the module.
* `C88_negation_selection`: Full claim of `C88_body_partial`: no. If both line breaks and the `use` between them are selected in `mod m {⏎use x;⏎}`, then the element around them is the whole list, and a test goes behind it, outside of the module.
* `C88_negation_tuple`: The topic of `struct S(u8);` is a field with a name in a list of fields without names, which is no Rust.
* `C89_negation_crate_alias`: An item imported by way of an alias of its crate is not recognised.
* `C89_negation_glob`: The analyzer does not terminate for a crate that re-exports a module with a glob, if that module imports its parent with a glob, as is usual for modules of tests: `pub use a::*; mod a { use super::*; }`. The search never ends, whatever path is asked for (unless it is spelled in full).
* `C89_negation_global`: `::i::scale::Encode` is recognised where `i` is only an alias of the module, although a leading `::` stands for the crates themselves: there is none named `i`.
* `C89_negation_global_name`: `::Encode` is recognised where `Encode` is only imported, although a leading `::` makes it the name of a crate.
* `C89_negation_qualified`: An item that a module of the crate imports is not recognised by its path in that module, e.g. `impl prelude::Encode for S {}`.
* `C89_negation_rename`: A module that renames what another module of the crate imports: the new name is not recognised, and the old one is, although the module that uses it does not import it.
* `C89_negation_shadow`: With a glob import of the crate, a name is recognised as an item of it although the file imports that name from elsewhere, which takes precedence in Rust.
* `C89_negation_type_alias`: The analyzer does not terminate for a path to a type alias that refers to itself, e.g. for `impl A for X {}` while `type A = B; type B = A;` is in the file (which does not compile, but is what the editor may hold).
* `C90_negation_again`: The migration is not idempotent: in `ink::env::call::build_create().instantiate_v1()` the call of `instantiate_v1` is added again.
* `C90_negation_alias`: With `use ink::env::invoke_contract as ic;` the call `ic(p)` becomes `ic_v1(p)`, which stands for nothing.
* `C90_negation_condition`: Calls in conditions are not changed: `if ink::env::invoke_contract(p) {}`.
* `C90_negation_import`: With `use ink::env::invoke_contract;` the call `invoke_contract(p)` becomes `invoke_contract_v1(p)`, but the import stays, and so the new name stands for nothing.
* `C90_negation_nested`: The arguments of a changed call are not looked into: in `ink::env::invoke_contract(ink::env::call::build_create())` only the outer call is changed.
* `C90_negation_receiver`: The method `invoke_contract` gets a new name after any method call, e.g. in `self.token().invoke_contract(p)`, although only `self.env()` is the environment: the result does not compile.
* `C91_negation_global`: `use ::ink_e2e::build_message;` stays, although it imports a deprecated item.
* `C91_negation_nested`: Lists in lists of `ink_e2e` are not looked into.
* `C91_negation_overlap`: If a list ends with both deprecated items, then the comma between them is removed twice: the edits overlap, which editors refuse; applied one after the other they leave a comma and remove what comes next.
* `C92_negation_nested`: The fix for `E` in `mod a { mod b { struct E; } }` writes the modules in the wrong order: `crate::b::a::E` instead of `crate::a::b::E`; it denotes nothing, and is reported again with the same fix.
* `C92_negation_renamed`: An environment that implements the trait by an `impl` for another name of the type is reported.
* `C92_negation_same_name`: An `impl` for another type of the same name hides that the environment does not implement the trait.
* `C92_negation_second`: Only the first `impl` of the trait is considered for a fix: if it is not for a type of the file, no fix is offered although the file has an environment.
* `C93_negation_file`: Whatever follows the first inner attribute of a file, the import of a test at the top of the file goes before that attribute, unless a doc comment follows it: Rust rejects the file.
* `C93_negation_generics`: A function with generic parameters gets a second list of them, which Rust rejects.
* `C93_negation_module`: The import of a test in a module without `use` goes before the inner attributes and doc comments of the module: Rust rejects the module.
* `C93_negation_overlap`: If the last two arguments go and another stays, both deletions contain the comma between the two: the edits of every such attribute overlap, and an editor rejects them.
* `C94_negation_any`: `#[cfg(any(test, std))]`: counts as one for tests, but the code it guards is compiled without as well.
* `C94_negation_comment`: `#[cfg(test /* unit */)]`: does not count as one for tests, although a comment changes nothing.
* `C94_negation_not`: `#[cfg(not(test))]`: counts as one for tests, but guards code that is compiled for everything else.
* `C94_negation_split`: A module with `#[cfg(feature = "e2e-tests")]` in a module with `#[cfg(test)]` is compiled for e2e tests only, but `ink_e2e::test` is not suggested there.
* `C94_negation_string`: `#[cfg(feature = "(test)")]`: counts as one for tests because of the text of the string.
* `C94_negation_without`: `#[cfg(all(test, not(feature = "e2e-tests")))]`: counts as one for e2e tests, but the code it guards is never compiled with that feature.
* `C95_negation_cfg`: `struct E(#[cfg(a)] u8)`: the `cfg` attribute of a field in parentheses is not reported.
* `C95_negation_topic`: `struct E(#[ink(topic)] u8)`: the topic is a field of a struct, but is reported as being none.
* `C96_negation_dependency`: Finding: the new dependency is entered under the name of the package, even if the directory got a number because that package already exists. A dependency with that name is then replaced: here an event with the name of an extracted one, on whose package the contract depends, takes its place.
* `C96_negation_order`: Finding: if the event directly follows the place of the import, the edits of the source are a removal followed by an insertion at the same place. The protocol only allows insertions before a removal, so a client may refuse the whole edit.
* `C96_negation_resolve`: Finding: a code action which is resolved lazily creates files whatever the client announced, also if it cannot create files (for a command, the server asks first).
* `C96_negation_unsaved`: Finding: the manifest is read from disk although the client applies the edit to the open document. Here the user has added a dependency without saving: the migration succeeds, but the dependency, which a migration removes, stays behind the migrated text.
* `C97_negation_brace`: Finding: an attribute being typed at the end of a module is taken for an attribute of the item behind the module: here `mod m { #[ink( } fn f`.
* `C97_negation_crate`: Finding: before `pub(crate) mod`, `async fn` and `unsafe impl`, whose first words are neither `pub` nor the keyword, nothing is known of the item.
* `C98_negation_two`: Finding: two chain extensions of a file that both lack an id are given the same one, so that applying both fixes makes their ids overlap.
* `C99_negation_between`: **C99 is false of the code** (any other message): a notification that may be ignored, sent between the response to `initialize` and `initialized`, ends the server.
* `C99_negation_params`: **C99 is false of the code** (no answer): an `initialize` request whose parameters do not deserialize ends the server, and the request is never answered.
* `C100_negation_function`: The fix for a missing constructor adds a second function of the same name to the `impl` block if that has one that is not annotated.
* `C100_negation_impl`: Of the ink! impls of a contract, only those that implement an ink! trait definition are ever reported, so that the constructor and the message offered are always functions for the `impl` block of a trait, which cannot have functions of its own.
* `C100_negation_struct`: The fix for a missing storage adds a second `struct` of the same name if the contract has one that is not annotated.
* `C100_negation_trait_function`: The fix for a trait definition without messages adds a second function of the same name if the trait has one that is not annotated.
* `C100_negation_type`: Constructors and messages are added to the first `impl` block of no trait in the contract, even if that is one for another type than the storage.
* `C101_negation_twice`: If the attribute is given twice, applying the fix leaves the item reported.
* `C102_negation_topic`: The action that adds a signature topic to `#[ink::event]` gives it the value `""`, which the analyzer then reports.
* `C103_negation_comment`: C103 is false for a comment at the end of the list: behind a trailing comma a second one is added, and a comma at the end of a comment counts as separator.
* `C103_negation_empty`: C103 is false for an empty `derive`: the list gets a comma in front of the first name.
* `C104_negation_enum`: The action that adds an event gives it the name of an `enum` of the contract: only the names of `struct`s are considered.
* `C104_negation_extension`: The action that adds a function to an ink! 5 chain extension gives it the name and the id of one that is there: only functions annotated as extensions are considered.
* `C104_negation_topic`: The action that adds a topic at the cursor puts no comma behind the field before: adding one behind `a: u8` gives no list of fields.
* `C105_negation_trailing`: With a comma behind the last argument, the white space before it stays and is read as an argument: removing `payable` from `(message, payable,)` leaves `(message, )`, which has an argument of unknown kind.
* `C106_negation_trailing`: Behind a trailing comma with white space a second comma is added: between the two commas there is no argument, so that the code does not compile.
* `C107_negation_both`: A message with both selectors counts as complement when the quickfix is chosen, and as wildcard when the rule is checked. So the only other message is to be removed, although the complement selector there would do.
* `C107_negation_hollow`: Removing the complement selector where it is the only argument leaves `#[ink()]`, an attribute of unknown kind.
* `C107_negation_together`: Two messages beside a wildcard message: if the quickfixes of both reports are applied at once, both have the complement selector and one of them is reported again, to be removed.
* `C108_negation_impl`: Finding: what the documentation of the entities says of `cast`, that the node can be an attribute or an item, does not hold of ink! impls. The impl is there, but not from its own attribute.
* `C108_negation_twice`: Finding: an item with the same attribute twice is listed twice among the entities of a contract, and so the rules for it are run twice, and whatever they report is reported twice.
* `C109_negation_renamed`: Finding: the quickfixes for functions without an explicit selector append a `2` to the name. Of three functions with the same name, the second and the third get the same new name, and overlap again when both quickfixes are applied; whatever the hash function.
* `C109_negation_taken`: Finding: the new name is not compared with the names in use. Renaming one of two functions `flip` in a contract that has a `flip2` makes the `flip2` overlap, which was not reported before.
* `C110_negation_comment`: A comment behind the name ends up behind the value, which is then not read: an expression has to be the whole text (`someExprs` is `none` for `1 /* c */`, as is the parser of the code). The same quickfix is offered again and again.
* `C110_negation_hollow`: The quickfixes for `backend()` replace the parentheses: `backendnode`.
* `C110_negation_nested`: The range of an argument does not include the closing parenthesis of its nested argument. For `selector(1)` the quickfix gives `selector = 1)`.
* `C110_negation_snippet`: The value in a snippet is not escaped: for `node = "a}b"` the snippet ends at the brace of the value.
* `C110_negation_topic`: `signature_topic` gets an empty value, which is reported again, with the same quickfix.
* `C110_negation_value`: For `node = "ws://x"` the quickfix is `node("ws://x")`, for which the quickfix is `node(url)`: the URL is lost.
* `C111_negation_cycle`: With an unknown macro that has arguments, quickfixes can be applied without end: beside `#[ink::foo(message)]`, `message` is added to `#[ink(payable)]` since it lacks it, and removed since it is there twice.
* `C111_negation_lost`: `#[ink(keep_attr)] #[ink::contract(keep_attr)]`: if the second `keep_attr` goes first since it is there twice, then the attribute with the other one goes after it since it conflicts with the macro, and none is left. If the macro is moved to the front first, its `keep_attr` stays.
* `C111_negation_overlap`: Beside `#[ink(event)]`, the fix for `#[ink(anonymous, message, payable)]` deletes `message` with the comma behind it and `payable` with the comma before it. That is the same comma: the two edits of one fix overlap (editors refuse such edits).
* `C112_negation_host`: C112 is false: host functions are migrated in e2e tests too, and an argument of a client call that is changed is replaced as a whole: of `client.call(s, ink::env::call::Call::new(x), v, l)` both the path in the argument and all arguments are replaced.
* `C112_negation_last_use`: C112 is false: if the last `use` item of a module is removed, with white space around it and an item behind it, and an e2e test of the module needs an import, then the import goes into the text that is deleted.
* `C113_negation_enum`: Finding: an extraction is offered for an event attribute of an enum, although only a struct can be extracted.
* `C113_negation_top`: Finding: an extraction is offered for an event at the top of a file, on its attribute as well as on its declaration, although it fails there.
* `C114_negation_comment`: Finding: a comment in front of an item belongs to its declaration if there is no doc comment and no attribute (`// c⏎struct E;`), but not if there is one (`// c⏎/// d⏎struct E;`).
* `C114_negation_panic`: Finding: `struct A(u8) /** d */ where T: C` (the semicolon is missing) makes the code panic: the doc comment is behind the closing parenthesis, so that the declaration would start behind its end.
* `C115_negation_comment`: Finding: a line comment ends in front of the `\n`, so that in a document with `\r\n` the `\r` belongs to it. An edit right behind the comment `//c` is made in front of the `\r` by the client.
* `C115_negation_cr`: Finding: behind a lone `\r` the client and the server mean different places. In `a\rb`, an edit meant for the place behind the `\r` is made in front of it, and the position the client sends for it is not found.
* `C116_negation`: The claim is false of the code: LSP lets a client send a column after the end of the line, which means the end of the line. In the document `a` the column 5 makes completion, signature help, hover and code actions panic.
* `C118_negation`: Finding: behind a lone `\r` the fix of a reported problem cannot be had. In `a\rb`, the client asks for the code actions at the `b`, which is reported with a fix, and gets an error. The answer for the first three characters of line 0 has the fix, but the client inserts its text behind the `a` and leaves the `b`.
* `C119_negation_argument`: In front of the name of an argument that nests others, a completion goes behind the name, away from the cursor: in `#[ink_e2e::test(backend)]` with the cursor in front of `backend`.
* `C119_negation_macro`: Between the two line ends behind `#[`, a macro replaces both: a range over three lines.
* `C120_negation`: Finding: in a text with a lone `\r`, a client that asks about a place behind it gets an error.
* `C121_negation_raw`: A raw string literal is always read as the text in front of its first quote.
* `C121_negation_url`: `url = r"ws://x"` is reported, `url = "ws:\u{2f}/x"` too, although the values contain `://`.
* `C122_negation`: In an ink! 4 project, signature help for `#[ink(function = 1)]` presents an argument that does not exist there, without an explanation, as if it were valid.
* `C124_negation_macro`: In `#[ink::foo()]` on a function, arguments are completed although the attribute can have none; no signature shows them.
* `C124_negation_message`: On a message of an implemented trait definition `payable` is completed, although no action offers to add it (what the message has must be what the trait definition says, C65).
* `C124_negation_namespace`: In `#[ink(namespace = "a", )]` the argument `keep_attr` is completed, but no signature shows it.
* `C124_negation_test`: On a function of a contract that is not compiled for tests, `ink::test` is completed, although no action offers it (see C94).
* `C125_negation_derive`: Of two `derive`s in one `cfg_attr`, the second one is left for a second migration.
* `C125_negation_import`: A call that ink! 5 spells in the same way needs no change, but the import of its trait is added by every migration, whether or not it is there.
* `C125_negation_nested`: Calls in the arguments of a call of the client are left for a second migration: `client.call(a, m, client.balance(a), None)` becomes `client.call(a, m).value(client.balance(a)).submit()`, in which `balance` is renamed the next time.
* `C125_negation_test`: A file with an e2e test is changed always, and a migrated function gets a second list of generic parameters, which Rust rejects.
* `C126_negation`: The claim is false of the code: a client which follows the protocol can end the server. A column after the end of the line means the end of the line, but one hover after the last line of an open document ends the session.
* `C127_negation_deep`: A storage definition in a message is not directly in the contract, but not reported by these checks.
* `C127_negation_twice`: A storage definition with two storage attributes is reported twice.

## Axioms

Axioms of the property theorems as printed by `lean/Verif/Audit.lean`.

* no axioms (12): `C123_endless`, `C123_fused`, `C18_arg_distinct`, `C18_arg_print_parse`, `C18_arg_round_trip`, `C18_macro_distinct`, `C64_negation`, `C67_negation`, `C70_versions`, `C83_labels`, `C94_negation_any`, `C94_negation_comment`
* `propext` (71): `C08_outside`, `C09_ordered`, `C107_negation_hollow`, `C108_agree`, `C111_negation_overlap`, `C113_negation_enum`, `C113_negation_top`, `C114_negation_comment`, `C114_negation_panic`, `C115_negation_comment`, `C115_negation_cr`, `C116_negation`, `C125_negation_derive`, `C13_accepted`, `C13_rejected`, `C18_arg_unknown`, `C18_macro_round_trip`, `C18_macro_unknown`, `C20_range_negation`, `C20_range_negation_name`, `C25_negation`, `C26_found`, `C28_negation_scope`, `C28_negation_trait_impl`, `C29_cooccur`, `C29_entity_types`, `C29_irreflexive`, `C29_negation`, `C29_symmetric`, `C35_format`, `C40_negation`, `C43_negation_pair`, `C45_pascal`, `C47_negation`, `C47_single_partial`, `C60_negation`, `C60_overflow_negation`, `C61_annotated`, `C61_kinds`, `C70_linked`, `C73_items`, `C73_negation_field`, `C73_negation_topic`, `C75_negation_global`, `C76_negation_empty`, `C76_negation_trailing`, `C77_negation_data`, `C77_negation_resolve`, `C79_negation_brackets`, `C79_negation_empty`, `C79_negation_move`, `C79_negation_trailing`, `C84_negation_derive`, `C84_negation_function`, `C84_negation_impl`, `C88_negation_closing`, `C88_negation_selection`, `C89_negation_crate_alias`, `C89_negation_qualified`, `C89_negation_shadow`, `C89_negation_type_alias`, `C91_negation_global`, `C92_negation_same_name`, `C94_negation_not`, `C94_negation_split`, `C94_negation_string`, `C94_negation_without`, `C95_negation_cfg`, `C95_negation_topic`, `C97_negation_brace`, `C97_negation_crate`
* `propext, Quot.sound` (142): `C08_offset`, `C09_inverted`, `C09_inverted_text`, `C09_release_total`, `C105_namespace`, `C105_single`, `C106_missing`, `C108_derived`, `C108_entity`, `C108_file`, `C108_negation_impl`, `C108_negation_twice`, `C108_same`, `C116_place`, `C116_selection`, `C119_entity_partial`, `C123_depth`, `C123_items`, `C12_active_index_valid`, `C12_default_first`, `C12_selection_kept`, `C13_negation`, `C14_succeeds`, `C17_free`, `C17_plan`, `C19_args`, `C19_empty`, `C19_is_ink`, `C19_path`, `C19_primary`, `C19_reorder`, `C20_commas_partial`, `C20_count_partial`, `C23_descendants`, `C26_terminates_partial`, `C27_affixes`, `C27_concat`, `C27_left`, `C27_next`, `C27_prefer`, `C27_prev`, `C27_total`, `C27_touches`, `C28_negation_conflict`, `C29_entities`, `C29_primary_complete_partial`, `C29_primary_entity`, `C29_primary_partial`, `C30_exhausted`, `C30_fresh`, `C30_preferred`, `C30_sequence`, `C31_first_free`, `C31_negation`, `C31_negation_v5`, `C31_preferred`, `C32_apply`, `C32_reduce`, `C32_round_trip_partial`, `C33_reversed`, `C33_uniform_partial`, `C35_dedup_partial`, `C36_complete`, `C36_distinct`, `C36_priority`, `C36_sound`, `C37_args`, `C37_macros`, `C39_negation_exhausted`, `C40_iff_partial`, `C40_reports`, `C40_reports_partial`, `C45_consistent_partial`, `C45_exact`, `C45_words`, `C52_complete`, `C52_once`, `C52_sound`, `C52_total`, `C53_content`, `C53_titles`, `C58_closed`, `C60_boundary_negation`, `C60_inside_partial`, `C61_accept`, `C61_macros`, `C63_negation`, `C64_quickfix`, `C64_sound_partial`, `C65_missing`, `C65_undeclared`, `C66_kept`, `C66_read`, `C67_code_partial`, `C73_nested_args`, `C73_nested_macros`, `C73_nested_qualifiers_partial`, `C73_nested_types_partial`, `C73_placeable`, `C75_negation_alias`, `C75_negation_nested`, `C75_negation_super`, `C75_negation_text`, `C75_stable`, `C77_ascii`, `C77_negation_literals`, `C77_no_snippets`, `C77_parameter`, `C78_trait_places`, `C78_trait_reports`, `C79_brackets`, `C80_negation_exhausted`, `C81_cursor`, `C82_focus`, `C83_blank`, `C83_comment`, `C83_line_partial`, `C86_once`, `C86_reported_partial`, `C88_body_partial`, `C88_offered`, `C88_root`, `C88_topic`, `C88_topic_empty`, `C89_negation_glob`, `C89_terminates_partial`, `C93_imports`, `C93_negation_file`, `C93_negation_generics`, `C93_negation_module`, `C93_negation_overlap`, `C93_place_partial`, `C93_signature_partial`, `C95_cfg_partial`, `C95_fixed`, `C95_generics`, `C95_others`, `C95_topics_partial`, `C97_closed`, `C97_field`, `C97_outside`, `C97_unknown`
* `propext, Classical.choice, Quot.sound` (585): `C01_answers_from_current_text`, `C01_missing_iff_not_open`, `C01_snapshots_mirror_documents`, `C02_notification_publishes`, `C02_published_over_session`, `C02_request_publishes_nothing`, `C03_exactly_one_response`, `C03_no_unsolicited_response`, `C03_responses_match_requests`, `C04_error_codes`, `C04_sent`, `C05_negation`, `C05_session_runs_partial`, `C05_stops_iff_partial`, `C06_detected_when_opened`, `C06_language_versions`, `C06_stable`, `C07_edit_after_null_response`, `C07_kind_recoverable`, `C07_no_edit_otherwise`, `C07_show_document_after_create`, `C07_show_document_only_after_create`, `C08_position`, `C08_round_trip`, `C09_monotone`, `C09_round_trip`, `C100_constructor_fix_partial`, `C100_constructor_reported`, `C100_impl_fix_partial`, `C100_impl_reported`, `C100_message_fix_partial`, `C100_message_reported`, `C100_negation_function`, `C100_negation_impl`, `C100_negation_struct`, `C100_negation_trait_function`, `C100_negation_type`, `C100_storage_fix_partial`, `C100_storage_reported`, `C100_trait_fix_partial`, `C100_trait_reported`, `C101_arguments`, `C101_fix`, `C101_group`, `C101_negation_twice`, `C101_nested`, `C101_unknown`, `C101_unknown_fix`, `C101_wrong`, `C102_args_offered`, `C102_args_offered_bare`, `C102_attr_bare_partial`, `C102_attr_offered`, `C102_attr_partial`, `C102_extend_bare_partial`, `C102_extend_partial`, `C102_macro`, `C102_macros_offered`, `C102_negation_topic`, `C102_new_partial`, `C102_snippets`, `C102_total`, `C103_edit`, `C103_list_partial`, `C103_negation_comment`, `C103_negation_empty`, `C103_snippet`, `C103_v4`, `C103_v5`, `C104_adds_partial`, `C104_callable_default_partial`, `C104_constructor_partial`, `C104_message_partial`, `C104_negation_enum`, `C104_negation_extension`, `C104_negation_topic`, `C104_offered`, `C104_place`, `C104_topic_partial`, `C105_negation_trailing`, `C105_rest_partial`, `C106_extend_partial`, `C106_message_partial`, `C106_negation_trailing`, `C106_new`, `C106_resolves`, `C107_acts`, `C107_added_partial`, `C107_ends`, `C107_handler`, `C107_meets`, `C107_negation_both`, `C107_negation_together`, `C107_replaced_partial`, `C107_says`, `C107_where`, `C108_impl`, `C108_listed`, `C108_own`, `C108_parent`, `C109_ids`, `C109_ids_end`, `C109_ids_offered`, `C109_negation_renamed`, `C109_negation_taken`, `C109_selectors_end_partial`, `C109_selectors_offered_partial`, `C109_selectors_partial`, `C10_first_listed`, `C10_translation_uses_announced`, `C10_utf16_iff`, `C110_ends_partial`, `C110_issues`, `C110_negation_comment`, `C110_negation_hollow`, `C110_negation_nested`, `C110_negation_snippet`, `C110_negation_topic`, `C110_negation_value`, `C110_read`, `C110_snippet_partial`, `C111_clean_partial`, `C111_ends_partial`, `C111_fitting_partial`, `C111_fixes`, `C111_keeps_partial`, `C111_negation_cycle`, `C111_negation_lost`, `C111_offered`, `C112_apart_partial`, `C112_disjoint_partial`, `C112_format`, `C112_negation_host`, `C112_negation_last_use`, `C112_once`, `C113_attr_partial`, `C113_item_partial`, `C114_block_partial`, `C114_focus_partial`, `C114_statement_partial`, `C115_edits_partial`, `C115_received_partial`, `C115_sent`, `C116_column`, `C116_line`, `C117_reports`, `C117_screen`, `C118_negation`, `C118_offered_partial`, `C118_session_partial`, `C119_answer`, `C119_argument`, `C119_client`, `C119_macro`, `C119_negation_argument`, `C119_negation_macro`, `C11_advertised_is_intersection`, `C11_emitted_covered_partial`, `C11_negation`, `C120_completion_partial`, `C120_hints_partial`, `C120_hover_partial`, `C120_negation`, `C120_signatures_partial`, `C121_negation_raw`, `C121_negation_url`, `C121_read_partial`, `C121_url_partial`, `C122_explained_partial`, `C122_five`, `C122_negation`, `C123_ancestors`, `C124_actions`, `C124_macros_partial`, `C124_negation_macro`, `C124_negation_message`, `C124_negation_namespace`, `C124_negation_test`, `C124_shown_partial`, `C125_attribute_partial`, `C125_body`, `C125_chain`, `C125_current_partial`, `C125_derive`, `C125_negation_import`, `C125_negation_nested`, `C125_negation_test`, `C126_answered`, `C126_client`, `C126_negation`, `C126_offered`, `C126_refines`, `C126_session_partial`, `C126_silence`, `C127_callables`, `C127_clean`, `C127_fixed_partial`, `C127_impl`, `C127_negation_deep`, `C127_negation_twice`, `C127_root`, `C13_hyphens_partial`, `C13_idempotent_ascii_partial`, `C13_valid_ascii_partial`, `C14_add_dependency`, `C14_dependencies`, `C14_dev_dependencies`, `C14_features`, `C14_frame`, `C14_idempotent`, `C14_ink`, `C14_project_partial`, `C14_recognised_negation`, `C14_recognised_partial`, `C15_nearest`, `C15_none`, `C15_own`, `C16_default`, `C16_detected_partial`, `C16_five_partial`, `C16_four_partial`, `C16_inherited_negation`, `C16_major_negation`, `C16_minor_negation`, `C17_error`, `C20_count_negation`, `C20_inside`, `C20_ordered`, `C20_range_partial`, `C20_total`, `C21_decimal_partial`, `C21_hex_partial`, `C21_negation`, `C21_range`, `C21_sound`, `C21_widths_partial`, `C22_complement`, `C22_explicit`, `C22_hash`, `C22_inherent`, `C22_namespace_partial`, `C22_negation_namespace`, `C22_trait_code`, `C22_trait_negation`, `C22_trait_partial`, `C23_closest`, `C23_closest_descendant`, `C23_cover`, `C24_nearest`, `C24_none`, `C24_subset`, `C25_exact_partial`, `C25_flatten_partial`, `C26_negation_globs`, `C26_negation_module`, `C26_negation_two_globs`, `C28_accept`, `C28_attr`, `C28_completions`, `C28_conflict_partial`, `C28_item`, `C28_item_bare`, `C28_top`, `C28_top_bare`, `C31_extension_partial`, `C31_fresh_partial`, `C31_negation_handler`, `C31_template`, `C32_code`, `C32_negation`, `C33_children`, `C33_negation`, `C34_apply_partial`, `C34_delete_partial`, `C34_negation_panic`, `C34_negation_unaligned`, `C34_replace`, `C34_total_insert`, `C35_negation`, `C36_ordered`, `C36_stable`, `C37_clean`, `C38_applied`, `C38_replacements`, `C38_reports`, `C39_applied`, `C39_missing_partial`, `C39_negation_streams`, `C39_replacements`, `C39_reports`, `C41_iff`, `C41_reports`, `C42_accepted`, `C42_negation`, `C42_negation_topic`, `C42_severity`, `C42_shape_partial`, `C43_arg_partial`, `C43_attr_partial`, `C43_compatible`, `C43_negation_first`, `C43_no_primary`, `C43_primary`, `C43_reported`, `C43_reported_arg`, `C44_distinct`, `C44_offered`, `C44_primary`, `C44_signature`, `C45_negation`, `C45_validation`, `C46_negation`, `C46_renamed_long_partial`, `C46_renamed_partial`, `C46_reported`, `C47_path_partial`, `C48_negation`, `C48_negation_report`, `C48_silent`, `C48_v4`, `C48_v4_kept`, `C48_v4_settled`, `C48_v5_partial`, `C49_body_partial`, `C49_derive_partial`, `C49_negation_chained`, `C49_negation_event`, `C49_negation_nested`, `C50_calls_partial`, `C50_negation_condition`, `C50_negation_receiver`, `C50_once_partial`, `C50_records`, `C50_text`, `C51_last_partial`, `C51_negation_comment`, `C51_negation_name`, `C51_negation_nested`, `C51_negation_space`, `C51_next_partial`, `C53_argument`, `C53_attribute`, `C53_outside`, `C54_exact_partial`, `C54_missing`, `C54_negation`, `C54_other`, `C54_unexpected_partial`, `C55_decoded`, `C55_negation`, `C55_panics_iff_partial`, `C55_resolve_panics_iff_partial`, `C55_unknown`, `C56_edits`, `C56_macros`, `C56_negation_order`, `C56_negation_unknown`, `C56_offered`, `C56_order_partial`, `C56_path`, `C57_constructor`, `C57_contract_partial`, `C57_contracts`, `C57_extra`, `C57_extra_count`, `C57_message`, `C57_missing`, `C57_negation`, `C57_storage_partial`, `C58_file`, `C58_negation`, `C58_reported_partial`, `C59_eager_actions_carry_edits`, `C59_lazy_actions_executable`, `C60_fits`, `C60_line_partial`, `C60_overflow_partial`, `C62_callables`, `C62_entities`, `C63_resolves`, `C63_stubs`, `C64_complete_partial`, `C65_same`, `C65_values`, `C66_added`, `C66_all`, `C66_cfg`, `C66_negation`, `C66_text`, `C67_edits`, `C67_moved`, `C68_ids_partial`, `C68_negation`, `C69_complete`, `C69_sound`, `C69_typed`, `C70_agree`, `C70_combined_partial`, `C70_extension`, `C70_negation_single`, `C70_test_versions`, `C71_order`, `C71_versioned`, `C72_after`, `C72_between`, `C72_block_partial`, `C72_delete`, `C72_inside`, `C72_negation_depth`, `C72_next`, `C72_plain`, `C74_all_partial`, `C74_fix_partial`, `C74_fixable`, `C74_negation_body`, `C74_negation_glue`, `C74_negation_value`, `C74_negation_variadic`, `C74_range`, `C74_reports`, `C75_complete_partial`, `C75_finds_partial`, `C75_negation_own`, `C75_sound_partial`, `C76_opened`, `C76_read_partial`, `C76_several`, `C76_unclosed_partial`, `C77_code_actions_partial`, `C77_completion`, `C77_diagnostics`, `C77_edits`, `C77_hints`, `C77_hover`, `C77_signatures`, `C78_chain_all`, `C78_chain_clean`, `C78_chain_fix_partial`, `C78_chain_fixable`, `C78_chain_places`, `C78_chain_reports`, `C78_duplicate_fix`, `C78_ids_partial`, `C78_inline_partial`, `C78_missing_fix`, `C78_negation_both`, `C78_negation_default`, `C78_negation_inline`, `C78_negation_rename`, `C78_negation_wildcard`, `C78_quantity`, `C78_trait_fix`, `C79_bare`, `C79_first`, `C79_first_empty`, `C79_last_partial`, `C79_move_last_partial`, `C79_move_next_partial`, `C79_primary_partial`, `C79_print`, `C79_unclosed`, `C80_accepted_partial`, `C80_completed`, `C80_extension`, `C80_function`, `C80_negation_alone`, `C80_negation_split`, `C80_negation_topic`, `C80_selector_partial`, `C80_snippet`, `C81_accept_partial`, `C81_crates`, `C81_negation_bracket`, `C81_negation_crate`, `C81_negation_name`, `C81_negation_nested`, `C81_negation_word`, `C81_offered`, `C82_accepted_partial`, `C82_first`, `C82_items`, `C82_negation_glued`, `C82_negation_nested`, `C82_negation_paren`, `C82_nested_partial`, `C82_next`, `C82_replace`, `C83_negation_code`, `C83_negation_comment`, `C83_negation_literal`, `C83_negation_shown`, `C83_negation_trailing`, `C83_offered`, `C83_shown_partial`, `C84_accounted_partial`, `C84_checked`, `C84_impl`, `C84_impls`, `C84_negation_trait`, `C85_content_partial`, `C85_edits`, `C85_negation_dropped`, `C85_negation_glued`, `C85_negation_inner`, `C85_negation_private`, `C85_refused`, `C86_negation_inner`, `C87_contract_fix_partial`, `C87_contract_reported`, `C87_impl_fix_partial`, `C87_impl_reported`, `C87_negation_string`, `C87_negation_trait`, `C87_own_impl_fix_partial`, `C87_own_impl_reported`, `C87_root_fix_partial`, `C87_root_reported`, `C88_declaration`, `C88_negation_tuple`, `C89_alias_partial`, `C89_complete_partial`, `C89_direct`, `C89_negation_global`, `C89_negation_global_name`, `C89_negation_rename`, `C89_renamed_partial`, `C89_sound_partial`, `C90_disjoint`, `C90_exact_partial`, `C90_full`, `C90_negation_again`, `C90_negation_alias`, `C90_negation_condition`, `C90_negation_import`, `C90_negation_nested`, `C90_negation_receiver`, `C90_once`, `C90_records`, `C91_negation_nested`, `C91_negation_overlap`, `C91_order_partial`, `C91_removed_partial`, `C92_accepted_partial`, `C92_added`, `C92_code_accepted_partial`, `C92_code_fix_partial`, `C92_fix_partial`, `C92_negation_nested`, `C92_negation_renamed`, `C92_negation_second`, `C92_offered`, `C92_uses_partial`, `C93_attribute_partial`, `C94_only_partial`, `C94_recognised`, `C94_suggested`, `C95_proper_partial`, `C96_create`, `C96_create_accepts`, `C96_create_keeps`, `C96_edits`, `C96_extract_keeps`, `C96_extract_partial`, `C96_migrate_partial`, `C96_negation_dependency`, `C96_negation_order`, `C96_negation_resolve`, `C96_negation_unsaved`, `C97_behind_partial`, `C97_field_unclosed`, `C97_unclosed_partial`, `C98_bare`, `C98_list_partial`, `C98_negation_two`, `C98_reported`, `C99_announced`, `C99_commands`, `C99_documents`, `C99_fails_iff_partial`, `C99_handshake`, `C99_negation_between`, `C99_negation_params`, `C99_responses`, `C99_served`, `C99_waits`
