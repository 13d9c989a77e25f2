{"id": "C01", "title": "Analysis state mirrors the open documents", "statement": "After any sequence of textDocument/didOpen, didChange and didClose notifications (interleaved with requests and responses), a feature request for a document URI is answered from the text of the last accepted change to that document: the text of its last `rust` didOpen or of the last element of `contentChanges` of a later didChange. It is answered as 'no such document' exactly when the document was never opened as rust, or was closed since.", "quantifier": "all finite histories of client messages, all URIs, texts and versions, all orders in which the change set is drained", "why_tests_cant": "The property is about every interleaving of open/change/close on any number of documents; tests replay a handful of fixed scripts.", "anchors": ["crates/lsp-server/src/memory.rs: Memory::{insert,update,remove,take_changes}", "crates/lsp-server/src/dispatch.rs: Dispatcher::{handle_notification,process_changes}", "crates/lsp-server/src/dispatch/handlers/notification.rs"]}
{"id": "C02", "title": "Diagnostics are published exactly once per accepted change, with the right version, and cleared on close", "statement": "While the server runs, each document notification makes the server publish diagnostics for exactly the document it affects and no other: one publishDiagnostics carrying the diagnostics of the new text and the version number of that text on open/change; one publishDiagnostics with an empty list and no version on close; nothing for a notification that is ignored (non-rust open, change or close of a document that is not open). Requests never publish diagnostics.", "quantifier": "all reachable server states and all notifications and requests", "why_tests_cant": "Needs an invariant relating the change set and the snapshot map over all histories.", "anchors": ["crates/lsp-server/src/dispatch.rs: process_changes, publish_diagnostics", "crates/lsp-server/src/dispatch/actions.rs: publish_diagnostics", "crates/lsp-server/src/memory.rs"]}
{"id": "C03", "title": "Every request gets exactly one response with its own id", "statement": "For every request message other than shutdown, the server sends exactly one response message and that response carries the request's id, whatever the method, the parameters, the state or the handler outcome.", "quantifier": "all request messages, all reachable server states, all handler outcomes, all client capabilities", "why_tests_cant": "Combines routing, handler failure and the special command path; the space of (method, params validity, capability) combinations times states is unbounded.", "anchors": ["crates/lsp-server/src/dispatch.rs: handle_request, process_command_response", "crates/lsp-server/src/dispatch/routers/request.rs"]}
{"id": "C04", "title": "Request failures are reported with the right JSON-RPC error code", "statement": "A request whose method is not one of the seven supported ones is answered with MethodNotFound; a supported method whose params do not deserialize is answered with InvalidParams; a handler error is answered with InternalError; otherwise the answer is the handler's value. The first matching handler is the only one run.", "quantifier": "all methods, params and handler outcomes", "why_tests_cant": "Routing is a chain of fallible extractions; the claim is about all method names including unknown ones.", "anchors": ["crates/lsp-server/src/dispatch/routers/request.rs: RequestRouter::{process,finish}", "crates/lsp-server/src/dispatch.rs: handle_request"]}
{"id": "C05", "title": "Only shutdown or exit stops the server", "statement": "No client message other than a shutdown request or an exit notification makes the message loop return.", "quantifier": "all finite sequences of client messages", "why_tests_cant": "Availability over all inputs, including malformed ones.", "anchors": ["crates/lsp-server/src/dispatch.rs: main_loop, handle_notification", "crates/lsp-server/src/dispatch/routers/notification.rs: NotificationRouter::process"]}
{"id": "C06", "title": "The ink! version used for an open document is stable except after a migration", "statement": "The ink! language version under which a document is analysed is the one detected from its project when its snapshot is first created, and stays the same for every later change until the document is closed, unless a project migration was requested; after a migration the version is detected again for at most the next two document refreshes, then is stable again.", "quantifier": "all message histories, all documents, any behaviour of the external version detection", "why_tests_cant": "Depends on a counter shared by all documents and on the order the change set is drained.", "anchors": ["crates/lsp-server/src/dispatch.rs: process_changes (version check fuel), handle_request"]}
{"id": "C07", "title": "Workspace edits follow commands, only with client support, and with traceable ids", "statement": "For executeCommand createProject and extractEvent the server sends an ApplyWorkspaceEdit request only if the client can create workspace resources; for migrateProject regardless. The edit request always comes after a null-result response with the command's id, carries exactly the edit the command produced and an id from which the kind of command can be recovered. In every other case the command's own response is sent and no server request is made.", "quantifier": "all commands, capability sets and command results", "why_tests_cant": "Decision logic over capability and result combinations; id prefixes must be mutually unambiguous.", "anchors": ["crates/lsp-server/src/dispatch.rs: process_command_response, handle_response", "crates/lsp-server/src/utils.rs: can_create_workspace_resources"]}
{"id": "C08", "title": "Offset to position to offset round trip", "statement": "For every document text and every character-boundary offset in it, translating the offset to an LSP line/character position (in the negotiated UTF-8, UTF-16 or UTF-32 encoding) and back gives the same offset.", "quantifier": "all Unicode texts, all character-boundary offsets, all three encodings", "why_tests_cant": "Unicode texts are unbounded; multi-unit characters at line ends are rarely sampled.", "anchors": ["crates/lsp-server/src/translator/to_lsp.rs: position", "crates/lsp-server/src/translator/from_lsp.rs: offset"]}
{"id": "C09", "title": "Client ranges translate to valid text ranges or are rejected", "statement": "For every document text and every client-supplied range, translation yields either nothing or a text range whose start does not exceed its end; an inverted pair of translatable positions is rejected, never turned into an inverted range or a crash; translating a valid analyzer range to LSP and back is the identity and LSP positions preserve offset order.", "quantifier": "all texts, all pairs of (line, character) numbers, all encodings", "why_tests_cant": "Clients may send any pair of positions.", "anchors": ["crates/lsp-server/src/translator/from_lsp.rs: text_range", "crates/lsp-server/src/translator/to_lsp.rs: range"]}
{"id": "C10", "title": "Position encoding negotiation honours the client", "statement": "The encoding the server announces is UTF-8 or UTF-32 only if the client listed it; it is the first of those two in client preference order; if the client listed neither (or nothing) it is UTF-16, the mandatory default. The encoding used for translation is the announced one.", "quantifier": "all lists of client position encodings", "why_tests_cant": "Lists of arbitrary length and order.", "anchors": ["crates/lsp-server/src/utils.rs: position_encoding", "crates/lsp-server/src/initialize.rs: server_capabilities"]}
{"id": "C11", "title": "Advertised and emitted code action kinds", "statement": "The server advertises exactly the kinds that both it and the client support (none if the intersection is empty), and every code action kind it emits is one it advertises as supported.", "quantifier": "all client kind lists, all analyzer action kinds", "why_tests_cant": "Finite per element but over arbitrary client lists.", "anchors": ["crates/lsp-server/src/utils.rs: code_actions_kinds, SERVER_CODE_ACTION_KINDS", "crates/lsp-server/src/translator/to_lsp.rs: code_action"]}
{"id": "C12", "title": "Active signature index is always valid", "statement": "A signature help answer always contains at least one signature and its activeSignature is a valid index into the list; if the user had selected a signature other than the first and one with the same label is still offered, it stays active; otherwise the first signature is active.", "quantifier": "all analyzer signature lists and all client contexts (including out-of-range previous indices)", "why_tests_cant": "The client context is arbitrary, including stale indexes.", "anchors": ["crates/lsp-server/src/translator/to_lsp.rs: signature_help"]}
{"id": "C13", "title": "Generated package names are valid crate names", "statement": "For any user supplied event name, the derived package name is rejected, or is non-empty, starts with a letter, contains only lowercase alphanumerics and hyphens, never starts or ends with a hyphen nor contains two in a row; the crate name is the package name with hyphens replaced by underscores, and the derivation is idempotent.", "quantifier": "all strings", "why_tests_cant": "String transformation over all Unicode inputs.", "anchors": ["crates/lsp-server/src/dispatch/handlers/command.rs: package_name"]}
{"id": "C14", "title": "Cargo.toml migration touches only what it must and is idempotent", "statement": "Migrating a manifest sets the ink dependency to 5.0.0, removes scale and scale-info, sets ink_e2e to 5.0.0 when present, drops exactly \"scale/std\" and \"scale-info/std\" from the std feature; every other dependency, feature and table entry is unchanged; migrating twice gives the same manifest as migrating once; the result is recognised as an ink! 5 project.", "quantifier": "all manifests (any dependencies, features and value shapes)", "why_tests_cant": "Frame condition over arbitrary manifests.", "anchors": ["crates/lsp-server/src/dispatch/handlers/command.rs: migrate_cargo_toml", "crates/lsp-server/src/dispatch.rs: InkProjectVersion::guess_version"]}
{"id": "C15", "title": "The nearest enclosing Cargo.toml is used", "statement": "The manifest associated with a source file is the Cargo.toml in the file's own directory if there is one, else the one in the closest ancestor directory within ten levels; none is reported only when no such ancestor has one.", "quantifier": "all directory depths and all placements of Cargo.toml files", "why_tests_cant": "Arbitrary directory trees.", "anchors": ["crates/lsp-server/src/utils.rs: find_cargo_toml"]}
{"id": "C16", "title": "Project ink! version detection", "statement": "A document is analysed as ink! 5 when its package manifest declares an ink dependency whose version requirement is a 5.x requirement (directly or inherited from the workspace), otherwise as ink! 4; the absence of a manifest or dependency never crashes or selects ink! 5.", "quantifier": "all manifests, workspace manifests and version requirement strings", "why_tests_cant": "All version strings and all inheritance shapes.", "anchors": ["crates/lsp-server/src/dispatch.rs: parse_ink_project_version, InkProjectVersion, is_v5_version_string"]}
{"id": "C17", "title": "Extracting an event never targets an existing directory", "statement": "The package directory chosen for an extracted event never already exists; the command reports an error instead when the preferred name and its numbered alternatives are all taken.", "quantifier": "all file system states (as an arbitrary existence predicate), all event names", "why_tests_cant": "Arbitrary file-system contents.", "anchors": ["crates/lsp-server/src/dispatch/handlers/command.rs: handle_extract_event"]}
{"id": "C18", "title": "Attribute names parse and print consistently", "statement": "Every known ink! macro path and ink! argument name parses to a kind which prints back to exactly that name; different kinds print differently; any other text parses to the unknown kind.", "quantifier": "all strings and all kinds", "why_tests_cant": "All strings, not a list of samples.", "anchors": ["crates/ir/src/attrs.rs: InkMacroKind", "crates/ir/src/attrs/args.rs: InkArgKind"]}
{"id": "C19", "title": "The kind of an ink! attribute is its highest priority argument", "statement": "An `#[ink(...)]` attribute with at least one argument takes the kind of an argument of best priority class (entity arguments before complementary ones before unknown), the first such in source order; path attributes take the macro kind; and reordering arguments within an attribute that has at most one entity argument never changes the kind when that entity argument is present.", "quantifier": "all argument lists of any length and order", "why_tests_cant": "Arbitrary permutations of arbitrary length lists.", "anchors": ["crates/ir/src/attrs.rs: InkAttribute::cast", "crates/ir/src/attrs/args.rs: InkArgKind ordering"]}
{"id": "C20", "title": "Attribute argument parsing is total and well ranged", "statement": "For every token sequence between an attribute's parentheses, argument parsing yields items in source order with pairwise disjoint ranges inside the parentheses; a non-empty list separated by n top-level commas yields n or n+1 items (no trailing item after a final comma); and computing an item's text range never fails.", "quantifier": "all token sequences, including malformed ones and nested parentheses", "why_tests_cant": "Malformed inputs while typing are unbounded.", "anchors": ["crates/ir/src/attrs/parser.rs: parse_meta_items", "crates/ir/src/attrs/meta.rs: MetaNameValue::{new,text_range}"]}
{"id": "C21", "title": "Integer argument values are read as Rust reads them", "statement": "Decimal and 0x-prefixed hexadecimal literals denote the same number as in Rust; values that do not fit u16 (v5 function ids) or u32 (selectors, extension ids) are rejected.", "quantifier": "all literal texts", "why_tests_cant": "All literal texts including separators, suffixes and boundary values.", "anchors": ["crates/ir/src/meta/value.rs: MetaValue::{as_u16,as_u32,as_int}", "crates/analyzer/src/analysis/diagnostics/common.rs: validate_arg"]}
{"id": "C22", "title": "Selector composition follows the ink! rule", "statement": "A callable's selector is the explicit selector value if one is given; the reserved 0x9BAE9D5E for the wildcard complement; otherwise the first four bytes of BLAKE2b-256 over `namespace::trait::name` with absent parts omitted, where the trait part is the full path only when the trait path has a leading `::`, else the trait's last segment.", "quantifier": "all names, namespaces, trait paths, explicit selectors and all hash functions", "why_tests_cant": "Paths of arbitrary length and all hash values.", "anchors": ["crates/ir/src/selector.rs: Selector::compose, trait_ident"]}
{"id": "C23", "title": "Closest ink! descendants form the outermost ink! items", "statement": "The closest ink! descendants of an item are exactly the ink!-annotated descendants that have no other ink!-annotated node between them and the item; each is reported, in source order; and every ink! descendant lies under one of them.", "quantifier": "all syntax trees", "why_tests_cant": "Arbitrary trees.", "anchors": ["crates/ir/src/tree/utils.rs: ink_attrs_closest_descendants, ink_attrs_descendants"]}
{"id": "C24", "title": "Closest ink! ancestors", "statement": "The closest ink! ancestor attributes of a node are exactly the ink! attributes of the nearest enclosing item carrying any, and are a subset of all its ink! ancestor attributes; none are reported exactly when no enclosing item is annotated.", "quantifier": "all ancestor chains", "why_tests_cant": "Arbitrary nesting.", "anchors": ["crates/ir/src/tree/utils.rs: ink_attrs_ancestors, ink_attrs_closest_ancestors"]}
{"id": "C25", "title": "Flattening `use` trees lists exactly the imported paths", "statement": "Flattening a use tree produces one (path, alias) entry per leaf: a simple leaf contributes its full path (prefixes joined with `::`), `self` in a list contributes the prefix, a glob contributes `prefix::*`; nothing else is produced and nothing is lost, at any nesting depth.", "quantifier": "all use trees of any depth and width", "why_tests_cant": "Recursive structure.", "anchors": ["crates/ir/src/tree/ast_ext.rs: flatten_use_tree"]}
{"id": "C26", "title": "Item resolution terminates", "statement": "Resolving a path to an item terminates for every module tree and every set of use declarations and aliases.", "quantifier": "all sets of aliases, including cyclic ones", "why_tests_cant": "Termination is not testable.", "anchors": ["crates/ir/src/tree/ast_ext.rs: resolve_item, resolve_item_path_from_use_scope_and_aliases"]}
{"id": "C27", "title": "Token under the cursor", "statement": "For every cursor offset the focused token touches the cursor; a non-trivia token is preferred over a trivia one on the left; the prefix and suffix of the focused token at the cursor concatenate to its text.", "quantifier": "all token streams and offsets", "why_tests_cant": "All offsets at all token boundaries.", "anchors": ["crates/ir/src/tree/item_at_offset.rs: focused_token, focused_token_affixes"]}
{"id": "C28", "title": "Argument suggestions are valid, non-duplicate and non-conflicting", "statement": "Every ink! argument suggested for an item (completions and code actions) is a valid sibling of the item's primary attribute, is not already present on the item, does not conflict with an existing argument, and is allowed by the enclosing ink! scope.", "quantifier": "all attribute sets, scopes and both language versions", "why_tests_cant": "Combination of several filters over arbitrary attribute sets.", "anchors": ["crates/analyzer/src/analysis/utils.rs: valid_sibling_ink_args, remove_*_suggestions*", "crates/analyzer/src/analysis/completions.rs: argument_completions", "crates/analyzer/src/analysis/actions/item.rs: ink_arg_actions"]}
{"id": "C29", "title": "Attribute compatibility is symmetric and consistent with primary suggestions", "statement": "If ink! attribute b may accompany primary attribute a, then whenever b is itself taken as the base its sibling list admits a's argument; and every entity suggested as primary for a complementary argument lists that argument among its valid siblings.", "quantifier": "all pairs of attribute kinds, both versions", "why_tests_cant": "Whole-table consistency of hand-written tables.", "anchors": ["crates/analyzer/src/analysis/utils.rs: valid_sibling_ink_args, primary_ink_attribute_kind_suggestions"]}
{"id": "C30", "title": "Suggested numeric ids are unique", "statement": "A suggested id is never one of the unavailable ids and never exceeds the id type's maximum; no id is suggested only if all ids from the preferred one up are taken; ids suggested in sequence are pairwise distinct.", "quantifier": "all sets of unavailable ids, preferred values and id widths", "why_tests_cant": "Arbitrary sets; exhaustion is practically untestable at 2^32.", "anchors": ["crates/analyzer/src/analysis/utils.rs: suggest_unique_id, suggest_unique_id_mut"]}
{"id": "C31", "title": "Suggested names are unique", "statement": "The name suggested for a generated item is not one of the names already in scope, and is the preferred name whenever that is free.", "quantifier": "all name sets", "why_tests_cant": "Arbitrary numbers of taken names.", "anchors": ["crates/analyzer/src/analysis/utils.rs: suggest_unique_name", "crates/analyzer/src/analysis/text_edit/common.rs: unique_text_and_snippet"]}
{"id": "C32", "title": "Indenting is reversible and changes only line starts", "statement": "Applying an indent to generated code only inserts the indent at the start of non-empty lines, keeps the number of lines, and removing the same indent restores the original text.", "quantifier": "all texts and all whitespace indents", "why_tests_cant": "All texts.", "anchors": ["crates/analyzer/src/analysis/utils.rs: apply_indenting, reduce_indenting"]}
{"id": "C33", "title": "Indentation of inserted code matches the surrounding line", "statement": "The indent computed for code inserted next to an item is the exact whitespace that precedes the item on its line.", "quantifier": "all whitespace texts (tabs, spaces, newlines)", "why_tests_cant": "Mixed whitespace sequences are unbounded.", "anchors": ["crates/analyzer/src/analysis/utils.rs: end_indenting, item_indenting"]}
{"id": "C34", "title": "Formatting an edit never changes its code", "statement": "Formatting an edit may only add whitespace around its text and extend its range over surrounding whitespace: applying the formatted edit and the original edit to the document gives texts that differ only in whitespace.", "quantifier": "all edits and all token streams around the edit", "why_tests_cant": "Arbitrary surrounding token contexts.", "anchors": ["crates/analyzer/src/analysis/text_edit.rs: format_edit"]}
{"id": "C35", "title": "Diagnostic deduplication loses nothing but repeats", "statement": "The reported diagnostics are a subsequence of the raw ones, no two share range, severity and quickfix edits, and every raw diagnostic agrees on those with exactly one reported diagnostic, the first such.", "quantifier": "all raw diagnostic lists", "why_tests_cant": "Arbitrary lists.", "anchors": ["crates/analyzer/src/analysis/diagnostics.rs: diagnostics"]}
{"id": "C36", "title": "Code actions are distinct, complete and ordered by kind", "statement": "The code actions offered for a range contain no two with equal edits; every quickfix or refactor computed for the range is represented; they are ordered migrate, quickfix, refactor, extract, and keep their computation order within a kind; a quickfix is offered iff its range contains or is contained in the requested range.", "quantifier": "all action lists and ranges", "why_tests_cant": "Arbitrary lists; stability.", "anchors": ["crates/analyzer/src/analysis.rs: Analysis::actions", "crates/analyzer/src/analysis/actions.rs: actions, ActionKind ordering"]}
{"id": "C37", "title": "Repeated attributes and arguments are flagged exactly", "statement": "On any item, a known ink! macro attribute or argument is reported as a duplicate iff an earlier one of the same kind exists on the item; unknown ones are never reported as duplicates.", "quantifier": "all attribute lists", "why_tests_cant": "Arbitrary numbers and orders of attributes.", "anchors": ["crates/analyzer/src/analysis/diagnostics/common.rs: ensure_no_duplicate_attributes_and_arguments"]}
{"id": "C38", "title": "Overlapping selectors are all reported and the proposed replacements do not overlap", "statement": "In a contract, a constructor (message) is reported for an overlapping selector iff an earlier constructor (message) has the same selector; constructors never clash with messages; numeric replacement selectors proposed by the quickfixes are pairwise distinct and distinct from every selector in use.", "quantifier": "all lists of callables and selectors", "why_tests_cant": "Arbitrary many callables.", "anchors": ["crates/analyzer/src/analysis/diagnostics/contract.rs: ensure_no_overlapping_selectors, get_composed_selectors"]}
{"id": "C39", "title": "Overlapping chain extension ids are all reported with unique replacements", "statement": "A chain extension function is reported for an overlapping id iff an earlier function has the same id; proposed replacement ids are pairwise distinct and unused, as long as free ids remain.", "quantifier": "all lists of chain extension functions and ids", "why_tests_cant": "Arbitrary many functions.", "anchors": ["crates/analyzer/src/analysis/diagnostics/chain_extension.rs: ensure_no_overlapping_ids, ensure_trait_item_invariants, init_unavailable_ids"]}
{"id": "C40", "title": "At most one wildcard selector per callable kind", "statement": "A contract is free of wildcard-selector diagnostics iff it has at most one constructor and at most one message with a wildcard selector; otherwise every one after the first is reported.", "quantifier": "all lists of callables", "why_tests_cant": "Arbitrary lists.", "anchors": ["crates/analyzer/src/analysis/diagnostics/contract.rs: ensure_at_most_one_wildcard_selector"]}
{"id": "C41", "title": "Wildcard complement rule (ink! 5)", "statement": "In ink! 5 a contract passes the wildcard-complement check iff either it has neither a wildcard message nor a wildcard-complement message, or it has a wildcard message and exactly one other message, and that one carries the wildcard complement selector.", "quantifier": "all message lists", "why_tests_cant": "Case analysis over lists of any length.", "anchors": ["crates/analyzer/src/analysis/diagnostics/contract.rs: validate_wildcard_complement_selector"]}
{"id": "C42", "title": "Argument values are accepted iff they have the documented shape", "statement": "An argument is accepted without an error iff it is a known argument and its value has the shape the ink! version requires for its kind (no value, integer in range, string, boolean, path, wildcard, `@`, or the right nested argument).", "quantifier": "all argument kinds, value shapes and nesting depths, both versions", "why_tests_cant": "Cross product of kinds and value shapes with nesting.", "anchors": ["crates/analyzer/src/analysis/diagnostics/common.rs: validate_arg", "crates/ir/src/attrs/args.rs: InkArgValueKind"]}
{"id": "C43", "title": "Conflicting attributes are flagged, compatible ones are not", "statement": "For an item annotated with a primary ink! attribute and other ink! attributes and arguments, no conflict is reported when every other attribute and argument is a valid sibling of the primary; a conflict is reported for every attribute or argument that is not.", "quantifier": "all attribute lists, both versions", "why_tests_cant": "Arbitrary attribute combinations.", "anchors": ["crates/analyzer/src/analysis/diagnostics/common.rs: validate_entity_attributes"]}
{"id": "C44", "title": "Signature help labels and parameter ranges agree", "statement": "In every signature offered, each parameter range selects exactly that parameter's text in the label, parameters are in order and separated by `, `; the active parameter index is in range whenever there is a parameter.", "quantifier": "all parameter lists", "why_tests_cant": "Arbitrary parameter lists.", "anchors": ["crates/analyzer/src/analysis/signature_help.rs: add_signature"]}
{"id": "C45", "title": "New project names are validated and substituted consistently", "statement": "new_project rejects a name iff it is empty, contains a character that is not alphanumeric, `_` or `-`, or does not start with a letter; otherwise the generated module is named by the name with `-` replaced by `_` and the storage type by its Pascal case, consistently everywhere.", "quantifier": "all names", "why_tests_cant": "All strings, including ones overlapping the template's own identifiers.", "anchors": ["crates/analyzer/src/codegen.rs: new_project", "crates/analyzer/src/utils.rs: pascal_case"]}
{"id": "C46", "title": "Reserved identifiers are reported and the rename fixes them", "statement": "Every identifier starting with `__ink_` is reported, no other is; applying the offered rename yields an identifier that is not reported again.", "quantifier": "all identifiers", "why_tests_cant": "All strings, including ones where removing the prefix exposes another.", "anchors": ["crates/analyzer/src/analysis/diagnostics/common.rs: ensure_no_ink_identifiers"]}
{"id": "C47", "title": "Suggested item paths resolve to the item", "statement": "The path suggested for an item in nested modules (`crate::a::b::Item`) names the enclosing modules from the outermost to the innermost.", "quantifier": "all nesting depths", "why_tests_cant": "Unbounded nesting.", "anchors": ["crates/analyzer/src/resolution.rs: item_path"]}
{"id": "C48", "title": "The SCALE codec quickfix leaves the type with all required traits", "statement": "After applying the quickfix for missing SCALE codec traits, the type derives or implements each required trait: the ones it already had and the ones that were missing.", "quantifier": "all sets of already derived/implemented traits, both versions", "why_tests_cant": "All combinations of attribute forms.", "anchors": ["crates/analyzer/src/analysis/diagnostics/common.rs: ensure_impl_scale_codec_traits"]}
{"id": "C49", "title": "Migration edits can be applied together", "statement": "The edits produced by the migration to ink! 5 never overlap, so that an LSP client can apply them as one workspace edit.", "quantifier": "all source files", "why_tests_cant": "Interaction of independently computed edits over arbitrary files.", "anchors": ["crates/analyzer/src/analysis/migrate.rs: migrate, events, scale_derive", "crates/analyzer/src/analysis/migrate/e2e_test.rs"]}
{"id": "C50", "title": "E2E migration rewrites only calls on the test client", "statement": "Migrating an e2e test rewrites instantiate/call/upload/balance calls only when the receiver is the e2e `client`, and every such call is rewritten once.", "quantifier": "all expression trees", "why_tests_cant": "Arbitrary nested expressions.", "anchors": ["crates/analyzer/src/analysis/migrate/e2e_test.rs: BodyVisitor::visit_method_call", "crates/analyzer/src/analysis/migrate/traversal.rs"]}
{"id": "C51", "title": "Removing an attribute argument leaves a well-formed argument list", "statement": "Deleting the range computed for removing one ink! argument removes that argument and exactly one adjacent comma when other arguments remain, and nothing else but whitespace.", "quantifier": "all argument lists and positions", "why_tests_cant": "All positions, spacing and trailing comma variants.", "anchors": ["crates/analyzer/src/analysis/utils.rs: ink_arg_and_delimiter_removal_range, token_and_delimiter_range"]}
{"id": "C52", "title": "Inlay hints are complete and inside the requested range", "statement": "For every requested range (or whole file), a hint is produced for every ink! argument (and nested argument) inside it whose value has a type, positioned right after the argument's name, and for nothing else.", "quantifier": "all attribute lists, nesting and ranges", "why_tests_cant": "Arbitrary nesting and ranges.", "anchors": ["crates/analyzer/src/analysis/inlay_hints.rs: inlay_hints"]}
{"id": "C53", "title": "Hover describes what is under the cursor", "statement": "Hovering inside an ink! attribute shows the documentation of the first argument whose range contains the hover range, otherwise of the macro; nothing is shown outside ink! attributes.", "quantifier": "all attributes and ranges", "why_tests_cant": "All offsets.", "anchors": ["crates/analyzer/src/analysis/hover.rs: hover"]}
{"id": "C54", "title": "Trait definition implementations are checked against the definition", "statement": "An impl of a resolvable ink! trait definition is free of name diagnostics iff its functions are exactly the trait's messages by name; every unexpected function and every missing message is reported.", "quantifier": "all trait definitions and impls", "why_tests_cant": "Arbitrary sets of methods.", "anchors": ["crates/analyzer/src/analysis/diagnostics/contract/ink_impl.rs: ensure_trait_definition_impl_invariants"]}
{"id": "C55", "title": "Client supplied command arguments never crash the server", "statement": "executeCommand / codeAction resolve arguments of any JSON shape are answered with a result or an error, never with a crash.", "quantifier": "all argument objects", "why_tests_cant": "All JSON values.", "anchors": ["crates/lsp-server/src/dispatch/handlers/request.rs: parse_range, handle_execute_command, handle_code_action_resolve"]}
{"id": "C56", "title": "Flattening attributes keeps every argument", "statement": "The 'Flatten ink! attribute arguments' action replaces the primary attribute by one attribute containing exactly the arguments of all argument-based ink! attributes of the item, sorted by priority with ties in source order, deletes exactly the other argument-based attributes, and leaves macro attributes other than the primary alone.", "quantifier": "all attribute lists", "why_tests_cant": "Arbitrary attribute lists.", "anchors": ["crates/analyzer/src/analysis/actions/item.rs: flatten_attrs"]}
{"id": "C57", "title": "Quantity rules are decided exactly", "statement": "A contract is reported for its number of storage structs, constructors and messages iff it does not have exactly one storage, at least one constructor and at least one message; each extra storage and each extra contract in a file is reported individually.", "quantifier": "all item lists", "why_tests_cant": "Lists of any length.", "anchors": ["crates/analyzer/src/analysis/diagnostics/common.rs: ensure_at_least_one_item, ensure_exactly_one_item, ensure_at_most_one_item", "crates/analyzer/src/analysis/diagnostics/contract.rs", "crates/analyzer/src/analysis/diagnostics/file.rs"]}
{"id": "C58", "title": "Only ink! descendants allowed in a scope are accepted", "statement": "For every ink! scope, a quasi-direct ink! descendant is reported iff neither its macro nor its argument kind is in the list of kinds allowed in that scope; unknown attributes are not reported there.", "quantifier": "all scopes, descendants and both versions", "why_tests_cant": "Whole-table claim over arbitrary descendants.", "anchors": ["crates/analyzer/src/analysis/diagnostics/common.rs: ensure_valid_quasi_direct_ink_descendants_by_kind", "crates/analyzer/src/analysis/utils.rs: valid_quasi_direct_descendant_ink_args, valid_quasi_direct_descendant_ink_macros"]}
{"id": "C59", "title": "Every lazily computed code action can be executed", "statement": "Every migrate or extract code action sent to the client carries exactly one way to run it, fitting the client's abilities: data that codeAction/resolve accepts, or a command that executeCommand accepts; either decodes to the same document and text range the action was offered for. Every other code action carries its edits directly.", "quantifier": "all actions, document URLs, ranges and client capabilities", "why_tests_cant": "It is a round trip between two independently written encoders and decoders over all URLs and ranges; tests sample a few.", "anchors": ["crates/lsp-server/src/translator/to_lsp.rs: code_action", "crates/lsp-server/src/dispatch/handlers/request.rs: handle_code_action_resolve, handle_execute_command, parse_range"]}
{"id": "C60", "title": "Client positions are accepted only inside the document", "statement": "A client position that is accepted for a document denotes a character-boundary offset inside the text, so that no request position can crash the analysis; positions past the end of a line or of the document are rejected or clamped.", "quantifier": "all texts, all (line, character) numbers, all encodings", "why_tests_cant": "Position arithmetic has to be right for every text and every number pair; tests use positions taken from real tokens.", "anchors": ["crates/lsp-server/src/translator/from_lsp.rs: offset", "crates/lsp-server/src/dispatch/handlers/request.rs"]}
{"id": "C61", "title": "Macro suggestions fit the item and its scope", "statement": "An ink! attribute macro is suggested for an item exactly when the item has no ink! attributes yet, the macro applies to that kind of item in the project's ink! version, the enclosing ink! scope (if any) allows it, ink::test is only suggested under cfg(test) and ink_e2e::test only under cfg(all(test, feature = \"e2e-tests\")). Applying the suggestion never yields a conflict.", "quantifier": "all items, all enclosing scopes, both ink! versions", "why_tests_cant": "Tests cover a few item and scope combinations; the claim is an equivalence over every item kind, every list of scope attributes and every configuration.", "anchors": ["crates/analyzer/src/analysis/actions/item.rs:133-176", "crates/analyzer/src/analysis/utils.rs:551-720", "crates/analyzer/src/analysis/utils.rs:262-320"]}
{"id": "C62", "title": "A contract's constructors and messages are found through at most one impl", "statement": "The constructors and messages listed for a contract are exactly the functions annotated as such below it with no ink! annotated item in between, or with exactly one in between which is an ink! impl or an `impl` with a namespace or unknown attribute; each is listed once.", "quantifier": "all syntax trees", "why_tests_cant": "Arbitrary nesting of annotated and plain items.", "anchors": ["crates/ir/src/tree/utils.rs: ink_callable_closest_descendants", "crates/ir/src/tree/utils.rs: ink_peekable_quasi_closest_descendants"]}
{"id": "C63", "title": "The missing-message quickfix adds every missing message once", "statement": "The quickfix for a trait definition implementation with missing messages inserts exactly one function for each missing message, with its declared name, parameters and return type, and snippet placeholders numbered in order; once the functions are added no message is reported missing and nothing further is reported for the added functions.", "quantifier": "all trait definitions, all impls, all iteration orders of the message map", "why_tests_cant": "Arbitrary sets of missing messages in an arbitrary (hash) order; tests have one fixed trait.", "anchors": ["crates/analyzer/src/analysis/diagnostics/contract/ink_impl.rs:518-630"]}
{"id": "C64", "title": "Signatures of trait implementations are compared up to trivia", "statement": "A method that implements a message of an ink! trait definition gets a signature diagnostic exactly when its parameter list or return type differs from the declared one in more than whitespace and comments; the quickfix puts the declared text in its place.", "quantifier": "all declarations and implementations", "why_tests_cant": "Equality up to trivia over all token sequences.", "anchors": ["crates/analyzer/src/analysis/diagnostics/contract/ink_impl.rs:434-498", "crates/analyzer/src/analysis/diagnostics/contract/ink_impl.rs:635-699", "crates/analyzer/src/analysis/utils.rs:2054-2061"]}
{"id": "C65", "title": "ink! arguments of trait implementations match the declaration", "statement": "For a method implementing a message of an ink! trait definition, every ink! argument the declaration does not have is reported, the declared message arguments it lacks are reported together in priority order, and every value that is absent or differs from the declared one is reported; a method that repeats the declared arguments in any order and grouping has no argument diagnostic.", "quantifier": "all declarations, all attribute lists, both versions, all map iteration orders", "why_tests_cant": "Arbitrary lists of attributes and arguments with repetitions.", "anchors": ["crates/analyzer/src/analysis/diagnostics/contract/ink_impl.rs:702-928"]}
{"id": "C66", "title": "The migration of SCALE derives loses no derive", "statement": "Migrating the SCALE codec derives of a file keeps every other derived name of each attribute in order, and inserts exactly one `ink::scale_derive` attribute per item, which lists all SCALE traits that were derived for the item; from a `cfg_attr` with other attributes only the derive and one adjacent comma are deleted.", "quantifier": "all lists of attributes, all names, all iteration orders of the map", "why_tests_cant": "Arbitrary many attributes and names per item, grouped by item through a hash map.", "anchors": ["crates/analyzer/src/analysis/migrate.rs:152-335"]}
{"id": "C67", "title": "The migration of events preserves the code of the event", "statement": "Migrating a legacy event deletes exactly the event from the contract and inserts, before the contract, its code with only the ink! attribute replaced by the `ink::event` macro.", "quantifier": "all contracts and events", "why_tests_cant": "Arbitrary item text around the attribute.", "anchors": ["crates/analyzer/src/analysis/migrate.rs:42-108"]}
{"id": "C68", "title": "The migration gives distinct ids to chain extensions", "statement": "Each chain extension without an `extension` argument gets one, with an id that differs from those of all other chain extensions of the file.", "quantifier": "all lists of chain extensions", "why_tests_cant": "Arbitrary sets of ids.", "anchors": ["crates/analyzer/src/analysis/migrate.rs:111-149"]}
{"id": "C69", "title": "Signature help offers exactly the relevant signatures", "statement": "Signatures are offered only while the cursor is between the parentheses of an ink! attribute, and there exactly one label is offered for every relevant list of arguments: the primary argument of the attribute (or of a separate attribute on the same item) with its siblings, the lists around a complementary argument, the arguments of the attribute macro, or, while an unknown argument is typed, the lists around every argument which is possible on the item in its scope and starts with what has been typed.", "quantifier": "all versions, attribute kinds, items, scopes, argument lists and cursor positions", "why_tests_cant": "Combines tables, typed prefixes, scopes and two deduplications; only a proof shows that deduplication loses no signature.", "anchors": ["crates/analyzer/src/analysis/signature_help.rs: signature_help", "crates/analyzer/src/analysis/signature_help.rs: complementary_signature"]}
{"id": "C70", "title": "Snippets insert the same code as plain texts", "statement": "Every insertion that is offered in two variants (a plain text for editors without snippet support and a snippet with tab stops) inserts the same code: the snippet is well-formed, its tab stops are numbered from 1 without gaps, and accepting it without changes gives the plain text up to white space. This holds for all templates, whatever name, id or list of paths is put into them and whatever indent is applied. The text for a chain extension function shows the suggested id and name; the text for combining extensions has one field for each local chain extension.", "quantifier": "all insertion kinds, both versions, all names, ids, used names, lists of extension paths, and all indents", "why_tests_cant": "The names, ids, paths and indents that are substituted into the templates (by plain string replacement, twice per template) are unbounded; tests compare a few substituted texts.", "anchors": ["crates/analyzer/src/analysis/text_edit/common.rs:28-478", "crates/analyzer/src/codegen/snippets.rs:3-495", "crates/analyzer/src/analysis/actions/entity.rs:200-265"]}
{"id": "C71", "title": "Order, completeness and ink! 5 reports of an item are exact", "statement": "For the attributes of one item: it is told that its main attribute should be first exactly when that attribute is complete and not the first one; that an argument should be first in it exactly when the argument giving the attribute its meaning is not its first argument; that a main attribute is missing exactly when its best attribute is a qualifying argument other than `namespace`. The reports about what ink! 5 changed (anonymous with signature_topic, chain extension without extension, deprecated extension, additional_contracts and keep_attr) are made for ink! 5 only, exactly for the items that have those arguments, at the first occurrence (the later one of the two for the conflict).", "quantifier": "all attribute lists of an item, both ink! versions, both kinds of surroundings", "why_tests_cant": "the combinations of main attribute, position, argument order, further attributes and version are unbounded", "anchors": ["crates/analyzer/src/analysis/diagnostics/common.rs:519-987", "crates/analyzer/src/analysis/utils.rs:446-533"]}
{"id": "C72", "title": "Formatted insertions keep the layout", "statement": "Code that is inserted (or put in place of whole tokens) right after an opening brace, a statement, a closing brace or a comment starts on a new line, lined up with the items around it unless it brings its own line end or indent; after an opening brace it is followed by a blank line. Code put between white space with line ends gets exactly the line ends missing for a blank line on each side, and code pushed down by an insertion keeps its blank line and indent. Nothing is added elsewhere.", "quantifier": "all files (as token lists), all edits at token boundaries, all insertions inside white space, all positions of the enclosing item", "why_tests_cant": "the white space around an edit and the text of the edit are arbitrary strings", "anchors": ["crates/analyzer/src/analysis/text_edit.rs:72-327", "crates/analyzer/src/analysis/utils.rs:1188-1213", "crates/analyzer/src/analysis/utils.rs:1962-1965"]}
{"id": "C73", "title": "Attributes are accepted and offered where ink! documents them", "statement": "The tables that decide which attributes fit which item kind and which may be declared inside which entity list exactly what the ink! documentation says for each version: every documented placement is listed, nothing else is, and everything listed inside of an entity can be put on some item.", "quantifier": "all attribute kinds, item kinds and both ink! versions", "why_tests_cant": "the tables are written as match arms with fall-through defaults; tests sample a few cells and no test compares whole tables with the documentation or with each other", "anchors": ["crates/analyzer/src/analysis/utils.rs:170-444"]}
{"id": "C74", "title": "Header rules report exactly the documented violations and their quick fixes repair them", "statement": "A message, constructor, chain-extension function, trait definition, impl block or storage/contract struct is reported for a rule about its header (visibility, const/async/unsafe/extern/auto/default modifiers, generics, supertraits, type arguments, variadic parameters, receiver, return type, default body) exactly if the header violates the rule; each report names the offending part and offers a quick fix; applying any quick fix leaves a well-formed header in which that violation is gone, no rule is violated more often and all other parts are unchanged, so applying fixes in any order ends with a header that violates no rule.", "quantifier": "for all well-formed headers of all item kinds, all texts before and after the item, all reports, all quick fixes and all orders of applying them", "why_tests_cant": "The headers are arbitrary sequences of modifiers, parameters and comments; the claim is about each edit's byte range in every such sequence and about arbitrary sequences of fixes, while tests try one or two violations of one spelling each.", "anchors": ["crates/analyzer/src/analysis/diagnostics/common.rs:1195-1694", "crates/analyzer/src/analysis/diagnostics/message.rs:33-126", "crates/analyzer/src/analysis/diagnostics/contract/constructor.rs:32-97", "crates/analyzer/src/analysis/diagnostics/contract/ink_impl.rs:42-276", "crates/analyzer/src/analysis/utils.rs:1444-1530"]}
{"id": "C75", "title": "Resolving a path finds the item that the path denotes", "statement": "The item that the analyzer finds for a path is one that the path denotes: declared in the module that the path's qualifier names from where the path stands, or imported there by name, alias or glob, through any number of re-exports; and a path that denotes an item of the file is not reported as unknown.", "quantifier": "all module trees of any depth, all use declarations (aliases, globs, re-exports), all paths and all modules from which they are seen", "why_tests_cant": "Tests resolve a handful of paths through one or two imports; module trees, chains of re-exports and combinations of aliases and globs are unbounded, and a wrong resolution only shows as a missing or wrong diagnostic far away.", "anchors": ["crates/ir/src/tree/ast_ext.rs:83-103", "crates/ir/src/tree/ast_ext.rs:106-174", "crates/ir/src/tree/ast_ext.rs:187-259", "crates/ir/src/tree/ast_ext.rs:262-300"]}
{"id": "C76", "title": "A well-formed argument list is read as it is written", "statement": "Parsing the argument list of an ink! attribute gives exactly the arguments a user wrote, one for one and in order: each with its name at the place of the name and the kind the name stands for, with the value the user assigned (the symbol `_` or `@`, or the literal or path recognised in the whole value text), and with the nested argument of `name(argument)`, to any nesting depth. White space, comments and a comma after the last argument do not change what is read.", "quantifier": "all argument lists of any length and nesting depth with any white space and comments, all behaviours of the expression parser", "why_tests_cant": "Tests compare the parse of a few dozen literal attributes; they cannot cover all combinations of nesting, trivia, values and separators, and none has white space after a trailing comma.", "anchors": ["crates/ir/src/attrs/parser.rs:10-161", "crates/ir/src/attrs/meta/value.rs:33-77", "crates/ir/src/attrs/args.rs:20-66"]}
{"id": "C77", "title": "Answers use only what the client announced, at the right places", "statement": "Every completion, hover, hint, signature and diagnostic the analyzer computes is sent, in order, at the position of its byte range in the negotiated encoding. Snippets are sent only to clients which announced snippet support and are then marked as snippets; parameter labels are offsets (in code units, delimiting the parameter) only if announced and otherwise the parameter's text; per-signature active parameters are sent only if announced; every code action can be used by the client: it carries edits, a command the server announced, or data both sides agreed to resolve.", "quantifier": "for all client capabilities, encodings, documents, positions and analysis results", "why_tests_cant": "The tests fix a handful of capability sets and ASCII documents; the combinations of capabilities, encodings and texts are unbounded.", "anchors": ["crates/lsp-server/src/translator/to_lsp.rs:51-338", "crates/lsp-server/src/dispatch/handlers/request.rs:8-246", "crates/lsp-server/src/initialize.rs:40-100", "crates/lsp-server/src/utils.rs:64-111"]}
{"id": "C78", "title": "Members of ink! traits follow the rules and the quick fixes repair them", "statement": "For the body of any chain extension or trait definition, exactly the members that ink! forbids are reported (constants, macros, default implementations, functions without their attribute, and for chain extensions an associated type that is not a plain `ErrorCode` type with a default type, or not exactly one `ErrorCode` type; for trait definitions any associated type and wildcard selector), and applying the quick fix of a report repairs that violation of that member and changes nothing else in the file. Functions of a chain extension get distinct unused ids. A contract module without an inline body gets one.", "quantifier": "for all trait bodies (any number and order of constants, macros, types with any parts, functions with any attributes), all texts around them, all ids in use, both ink! versions, and all reports and their quick fixes", "why_tests_cant": "The tests apply each quick fix to a few formatted snippets; combinations of missing `=`, missing `;`, generic parameters, bounds, several attributes of several kinds and several members are unbounded, and the offsets of the edits depend on all of them.", "anchors": ["crates/analyzer/src/analysis/diagnostics/common.rs:1627-1694", "crates/analyzer/src/analysis/diagnostics/chain_extension.rs:149-383", "crates/analyzer/src/analysis/diagnostics/trait_definition.rs:72-164", "crates/analyzer/src/analysis/diagnostics/contract.rs:119-167", "crates/analyzer/src/analysis/utils.rs:971-999"]}
{"id": "C79", "title": "Adding or moving an attribute argument changes only that argument", "statement": "The edits that add arguments to an ink! attribute insert text at one offset only, and in the resulting file the attribute has exactly the arguments it had before plus the new ones: in front of all others for a primary argument (and for the 'first argument' position), behind all others otherwise, with one comma between neighbours, and with parentheses added where there were none or where the list is not closed. The 'make first argument' fix moves the argument to the front and keeps the order and content of the others. Replacing an attribute by a macro prints arguments that are read back with the same kinds, names, values and nested arguments.", "quantifier": "every attribute (any arguments, nesting, white space and comments, with or without list, closed or not), every kind and list of new arguments, every argument that is moved", "why_tests_cant": "Affixes depend on neighbouring tokens, white space, trailing commas and the shape of the token tree; examples cover a few layouts only, and a doubled or missing comma appears only for particular combinations.", "anchors": ["crates/analyzer/src/analysis/utils.rs:1006-1185", "crates/analyzer/src/analysis/diagnostics/common.rs:809-849", "crates/analyzer/src/analysis/diagnostics/common.rs:938-949", "crates/ir/src/attrs/meta.rs"]}
{"id": "C80", "title": "Inserted arguments are complete and accepted by the analyzer", "statement": "Whenever the analyzer inserts an ink! argument (completions, code actions, quick fixes), the text is that argument written out with a default value that the analyzer itself accepts for the argument in both ink! versions; ids and selectors suggested as default are not in use by the other functions they must differ from; in front of an existing `=` or `(` only the name is inserted; and the snippet variant shows the same text with the value as its only tab stop.", "quantifier": "every argument kind, every ink! version, every attribute and insert offset, every set of ids and selectors in use, every environment path", "why_tests_cant": "The default depends on the surroundings (ids in use, tokens behind the cursor, the enclosing trait or contract), and acceptance is decided by another part of the analyzer (argument validation); tests fix a few kinds and surroundings.", "anchors": ["crates/analyzer/src/analysis/utils.rs:748-968", "crates/analyzer/src/analysis/diagnostics/common.rs:157-440", "crates/analyzer/src/analysis/actions/attr.rs:74-105", "crates/analyzer/src/analysis/actions/item.rs:225-290"]}
{"id": "C81", "title": "Accepting a macro completion gives the attribute that macro", "statement": "While a user types the path of an attribute, the completions offered are exactly the ink! macros that fit the item, the crate already written, the typed prefix and the surrounding scope, and only if the item has no other ink! attribute; if no item or crate is known, the names of the ink! crates with the typed prefix. Accepting one writes the path of exactly that macro and leaves everything else in the file as it is.", "quantifier": "every file, every cursor offset, every item kind, set of attributes and scope, both ink! versions", "why_tests_cant": "The edit depends on which token is in focus and on the tokens around it, over all files and offsets; tests place the cursor in a few files.", "anchors": ["crates/analyzer/src/analysis/completions.rs:60-280", "crates/ir/src/tree/item_at_offset.rs:34-74"]}
{"id": "C82", "title": "Accepting an argument completion adds exactly that argument", "statement": "Between the parentheses of an ink! attribute the completions are exactly the arguments that may be given at the cursor (nested arguments inside an argument that takes them); accepting one yields an attribute with the same arguments as before plus, in place of the name in focus, between empty parentheses, behind the last comma or nested in the argument in focus, the completed one, which the analyzer accepts.", "quantifier": "every attribute with any list of well-formed arguments, every completed argument, every cursor position among them", "why_tests_cant": "The edit range depends on the token in focus and on the range of the focused argument; whether the result is well formed is decided by re-reading the whole attribute, over all argument lists.", "anchors": ["crates/analyzer/src/analysis/completions.rs:283-470", "crates/ir/src/attrs/meta.rs:125-188"]}
{"id": "C83", "title": "Completing an ink! entity replaces only the line of the cursor", "statement": "The ink! entities offered while typing code are exactly those that belong where the cursor is (contracts, events, trait definitions, chain extensions, storage items and environments at the root; storage and events in a contract; constructors and messages in an ink! impl block; tests in test modules; messages in trait definitions; extensions and `ErrorCode` in chain extensions; topics in events), exist in the ink! version, and whose keywords match a word on the line, or any on an empty line; none in attributes and comments. Accepting one replaces the line of the cursor with its indentation, and no other line; on an empty line only white space.", "quantifier": "every file, cursor offset, line and surrounding item, both ink! versions", "why_tests_cant": "The edit range is computed from the tokens around the cursor, whose newlines can be inside whitespace, comments and literals; tests place the cursor in a few files.", "anchors": ["crates/analyzer/src/analysis/completions.rs:473-942", "crates/analyzer/src/analysis/utils.rs:1200-1206"]}
{"id": "C84", "title": "Every ink! item of a file is checked by its rules or reported as misplaced", "statement": "The rules of each kind of ink! item are run on exactly the items with that attribute that are where ink! expects them (macros at the top or in a contract, storage, events and callables in contracts and ink! impls, topics in events, messages in trait definitions, functions in chain extensions); the rules for impls on exactly the impls of contracts; and for every other ink! item, its own leading attribute or that of an item around it is reported as misplaced. No ink! item is silently skipped.", "quantifier": "every syntax tree, both ink! versions, every nesting of ink! items", "why_tests_cant": "Which rules run is decided by a recursive walk over closest descendants with peeking and deduplication in each entity; whether some nesting escapes both the walk and the scope checks is a statement about all trees.", "anchors": ["crates/analyzer/src/analysis/diagnostics/file.rs:13-57", "crates/analyzer/src/analysis/diagnostics/contract.rs:27-112", "crates/ir/src/tree/utils.rs:136-255"]}
{"id": "C85", "title": "Extracting an event moves it unchanged and leaves the rest of the contract alone", "statement": "Extracting an ink! event into its own package writes the comments of the event, its other attributes, one ink! event attribute with the same argument, and the declaration with all fields and their attributes; in the contract the event (and at most the white space behind it) is removed, an import of it is put behind the last `use` item of the module or at its start, and nothing else changes. It is possible for exactly the named event structs inside modules.", "quantifier": "every file, every event struct with any comments, attributes, arguments and fields, every module around it", "why_tests_cant": "Content and edits are assembled from the children of the item and of the module; whether something is lost, glued or overwritten depends on their order and on what is between them, for all items.", "anchors": ["crates/analyzer/src/analysis/extract.rs:29-94", "crates/analyzer/src/analysis/utils.rs:1626-1644"]}
{"id": "C86", "title": "Local types in chain extension signatures are checked once each", "statement": "For a chain extension function, a local struct, enum or union is reported as lacking the SCALE codec traits exactly if it lacks them and a parameter or the return type uses it: directly, or inside references, pointers, arrays, slices, parentheses and tuples, or as type argument of a type that is not local, to any depth. No type is reported twice for a function.", "quantifier": "every signature with types of any shape and depth, every resolution of paths to local types", "why_tests_cant": "Types nest without bound and paths are deduplicated by text before and by range after resolution; that this loses nothing and reports nothing twice is a claim about all nestings.", "anchors": ["crates/analyzer/src/analysis/diagnostics/chain_extension/extension_fn.rs:65-188"]}
{"id": "C87", "title": "Misplaced items are reported, and the move offered for them puts them where they belong", "statement": "A storage item, event or impl that is not directly in a contract, and a constructor or message that is not directly in an impl block, is reported; no others are. If a fix is offered, applying it takes the item out of its place, puts it unchanged into the contract (storage at the start, events behind the structs, impl blocks behind the impl blocks) or at the end of an impl block: the closest one around it, next to it, or of the contract, or a new one if there is none. Nothing else changes, and the item is no longer reported.", "quantifier": "all syntax trees, items, positions and contract names", "why_tests_cant": "The position depends on what surrounds the item at any depth, on all other items of the target list, and on the order of two edits of one text.", "anchors": ["crates/analyzer/src/analysis/diagnostics/common.rs:1696-1781", "crates/analyzer/src/analysis/diagnostics/contract.rs:581-614", "crates/analyzer/src/analysis/diagnostics/contract/ink_impl.rs:307-335", "crates/analyzer/src/analysis/utils.rs:1626-1737", "crates/analyzer/src/analysis/utils.rs:1832-1898", "crates/analyzer/src/analysis/actions.rs:84-136"]}
{"id": "C88", "title": "Code actions add ink! entities that fit the item, inside of it", "statement": "For a selection in an item with a body, actions are offered exactly for what the item can take: for a contract a storage (only if it has none), an event, constructors and messages (no message beside a wildcard in ink! 5; with the selection in the body only if the contract has no inherent ink! impl block); for impl blocks constructors and messages; for chain extensions an error code (only if there is none) and extensions; for trait definitions messages; for events topics; for test modules tests. In the root of a file exactly the top-level entities are offered (a contract only if there is none). If the selection is on the declaration, then the text goes into the body: storage to the start, events behind the structs, the error code behind the bracket, everything else at the end. If the selection is in the body, then the text goes there: between the brackets, in no other item, and replacing only selected white space. A topic keeps all former fields and adds a comma where one is missing.", "quantifier": "all items, bodies (any number of children), selections, versions; all lists of fields", "why_tests_cant": "The place depends on the item, its children, the focused element and the selection; tests look at a handful of files with the cursor at a few places.", "anchors": ["crates/analyzer/src/analysis/actions/item.rs:16-125", "crates/analyzer/src/analysis/actions/item.rs:307-664", "crates/analyzer/src/analysis/actions/item.rs:708-738", "crates/analyzer/src/analysis/actions/entity.rs", "crates/analyzer/src/analysis/utils.rs:1285-1440", "crates/analyzer/src/analysis/utils.rs:1777-1827", "crates/analyzer/src/analysis/text_edit/common.rs:154-191"]}
{"id": "C89", "title": "Items of other crates are recognised by what their paths stand for", "statement": "A path that stands for an item of one of the given crates (an ink! or SCALE trait, say), spelled in full, by an imported name, by an alias, by a module of the crate that imports it, or by a type alias, is recognised as that item; no other path is; and every search ends.", "quantifier": "for every crate (modules, imports, aliases, type aliases), item name, set of crate qualifiers, path and module the path is used in", "why_tests_cant": "The search follows imports through modules recursively and compares spelled paths with sets of qualifiers, aliases and globs; tests list a few spellings, but whether other spellings are missed, wrongly accepted or searched for ever depends on how all of the imports of a crate combine.", "anchors": ["crates/analyzer/src/resolution.rs:76-229", "crates/analyzer/src/resolution.rs:292-411"]}
{"id": "C90", "title": "The migration renames cross-contract calls, each once, without overlaps", "statement": "When a file is migrated to ink! 5.0, every visited call of `instantiate_contract` or `invoke_contract` (of the crate, or as methods of the environment), of `build_call().call(..)`, of `build_create()` and of `Call::new(..)` is changed to its `_v1` counterpart, once, and nothing else is; the changes never overlap; and calls that are spelled in full end up as calls of the new functions.", "quantifier": "for all function bodies (expressions of any depth), all meanings of paths, all source ranges", "why_tests_cant": "Method chains, nested calls and visited places combine without bound; tests migrate a few contracts and compare the text.", "anchors": ["crates/analyzer/src/analysis/migrate/host_fn.rs:13-257", "crates/analyzer/src/analysis/migrate/common.rs:8-28", "crates/analyzer/src/analysis/migrate/traversal.rs"]}
{"id": "C91", "title": "The migration removes deprecated e2e imports and keeps all others", "statement": "When e2e tests are migrated, the `use` items of their module afterwards import exactly what they imported before without `ink_e2e::build_message` and `ink_e2e::MessageBuilder`; the lists are well-formed; a `use` item that imported nothing else is gone; everything else keeps its text; and the edits do not overlap.", "quantifier": "for all sequences of `use` items, all use trees (lists of any length and depth, with any white space and comments around commas, aliases and globs) and all surrounding text", "why_tests_cant": "Which comma goes with which name depends on the neighbours in the list and on the nesting; tests have a `use` item or two.", "anchors": ["crates/analyzer/src/analysis/migrate/e2e_test.rs:177-304", "crates/analyzer/src/analysis/utils.rs:1469-1530"]}
{"id": "C92", "title": "Environments and error codes are types of the crate with the trait they need", "statement": "An environment given to a contract or test, and the ErrorCode of a chain extension, is accepted exactly if it denotes a struct, enum or union of the crate that implements the required ink! trait (or is ink!'s default environment); a fix that replaces it names an existing type by a path that denotes it from anywhere; adding the offered impl answers the report; and every use of Self::ErrorCode is replaced by a path to the same type.", "quantifier": "for all files (module trees, types, impls, imports), all paths given, all reference nodes, and all uses of Self::ErrorCode", "why_tests_cant": "Resolution, recognition of traits and the search by name interact over arbitrary module trees and imports; the tests use one module with one type.", "anchors": ["crates/analyzer/src/resolution.rs:14-73", "crates/analyzer/src/resolution.rs:232-289", "crates/analyzer/src/analysis/diagnostics/environment.rs:14-115", "crates/analyzer/src/analysis/diagnostics/chain_extension/error_code.rs:20-183", "crates/analyzer/src/analysis/diagnostics/common.rs:1911-1963"]}
{"id": "C93", "title": "Migrated e2e tests have the attribute, signature and imports of ink! 5", "statement": "Migrating an e2e test from ink! 4 leaves an attribute with its environment and without the arguments that ink! 5 dropped (no argument list if there is no environment), by edits that do not overlap; the signature becomes `<Client: E2EBackend>(mut client: Client)` and all other text of the function stays; each required backend trait is imported exactly once, at a place where Rust allows items.", "quantifier": "for all lists of arguments in any order and layout, all functions, all sets of required traits and all contents of the file, module or body", "why_tests_cant": "The tests migrate a few well-formatted functions; order, layout and number of the arguments, existing generics and what stands at the head of a file or module are unbounded.", "anchors": ["crates/analyzer/src/analysis/migrate/e2e_test.rs:37-175", "crates/analyzer/src/analysis/utils.rs:1533-1644"]}
{"id": "C94", "title": "Test attributes are suggested exactly in scopes compiled for tests", "statement": "`ink::test` is suggested exactly inside of scopes whose `cfg` attributes restrict them to test builds, and `ink_e2e::test` exactly inside of scopes restricted to test builds with the feature `e2e-tests`, however the predicate is laid out; other suggestions are not affected.", "quantifier": "for all predicates of any depth and layout, all attributes of all ancestors and all suggestions", "why_tests_cant": "The predicates are recognised by regular expressions over text; predicates nest without bound and their layout is free, and tests only use two of them.", "anchors": ["crates/analyzer/src/analysis/utils.rs:694-742", "crates/analyzer/src/analysis/actions/item.rs:385-400", "crates/analyzer/src/analysis/completions.rs:705-725"]}
{"id": "C95", "title": "Events are reported exactly for generics, stray ink! attributes and cfg on fields, and each fix removes one fault", "statement": "For an ink! event, generic parameters, ink! attributes other than topics on its fields and cfg attributes on its fields are reported, each exactly where it stands, and nothing else is reported by these rules; every quickfix removes exactly the part at fault, leaves every other character of the file as it is, and fewer reports remain.", "quantifier": "for all event structs with any number of fields, attributes and any text around them", "why_tests_cant": "unit tests show a few events with one fault each; which attributes are reported and what the file looks like after a fix depends on arbitrary lists of fields and attributes", "anchors": ["crates/analyzer/src/analysis/diagnostics/event.rs:66-137", "crates/analyzer/src/analysis/diagnostics/event/topic.rs:31-43", "crates/analyzer/src/analysis/actions.rs:63-71", "crates/ir/src/topic.rs:8-11"]}
{"id": "C96", "title": "Project commands change exactly the documents they are meant to change", "statement": "When a client applies the workspace edit of a project command, in whatever order the documents are listed: creating a project makes exactly the source file and the manifest in the named directory, with or without a final slash in the argument; migrating a project gives the source its migration edits and replaces the nearest manifest by its migrated text; extracting an event gives the source the edits of the extraction and the import, the nearest manifest a dependency on the new package, and makes exactly the source and the manifest of the new package in a directory which did not exist. No other document changes, and no existing document is overwritten.", "quantifier": "all project names, roots, source texts, manifests, edits which delimit characters, position encodings, sets of open documents and orders of iteration of the maps", "why_tests_cant": "The tests compare maps of files and edits for three fixed projects; they never apply the edits, in any encoding or order, to documents with other contents, nor look at other documents.", "anchors": ["crates/lsp-server/src/dispatch/handlers/command.rs:34-288", "crates/lsp-server/src/dispatch/handlers/command.rs:452-538", "crates/lsp-server/src/dispatch/handlers/request.rs:153-177", "crates/lsp-server/src/dispatch/handlers/request.rs:262-315"]}
{"id": "C97", "title": "Suggestions inside an attribute are for what the attribute annotates", "statement": "With the cursor inside a closed attribute, the kind of item used for suggestions is the kind of the item or struct field which carries the attribute, and nothing is assumed when it is attached to anything else. Inside an attribute without its closing bracket, it is the item whose keyword follows the cursor with only white space, comments, punctuation and `pub` between, and no other item; in the fields of a struct it is a field unless such a keyword follows. Outside of attributes it is the item around the cursor.", "quantifier": "all syntax trees, all positions of the cursor, all nestings", "why_tests_cant": "The tests place cursors in a few snippets; the answer depends on the shape of the tree which error recovery builds around an unfinished attribute, and on any sequence of tokens that follows.", "anchors": ["crates/ir/src/tree/item_at_offset.rs:98-297", "crates/ir/src/tree/ast_ext.rs:12-82"]}
{"id": "C98", "title": "A chain extension without an id is reported and given one of its own", "statement": "In ink! 5 a chain extension is reported exactly when none of its attributes has an argument `extension`. The quickfix adds the argument to the attribute, creating or extending its argument list and keeping every other argument; afterwards the chain extension has the id, is not reported any more, and the id is between 1 and 65535 and was not the id of any chain extension of the file.", "quantifier": "all attributes and argument lists, all files with any number of chain extensions", "why_tests_cant": "The tests apply the fix to a trait with a bare attribute in a file without other extensions; the claim needs every argument list with its white space, comments and trailing commas, and every set of ids in use.", "anchors": ["crates/analyzer/src/analysis/diagnostics/chain_extension.rs:80-142", "crates/ir/src/chain_extension.rs:22-28"]}
{"id": "C99", "title": "A session starts with one answered initialize request and serves what was announced", "statement": "Before the `initialize` request every other request is refused with the code for servers that are not initialized and notifications are ignored. The `initialize` request is answered once, with the capabilities; after `initialized` the message loop runs with the capabilities of the client. Nothing else is sent before that, and no message other than `exit` ends the server. Request methods and commands are served exactly if the capabilities offer them.", "quantifier": "all histories of client messages and all client capabilities", "why_tests_cant": "The test of the handshake sends a single well-formed initialize request; other orders of messages and the agreement of the announcement with the routing of every method are not tested.", "anchors": ["crates/lsp-server/src/initialize.rs:9-102", "crates/lsp-server/src/main.rs:39-53", "crates/lsp-server/src/dispatch.rs:27-63,143-158"]}
{"id": "C100", "title": "Missing parts of contracts and traits are reported, and the fixes add them", "statement": "A missing storage, constructor or message is reported exactly if the contract (including its impl blocks) has none, a trait definition exactly if it has no message, and an ink! impl exactly if it is not annotated and has no callable. The fix adds just the missing item: in a place for its kind in the contract, the trait, or an impl block (which is added, named like the contract, if there is none). Text and snippet agree, nothing else changes, everything that belonged to the contract still does, the new part belongs to it too, and its name differs from those of the other constructors and messages.", "quantifier": "all syntax trees, names and trait implementations", "why_tests_cant": "The tests check the fixes for a few contracts with fixed layouts; which impl block is taken, where the text goes and whether the report disappears for any other layout is not tested.", "anchors": ["crates/analyzer/src/analysis/diagnostics/contract.rs:176-242", "crates/analyzer/src/analysis/diagnostics/trait_definition.rs:178-201", "crates/analyzer/src/analysis/diagnostics/contract/ink_impl.rs:282-305", "crates/analyzer/src/analysis/actions/entity.rs:22-370", "crates/analyzer/src/analysis/utils.rs:1832-1920"]}
{"id": "C101", "title": "Every ink! attribute of a file is checked by the generic rules and must be on the right item", "statement": "For every file, the attributes reported as unknown are exactly the ink! attributes whose macro or argument is unknown, each once; the arguments of every ink! attribute and the attributes of every annotated node (with all of its ink! attributes and no others) are checked exactly once and nothing else is; what is reported for an item is also reported for the file. An annotated item that stands where ink! expects it is reported iff the attribute is not for such items. The fix of a report takes out the text of exactly that attribute, after which the report is gone if the attribute was the only one of its kind there, while other unknown attributes stay reported; only a contract that is no list of items is also offered to be taken out as a whole.", "quantifier": "All files with attributes at any depth and place, all items, all attribute kinds, all rules for arguments and groups of attributes, all versions", "why_tests_cant": "Annotated nodes are told apart by their text range: that no two of them share one depends on every nesting of nodes and attributes; tests try a few flat files", "anchors": ["crates/analyzer/src/analysis/diagnostics/common.rs:26-73", "crates/analyzer/src/analysis/diagnostics/common.rs:117-143", "crates/ir/src/tree/utils.rs:18-61", "crates/analyzer/src/analysis/diagnostics/common.rs:1195-1275", "crates/analyzer/src/analysis/diagnostics/contract.rs:149-169"]}
{"id": "C102", "title": "Attribute actions add exactly the macro or argument they name", "statement": "With the cursor on an item (not in an attribute; in a field of a struct or on the declaration), an action is offered for a macro iff the item has no ink! attribute and the macro fits item and surroundings, and for an argument iff it may stand beside what is there, is not there yet and is allowed where the item is. Applying a macro action inserts one attribute between the attributes and the item that is read as this macro. Applying an argument action extends the main ink! attribute by this argument, with an accepted value, in front if it decides the kind of the attribute and else at the end, or, without such an attribute, inserts a new attribute behind the ink! attributes that is read as this argument. Nothing else in the file changes, a snippet shows the same text, and computing the actions never panics. On an attribute the same holds for this attribute, and migration and extraction are offered iff the version and the kind of the attribute call for them.", "quantifier": "for all files, items with any attributes, comments and white space, cursor conditions, versions, argument lists and arguments", "why_tests_cant": "Where the text goes depends on the interplay of all attributes, white space and comments in front of the item, and its shape on the argument list of the main attribute; tests fix a few sources.", "anchors": ["crates/analyzer/src/analysis/actions/item.rs:17-293", "crates/analyzer/src/analysis/actions/attr.rs:11-106", "crates/analyzer/src/analysis/utils.rs:972-999"]}
{"id": "C103", "title": "The fix for missing SCALE traits changes one attribute and nothing else", "statement": "The quick fix for missing SCALE codec traits is one text edit. It replaces the text of the first derive (ink! 4) or ink::scale_derive (ink! 5) attribute of the type, or it adds an attribute behind the attributes of the type (in front of the item if it has none); nothing else in the file changes, and the attributes of the edited type are read as the check intends (all traits derived in ink! 4, an ink::scale_derive with the missing traits in ink! 5). An existing derive list keeps its names, the missing ones follow, separated by commas. The snippet shows the same text with one tab stop per missing trait.", "quantifier": "for all types with any attributes, comments and white space, all sets of implemented traits, both versions and all resolutions of names", "why_tests_cant": "Place and text depend on every arrangement of attributes and comments in front of the type and on how a list ends; tests use one attribute in usual formatting.", "anchors": ["crates/analyzer/src/analysis/diagnostics/common.rs:2110-2243", "crates/analyzer/src/analysis/utils.rs:2077-2085"]}
{"id": "C104", "title": "Entity actions add exactly the entity they name", "statement": "An action that adds an ink! entity (storage, event, constructor, message, trait message, error code, chain extension function, test, e2e test) is possible exactly for the items that can hold the entity, if a place is chosen or the item has a list. Applying it replaces only white space: at the chosen place between two children of the list, or else where the entity goes by default. Up to white space the file then is the old one with this entity added to the list; the entity carries its attribute and belongs to the item, every other node is what it was, and the snippet shows the same text. The new name is none of the names considered, and the id of an extension none of the ids in use. A constructor or message for a contract goes to the impl block around the chosen place, or else to a new impl block of the contract there, or without a place to the first suitable impl block.", "quantifier": "for all trees with bracketed lists, items, chosen places or none, names, ids, entities and versions", "why_tests_cant": "The place depends on the shape of the list, the indentation of the item and the white space around the cursor, the name and id on everything the item holds; tests apply an action to a few sources.", "anchors": ["crates/analyzer/src/analysis/actions/entity.rs:16-481", "crates/analyzer/src/analysis/text_edit/common.rs:61-73", "crates/analyzer/src/analysis/actions/item.rs:17-34"]}
{"id": "C105", "title": "Removing an argument leaves every other argument as it was read", "statement": "When a quick fix or the migration removes one argument of an ink! attribute, the attribute that is left has exactly the other arguments, in order, with the kinds and values they had; a macro loses its parentheses with its only argument, any other attribute goes away with it. A namespace on a trait implementation is reported exactly then, at the first namespace argument, with such a fix.", "quantifier": "For all argument lists of any length and layout, all positions in them and all surrounding files.", "why_tests_cant": "Tests apply the fixes to a few attributes and look at the text; that every other argument is read as before depends on where commas, white space and comments are, in unboundedly many combinations.", "anchors": ["crates/analyzer/src/analysis/utils.rs:1533-1624", "crates/analyzer/src/analysis/diagnostics/contract/ink_impl.rs:165-184", "crates/ir/src/attrs/parser.rs:10-120", "crates/ir/src/tree/utils.rs:116-118"]}
{"id": "C106", "title": "The fix for missing arguments of an implemented message adds exactly these arguments", "statement": "When a function that implements a message of a trait definition lacks arguments that the trait definition declares (among `message`, `default`, `payable` and `selector`), applying the fix gives the function exactly these arguments, as they are declared: they are added to its first `message` attribute, or, if it has none, to its first attribute that can stand beside `message`, with `message` in front and the others at the end; without such an attribute a new one is added, before the other ink! attributes if `message` is missing. The arguments that the function had keep their names, values and order, nothing else in the file changes, and no argument is reported as missing afterwards.", "quantifier": "for every file, every function with any attributes, white space and comments, and every list of declared arguments", "why_tests_cant": "tests apply the fix to a few tidy functions; the edits are two independent insertions whose offsets and commas depend on what stands at both ends of any argument list", "anchors": ["crates/analyzer/src/analysis/diagnostics/contract/ink_impl.rs:702-928", "crates/analyzer/src/analysis/utils.rs:1006-1185"]}
{"id": "C107", "title": "The quickfixes of the wildcard complement rule lead to a contract that meets the rule", "statement": "A contract with a wildcard selector must have exactly one other message, with the complement selector, and the complement selector may only be used beside a wildcard. Applying the quickfixes that are offered for this rule one at a time, in any order and at any place, comes to an end after at most as many steps as the messages have arguments plus the number of messages plus one; when no quickfix is left, the contract meets the rule. Each fix acts only on messages that break the rule, and the text edits do what the fixes say: a replaced argument becomes `selector = @`, an added one is the last of its attribute, and the attribute of an added message is read as a message with the complement selector; all other arguments are read as before.", "quantifier": "for all lists of messages with any attributes and arguments, all sequences of quickfixes, all files and written argument lists", "why_tests_cant": "Whether a loop of report and fix ends is a statement about all sequences of fixes on all contracts; the tests apply one fix to one sample.", "anchors": ["crates/analyzer/src/analysis/diagnostics/contract.rs:425-579", "crates/analyzer/src/analysis/actions/entity.rs:242-265", "crates/analyzer/src/analysis/actions.rs:74-81", "crates/analyzer/src/analysis/utils.rs:1006-1122"]}
{"id": "C108", "title": "An entity is the same from its item and from its attribute", "statement": "An entity can be derived from a node exactly if `can_cast` says so. For the kinds of entities that are defined by an ink! macro or argument, the same entity with the same fields is derived from an item and from each of its attributes of that kind; its attribute is the first of that kind on the item, and it is derived again from its own node. The parent entity of a node is that of the closest item around it, if that carries the attribute. The entities listed below a node are exactly those that carry the attribute with nothing annotated in between, each as often as it carries it. ink! impls are derived from the impl itself only.", "quantifier": "all syntax trees, nodes, entity kinds and configurations of the entity macro", "why_tests_cant": "The functions are generated by a macro for every entity; tests cast a few well-formed items, not every node of every tree with any number and order of attributes.", "anchors": ["crates/macro/src/entity.rs:10-288", "crates/ir/src/traits/entity.rs:9-43", "crates/ir/src/tree/utils.rs:120-171"]}
{"id": "C109", "title": "Applying the quickfixes for overlapping ids and selectors ends the overlaps", "statement": "Applying the quickfixes of any of the reports of overlapping chain extension ids or selectors, one at a time or several at once, ends exactly these reports and causes no others; when all are applied the rule reports nothing. Every report is about the repeated item and comes with such a quickfix as long as there are twice as many numbers as items.", "quantifier": "all lists of chain extension functions and callables, any choice of the reports, any hash function", "why_tests_cant": "Tests compare the quickfixes of a few contracts with an expected text; none applies them and analyses again, and the choice of quickfixes and the numbers in use are unbounded.", "anchors": ["crates/analyzer/src/analysis/diagnostics/contract.rs:266-361", "crates/analyzer/src/analysis/diagnostics/chain_extension.rs:388-476", "crates/analyzer/src/analysis/utils.rs:1940-1983"]}
{"id": "C110", "title": "Quickfixes for argument values end in accepted arguments", "statement": "Applying the quickfixes that are offered for an ink! argument with a missing, malformed, unexpected or wrongly nested value, one after the other and whichever are chosen, ends after at most three of them in an argument of the same kind for which nothing is reported; each diagnostic of this sort has a quickfix, and filling in the snippet of a quickfix gives its text.", "quantifier": "all arguments (a name, alone or with = and anything behind it), nested to any depth in arguments that take nested arguments, among any other arguments, in any file, for both versions, and all choices of quickfixes", "why_tests_cant": "Tests apply the quickfixes to a handful of literals; they cannot cover all malformed values, nestings, surrounding arguments, white space and sequences of choices.", "anchors": ["crates/analyzer/src/analysis/diagnostics/common.rs:157-440", "crates/ir/src/attrs/meta.rs:125-188", "crates/ir/src/attrs/parser.rs:27-161"]}
{"id": "C111", "title": "Applying the quickfixes for the attributes of an item ends with nothing to report", "statement": "Every report about repeated, conflicting, misplaced, incomplete or deprecated ink! attributes and arguments of an item has a quickfix; applying these quickfixes, one after the other and whichever are chosen, ends after a number of steps that is bounded by the number of attributes and arguments, with an item for which nothing of this sort is reported; the main attribute keeps its kind unless it is deprecated or incomplete, and arguments that fit it stay.", "quantifier": "all lists of ink! attributes of an item with any arguments in any order, both versions, inside and outside chain extensions, and all sequences of choices of quickfixes", "why_tests_cant": "Tests apply one quickfix to a handful of items; that no sequence of choices runs forever or ends with a report left over is a statement about all items and all sequences.", "anchors": ["crates/analyzer/src/analysis/diagnostics/common.rs:59-71", "crates/analyzer/src/analysis/diagnostics/common.rs:451-1138", "crates/analyzer/src/analysis/utils.rs:1533-1624", "crates/ir/src/attrs.rs:57-114"]}
{"id": "C112", "title": "The edits of migrating a file can all be applied", "statement": "Migrating a file to ink! 5 gives every edit of its steps (events, chain extensions, SCALE derives, host functions, e2e tests) exactly once, and after formatting no two edits overlap, so that an editor can apply all of them.", "quantifier": "for all files: all contracts, chain extensions, derives, function bodies and e2e tests at any places, and all token sequences", "why_tests_cant": "The tests of the migration check the edits of one step for small fixtures before they are formatted; whether edits of different steps meet, or meet only after a deletion has grown over the white space behind it, depends on the arrangement of the whole file.", "anchors": ["crates/analyzer/src/analysis/migrate.rs:18-40", "crates/analyzer/src/analysis/migrate/e2e_test.rs:16-35", "crates/analyzer/src/analysis/text_edit.rs:67-327"]}
{"id": "C113", "title": "An event extraction that is offered can be carried out", "statement": "Whenever the action to extract an ink! event is offered, on an attribute or on a struct, the extraction for the range of that action exists, and it is the extraction of the event for which it was offered.", "quantifier": "for all syntax trees, all selections, both versions, all classifications of tokens, attributes and declarations", "why_tests_cant": "The tests of the actions and those of the extraction use separate examples in which the event is a struct inside a contract; no test feeds the range of an offered action back into the extraction, and the range finds its struct again through the covering element of an arbitrary tree.", "anchors": ["crates/analyzer/src/analysis/extract.rs:29-51", "crates/analyzer/src/analysis/actions/attr.rs:45-62", "crates/analyzer/src/analysis/actions/item.rs:521-563", "crates/ir/src/tree/ast_ext.rs:12-45"]}
{"id": "C114", "title": "The declaration range of an item is its header", "statement": "The range that stands for the declaration of an item starts at the first token behind its doc comments and attributes and ends with the left bracket of its block or its semicolon; the terminal token is the matching right bracket or that semicolon, so that what is between is exactly the inside of the block; computing the range never panics.", "quantifier": "for all items: all kinds, all children, any doc comments, attributes, comments and white space, whatever follows the item in the file", "why_tests_cant": "The tests look at a few well formed items; the start is found by walking over tokens from the last doc comment or attribute, wherever it is, and the end by looking for a bracket or semicolon among arbitrary children of possibly incomplete items, and a range whose start is behind its end panics.", "anchors": ["crates/analyzer/src/analysis/utils.rs:1285-1402", "crates/analyzer/src/analysis/utils.rs:1405-1442"]}
{"id": "C115", "title": "Client and server mean the same places", "statement": "To a client that follows the protocol, where lines end with \\n, \\r\\n or \\r and a character beyond the end of a line means its end, every position the server sends is the place the analyzer meant, so that every edit of a code action replaces exactly the part of the text it was made for, and every position the client sends is read as the place it was sent for.", "quantifier": "for all documents, all places in them, all encodings, all code actions with any edits", "why_tests_cant": "The tests translate positions of ASCII examples with \\n only; whether client and server agree depends on the line ends in front of the place, and both sides are never run together.", "anchors": ["crates/lsp-server/src/translator/to_lsp.rs:11-49", "crates/lsp-server/src/translator/from_lsp.rs:8-52", "crates/lsp-server/src/translator/to_lsp.rs:118-220"]}
{"id": "C116", "title": "No position makes a request crash the server", "statement": "Completion, signature help, hover and code action requests are answered, with a result or an error, whatever position the client sends; in particular a column after the end of its line, which the protocol allows and which means the end of the line, does not make the server panic.", "quantifier": "for all documents, all lines, all columns, all encodings, all selections", "why_tests_cant": "The tests ask at places inside their examples; whether a lookup outside the tree is reached depends on the column, on the bytes after the line and on the encoding.", "anchors": ["crates/lsp-server/src/translator/from_lsp.rs:8-45", "crates/ir/src/tree/item_at_offset.rs:18-24", "crates/analyzer/src/analysis/completions.rs:43-68", "crates/analyzer/src/analysis/signature_help.rs:35-40", "crates/analyzer/src/analysis/hover.rs:22-27", "crates/analyzer/src/analysis/utils.rs:1216-1283"]}
{"id": "C117", "title": "The problems shown for a document are those of its current text", "statement": "At any moment of any session the client shows, for every open document, exactly the reports of the rules for the document's current text and ink! version, each with its message and severity at its place in the text (of reports that agree in range, severity and fixes only the first), and shows nothing for documents that are not open.", "quantifier": "for all sessions of any length, all documents, all texts, all rules, all encodings", "why_tests_cant": "It is a statement on the whole history of messages through document memory, snapshots, deduplication, translation and publication, of which tests run short scripts.", "anchors": ["crates/lsp-server/src/dispatch.rs:236-307", "crates/lsp-server/src/dispatch/actions.rs:7-38", "crates/analyzer/src/analysis/diagnostics.rs:71-98", "crates/lsp-server/src/translator/to_lsp.rs:51-65"]}
{"id": "C118", "title": "Every fix of a shown problem is offered where the user asks for it, and choosing it makes exactly its edits in the text of the client", "statement": "At any moment of any session and for every open document: whenever the client asks for the code actions of a selection, then every fix of a problem that it shows for the document, such that the selection lies inside the range of the fix or includes it, is offered as an action, and the edits of this action, as the client reads them against its own text, replace exactly the parts of the text that the rule meant with the text it meant (after formatting), all of them and in their order.", "quantifier": "all sessions, documents, texts, position encodings, client capabilities, rules, fixes and selections", "why_tests_cant": "The claim composes the state of the server after any sequence of messages, the removal of repeated reports and of repeated actions, sorting, and two translations of positions; tests check one request in one session with one text.", "anchors": ["crates/lsp-server/src/dispatch/handlers/request.rs:85-122", "crates/analyzer/src/analysis.rs:62-80", "crates/analyzer/src/analysis/diagnostics.rs:71-98", "crates/lsp-server/src/translator/to_lsp.rs:118-219"]}
{"id": "C119", "title": "A completion replaces text of the line of the cursor, around the cursor", "statement": "The range of the edit of every completion the server sends lies on a single line and contains the position at which completion was requested, as LSP 3.17 demands of CompletionItem.textEdit (editors drop or misplace items which do not).", "quantifier": "for all documents, cursors, attributes, arguments and position encodings", "why_tests_cant": "Whether the range fits depends on which token is in focus, where in it the cursor is, which argument is around it and where the newlines are; tests fix a few cursors and compare texts, never ranges against the position of the request.", "anchors": ["crates/analyzer/src/analysis/completions.rs:60-280", "crates/analyzer/src/analysis/completions.rs:283-470", "crates/analyzer/src/analysis/completions.rs:473-640", "crates/lsp-server/src/translator/to_lsp.rs"]}
{"id": "C120", "title": "A question about a place of the client's text is answered about that place of that text", "statement": "At any moment of any session, when a client asks for completions, hover, inlay hints or signature help at a place of its current text, it gets exactly one response, made from what the analyzer computes for that place of that text, and the client takes every range and position in the response for the part of its text which the analyzer meant.", "quantifier": "for all configurations, histories of messages, documents, places and analyzers", "why_tests_cant": "It composes the server loop with its pending changes, two translations of positions in a negotiated encoding, and the reading of positions by the client; tests exercise each with a few short ASCII texts.", "anchors": ["crates/lsp-server/src/dispatch.rs:60-280", "crates/lsp-server/src/dispatch/handlers/request.rs:8-246", "crates/lsp-server/src/translator/to_lsp.rs", "crates/lsp-server/src/translator/from_lsp.rs"]}
{"id": "C121", "title": "String argument values are read as Rust reads them", "statement": "The value of an argument that is a string literal (a namespace, url or signature topic) denotes the same text as in Rust, whether the literal has escape sequences, spans lines or is raw.", "quantifier": "all string literals of the language", "why_tests_cant": "Unbounded literals with every mix of escape sequences, line ends, quotes and raw delimiters.", "anchors": ["crates/ir/src/attrs/meta/value.rs: MetaValue::as_string", "crates/analyzer/src/analysis/diagnostics/common.rs: validate_arg", "crates/ir/src/selector.rs: namespace"]}
{"id": "C122", "title": "Signature help shows arguments of the ink! version in use and explains each of them", "statement": "Every signature offered shows only arguments that exist in the ink! version of the project, apart from the one already written in the attribute; every shown argument that exists has its own explanation for that version: what its value must be, followed by what the argument is for; no two arguments share an explanation, and for ink! 5 no parameter is without one.", "quantifier": "all attributes, items, scopes, focused arguments, cursor positions and both versions", "why_tests_cant": "The shown arguments come from four tables (siblings, arguments by item, scopes, details) which are edited independently; tests look at a few labels and at none of the explanations.", "anchors": ["crates/analyzer/src/analysis/signature_help.rs: add_signature", "crates/ir/src/attrs/args.rs: InkArgKind::detail"]}
{"id": "C123", "title": "The iterator over successors gives every item once, ends, and stays ended", "statement": "Iterating over successors yields exactly the items of the source and of its successors, in order, each once; after the end nothing is given any more; the search for the closest ink! ancestors always ends, gives the attributes of the nearest enclosing annotated item, and never nests its calls deeper than the node.", "quantifier": "all step expressions, sources, trees, nodes and sequences of calls", "why_tests_cant": "The iterator is generic and recursive: whether it skips, repeats or fails to end depends on where empty iterators fall in the chain, and a test runs only a few shallow trees.", "anchors": ["crates/ir/src/iter.rs: IterSuccessors", "crates/ir/src/tree/utils.rs: ink_attrs_closest_ancestors"]}
{"id": "C124", "title": "Completions, actions and signature help agree", "statement": "Where an argument can be started in an attribute, an argument is completed iff an action on that attribute offers to add it; at the start of an attribute of an item without ink! attributes, a macro is completed iff an action on the item offers to add it; and every argument that is completed is shown by a signature at the same place.", "quantifier": "all items, attributes, scopes, cursors and versions", "why_tests_cant": "Each feature is tested alone on samples; agreement ranges over all combinations of attribute kinds, present arguments and scopes.", "anchors": ["crates/analyzer/src/analysis/completions.rs:283-470", "crates/analyzer/src/analysis/actions/attr.rs:11-106", "crates/analyzer/src/analysis/signature_help.rs:35-227", "crates/analyzer/src/analysis/completions.rs:60-280", "crates/analyzer/src/analysis/actions/item.rs:133-176"]}
{"id": "C125", "title": "Migrating a migrated file changes nothing", "statement": "The migration leaves a file as it is iff nothing of ink! 4 is left in it (legacy events, chain extensions without id, SCALE derives, old host functions, old e2e tests); in particular what it produces itself is not changed by a second migration.", "quantifier": "all files: contracts, chain extensions, derives, function bodies and e2e tests", "why_tests_cant": "The tests migrate each fixture once; that the result is stable is a statement about all files and all edits.", "anchors": ["crates/analyzer/src/analysis/migrate.rs:18-335", "crates/analyzer/src/analysis/migrate/e2e_test.rs:16-175"]}
{"id": "C126", "title": "The server survives every session", "statement": "Whatever messages a client sends, no request makes the server panic, so every request is answered until the client shuts the server down.", "quantifier": "all finite histories of client messages, all documents, positions, selections and command arguments, all position encodings", "why_tests_cant": "Tests send single requests with positions inside small fixtures; that the loop survives is a statement about all sessions, and about the documents that are open when each request arrives.", "anchors": ["crates/lsp-server/src/dispatch.rs:27-63", "crates/lsp-server/src/dispatch.rs:122-184", "crates/lsp-server/src/dispatch/handlers/request.rs:9-331", "crates/lsp-server/src/translator/from_lsp.rs:8-45", "crates/analyzer/src/analysis/utils.rs:1216-1233"]}
{"id": "C127", "title": "A contract is told of exactly its misplaced items", "statement": "Of every ink! contract, each storage definition, event and ink! impl that is not directly in the contract's module is reported once, each constructor or message that is not directly in an impl block is reported, nothing that is in place is reported, and the offered move puts the item where it is not reported any more.", "quantifier": "all syntax trees, all contracts in them, all items at any depth", "why_tests_cant": "Tests check a handful of hand-written contracts; whether an item at any depth is seen by the search and judged by its closest item is a statement about all trees.", "anchors": ["crates/analyzer/src/analysis/diagnostics/contract.rs:582-649", "crates/analyzer/src/analysis/diagnostics/contract.rs:660-674", "crates/analyzer/src/analysis/diagnostics/contract/ink_impl.rs:308-359", "crates/ir/src/tree/utils.rs:136-255"]}
