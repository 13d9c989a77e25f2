{
 "claims": [
  {
   "property": "C01",
   "status": "proved",
   "theorems": [
    "Verif.Lsp.C01_snapshots_mirror_documents",
    "Verif.Lsp.C01_answers_from_current_text",
    "Verif.Lsp.C01_missing_iff_not_open"
   ],
   "note": "Refinement to the client-side fold of notifications, for every history and drain order. Analysis results are parameters."
  },
  {
   "property": "C02",
   "status": "proved",
   "theorems": [
    "Verif.Lsp.C02_notification_publishes",
    "Verif.Lsp.C02_request_publishes_nothing",
    "Verif.Lsp.C02_published_over_session"
   ],
   "note": "Assumes that a decoded URL parses back to itself."
  },
  {
   "property": "C03",
   "status": "proved",
   "theorems": [
    "Verif.Lsp.C03_exactly_one_response",
    "Verif.Lsp.C03_no_unsolicited_response",
    "Verif.Lsp.C03_responses_match_requests"
   ],
   "note": "Holds in every state. A panicking handler is not covered here, see C55."
  },
  {
   "property": "C04",
   "status": "proved",
   "theorems": [
    "Verif.Lsp.C04_error_codes",
    "Verif.Lsp.C04_sent"
   ],
   "note": "Deserialization and handlers are parameters."
  },
  {
   "property": "C05",
   "status": "partial",
   "theorems": [
    "Verif.Lsp.C05_negation",
    "Verif.Lsp.C05_stops_iff_partial",
    "Verif.Lsp.C05_session_runs_partial"
   ],
   "note": "False of the code: notification parameters that do not deserialize end the loop. Proved: exact characterisation of when the loop ends."
  },
  {
   "property": "C06",
   "status": "proved",
   "theorems": [
    "Verif.Lsp.C06_language_versions",
    "Verif.Lsp.C06_detected_when_opened",
    "Verif.Lsp.C06_stable"
   ],
   "note": "Exact bookkeeping plus creation and stability; project detection is an arbitrary function of time."
  },
  {
   "property": "C07",
   "status": "proved",
   "theorems": [
    "Verif.Lsp.C07_edit_after_null_response",
    "Verif.Lsp.C07_no_edit_otherwise",
    "Verif.Lsp.C07_kind_recoverable",
    "Verif.Lsp.C07_show_document_only_after_create",
    "Verif.Lsp.C07_show_document_after_create"
   ],
   "note": "Command results and their conversion to edits are parameters."
  },
  {
   "property": "C08",
   "status": "proved",
   "theorems": [
    "Verif.Lsp.C08_position",
    "Verif.Lsp.C08_offset",
    "Verif.Lsp.C08_round_trip",
    "Verif.Lsp.C08_outside"
   ],
   "note": "The line-index crate is modelled from its source; documents are shorter than 4 GiB."
  },
  {
   "property": "C09",
   "status": "proved",
   "theorems": [
    "Verif.Lsp.C09_ordered",
    "Verif.Lsp.C09_release_total",
    "Verif.Lsp.C09_inverted",
    "Verif.Lsp.C09_inverted_text",
    "Verif.Lsp.C09_round_trip",
    "Verif.Lsp.C09_monotone"
   ],
   "note": "Totality is for release builds, where u32 addition wraps. The overflow panic of debug builds is recorded under C60."
  },
  {
   "property": "C10",
   "status": "proved",
   "theorems": [
    "Verif.Lsp.C10_first_listed",
    "Verif.Lsp.C10_utf16_iff",
    "Verif.Lsp.C10_translation_uses_announced"
   ],
   "note": ""
  },
  {
   "property": "C11",
   "status": "partial",
   "theorems": [
    "Verif.Lsp.C11_advertised_is_intersection",
    "Verif.Lsp.C11_negation",
    "Verif.Lsp.C11_emitted_covered_partial"
   ],
   "note": "False of the code: emitted kinds are not restricted to negotiated kinds and refactor.extract is never advertised. Proved: advertised kinds are the intersection; emitted kinds are covered when the client lists refactor and quickfix."
  },
  {
   "property": "C12",
   "status": "proved",
   "theorems": [
    "Verif.Lsp.C12_active_index_valid",
    "Verif.Lsp.C12_selection_kept",
    "Verif.Lsp.C12_default_first"
   ],
   "note": ""
  },
  {
   "property": "C13",
   "status": "partial",
   "theorems": [
    "Verif.Lsp.C13_hyphens_partial",
    "Verif.Lsp.C13_valid_ascii_partial",
    "Verif.Lsp.C13_idempotent_ascii_partial",
    "Verif.Lsp.C13_negation",
    "Verif.Lsp.C13_rejected",
    "Verif.Lsp.C13_accepted"
   ],
   "note": "False of the code beyond ASCII: lowercasing can yield characters that are not alphanumeric. Proved: hyphen structure and crate name for all of Unicode; alphabet, first letter and idempotence for ASCII names. Unicode data is a parameter with recorded laws."
  },
  {
   "property": "C14",
   "status": "partial",
   "theorems": [
    "Verif.Lsp.C14_succeeds",
    "Verif.Lsp.C14_ink",
    "Verif.Lsp.C14_dependencies",
    "Verif.Lsp.C14_dev_dependencies",
    "Verif.Lsp.C14_features",
    "Verif.Lsp.C14_frame",
    "Verif.Lsp.C14_idempotent",
    "Verif.Lsp.C14_recognised_partial",
    "Verif.Lsp.C14_recognised_negation",
    "Verif.Lsp.C14_project_partial",
    "Verif.Lsp.C14_add_dependency"
   ],
   "note": "All clauses are proved on the level of keys and values, except recognition as ink! 5, which is false for a dependency inherited from the workspace and proved otherwise. TOML parsing and printing are outside of the model."
  },
  {
   "property": "C15",
   "status": "proved",
   "theorems": [
    "Verif.Lsp.C15_nearest",
    "Verif.Lsp.C15_own",
    "Verif.Lsp.C15_none"
   ],
   "note": "Unix paths without dot components; the file system is an arbitrary predicate."
  },
  {
   "property": "C16",
   "status": "partial",
   "theorems": [
    "Verif.Lsp.C16_detected_partial",
    "Verif.Lsp.C16_default",
    "Verif.Lsp.C16_five_partial",
    "Verif.Lsp.C16_four_partial",
    "Verif.Lsp.C16_minor_negation",
    "Verif.Lsp.C16_major_negation",
    "Verif.Lsp.C16_inherited_negation"
   ],
   "note": "False of the code: 4.5.0 is taken for ink! 5, the bare requirement 5 for ink! 4, and a package inheriting from its own manifest is not recognised. Proved: the exact decision, positive and negative families, and the default."
  },
  {
   "property": "C17",
   "status": "proved",
   "theorems": [
    "Verif.Lsp.C17_free",
    "Verif.Lsp.C17_error",
    "Verif.Lsp.C17_plan"
   ],
   "note": "The file system is an arbitrary predicate."
  },
  {
   "property": "C18",
   "status": "proved",
   "theorems": [
    "Verif.Ir.C18_arg_round_trip",
    "Verif.Ir.C18_arg_unknown",
    "Verif.Ir.C18_arg_print_parse",
    "Verif.Ir.C18_arg_distinct",
    "Verif.Ir.C18_macro_round_trip",
    "Verif.Ir.C18_macro_unknown",
    "Verif.Ir.C18_macro_distinct"
   ],
   "note": "Kind/name round trips for all argument and macro kinds; unknown names map to the unknown kind."
  },
  {
   "property": "C19",
   "status": "proved",
   "theorems": [
    "Verif.Ir.C19_is_ink",
    "Verif.Ir.C19_primary",
    "Verif.Ir.C19_path",
    "Verif.Ir.C19_empty",
    "Verif.Ir.C19_reorder",
    "Verif.Ir.C19_args"
   ],
   "note": "Attribute casting, primary candidate selection by priority, order independence."
  },
  {
   "property": "C20",
   "status": "partial",
   "theorems": [
    "Verif.Ir.C20_total",
    "Verif.Ir.C20_ordered",
    "Verif.Ir.C20_inside",
    "Verif.Ir.C20_count_partial",
    "Verif.Ir.C20_commas_partial",
    "Verif.Ir.C20_count_negation",
    "Verif.Ir.C20_range_negation",
    "Verif.Ir.C20_range_negation_name",
    "Verif.Ir.C20_range_partial"
   ],
   "note": "Ordering, disjointness, coverage and totality proved for well-formed token trees; the count clause is false for leading or consecutive commas and the range clause when an argument starts with a nested token tree (negation witnesses)."
  },
  {
   "property": "C21",
   "status": "partial",
   "theorems": [
    "Verif.Ir.C21_sound",
    "Verif.Ir.C21_decimal_partial",
    "Verif.Ir.C21_hex_partial",
    "Verif.Ir.C21_range",
    "Verif.Ir.C21_widths_partial",
    "Verif.Ir.C21_negation"
   ],
   "note": "Soundness and range rejection proved for every literal; exactness proved for plain decimal and 0x-hexadecimal digits. Separators, type suffixes and 0b/0o are rejected (negation witness)."
  },
  {
   "property": "C22",
   "status": "partial",
   "theorems": [
    "Verif.Ir.C22_explicit",
    "Verif.Ir.C22_complement",
    "Verif.Ir.C22_hash",
    "Verif.Ir.C22_trait_code",
    "Verif.Ir.C22_trait_partial",
    "Verif.Ir.C22_trait_negation",
    "Verif.Ir.C22_inherent",
    "Verif.Ir.Str.C22_namespace_partial",
    "Verif.Ir.Str.C22_negation_namespace"
   ],
   "note": "Explicit, complement and hashed selectors proved for every callable and every hash; the trait part rule is false for `::a::C` and `a::b::C` (negation witness), proved for the remaining path shapes. The namespace is the value of its literal when each character stands for itself; with raw literals all namespaces give the same selector (negation)."
  },
  {
   "property": "C23",
   "status": "proved",
   "theorems": [
    "Verif.Ir.Node.C23_closest",
    "Verif.Ir.Node.C23_cover",
    "Verif.Ir.Node.C23_descendants",
    "Verif.Ir.Node.C23_closest_descendant"
   ],
   "note": "Exact characterisation by paths, source order and coverage, for all trees."
  },
  {
   "property": "C24",
   "status": "proved",
   "theorems": [
    "Verif.Ir.Node.C24_nearest",
    "Verif.Ir.Node.C24_none",
    "Verif.Ir.Node.C24_subset"
   ],
   "note": "Nearest annotated ancestor, emptiness and inclusion in all ancestors (the latter for attributes that contain their own `#` token)."
  },
  {
   "property": "C25",
   "status": "partial",
   "theorems": [
    "Verif.Ir.UseTree.C25_flatten_partial",
    "Verif.Ir.UseTree.C25_exact_partial",
    "Verif.Ir.UseTree.C25_negation"
   ],
   "note": "Exact for all use trees except `self` inside a nested list without a path (or with the path `self`), where the claim is false (negation witness `a::{{self}}`)."
  },
  {
   "property": "C26",
   "status": "partial",
   "theorems": [
    "Verif.Ir.Resolve.C26_terminates_partial",
    "Verif.Ir.Resolve.C26_negation_globs",
    "Verif.Ir.Resolve.C26_negation_two_globs",
    "Verif.Ir.Resolve.C26_negation_module",
    "Verif.Ir.Resolve.C26_found"
   ],
   "note": "Termination proved for crates with layered imports; false for glob cycles, for two glob imports of external crates and for references from a module with a glob import (negation witnesses for every fuel)."
  },
  {
   "property": "C27",
   "status": "proved",
   "theorems": [
    "Verif.Ir.Token.C27_total",
    "Verif.Ir.Token.C27_touches",
    "Verif.Ir.Token.C27_prefer",
    "Verif.Ir.Token.C27_left",
    "Verif.Ir.Token.C27_affixes",
    "Verif.Ir.Token.C27_concat",
    "Verif.Ir.Token.C27_next",
    "Verif.Ir.Token.C27_prev"
   ],
   "note": "Focus, preference, left bias, affixes on character boundaries, nearest non-trivia tokens."
  },
  {
   "property": "C28",
   "status": "partial",
   "theorems": [
    "Verif.Analyzer.C28_item",
    "Verif.Analyzer.C28_item_bare",
    "Verif.Analyzer.C28_attr",
    "Verif.Analyzer.C28_top",
    "Verif.Analyzer.C28_top_bare",
    "Verif.Analyzer.C28_completions",
    "Verif.Analyzer.C28_accept",
    "Verif.Analyzer.C28_conflict_partial",
    "Verif.Analyzer.C28_negation_conflict",
    "Verif.Analyzer.C28_negation_scope",
    "Verif.Analyzer.C28_negation_trait_impl"
   ],
   "note": "Exact characterisation of the suggestions of item actions (C28_item, C28_item_bare), soundness for attribute actions and completions (C28_attr, C28_completions), and that accepting a suggestion adds no conflict or duplicate (C28_accept). Freedom from conflicts with existing arguments is proved for attributes that stand on their own; it is false for ambiguous primary arguments (C28_negation_conflict). The scope clause fails for scopes that allow no arguments (C28_negation_scope) and attribute actions ignore trait implementations (C28_negation_trait_impl)."
  },
  {
   "property": "C29",
   "status": "partial",
   "theorems": [
    "Verif.Analyzer.C29_entity_types",
    "Verif.Analyzer.C29_entities",
    "Verif.Analyzer.C29_symmetric",
    "Verif.Analyzer.C29_irreflexive",
    "Verif.Analyzer.C29_cooccur",
    "Verif.Analyzer.C29_primary_entity",
    "Verif.Analyzer.C29_primary_partial",
    "Verif.Analyzer.C29_negation",
    "Verif.Analyzer.C29_primary_complete_partial"
   ],
   "note": "Sibling tables agree with the documented entities, are symmetric, irreflexive and complete. Primary suggestions are inconsistent in ink! 5 (C29_negation) and missing for three kinds."
  },
  {
   "property": "C30",
   "status": "proved",
   "theorems": [
    "Verif.Analyzer.C30_fresh",
    "Verif.Analyzer.C30_exhausted",
    "Verif.Analyzer.C30_preferred",
    "Verif.Analyzer.C30_sequence"
   ],
   "note": "Unused integer suggestions are fresh, fail only when the type is exhausted, keep the preferred value when free and never repeat within a sequence."
  },
  {
   "property": "C31",
   "status": "partial",
   "theorems": [
    "Verif.Analyzer.C31_preferred",
    "Verif.Analyzer.C31_first_free",
    "Verif.Analyzer.C31_fresh_partial",
    "Verif.Analyzer.C31_negation",
    "Verif.Analyzer.C31_template",
    "Verif.Analyzer.C31_extension_partial",
    "Verif.Analyzer.C31_negation_v5",
    "Verif.Analyzer.C31_negation_handler"
   ],
   "note": "Names of inserted snippets are fresh when fewer than 254 names are taken; the fallback after 254 tries and the version 5 chain extension snippet (which ignores existing functions) are refuted by witnesses."
  },
  {
   "property": "C32",
   "status": "partial",
   "theorems": [
    "Verif.Analyzer.C32_apply",
    "Verif.Analyzer.C32_reduce",
    "Verif.Analyzer.C32_round_trip_partial",
    "Verif.Analyzer.C32_negation",
    "Verif.Analyzer.C32_code"
   ],
   "note": "Indenting and un-indenting round trip on plain text without a final newline; a final newline and carriage returns are lost, shown by witness. Code content is always preserved."
  },
  {
   "property": "C33",
   "status": "partial",
   "theorems": [
    "Verif.Analyzer.C33_uniform_partial",
    "Verif.Analyzer.C33_reversed",
    "Verif.Analyzer.C33_negation",
    "Verif.Analyzer.C33_children"
   ],
   "note": "Indentation equals the whitespace of the last line when it is uniform; for mixed tabs and spaces the result is reversed, shown by witness."
  },
  {
   "property": "C34",
   "status": "partial",
   "theorems": [
    "Verif.Analyzer.C34_replace",
    "Verif.Analyzer.C34_delete_partial",
    "Verif.Analyzer.C34_apply_partial",
    "Verif.Analyzer.C34_negation_unaligned",
    "Verif.Analyzer.C34_total_insert",
    "Verif.Analyzer.C34_negation_panic"
   ],
   "note": "Formatting only adds surrounding whitespace and deletes only whitespace when the edit ends at a token boundary; ends inside a token and wide whitespace panics are refuted by witnesses."
  },
  {
   "property": "C35",
   "status": "partial",
   "theorems": [
    "Verif.Analyzer.C35_dedup_partial",
    "Verif.Analyzer.C35_format",
    "Verif.Analyzer.C35_negation"
   ],
   "note": "Deduplication keeps exactly the first of each class of equal raw diagnostics; formatting afterwards can make two kept ones coincide, shown by witness."
  },
  {
   "property": "C36",
   "status": "proved",
   "theorems": [
    "Verif.Analyzer.C36_distinct",
    "Verif.Analyzer.C36_sound",
    "Verif.Analyzer.C36_complete",
    "Verif.Analyzer.C36_ordered",
    "Verif.Analyzer.C36_stable",
    "Verif.Analyzer.C36_priority"
   ],
   "note": "Distinct edits, complete and sound with respect to quickfixes and computed actions, ordered by kind and stable within a kind."
  },
  {
   "property": "C37",
   "status": "proved",
   "theorems": [
    "Verif.Analyzer.C37_macros",
    "Verif.Analyzer.C37_args",
    "Verif.Analyzer.C37_clean"
   ],
   "note": "Duplicate arguments and macros are reported exactly."
  },
  {
   "property": "C38",
   "status": "proved",
   "theorems": [
    "Verif.Analyzer.C38_reports",
    "Verif.Analyzer.C38_replacements",
    "Verif.Analyzer.C38_applied"
   ],
   "note": "Every overlap after the first is reported, replacements are fresh and applying them all leaves no overlap. The new names of renamed functions are not claimed to be free."
  },
  {
   "property": "C39",
   "status": "partial",
   "theorems": [
    "Verif.Analyzer.C39_reports",
    "Verif.Analyzer.C39_replacements",
    "Verif.Analyzer.C39_applied",
    "Verif.Analyzer.C39_missing_partial",
    "Verif.Analyzer.C39_negation_exhausted",
    "Verif.Analyzer.C39_negation_streams"
   ],
   "note": "Overlapping ids proved in full. For missing ids the ids are fresh as long as ids remain; once the largest id is taken 1 is proposed again, and the two streams of quickfixes may propose the same id (negations proved)."
  },
  {
   "property": "C40",
   "status": "partial",
   "theorems": [
    "Verif.Analyzer.C40_reports_partial",
    "Verif.Analyzer.C40_iff_partial",
    "Verif.Analyzer.C40_reports",
    "Verif.Analyzer.C40_negation"
   ],
   "note": "Proved when each attribute has at most one selector argument; otherwise only the first one per attribute is looked at (negation proved)."
  },
  {
   "property": "C41",
   "status": "proved",
   "theorems": [
    "Verif.Analyzer.C41_iff",
    "Verif.Analyzer.C41_reports"
   ],
   "note": ""
  },
  {
   "property": "C42",
   "status": "partial",
   "theorems": [
    "Verif.Analyzer.C42_accepted",
    "Verif.Analyzer.C42_shape_partial",
    "Verif.Analyzer.C42_severity",
    "Verif.Analyzer.C42_negation",
    "Verif.Analyzer.C42_negation_topic"
   ],
   "note": "Everything of the documented shape is accepted; the converse holds unless there are nested arguments where none belongs, a dangling `=` before a nested argument (C42_negation), or white space in a signature topic (C42_negation_topic: 64 spaces are accepted). Unknown named arguments give a warning only (C42_negation)."
  },
  {
   "property": "C43",
   "status": "partial",
   "theorems": [
    "Verif.Analyzer.C43_primary",
    "Verif.Analyzer.C43_no_primary",
    "Verif.Analyzer.C43_compatible",
    "Verif.Analyzer.C43_attr_partial",
    "Verif.Analyzer.C43_arg_partial",
    "Verif.Analyzer.C43_reported",
    "Verif.Analyzer.C43_reported_arg",
    "Verif.Analyzer.C43_negation_first",
    "Verif.Analyzer.C43_negation_pair"
   ],
   "note": "The primary attribute is characterised exactly; compatible attributes are never reported; conflicts are reported for the stated cases. False as stated for a non-primary first attribute (C43_negation_first) and for storage_item with scale_derive (C43_negation_pair)."
  },
  {
   "property": "C44",
   "status": "proved",
   "theorems": [
    "Verif.Analyzer.C44_signature",
    "Verif.Analyzer.C44_offered",
    "Verif.Analyzer.C44_distinct",
    "Verif.Analyzer.C44_primary"
   ],
   "note": "For every list of arguments, and for every signature offered. Detail texts are left out; positions are counted in characters, all texts are proved to be ASCII."
  },
  {
   "property": "C45",
   "status": "partial",
   "theorems": [
    "Verif.Analyzer.C45_validation",
    "Verif.Analyzer.C45_pascal",
    "Verif.Analyzer.C45_words",
    "Verif.Analyzer.C45_exact",
    "Verif.Analyzer.C45_consistent_partial",
    "Verif.Analyzer.C45_negation"
   ],
   "note": "Validation, Pascal case, the manifest and the struct name are exact for every name. The module name is right if it does not contain `MyContract`; otherwise it is changed by the second replacement (C45_negation). `char::is_alphabetic` and `char::is_numeric` are parameters."
  },
  {
   "property": "C46",
   "status": "partial",
   "theorems": [
    "Verif.Analyzer.C46_reported",
    "Verif.Analyzer.C46_renamed_partial",
    "Verif.Analyzer.C46_renamed_long_partial",
    "Verif.Analyzer.C46_negation"
   ],
   "note": "Exactly the identifiers with the prefix are reported. The rename is not reported again if no further `__ink_` follows within six characters; otherwise the claim is false, and the rename need not be an identifier (C46_negation)."
  },
  {
   "property": "C47",
   "status": "partial",
   "theorems": [
    "Verif.Analyzer.C47_path_partial",
    "Verif.Analyzer.C47_single_partial",
    "Verif.Analyzer.C47_negation"
   ],
   "note": "False of the code: the modules are named from the innermost to the outermost (C47_negation). Proved: the path is right iff the list of modules is a palindrome, in particular for at most one module."
  },
  {
   "property": "C48",
   "status": "partial",
   "theorems": [
    "Verif.Analyzer.C48_silent",
    "Verif.Analyzer.C48_v4",
    "Verif.Analyzer.C48_v4_kept",
    "Verif.Analyzer.C48_v4_settled",
    "Verif.Analyzer.C48_v5_partial",
    "Verif.Analyzer.C48_negation",
    "Verif.Analyzer.C48_negation_report"
   ],
   "note": "Proved: silence implies all three traits; in version 4 the quickfix gives all three traits, keeps everything else and settles the check; in version 5 the traits after the fix are characterised exactly. The full claim is false in version 5: the replaced ink::scale_derive attribute loses its own traits (C48_negation). Which paths name a trait, and white space, are parameters with stated laws."
  },
  {
   "property": "C49",
   "status": "partial",
   "theorems": [
    "Verif.Migrate.C49_derive_partial",
    "Verif.Migrate.C49_negation_event",
    "Verif.Migrate.C49_body_partial",
    "Verif.Migrate.C49_negation_nested",
    "Verif.Migrate.C49_negation_chained"
   ],
   "note": "The claim is false (overlapping edits for nested calls, chained builder calls, and derives on events: negation theorems). Proved: the edits of SCALE derives never overlap, and those of an e2e test body do not when no other receiver than `client` is rewritten and chained closures contain no rewritten call. The whole file at once, with host function and import edits and after formatting, is C112."
  },
  {
   "property": "C50",
   "status": "partial",
   "theorems": [
    "Verif.Migrate.C50_once_partial",
    "Verif.Migrate.C50_records",
    "Verif.Migrate.C50_calls_partial",
    "Verif.Migrate.C50_text",
    "Verif.Migrate.C50_negation_receiver",
    "Verif.Migrate.C50_negation_condition"
   ],
   "note": "The claim is false for other receivers and for calls in conditions (negation theorems). Proved: exactly which subexpressions are looked at, each counted once, the exact new text, and that only client calls are rewritten if the method names are used only on `client`."
  },
  {
   "property": "C51",
   "status": "partial",
   "theorems": [
    "Verif.Analyzer.C51_next_partial",
    "Verif.Analyzer.C51_last_partial",
    "Verif.Analyzer.C51_negation_nested",
    "Verif.Analyzer.C51_negation_name",
    "Verif.Analyzer.C51_negation_space",
    "Verif.Analyzer.C51_negation_comment"
   ],
   "note": "token_and_delimiter_range, ink_arg_and_delimiter_removal_range and MetaNameValue::elements modelled on the tokens of the whole file. For arguments that are a name or `name = value` the deleted text is exactly the argument, one adjacent comma and the trivia between them. False for nested arguments (the closing parenthesis stays), malformed names, a value followed by a space before the closing parenthesis, and comments (negations proved)."
  },
  {
   "property": "C52",
   "status": "proved",
   "theorems": [
    "Verif.Analyzer.C52_sound",
    "Verif.Analyzer.C52_complete",
    "Verif.Analyzer.C52_once",
    "Verif.Analyzer.C52_total"
   ],
   "note": "inlay_hints.rs modelled on the attribute tree; every hint is for an argument of a parsed ink! attribute in the requested range with the documented type, every such argument gets exactly one hint, and hints never panic for parsed attributes."
  },
  {
   "property": "C53",
   "status": "proved",
   "theorems": [
    "Verif.Analyzer.C53_argument",
    "Verif.Analyzer.C53_attribute",
    "Verif.Analyzer.C53_content",
    "Verif.Analyzer.C53_titles",
    "Verif.Analyzer.C53_outside"
   ],
   "note": "hover.rs modelled with the covering-attribute search on the syntax tree. For a non-empty range contained in, or an offset strictly inside, an ink! attribute the first argument containing the range is described, else the attribute; nothing is shown unless an ink! attribute contains the range. Documentation texts are represented by the names of their constants."
  },
  {
   "property": "C54",
   "status": "partial",
   "theorems": [
    "Verif.Analyzer.C54_unexpected_partial",
    "Verif.Analyzer.C54_missing",
    "Verif.Analyzer.C54_other",
    "Verif.Analyzer.C54_exact_partial",
    "Verif.Analyzer.C54_negation"
   ],
   "note": "False for a function with the name of a trait method that is not a message: it is not reported (C54_negation). Proved exactly otherwise: C54_unexpected_partial, C54_missing, C54_other and, for traits all of whose methods are messages, the equivalence C54_exact_partial. Duplicate functions of one name are not distinguished (as in the code)."
  },
  {
   "property": "C55",
   "status": "partial",
   "theorems": [
    "Verif.Lsp.C55_negation",
    "Verif.Lsp.C55_panics_iff_partial",
    "Verif.Lsp.C55_resolve_panics_iff_partial",
    "Verif.Lsp.C55_decoded",
    "Verif.Lsp.C55_unknown"
   ],
   "note": "False of the code: an inverted range panics. Proved: exactly which arguments panic."
  },
  {
   "property": "C56",
   "status": "partial",
   "theorems": [
    "Verif.Analyzer.C56_offered",
    "Verif.Analyzer.C56_edits",
    "Verif.Analyzer.C56_path",
    "Verif.Analyzer.C56_macros",
    "Verif.Analyzer.C56_order_partial",
    "Verif.Analyzer.C56_negation_order",
    "Verif.Analyzer.C56_negation_unknown"
   ],
   "note": "flatten_attrs modelled: when it is offered, which edits it makes and the text of the merged attribute are proved. Arguments of equal priority are not kept in source order in general (C56_negation_order) and an unknown macro as primary attribute loses its path (C56_negation_unknown)."
  },
  {
   "property": "C57",
   "status": "partial",
   "theorems": [
    "Verif.Analyzer.C57_missing",
    "Verif.Analyzer.C57_extra",
    "Verif.Analyzer.C57_extra_count",
    "Verif.Analyzer.C57_storage_partial",
    "Verif.Analyzer.C57_constructor",
    "Verif.Analyzer.C57_message",
    "Verif.Analyzer.C57_contract_partial",
    "Verif.Analyzer.C57_contracts",
    "Verif.Analyzer.C57_negation"
   ],
   "note": "Missing and extra items are reported exactly, counted by attribute; an item annotated twice is reported as extra (C57_negation), so the claim by item needs one attribute per item."
  },
  {
   "property": "C58",
   "status": "partial",
   "theorems": [
    "Verif.Analyzer.C58_reported_partial",
    "Verif.Analyzer.C58_closed",
    "Verif.Analyzer.C58_file",
    "Verif.Analyzer.C58_negation"
   ],
   "note": "Every leading attribute out of place is reported and nothing else; attributes behind another one are not looked at (C58_negation)."
  },
  {
   "property": "C59",
   "status": "proved",
   "theorems": [
    "Verif.Lsp.C59_lazy_actions_executable",
    "Verif.Lsp.C59_eager_actions_carry_edits"
   ],
   "note": "Ranges are ordered 32-bit offsets and the URL parses back to itself."
  },
  {
   "property": "C60",
   "status": "partial",
   "theorems": [
    "Verif.Lsp.C60_negation",
    "Verif.Lsp.C60_boundary_negation",
    "Verif.Lsp.C60_overflow_negation",
    "Verif.Lsp.C60_overflow_partial",
    "Verif.Lsp.C60_fits",
    "Verif.Lsp.C60_line_partial",
    "Verif.Lsp.C60_inside_partial"
   ],
   "note": "False of the code: columns are not compared with the line length, so offsets outside of the document (or inside a character) are accepted; with overflow checks the addition can panic. Proved: missing lines are rejected and every real position is accepted as the right boundary."
  },
  {
   "property": "C61",
   "status": "proved",
   "theorems": [
    "Verif.Analyzer.C61_macros",
    "Verif.Analyzer.C61_annotated",
    "Verif.Analyzer.C61_kinds",
    "Verif.Analyzer.C61_accept"
   ],
   "note": "Macro suggestions are characterised exactly, with the table of applicable macros spelled out."
  },
  {
   "property": "C62",
   "status": "proved",
   "theorems": [
    "Verif.Ir.Node.C62_callables",
    "Verif.Ir.Node.C62_entities"
   ],
   "note": "Exact characterisation by paths, for all trees; syntax kinds and attribute kinds are parameters."
  },
  {
   "property": "C63",
   "status": "partial",
   "theorems": [
    "Verif.Analyzer.C63_stubs",
    "Verif.Analyzer.C63_resolves",
    "Verif.Analyzer.C63_negation"
   ],
   "note": "Inserted text, one stub per missing message, order and numbering proved for every map order (C63_stubs), effect on the missing-message report (C63_resolves). The last clause is false: stubs have no #[ink(message)] attribute, so they are always reported for the missing argument (C63_negation)."
  },
  {
   "property": "C64",
   "status": "partial",
   "theorems": [
    "Verif.Analyzer.C64_sound_partial",
    "Verif.Analyzer.C64_complete_partial",
    "Verif.Analyzer.C64_quickfix",
    "Verif.Analyzer.C64_negation"
   ],
   "note": "False as stated: only trivia between the direct children of the parameter list or return type is ignored, so whitespace inside a parameter is reported (C64_negation). Proved: no diagnostic implies equality up to trivia, equality of elements up to top-level trivia implies no diagnostic, and the quickfix text and range."
  },
  {
   "property": "C65",
   "status": "proved",
   "theorems": [
    "Verif.Analyzer.C65_undeclared",
    "Verif.Analyzer.C65_missing",
    "Verif.Analyzer.C65_values",
    "Verif.Analyzer.C65_same"
   ],
   "note": "Undeclared, missing and differing arguments characterised exactly; agreement in any order and grouping. The edits that insert missing arguments are not modelled."
  },
  {
   "property": "C66",
   "status": "partial",
   "theorems": [
    "Verif.Migrate.C66_added",
    "Verif.Migrate.C66_text",
    "Verif.Migrate.C66_cfg",
    "Verif.Migrate.C66_read",
    "Verif.Migrate.C66_all",
    "Verif.Migrate.C66_kept",
    "Verif.Migrate.C66_negation"
   ],
   "note": "False for a second derive in one cfg_attr and for conditional derives (C66_negation). Proved for what is found: names kept in order, one attribute per item with all traits, deleted range in cfg_attr. Resolution of names is a parameter."
  },
  {
   "property": "C67",
   "status": "partial",
   "theorems": [
    "Verif.Migrate.C67_code_partial",
    "Verif.Migrate.C67_edits",
    "Verif.Migrate.C67_moved",
    "Verif.Migrate.C67_negation"
   ],
   "note": "False when the attribute text occurs elsewhere in the event (C67_negation). Proved when it occurs once; deletions and insertions proved for all events."
  },
  {
   "property": "C68",
   "status": "partial",
   "theorems": [
    "Verif.Migrate.C68_ids_partial",
    "Verif.Migrate.C68_negation"
   ],
   "note": "Proved for every file in which enough ids are free (C68_ids_partial); when all ids are taken the code gives id 1 again (C68_negation)."
  },
  {
   "property": "C69",
   "status": "proved",
   "theorems": [
    "Verif.Analyzer.C69_sound",
    "Verif.Analyzer.C69_complete",
    "Verif.Analyzer.C69_typed"
   ],
   "note": "C69_sound: every signature offered lies within the parentheses and shows a relevant list of arguments, with the parameter of the first argument touching the cursor active. C69_complete: within the parentheses the label of every relevant list is offered (C44_distinct: once). C69_typed: every possible argument starting with the typed text occurs in an offered signature. The tables of valid siblings and of possible arguments are those of C28/C29."
  },
  {
   "property": "C70",
   "status": "partial",
   "theorems": [
    "Verif.Analyzer.C70_agree",
    "Verif.Analyzer.C70_extension",
    "Verif.Analyzer.C70_combined_partial",
    "Verif.Analyzer.C70_negation_single",
    "Verif.Analyzer.C70_versions",
    "Verif.Analyzer.C70_test_versions",
    "Verif.Analyzer.C70_linked"
   ],
   "note": "All insertions agree at every indent (C70_agree). The texts for extension functions and for combining two or more extensions are exact; with a single local extension a field for an inexistent Extension2 is inserted as well (C70_negation_single)."
  },
  {
   "property": "C71",
   "status": "proved",
   "theorems": [
    "Verif.Analyzer.C71_versioned",
    "Verif.Analyzer.C71_order"
   ],
   "note": "The order reports are stated for a main attribute that is not itself deprecated, since the code returns early for a deprecated one (C71_versioned covers it). The quickfixes are not part of this claim."
  },
  {
   "property": "C72",
   "status": "partial",
   "theorems": [
    "Verif.Analyzer.C72_block_partial",
    "Verif.Analyzer.C72_after",
    "Verif.Analyzer.C72_between",
    "Verif.Analyzer.C72_next",
    "Verif.Analyzer.C72_plain",
    "Verif.Analyzer.C72_inside",
    "Verif.Analyzer.C72_negation_depth",
    "Verif.Analyzer.C72_delete"
   ],
   "note": "C72_block_partial gives the computed indent of a block's items, which doubles the indent of the block and so is wrong from the second level on (C72_negation_depth). Uniform indents only (mixed ones are reversed, C33). Replacements of a part of a white space token are not covered (C34_negation_panic)."
  },
  {
   "property": "C73",
   "status": "partial",
   "theorems": [
    "Verif.Analyzer.C73_items",
    "Verif.Analyzer.C73_nested_args",
    "Verif.Analyzer.C73_nested_qualifiers_partial",
    "Verif.Analyzer.C73_negation_topic",
    "Verif.Analyzer.C73_nested_macros",
    "Verif.Analyzer.C73_nested_types_partial",
    "Verif.Analyzer.C73_negation_field",
    "Verif.Analyzer.C73_placeable"
   ],
   "note": "signature_topic is missing for contract arguments in ink! 5 (C73_negation_topic), and scale_derive is listed inside of fields and other places that hold no types (C73_negation_field)."
  },
  {
   "property": "C74",
   "status": "partial",
   "theorems": [
    "Verif.Analyzer.Header.C74_range",
    "Verif.Analyzer.Header.C74_fix_partial",
    "Verif.Analyzer.Header.C74_fixable",
    "Verif.Analyzer.Header.C74_all_partial",
    "Verif.Analyzer.Header.C74_negation_body",
    "Verif.Analyzer.Header.C74_negation_value",
    "Verif.Analyzer.Header.C74_negation_variadic",
    "Verif.Analyzer.Header.C74_negation_glue",
    "Verif.Analyzer.Header.C74_reports"
   ],
   "note": "Exact reports (C74_reports), a fix for every report (C74_fixable) and named ranges (C74_range) are proved for all well-formed headers. What every fix does (C74_fix_partial) and that fixing ends without violations (C74_all_partial) are proved except for function bodies in traits and by-value receivers of messages, where the fix does not give valid code (C74_negation_body, C74_negation_value); the well-formedness excludes `name: ...` parameters and glued tokens such as `pub(crate)fn` (C74_negation_variadic, C74_negation_glue)."
  },
  {
   "property": "C75",
   "status": "partial",
   "theorems": [
    "Verif.Ir.Resolve.C75_stable",
    "Verif.Ir.Resolve.C75_sound_partial",
    "Verif.Ir.Resolve.C75_complete_partial",
    "Verif.Ir.Resolve.C75_finds_partial",
    "Verif.Ir.Resolve.C75_negation_nested",
    "Verif.Ir.Resolve.C75_negation_super",
    "Verif.Ir.Resolve.C75_negation_text",
    "Verif.Ir.Resolve.C75_negation_alias",
    "Verif.Ir.Resolve.C75_negation_global",
    "Verif.Ir.Resolve.C75_negation_own"
   ],
   "note": "Soundness for all references without a use scope of their own and all paths but `::X`; completeness for the steps that the code follows, in crates whose names are unambiguous; the result does not depend on the fuel. The full claim is false: modules inside modules are never entered by name, a repeated `super` and aliases of unqualified paths are not followed, re-exports with the same text are skipped, `::X` is looked up in the current module and the imports of a reference module are used for qualified paths (negations)."
  },
  {
   "property": "C76",
   "status": "partial",
   "theorems": [
    "Verif.Analyzer.C76_read_partial",
    "Verif.Analyzer.C76_unclosed_partial",
    "Verif.Analyzer.C76_several",
    "Verif.Analyzer.C76_opened",
    "Verif.Analyzer.C76_negation_trailing",
    "Verif.Analyzer.C76_negation_empty"
   ],
   "note": "Every well-formed list (flags, name = value, name(argument), name(), any depth, trivia, with or without trailing comma) is read as written. False when white space follows a trailing comma or stands alone between the parentheses: it is read as a further, unknown argument (negation witnesses)."
  },
  {
   "property": "C77",
   "status": "partial",
   "theorems": [
    "Verif.Lsp.C77_completion",
    "Verif.Lsp.C77_no_snippets",
    "Verif.Lsp.C77_signatures",
    "Verif.Lsp.C77_ascii",
    "Verif.Lsp.C77_hover",
    "Verif.Lsp.C77_hints",
    "Verif.Lsp.C77_parameter",
    "Verif.Lsp.C77_diagnostics",
    "Verif.Lsp.C77_edits",
    "Verif.Lsp.C77_code_actions_partial",
    "Verif.Lsp.C77_negation_literals",
    "Verif.Lsp.C77_negation_resolve",
    "Verif.Lsp.C77_negation_data"
   ],
   "note": "Completions, hovers, hints, signatures, diagnostics and edits are sent exactly as claimed. Code actions only for clients which announced code action literals with a kind of the server and which keep data when they resolve edits; the three negations show that otherwise actions are sent which the client cannot use. The analysis results are parameters of the handlers."
  },
  {
   "property": "C78",
   "status": "partial",
   "theorems": [
    "Verif.Analyzer.Members.C78_chain_reports",
    "Verif.Analyzer.Members.C78_trait_reports",
    "Verif.Analyzer.Members.C78_chain_fix_partial",
    "Verif.Analyzer.Members.C78_chain_fixable",
    "Verif.Analyzer.Members.C78_trait_fix",
    "Verif.Analyzer.Members.C78_ids_partial",
    "Verif.Analyzer.Members.C78_quantity",
    "Verif.Analyzer.Members.C78_duplicate_fix",
    "Verif.Analyzer.Members.C78_missing_fix",
    "Verif.Analyzer.Members.C78_inline_partial",
    "Verif.Analyzer.Members.C78_negation_default",
    "Verif.Analyzer.Members.C78_negation_rename",
    "Verif.Analyzer.Members.C78_chain_places",
    "Verif.Analyzer.Members.C78_trait_places",
    "Verif.Analyzer.Members.C78_chain_all",
    "Verif.Analyzer.Members.C78_chain_clean",
    "Verif.Analyzer.Members.C78_negation_both",
    "Verif.Analyzer.Members.C78_negation_wildcard",
    "Verif.Analyzer.Members.C78_negation_inline"
   ],
   "note": "Reports are exact for both kinds of traits. The quick fix theorem for chain extensions excludes the default type of a type with neither `=` nor `;`: the code inserts ` = ();` in front of the type (C78_negation_default). Renaming a type to `ErrorCode` may duplicate it (C78_negation_rename, C78_negation_both). Wildcards of any argument are reported as wildcard selectors (C78_negation_wildcard). The inline body for a module with neither body nor semicolon deletes the contract (C78_negation_inline). Ids are distinct while there are enough of them."
  },
  {
   "property": "C79",
   "status": "partial",
   "theorems": [
    "Verif.Analyzer.Insert.C79_last_partial",
    "Verif.Analyzer.Insert.C79_primary_partial",
    "Verif.Analyzer.Insert.C79_first",
    "Verif.Analyzer.Insert.C79_first_empty",
    "Verif.Analyzer.Insert.C79_bare",
    "Verif.Analyzer.Insert.C79_unclosed",
    "Verif.Analyzer.Insert.C79_print",
    "Verif.Analyzer.Insert.C79_move_next_partial",
    "Verif.Analyzer.Insert.C79_move_last_partial",
    "Verif.Analyzer.Insert.C79_negation_trailing",
    "Verif.Analyzer.Insert.C79_negation_empty",
    "Verif.Analyzer.Insert.C79_brackets",
    "Verif.Analyzer.Insert.C79_negation_brackets",
    "Verif.Analyzer.Insert.C79_negation_move"
   ],
   "note": "Adding arguments at the end, adding a primary or a first argument, lists that are missing or unclosed, moving an argument to the front and printing the arguments in a new attribute are proved for every well-formed list. The claim is false for white space before the closing parenthesis (C79_negation_trailing, C79_negation_empty), for other delimiters (C79_negation_brackets) and for moving the last argument of a list with a trailing comma (C79_negation_move). Nested arguments are not moved (see C51_negation_nested)."
  },
  {
   "property": "C80",
   "status": "partial",
   "theorems": [
    "Verif.Analyzer.InsertText.C80_accepted_partial",
    "Verif.Analyzer.InsertText.C80_completed",
    "Verif.Analyzer.InsertText.C80_function",
    "Verif.Analyzer.InsertText.C80_extension",
    "Verif.Analyzer.InsertText.C80_selector_partial",
    "Verif.Analyzer.InsertText.C80_snippet",
    "Verif.Analyzer.InsertText.C80_negation_topic",
    "Verif.Analyzer.InsertText.C80_negation_alone",
    "Verif.Analyzer.InsertText.C80_negation_split",
    "Verif.Analyzer.InsertText.C80_negation_exhausted"
   ],
   "note": "Acceptance is proved for every kind but signature_topic, whose default is rejected (C80_negation_topic). Freshness is proved where the surroundings are looked at; without an attribute to extend the first id is always suggested (C80_negation_alone), a constructor whose argument is in another attribute gets a selector that is free among the messages only (C80_negation_split), and when every id is taken the first one is suggested (C80_negation_exhausted)."
  },
  {
   "property": "C81",
   "status": "partial",
   "theorems": [
    "Verif.Analyzer.Complete.C81_cursor",
    "Verif.Analyzer.Complete.C81_offered",
    "Verif.Analyzer.Complete.C81_crates",
    "Verif.Analyzer.Complete.C81_accept_partial",
    "Verif.Analyzer.Complete.C81_negation_bracket",
    "Verif.Analyzer.Complete.C81_negation_word",
    "Verif.Analyzer.Complete.C81_negation_name",
    "Verif.Analyzer.Complete.C81_negation_crate",
    "Verif.Analyzer.Complete.C81_negation_nested"
   ],
   "note": "The offered macros and crates are characterised exactly, and accepting one is proved to write the path for cursors behind the bracket, in the first word, behind `::` and in the last word. False of the code at some cursors: the closing bracket, a following name or path segment is overwritten or joined (C81_negation_bracket, _word, _name, _crate), and brackets among the arguments of other attributes count as attribute starts (C81_negation_nested)."
  },
  {
   "property": "C82",
   "status": "partial",
   "theorems": [
    "Verif.Analyzer.CompleteArg.C82_items",
    "Verif.Analyzer.CompleteArg.C82_focus",
    "Verif.Analyzer.CompleteArg.C82_accepted_partial",
    "Verif.Analyzer.CompleteArg.C82_first",
    "Verif.Analyzer.CompleteArg.C82_next",
    "Verif.Analyzer.CompleteArg.C82_replace",
    "Verif.Analyzer.CompleteArg.C82_nested_partial",
    "Verif.Analyzer.CompleteArg.C82_negation_paren",
    "Verif.Analyzer.CompleteArg.C82_negation_glued",
    "Verif.Analyzer.CompleteArg.C82_negation_nested"
   ],
   "note": "Offered arguments and the argument in focus are characterised; accepting is proved for empty parentheses, behind the last comma, for a lone name in focus and for a nested argument that is not yet written; acceptance by the analyzer follows from C80. False of the code in front of the closing parenthesis, in front of another argument and for nested arguments already started (C82_negation_paren, _glued, _nested)."
  },
  {
   "property": "C83",
   "status": "partial",
   "theorems": [
    "Verif.Analyzer.CompleteEntity.C83_line_partial",
    "Verif.Analyzer.CompleteEntity.C83_comment",
    "Verif.Analyzer.CompleteEntity.C83_blank",
    "Verif.Analyzer.CompleteEntity.C83_offered",
    "Verif.Analyzer.CompleteEntity.C83_labels",
    "Verif.Analyzer.CompleteEntity.C83_negation_code",
    "Verif.Analyzer.CompleteEntity.C83_negation_trailing",
    "Verif.Analyzer.CompleteEntity.C83_negation_literal",
    "Verif.Analyzer.CompleteEntity.C83_negation_comment",
    "Verif.Analyzer.CompleteEntity.C83_shown_partial",
    "Verif.Analyzer.CompleteEntity.C83_negation_shown"
   ],
   "note": "Offered entities are characterised exactly, and the replaced range is proved to be the line of the cursor. False of the code for literals over several lines on the line and comments over several lines in front of it (C83_negation_literal, C83_negation_comment); everything else on the line, other items and comments included, is deleted (C83_negation_code, C83_negation_trailing)."
  },
  {
   "property": "C84",
   "status": "partial",
   "theorems": [
    "Verif.Analyzer.Walk.C84_checked",
    "Verif.Analyzer.Walk.C84_impls",
    "Verif.Analyzer.Walk.C84_impl",
    "Verif.Analyzer.Walk.C84_accounted_partial",
    "Verif.Analyzer.Walk.C84_negation_trait",
    "Verif.Analyzer.Walk.C84_negation_impl",
    "Verif.Analyzer.Walk.C84_negation_function",
    "Verif.Analyzer.Walk.C84_negation_derive"
   ],
   "note": "The rules that are run and the items they run on are characterised exactly; every item led by attributes with rules of their own (also around it) is checked or reported. Four ways in which an item escapes are witnessed (unannotated trait implementations, ink! impls on non-items, nested functions of chain extensions, items in scale_derive items)."
  },
  {
   "property": "C85",
   "status": "partial",
   "theorems": [
    "Verif.Analyzer.Extract.C85_content_partial",
    "Verif.Analyzer.Extract.C85_edits",
    "Verif.Analyzer.Extract.C85_refused",
    "Verif.Analyzer.Extract.C85_negation_glued",
    "Verif.Analyzer.Extract.C85_negation_dropped",
    "Verif.Analyzer.Extract.C85_negation_private",
    "Verif.Analyzer.Extract.C85_negation_inner"
   ],
   "note": "Content and edits are characterised for events whose comments and attributes are in front of the declaration and that have no ink! attributes other than those of the event; findings: comments inside the declaration can glue words, other ink! attributes are dropped, the import is put before inner attributes, private events and fields stay private and the new file has no no_std attribute (C85_negation_private)."
  },
  {
   "property": "C86",
   "status": "partial",
   "theorems": [
    "Verif.Analyzer.ExtensionTypes.C86_reported_partial",
    "Verif.Analyzer.ExtensionTypes.C86_once",
    "Verif.Analyzer.ExtensionTypes.C86_negation_inner"
   ],
   "note": "The reported types are exactly those used from the outside in that lack the traits, each once. Type arguments of local types are not looked at (negation proved)."
  },
  {
   "property": "C87",
   "status": "partial",
   "theorems": [
    "Verif.Analyzer.Move.C87_contract_reported",
    "Verif.Analyzer.Move.C87_root_reported",
    "Verif.Analyzer.Move.C87_impl_reported",
    "Verif.Analyzer.Move.C87_own_impl_reported",
    "Verif.Analyzer.Move.C87_contract_fix_partial",
    "Verif.Analyzer.Move.C87_root_fix_partial",
    "Verif.Analyzer.Move.C87_own_impl_fix_partial",
    "Verif.Analyzer.Move.C87_impl_fix_partial",
    "Verif.Analyzer.Move.C87_negation_trait",
    "Verif.Analyzer.Move.C87_negation_string"
   ],
   "note": "Reported exactly when misplaced (iff). The moves are proved up to white space, because re-indenting changes string literals of more than one line (negation), and a callable may be moved into the impl block of a trait (negation). That the new text is parsed to the tree described is not part of the model."
  },
  {
   "property": "C88",
   "status": "partial",
   "theorems": [
    "Verif.Analyzer.Offer.C88_offered",
    "Verif.Analyzer.Offer.C88_root",
    "Verif.Analyzer.Offer.C88_declaration",
    "Verif.Analyzer.Offer.C88_body_partial",
    "Verif.Analyzer.Offer.C88_negation_closing",
    "Verif.Analyzer.Offer.C88_negation_selection",
    "Verif.Analyzer.Offer.C88_topic",
    "Verif.Analyzer.Offer.C88_topic_empty",
    "Verif.Analyzer.Offer.C88_negation_tuple"
   ],
   "note": "Offered actions (both levels), places for selections on declarations and topics are proved in full. Places for selections in a body are proved if the focused element is in the body; false if the cursor is right before the closing bracket (the text goes behind it) and if several elements are selected (C88_negation_closing, C88_negation_selection); a topic in a tuple struct is no Rust (C88_negation_tuple)."
  },
  {
   "property": "C89",
   "status": "partial",
   "theorems": [
    "Verif.Analyzer.External.C89_sound_partial",
    "Verif.Analyzer.External.C89_direct",
    "Verif.Analyzer.External.C89_complete_partial",
    "Verif.Analyzer.External.C89_alias_partial",
    "Verif.Analyzer.External.C89_renamed_partial",
    "Verif.Analyzer.External.C89_terminates_partial",
    "Verif.Analyzer.External.C89_negation_glob",
    "Verif.Analyzer.External.C89_negation_type_alias",
    "Verif.Analyzer.External.C89_negation_global",
    "Verif.Analyzer.External.C89_negation_global_name",
    "Verif.Analyzer.External.C89_negation_rename",
    "Verif.Analyzer.External.C89_negation_shadow",
    "Verif.Analyzer.External.C89_negation_crate_alias",
    "Verif.Analyzer.External.C89_negation_qualified"
   ],
   "note": "Soundness for paths without a leading `::`, or with one if they are qualified and no name of the module stands for a whole crate, in crates whose modules do not rename what they import from their own crate; completeness for full paths (C89_direct), for what is imported by name or glob through modules, for aliases of what is imported from the crates, and for aliases of what one other module imports from them (C89_renamed_partial); termination for layered imports. Eight witnesses show where the code differs: endless searches for modules that re-export each other with globs and for cyclic type aliases, aliases and imported names accepted behind a leading `::`, renamed imports, shadowed globs, imports by way of a crate alias, and qualified paths to re-exports."
  },
  {
   "property": "C90",
   "status": "partial",
   "theorems": [
    "Verif.Migrate.HostFn.C90_once",
    "Verif.Migrate.HostFn.C90_records",
    "Verif.Migrate.HostFn.C90_disjoint",
    "Verif.Migrate.HostFn.C90_exact_partial",
    "Verif.Migrate.HostFn.C90_full",
    "Verif.Migrate.HostFn.C90_negation_receiver",
    "Verif.Migrate.HostFn.C90_negation_nested",
    "Verif.Migrate.HostFn.C90_negation_condition",
    "Verif.Migrate.HostFn.C90_negation_import",
    "Verif.Migrate.HostFn.C90_negation_alias",
    "Verif.Migrate.HostFn.C90_negation_again"
   ],
   "note": "What is changed is characterised exactly (C90_exact_partial), each visited call once (C90_once), without overlaps (C90_disjoint); calls spelled in full end up as calls of the new functions (C90_full). Six witnesses show where the claim fails: methods of other receivers are renamed, arguments of changed calls and conditions are not visited, imports are left as they are (also with aliases), and a second migration adds `instantiate_v1()` again."
  },
  {
   "property": "C91",
   "status": "partial",
   "theorems": [
    "Verif.Migrate.Imports.C91_removed_partial",
    "Verif.Migrate.Imports.C91_order_partial",
    "Verif.Migrate.Imports.C91_negation_overlap",
    "Verif.Migrate.Imports.C91_negation_nested",
    "Verif.Migrate.Imports.C91_negation_global"
   ],
   "note": "The text after the edits is that of use items with exactly the imports that are not deprecated (C91_removed_partial), the edits are in order and apart (C91_order_partial). Three witnesses show where the claim fails: a list that ends with both deprecated names (the comma between them is removed twice), lists without a path in a list of `ink_e2e`, and paths with a leading `::`."
  },
  {
   "property": "C92",
   "status": "partial",
   "theorems": [
    "Verif.Analyzer.Environment.C92_fix_partial",
    "Verif.Analyzer.Environment.C92_code_fix_partial",
    "Verif.Analyzer.Environment.C92_offered",
    "Verif.Analyzer.Environment.C92_accepted_partial",
    "Verif.Analyzer.Environment.C92_code_accepted_partial",
    "Verif.Analyzer.Environment.C92_added",
    "Verif.Analyzer.Environment.C92_uses_partial",
    "Verif.Analyzer.Environment.C92_negation_nested",
    "Verif.Analyzer.Environment.C92_negation_same_name",
    "Verif.Analyzer.Environment.C92_negation_renamed",
    "Verif.Analyzer.Environment.C92_negation_second"
   ],
   "note": "Fixes denote the type and are accepted, for types at most one module deep; acceptance is exact when type names are unique and not renamed, by the steps resolution follows. Negations: modules written in reverse order for nested modules, a type of the same name hides a missing impl, a renamed type is reported, only the first impl is considered."
  },
  {
   "property": "C93",
   "status": "partial",
   "theorems": [
    "Verif.Migrate.TestFn.C93_attribute_partial",
    "Verif.Migrate.TestFn.C93_negation_overlap",
    "Verif.Migrate.TestFn.C93_signature_partial",
    "Verif.Migrate.TestFn.C93_negation_generics",
    "Verif.Migrate.TestFn.C93_imports",
    "Verif.Migrate.TestFn.C93_place_partial",
    "Verif.Migrate.TestFn.C93_negation_file",
    "Verif.Migrate.TestFn.C93_negation_module"
   ],
   "note": "False of the code in four cases, each proved as a negation for all layouts: if the last two arguments of the attribute go and the environment stays, the two deletions overlap on the comma; a function with generic parameters gets a second list of them; the import at the top of a file goes before inner attributes; the import in a module without `use` goes before inner attributes and doc comments. Proved for all other attributes, signatures and places."
  },
  {
   "property": "C94",
   "status": "partial",
   "theorems": [
    "Verif.Analyzer.Cfg.C94_recognised",
    "Verif.Analyzer.Cfg.C94_suggested",
    "Verif.Analyzer.Cfg.C94_only_partial",
    "Verif.Analyzer.Cfg.C94_negation_not",
    "Verif.Analyzer.Cfg.C94_negation_any",
    "Verif.Analyzer.Cfg.C94_negation_without",
    "Verif.Analyzer.Cfg.C94_negation_split",
    "Verif.Analyzer.Cfg.C94_negation_string",
    "Verif.Analyzer.Cfg.C94_negation_comment"
   ],
   "note": "The expressions recognise exactly the attributes that mention the options (proved for all predicates and layouts without parentheses or commas in strings); for conjunctions that is the claim. False of the code otherwise, each proved as a negation: `not(test)` and `any(test, ..)` count as test scopes, `not(feature = \"e2e-tests\")` counts as an e2e scope, conditions spread over nested modules are not combined, and text in strings counts."
  },
  {
   "property": "C95",
   "status": "partial",
   "theorems": [
    "Verif.Analyzer.Event.C95_generics",
    "Verif.Analyzer.Event.C95_others",
    "Verif.Analyzer.Event.C95_topics_partial",
    "Verif.Analyzer.Event.C95_cfg_partial",
    "Verif.Analyzer.Event.C95_fixed",
    "Verif.Analyzer.Event.C95_proper_partial",
    "Verif.Analyzer.Event.C95_negation_topic",
    "Verif.Analyzer.Event.C95_negation_cfg"
   ],
   "note": "Exact reports with places, the effect of every quickfix and the freedom of reports are proved for fields in braces. Two negations: a topic on a field in parentheses is reported as not being on a field, and a cfg attribute there is not reported."
  },
  {
   "property": "C96",
   "status": "partial",
   "theorems": [
    "Verif.Lsp.Workspace.C96_create",
    "Verif.Lsp.Workspace.C96_create_keeps",
    "Verif.Lsp.Workspace.C96_create_accepts",
    "Verif.Lsp.Workspace.C96_migrate_partial",
    "Verif.Lsp.Workspace.C96_extract_partial",
    "Verif.Lsp.Workspace.C96_extract_keeps",
    "Verif.Lsp.Workspace.C96_negation_unsaved",
    "Verif.Lsp.Workspace.C96_negation_order",
    "Verif.Lsp.Workspace.C96_negation_dependency",
    "Verif.Lsp.Workspace.C96_negation_resolve",
    "Verif.Lsp.Workspace.C96_edits"
   ],
   "note": "Creating a project proved in full. Migration and extraction proved for saved manifests and for edits which the protocol allows; negations: unsaved manifests are read from disk, an existing dependency of the same name is replaced, a removal precedes an insertion at the same place, and lazily resolved extractions create files whatever the client announced."
  },
  {
   "property": "C97",
   "status": "partial",
   "theorems": [
    "Verif.Ir.ItemAt.C97_closed",
    "Verif.Ir.ItemAt.C97_field",
    "Verif.Ir.ItemAt.C97_unknown",
    "Verif.Ir.ItemAt.C97_unclosed_partial",
    "Verif.Ir.ItemAt.C97_field_unclosed",
    "Verif.Ir.ItemAt.C97_outside",
    "Verif.Ir.ItemAt.C97_behind_partial",
    "Verif.Ir.ItemAt.C97_negation_crate",
    "Verif.Ir.ItemAt.C97_negation_brace"
   ],
   "note": "Closed attributes, fields and positions outside attributes are fully covered. For attributes without a closing bracket the code takes the next keyword, which is proved exactly; that this is the annotated item fails before pub(crate), async and unsafe (C97_negation_crate) and across a closing brace (C97_negation_brace)."
  },
  {
   "property": "C98",
   "status": "partial",
   "theorems": [
    "Verif.Analyzer.ExtensionArg.C98_reported",
    "Verif.Analyzer.ExtensionArg.C98_bare",
    "Verif.Analyzer.ExtensionArg.C98_list_partial",
    "Verif.Analyzer.ExtensionArg.C98_negation_two"
   ],
   "note": "Reports are exact and the fix of a bare attribute is proved in full. With an argument list it is proved as far as C79 goes (white space behind a trailing comma or alone between the parentheses is read as an argument). Two chain extensions without an id are given the same one (C98_negation_two)."
  },
  {
   "property": "C99",
   "status": "partial",
   "theorems": [
    "Verif.Lsp.C99_handshake",
    "Verif.Lsp.C99_responses",
    "Verif.Lsp.C99_waits",
    "Verif.Lsp.C99_fails_iff_partial",
    "Verif.Lsp.C99_documents",
    "Verif.Lsp.C99_served",
    "Verif.Lsp.C99_announced",
    "Verif.Lsp.C99_commands",
    "Verif.Lsp.C99_negation_params",
    "Verif.Lsp.C99_negation_between"
   ],
   "note": "The order of messages, the answers and the announcement are proved in full. That only `exit` ends a starting server is false: parameters of `initialize` that do not deserialize end it without an answer (C99_negation_params), and so does any message between `initialize` and `initialized` (C99_negation_between); the sessions that fail are characterised exactly. `codeAction/resolve` is served without being announced to clients without a common kind of code action (stated in C99_announced)."
  },
  {
   "property": "C100",
   "status": "partial",
   "theorems": [
    "Verif.Analyzer.Missing.C100_storage_reported",
    "Verif.Analyzer.Missing.C100_constructor_reported",
    "Verif.Analyzer.Missing.C100_message_reported",
    "Verif.Analyzer.Missing.C100_trait_reported",
    "Verif.Analyzer.Missing.C100_impl_reported",
    "Verif.Analyzer.Missing.C100_storage_fix_partial",
    "Verif.Analyzer.Missing.C100_trait_fix_partial",
    "Verif.Analyzer.Missing.C100_constructor_fix_partial",
    "Verif.Analyzer.Missing.C100_message_fix_partial",
    "Verif.Analyzer.Missing.C100_impl_fix_partial",
    "Verif.Analyzer.Missing.C100_negation_impl",
    "Verif.Analyzer.Missing.C100_negation_struct",
    "Verif.Analyzer.Missing.C100_negation_function",
    "Verif.Analyzer.Missing.C100_negation_trait_function",
    "Verif.Analyzer.Missing.C100_negation_type"
   ],
   "note": "Which missing parts are reported is proved outright. For the fixes it is proved where the text goes, that it is that of the new item up to white space, that text and snippet agree, and that in the tree with the item added the part is there and all that was there still is. Missing: that the new text is parsed to that tree; and names are only free among constructors and messages (C100_negation_struct, C100_negation_function, C100_negation_trait_function). Findings: a callable goes into the first impl block of no trait even if it is for another type (C100_negation_type); the fixes for an ink! impl only ever concern impl blocks of traits, where no functions can be added (C100_negation_impl)."
  },
  {
   "property": "C101",
   "status": "proved",
   "theorems": [
    "Verif.Analyzer.Generic.C101_unknown",
    "Verif.Analyzer.Generic.C101_arguments",
    "Verif.Analyzer.Generic.C101_group",
    "Verif.Analyzer.Generic.C101_nested",
    "Verif.Analyzer.Generic.C101_wrong",
    "Verif.Analyzer.Generic.C101_unknown_fix",
    "Verif.Analyzer.Generic.C101_fix",
    "Verif.Analyzer.Generic.C101_negation_twice"
   ],
   "note": "Attributes are assumed to have text and to contain no other attributes (PlainAttrs), as the parser makes them. The rules for arguments and for groups of attributes are parameters (modelled in ArgCheck and elsewhere). If an attribute is given twice, one fix is not enough (C101_negation_twice). Topics are the subject of C95."
  },
  {
   "property": "C102",
   "status": "partial",
   "theorems": [
    "Verif.Analyzer.AttrActions.C102_total",
    "Verif.Analyzer.AttrActions.C102_macros_offered",
    "Verif.Analyzer.AttrActions.C102_args_offered",
    "Verif.Analyzer.AttrActions.C102_args_offered_bare",
    "Verif.Analyzer.AttrActions.C102_macro",
    "Verif.Analyzer.AttrActions.C102_new_partial",
    "Verif.Analyzer.AttrActions.C102_extend_partial",
    "Verif.Analyzer.AttrActions.C102_extend_bare_partial",
    "Verif.Analyzer.AttrActions.C102_attr_offered",
    "Verif.Analyzer.AttrActions.C102_attr_partial",
    "Verif.Analyzer.AttrActions.C102_attr_bare_partial",
    "Verif.Analyzer.AttrActions.C102_snippets",
    "Verif.Analyzer.AttrActions.C102_negation_topic"
   ],
   "note": "The offers (C102_macros_offered, C102_args_offered, C102_args_offered_bare, C102_attr_offered), the macro edits (C102_macro), the snippets and the absence of panics are proved in full. Partial: the edits for arguments leave out signature_topic (its default value is rejected: C102_negation_topic), extension on functions of ink! 5, and argument lists in layouts left out by C79."
  },
  {
   "property": "C103",
   "status": "partial",
   "theorems": [
    "Verif.Analyzer.ScaleText.C103_edit",
    "Verif.Analyzer.ScaleText.C103_v4",
    "Verif.Analyzer.ScaleText.C103_v5",
    "Verif.Analyzer.ScaleText.C103_list_partial",
    "Verif.Analyzer.ScaleText.C103_snippet",
    "Verif.Analyzer.ScaleText.C103_negation_empty",
    "Verif.Analyzer.ScaleText.C103_negation_comment"
   ],
   "note": "Proved: one edit, at the right place, with the intended reading (C103_edit, C103_v4, C103_v5), and the snippet (C103_snippet). The clause on lists is proved for lists that end in a name or a comma and white space; it is false for empty lists and for comments at the end (negations)."
  },
  {
   "property": "C104",
   "status": "partial",
   "theorems": [
    "Verif.Analyzer.EntityActions.C104_offered",
    "Verif.Analyzer.EntityActions.C104_adds_partial",
    "Verif.Analyzer.EntityActions.C104_constructor_partial",
    "Verif.Analyzer.EntityActions.C104_message_partial",
    "Verif.Analyzer.EntityActions.C104_callable_default_partial",
    "Verif.Analyzer.EntityActions.C104_place",
    "Verif.Analyzer.EntityActions.C104_topic_partial",
    "Verif.Analyzer.EntityActions.C104_negation_topic",
    "Verif.Analyzer.EntityActions.C104_negation_enum",
    "Verif.Analyzer.EntityActions.C104_negation_extension"
   ],
   "note": "Proved for all trees whose lists start with a bracket. Partial: that the new text is parsed to the tree with the entity added is not part of the model; new names are only free among the names that are considered (C104_negation_enum: an event gets the name of an enum; C104_negation_extension: in ink! 5 an added function gets the name and id of one that is there) and if these are fewer than 254; names must have no characters that are special in snippets (for storage). A topic at the cursor gets its comma and its place (C104_topic_partial), but the field before must have its comma already (C104_negation_topic)."
  },
  {
   "property": "C105",
   "status": "partial",
   "theorems": [
    "Verif.Analyzer.RemoveRead.C105_rest_partial",
    "Verif.Analyzer.RemoveRead.C105_single",
    "Verif.Analyzer.RemoveRead.C105_namespace",
    "Verif.Analyzer.RemoveRead.C105_negation_trailing"
   ],
   "note": "C105_rest_partial composes the removal (C51) with the parser of argument lists (C76) for all well-formed lists. Partial: arguments with parentheses and a last argument with white space behind it are not removed cleanly (C51_negation_nested, C51_negation_space); with a trailing comma the white space before the removed last argument is read as an argument of unknown kind (C105_negation_trailing)."
  },
  {
   "property": "C106",
   "status": "partial",
   "theorems": [
    "Verif.Analyzer.AddArgs.C106_extend_partial",
    "Verif.Analyzer.AddArgs.C106_message_partial",
    "Verif.Analyzer.AddArgs.C106_new",
    "Verif.Analyzer.AddArgs.C106_resolves",
    "Verif.Analyzer.AddArgs.C106_missing",
    "Verif.Analyzer.AddArgs.C106_negation_trailing"
   ],
   "note": "Proved for every attribute with a well-formed argument list (`C106_extend_partial`, `C106_message_partial`) and for functions without an attribute to extend (`C106_new`); which arguments are missing and that none is reported afterwards (`C106_missing`, `C106_resolves`). False behind a trailing comma with white space (`C106_negation_trailing`). Attributes without closing bracket are left out."
  },
  {
   "property": "C107",
   "status": "partial",
   "theorems": [
    "Verif.Analyzer.Complement.C107_ends",
    "Verif.Analyzer.Complement.C107_meets",
    "Verif.Analyzer.Complement.C107_replaced_partial",
    "Verif.Analyzer.Complement.C107_added_partial",
    "Verif.Analyzer.Complement.C107_handler",
    "Verif.Analyzer.Complement.C107_where",
    "Verif.Analyzer.Complement.C107_says",
    "Verif.Analyzer.Complement.C107_acts",
    "Verif.Analyzer.Complement.C107_negation_together",
    "Verif.Analyzer.Complement.C107_negation_both",
    "Verif.Analyzer.Complement.C107_negation_hollow"
   ],
   "note": "Termination (C107_ends), the rule when nothing is left to fix (C107_meets), what each fix acts on (C107_acts), where the reports are (C107_where) and what they say (C107_says) are proved for all contracts. The edits of replaced and added arguments are proved for simple arguments without trailing white space in values (C107_replaced_partial) and the lists of C79 (C107_added_partial); the removed argument is C105. False of the code: applying the fixes of one analysis together (C107_negation_together), keeping a message that only lacks the selector beside one with both selectors (C107_negation_both), and not leaving an empty attribute (C107_negation_hollow)."
  },
  {
   "property": "C108",
   "status": "proved",
   "theorems": [
    "Verif.Analyzer.Cast.C108_agree",
    "Verif.Analyzer.Cast.C108_derived",
    "Verif.Analyzer.Cast.C108_same",
    "Verif.Analyzer.Cast.C108_entity",
    "Verif.Analyzer.Cast.C108_parent",
    "Verif.Analyzer.Cast.C108_own",
    "Verif.Analyzer.Cast.C108_listed",
    "Verif.Analyzer.Cast.C108_impl",
    "Verif.Analyzer.Cast.C108_file",
    "Verif.Analyzer.Cast.C108_negation_impl",
    "Verif.Analyzer.Cast.C108_negation_twice"
   ],
   "note": "Two things a reader of the documentation would expect do not hold and are proved as findings: ink! impls cannot be derived from their attribute (C108_negation_impl), and an item with the same attribute twice is listed and checked twice (C108_negation_twice)."
  },
  {
   "property": "C109",
   "status": "partial",
   "theorems": [
    "Verif.Analyzer.RepeatFix.C109_ids",
    "Verif.Analyzer.RepeatFix.C109_ids_end",
    "Verif.Analyzer.RepeatFix.C109_selectors_partial",
    "Verif.Analyzer.RepeatFix.C109_selectors_end_partial",
    "Verif.Analyzer.RepeatFix.C109_ids_offered",
    "Verif.Analyzer.RepeatFix.C109_selectors_offered_partial",
    "Verif.Analyzer.RepeatFix.C109_negation_renamed",
    "Verif.Analyzer.RepeatFix.C109_negation_taken"
   ],
   "note": "Proved for ids and for selectors that are given explicitly. False for functions without an explicit selector, which are renamed by appending 2: three functions of one name overlap again after both quickfixes (C109_negation_renamed), and the new name may be taken (C109_negation_taken)."
  },
  {
   "property": "C110",
   "status": "partial",
   "theorems": [
    "Verif.Analyzer.ArgFix.C110_issues",
    "Verif.Analyzer.ArgFix.C110_ends_partial",
    "Verif.Analyzer.ArgFix.C110_read",
    "Verif.Analyzer.ArgFix.C110_snippet_partial",
    "Verif.Analyzer.ArgFix.C110_negation_topic",
    "Verif.Analyzer.ArgFix.C110_negation_nested",
    "Verif.Analyzer.ArgFix.C110_negation_hollow",
    "Verif.Analyzer.ArgFix.C110_negation_value",
    "Verif.Analyzer.ArgFix.C110_negation_comment",
    "Verif.Analyzer.ArgFix.C110_negation_snippet"
   ],
   "note": "False for signature_topic, for a comment behind the name, for nested arguments where none is taken, for empty parentheses, for literal values where a nested argument is taken (the literal is lost) and for snippets with unescaped values: negations proved. Assumes that the expression parser ignores white space at the end and reads the default values."
  },
  {
   "property": "C111",
   "status": "partial",
   "theorems": [
    "Verif.Analyzer.EntityFix.C111_fixes",
    "Verif.Analyzer.EntityFix.C111_offered",
    "Verif.Analyzer.EntityFix.C111_ends_partial",
    "Verif.Analyzer.EntityFix.C111_clean_partial",
    "Verif.Analyzer.EntityFix.C111_keeps_partial",
    "Verif.Analyzer.EntityFix.C111_fitting_partial",
    "Verif.Analyzer.EntityFix.C111_negation_cycle",
    "Verif.Analyzer.EntityFix.C111_negation_lost",
    "Verif.Analyzer.EntityFix.C111_negation_overlap"
   ],
   "note": "False for unknown macros with arguments (an endless cycle), for arguments that fit a macro (lost, depending on the order of the quickfixes) and for quickfixes that delete two neighbouring last arguments (overlapping edits): negations proved. The quickfixes are modelled by what they leave of the attributes; that the edits do this to the text is C51, C79, C80 and C105."
  },
  {
   "property": "C112",
   "status": "partial",
   "theorems": [
    "Verif.Migrate.Whole.C112_once",
    "Verif.Migrate.Whole.C112_apart_partial",
    "Verif.Migrate.Whole.C112_format",
    "Verif.Migrate.Whole.C112_disjoint_partial",
    "Verif.Migrate.Whole.C112_negation_last_use",
    "Verif.Migrate.Whole.C112_negation_host"
   ],
   "note": "The claim is false: if the last `use` item of a module is removed, the new imports of its e2e tests go into the deleted text, because formatting extends the deletion over the white space behind it (C112_negation_last_use, for every such file; the erc20 fixture of ink! 4 is one); host functions in the arguments of client calls are edited twice (C112_negation_host). Proved: every edit once; no overlaps before formatting if the changed places are apart; formatting creates an overlap only if an edit starts in the white space behind a deletion; without such edits no two formatted edits overlap."
  },
  {
   "property": "C113",
   "status": "partial",
   "theorems": [
    "Verif.Analyzer.ExtractAt.C113_attr_partial",
    "Verif.Analyzer.ExtractAt.C113_item_partial",
    "Verif.Analyzer.ExtractAt.C113_negation_top",
    "Verif.Analyzer.ExtractAt.C113_negation_enum"
   ],
   "note": "Proved exactly when the extraction for an offered range exists, and that it is then the one of the event in question: for a named struct inside a module with a body. That it always exists is false: it is offered for events at the top of a file (C113_negation_top) and for event attributes of items that are no structs (C113_negation_enum)."
  },
  {
   "property": "C114",
   "status": "partial",
   "theorems": [
    "Verif.Analyzer.Decl.C114_block_partial",
    "Verif.Analyzer.Decl.C114_statement_partial",
    "Verif.Analyzer.Decl.C114_focus_partial",
    "Verif.Analyzer.Decl.C114_negation_panic",
    "Verif.Analyzer.Decl.C114_negation_comment"
   ],
   "note": "Proved for items whose doc comments and attributes come in front (and for items without any that do not start with a comment), with a block or a semicolon. Findings: a doc comment behind the fields of a tuple struct without semicolon makes the code panic, and a leading comment belongs to the declaration only if there is no doc comment and no attribute."
  },
  {
   "property": "C115",
   "status": "partial",
   "theorems": [
    "Verif.Lsp.Client.C115_sent",
    "Verif.Lsp.Client.C115_received_partial",
    "Verif.Lsp.Client.C115_edits_partial",
    "Verif.Lsp.Client.C115_negation_comment",
    "Verif.Lsp.Client.C115_negation_cr"
   ],
   "note": "Positions sent: proved exactly when they are right (every \\r in front of the place is followed by a \\n in front of it). Edits and received positions are proved for documents without a lone \\r and places that are not inside a \\r\\n. False otherwise: C115_negation_cr, C115_negation_comment."
  },
  {
   "property": "C116",
   "status": "partial",
   "theorems": [
    "Verif.Lsp.Crash.C116_column",
    "Verif.Lsp.Crash.C116_place",
    "Verif.Lsp.Crash.C116_line",
    "Verif.Lsp.Crash.C116_selection",
    "Verif.Lsp.Crash.C116_negation"
   ],
   "note": "False of the code (C116_negation): a column after the end of the line is not clamped, and the lookup in the tree panics outside the document. Proved: exactly which columns panic for all four requests (C116_column), that places of the document are answered (C116_place), that missing lines are errors (C116_line), and that a selection panics only if it is empty and outside the document (C116_selection). What is computed after the lookup is a parameter assumed not to panic."
  },
  {
   "property": "C117",
   "status": "proved",
   "theorems": [
    "Verif.Lsp.Screen.C117_screen",
    "Verif.Lsp.Screen.C117_reports"
   ],
   "note": "C117_screen: what is shown after any session, for any function from snapshots to diagnostics; C117_reports composes it with the deduplication (C35) and the translation (C77). The rules themselves, serialization and URL parsing are parameters; ranges of reports are assumed to delimit whole characters."
  },
  {
   "property": "C118",
   "status": "partial",
   "theorems": [
    "Verif.Lsp.Bulb.C118_offered_partial",
    "Verif.Lsp.Bulb.C118_session_partial",
    "Verif.Lsp.Bulb.C118_negation"
   ],
   "note": "Proved for all sessions and selections, for texts in which every \\r is followed by \\n: each fix of a shown problem has an offered action that makes exactly its formatted edits in the text of the client. Composes C01, C35, C36, C77, C115 and C117. False for a text with a lone \\r (C118_negation). Assumes that the fixes of the rules have the kind QuickFix, as in every rule of the code."
  },
  {
   "property": "C119",
   "status": "partial",
   "theorems": [
    "Verif.Lsp.Fit.C119_client",
    "Verif.Lsp.Fit.C119_answer",
    "Verif.Lsp.Fit.C119_macro",
    "Verif.Lsp.Fit.C119_argument",
    "Verif.Lsp.Fit.C119_entity_partial",
    "Verif.Lsp.Fit.C119_negation_macro",
    "Verif.Lsp.Fit.C119_negation_argument"
   ],
   "note": "What LSP demands of positions is shown equivalent to a statement about the text; for macros and arguments it is proved exactly when it holds, for entities that it holds unless a literal or comment over several lines is on the line. The full claim is false of the code: inside white space over several lines a macro replaces all of it, and in front of the name of an argument that nests others the completion goes behind the name (negations proved)."
  },
  {
   "property": "C120",
   "status": "partial",
   "theorems": [
    "Verif.Lsp.Ask.C120_completion_partial",
    "Verif.Lsp.Ask.C120_hover_partial",
    "Verif.Lsp.Ask.C120_hints_partial",
    "Verif.Lsp.Ask.C120_signatures_partial",
    "Verif.Lsp.Ask.C120_negation"
   ],
   "note": "Proved for all sessions, analyzers and encodings when every `\\r` of the text is followed by a `\\n` and no place is between them; false for texts with a lone `\\r` (negation proved)."
  },
  {
   "property": "C121",
   "status": "partial",
   "theorems": [
    "Verif.Ir.Str.C121_read_partial",
    "Verif.Ir.Str.C121_negation_raw",
    "Verif.Ir.Str.C121_url_partial",
    "Verif.Ir.Str.C121_negation_url"
   ],
   "note": "A literal between quotes is read right exactly if it has no escape sequences and no Windows line ends (C121_read_partial, an equivalence over all literals); then urls are accepted as they should be (C121_url_partial). False of the code otherwise: every raw literal is read as the text in front of its first quote (C121_negation_raw), and such urls are reported (C121_negation_url)."
  },
  {
   "property": "C122",
   "status": "partial",
   "theorems": [
    "Verif.Analyzer.SigDoc.C122_explained_partial",
    "Verif.Analyzer.SigDoc.C122_five",
    "Verif.Analyzer.SigDoc.C122_negation"
   ],
   "note": "An argument that is already written need not exist in the version: `#[ink(function = 1)]` in an ink! 4 project gets a signature without explanation (C122_negation). Everything else is proved."
  },
  {
   "property": "C123",
   "status": "proved",
   "theorems": [
    "Verif.Ir.Succ.C123_items",
    "Verif.Ir.Succ.C123_fused",
    "Verif.Ir.Succ.C123_ancestors",
    "Verif.Ir.Succ.C123_depth",
    "Verif.Ir.Succ.C123_endless"
   ],
   "note": "For the use in the code the claim holds in full. That the generic iterator can fail to end for other step expressions is C123_endless (no such step expression is in the code)."
  },
  {
   "property": "C124",
   "status": "partial",
   "theorems": [
    "Verif.Analyzer.Agree.C124_actions",
    "Verif.Analyzer.Agree.C124_shown_partial",
    "Verif.Analyzer.Agree.C124_macros_partial",
    "Verif.Analyzer.Agree.C124_negation_test",
    "Verif.Analyzer.Agree.C124_negation_namespace",
    "Verif.Analyzer.Agree.C124_negation_macro",
    "Verif.Analyzer.Agree.C124_negation_message"
   ],
   "note": "Completions and actions agree on known, closed attributes of items that are not messages of implemented trait definitions (C124_actions; on those messages they differ, C124_negation_message), and on the macros at the start of an attribute of an item without ink! attributes (C124_macros_partial; the test macro is completed where no action offers it, C124_negation_test). Every completion outside nested arguments is shown by signature help (C124_shown_partial) except keep_attr beside namespace (C124_negation_namespace) and in unknown attribute macros (C124_negation_macro)."
  },
  {
   "property": "C125",
   "status": "partial",
   "theorems": [
    "Verif.Migrate.Again.C125_current_partial",
    "Verif.Migrate.Again.C125_derive",
    "Verif.Migrate.Again.C125_attribute_partial",
    "Verif.Migrate.Again.C125_chain",
    "Verif.Migrate.Again.C125_body",
    "Verif.Migrate.Again.C125_negation_test",
    "Verif.Migrate.Again.C125_negation_import",
    "Verif.Migrate.Again.C125_negation_nested",
    "Verif.Migrate.Again.C125_negation_derive"
   ],
   "note": "For files without e2e tests there are no edits iff nothing of ink! 4 is left (C125_current_partial); what is left of derives, of test attributes and of calls of the client is stable (C125_derive, C125_attribute_partial, C125_chain), and a test body is left as it is iff no expression that is looked at is of ink! 4 (C125_body). False otherwise: e2e tests are changed always, a second run doubles the generic parameters (C125_negation_test), imports are added again (C125_negation_import), calls in arguments and the second derive of a cfg_attr are left for the second run (C125_negation_nested, C125_negation_derive); see also C90_negation_again."
  },
  {
   "property": "C126",
   "status": "partial",
   "theorems": [
    "Verif.Lsp.Fall.C126_session_partial",
    "Verif.Lsp.Fall.C126_refines",
    "Verif.Lsp.Fall.C126_silence",
    "Verif.Lsp.Fall.C126_client",
    "Verif.Lsp.Fall.C126_answered",
    "Verif.Lsp.Fall.C126_offered",
    "Verif.Lsp.Fall.C126_negation"
   ],
   "note": "False of the code (negation proved: a hover after the last line ends the server). Proved: exactly which sessions end with a panic, in terms of the client's own documents; sessions without such a request are those of the loop without panics (C01 to C07 carry over); in particular every session of a client that only names places of its own documents; a fatal request and everything after it stay unanswered. What the analyzer computes after the lookup of the position is taken not to panic, and columns and sizes to fit in 32 bits."
  },
  {
   "property": "C127",
   "status": "partial",
   "theorems": [
    "Verif.Analyzer.Root.C127_root",
    "Verif.Analyzer.Root.C127_clean",
    "Verif.Analyzer.Root.C127_callables",
    "Verif.Analyzer.Root.C127_impl",
    "Verif.Analyzer.Root.C127_fixed_partial",
    "Verif.Analyzer.Root.C127_negation_deep",
    "Verif.Analyzer.Root.C127_negation_twice"
   ],
   "note": "Which items are reported is proved exactly (C127_root, C127_clean, C127_callables, C127_impl), and that the move cures the report (C127_fixed_partial, without re-parsing). The full statement is false of the code: a storage definition in a message is not seen by these checks (C127_negation_deep), and one with two attributes is reported twice (C127_negation_twice)."
  }
 ]
}
