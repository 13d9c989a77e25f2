import Verif.Analyzer.AddArgsProps
import Verif.Analyzer.AgreeProps
import Verif.Analyzer.ArgCheckProps
import Verif.Analyzer.ArgFixProps
import Verif.Analyzer.AttrActionsProps
import Verif.Analyzer.CastProps
import Verif.Analyzer.CfgProps
import Verif.Analyzer.ComplementProps
import Verif.Analyzer.CompleteArgProps
import Verif.Analyzer.CompleteEntityProps
import Verif.Analyzer.CompleteProps
import Verif.Analyzer.CompleteTextProps
import Verif.Analyzer.DeclProps
import Verif.Analyzer.DedupProps
import Verif.Analyzer.DupProps
import Verif.Analyzer.EditLayoutProps
import Verif.Analyzer.EditProps
import Verif.Analyzer.EntityActionsProps
import Verif.Analyzer.EntityFixProps
import Verif.Analyzer.EntityOrderProps
import Verif.Analyzer.EntityProps
import Verif.Analyzer.EnvironmentProps
import Verif.Analyzer.EventProps
import Verif.Analyzer.ExtensionArgProps
import Verif.Analyzer.ExtensionTypesProps
import Verif.Analyzer.ExternalProps
import Verif.Analyzer.ExtractAtProps
import Verif.Analyzer.ExtractProps
import Verif.Analyzer.FlattenProps
import Verif.Analyzer.GenericProps
import Verif.Analyzer.HeaderFixProps
import Verif.Analyzer.HeaderProps
import Verif.Analyzer.HeaderRangeProps
import Verif.Analyzer.HintsProps
import Verif.Analyzer.HoverProps
import Verif.Analyzer.IndentProps
import Verif.Analyzer.InsertProps
import Verif.Analyzer.InsertTextProps
import Verif.Analyzer.MembersProps
import Verif.Analyzer.MissingProps
import Verif.Analyzer.MoveProps
import Verif.Analyzer.OfferProps
import Verif.Analyzer.OverlapProps
import Verif.Analyzer.ParseProps
import Verif.Analyzer.PlacementProps
import Verif.Analyzer.ProjectProps
import Verif.Analyzer.RemoveProps
import Verif.Analyzer.RemoveReadProps
import Verif.Analyzer.RepeatFixProps
import Verif.Analyzer.ReservedProps
import Verif.Analyzer.RootProps
import Verif.Analyzer.ScaleProps
import Verif.Analyzer.ScaleTextProps
import Verif.Analyzer.ScopeProps
import Verif.Analyzer.SignatureDocProps
import Verif.Analyzer.SignatureExactProps
import Verif.Analyzer.SignatureProps
import Verif.Analyzer.SnippetProps
import Verif.Analyzer.SuggestIdProps
import Verif.Analyzer.SuggestProps
import Verif.Analyzer.TablesProps
import Verif.Analyzer.TemplatesProps
import Verif.Analyzer.TraitImplProps
import Verif.Analyzer.WalkProps
import Verif.Ir.AttrProps
import Verif.Ir.CoverProps
import Verif.Ir.EntitiesProps
import Verif.Ir.ItemAtProps
import Verif.Ir.MetaProps
import Verif.Ir.NamespaceProps
import Verif.Ir.ResolveProps
import Verif.Ir.ResolveSoundProps
import Verif.Ir.SelectorProps
import Verif.Ir.StringProps
import Verif.Ir.SuccessorsProps
import Verif.Ir.TokenProps
import Verif.Ir.TreeProps
import Verif.Ir.UseTreeProps
import Verif.Ir.ValueProps
import Verif.Lsp.AskProps
import Verif.Lsp.BulbProps
import Verif.Lsp.CapabilitiesProps
import Verif.Lsp.ClientProps
import Verif.Lsp.CrashProps
import Verif.Lsp.FallProps
import Verif.Lsp.FitProps
import Verif.Lsp.ManifestProps
import Verif.Lsp.PackageProps
import Verif.Lsp.PositionProps
import Verif.Lsp.ProjectProps
import Verif.Lsp.ScreenProps
import Verif.Lsp.ServerProps
import Verif.Lsp.SessionProps
import Verif.Lsp.TranslateProps
import Verif.Lsp.WorkspaceProps
import Verif.Migrate.AgainProps
import Verif.Migrate.DeriveProps
import Verif.Migrate.E2eProps
import Verif.Migrate.HostFnProps
import Verif.Migrate.ImportsProps
import Verif.Migrate.TestFnProps
import Verif.Migrate.WholeProps

/-! Prints the axioms every property theorem depends on. -/

#print axioms Verif.Lsp.C01_snapshots_mirror_documents
#print axioms Verif.Lsp.C01_answers_from_current_text
#print axioms Verif.Lsp.C01_missing_iff_not_open
#print axioms Verif.Lsp.C02_notification_publishes
#print axioms Verif.Lsp.C02_request_publishes_nothing
#print axioms Verif.Lsp.C02_published_over_session
#print axioms Verif.Lsp.C03_exactly_one_response
#print axioms Verif.Lsp.C03_no_unsolicited_response
#print axioms Verif.Lsp.C03_responses_match_requests
#print axioms Verif.Lsp.C04_error_codes
#print axioms Verif.Lsp.C04_sent
#print axioms Verif.Lsp.C05_negation
#print axioms Verif.Lsp.C05_stops_iff_partial
#print axioms Verif.Lsp.C05_session_runs_partial
#print axioms Verif.Lsp.C06_language_versions
#print axioms Verif.Lsp.C06_detected_when_opened
#print axioms Verif.Lsp.C06_stable
#print axioms Verif.Lsp.C07_edit_after_null_response
#print axioms Verif.Lsp.C07_no_edit_otherwise
#print axioms Verif.Lsp.C07_kind_recoverable
#print axioms Verif.Lsp.C07_show_document_only_after_create
#print axioms Verif.Lsp.C07_show_document_after_create
#print axioms Verif.Lsp.C08_position
#print axioms Verif.Lsp.C08_offset
#print axioms Verif.Lsp.C08_round_trip
#print axioms Verif.Lsp.C08_outside
#print axioms Verif.Lsp.C09_ordered
#print axioms Verif.Lsp.C09_release_total
#print axioms Verif.Lsp.C09_inverted
#print axioms Verif.Lsp.C09_inverted_text
#print axioms Verif.Lsp.C09_round_trip
#print axioms Verif.Lsp.C09_monotone
#print axioms Verif.Lsp.C10_first_listed
#print axioms Verif.Lsp.C10_utf16_iff
#print axioms Verif.Lsp.C10_translation_uses_announced
#print axioms Verif.Lsp.C11_advertised_is_intersection
#print axioms Verif.Lsp.C11_negation
#print axioms Verif.Lsp.C11_emitted_covered_partial
#print axioms Verif.Lsp.C12_active_index_valid
#print axioms Verif.Lsp.C12_selection_kept
#print axioms Verif.Lsp.C12_default_first
#print axioms Verif.Lsp.C13_hyphens_partial
#print axioms Verif.Lsp.C13_valid_ascii_partial
#print axioms Verif.Lsp.C13_idempotent_ascii_partial
#print axioms Verif.Lsp.C13_negation
#print axioms Verif.Lsp.C13_rejected
#print axioms Verif.Lsp.C13_accepted
#print axioms Verif.Lsp.C14_succeeds
#print axioms Verif.Lsp.C14_ink
#print axioms Verif.Lsp.C14_dependencies
#print axioms Verif.Lsp.C14_dev_dependencies
#print axioms Verif.Lsp.C14_features
#print axioms Verif.Lsp.C14_frame
#print axioms Verif.Lsp.C14_idempotent
#print axioms Verif.Lsp.C14_recognised_partial
#print axioms Verif.Lsp.C14_recognised_negation
#print axioms Verif.Lsp.C14_project_partial
#print axioms Verif.Lsp.C14_add_dependency
#print axioms Verif.Lsp.C15_nearest
#print axioms Verif.Lsp.C15_own
#print axioms Verif.Lsp.C15_none
#print axioms Verif.Lsp.C16_detected_partial
#print axioms Verif.Lsp.C16_default
#print axioms Verif.Lsp.C16_five_partial
#print axioms Verif.Lsp.C16_four_partial
#print axioms Verif.Lsp.C16_minor_negation
#print axioms Verif.Lsp.C16_major_negation
#print axioms Verif.Lsp.C16_inherited_negation
#print axioms Verif.Lsp.C17_free
#print axioms Verif.Lsp.C17_error
#print axioms Verif.Lsp.C17_plan
#print axioms Verif.Ir.C18_arg_round_trip
#print axioms Verif.Ir.C18_arg_unknown
#print axioms Verif.Ir.C18_arg_print_parse
#print axioms Verif.Ir.C18_arg_distinct
#print axioms Verif.Ir.C18_macro_round_trip
#print axioms Verif.Ir.C18_macro_unknown
#print axioms Verif.Ir.C18_macro_distinct
#print axioms Verif.Ir.C19_is_ink
#print axioms Verif.Ir.C19_primary
#print axioms Verif.Ir.C19_path
#print axioms Verif.Ir.C19_empty
#print axioms Verif.Ir.C19_reorder
#print axioms Verif.Ir.C19_args
#print axioms Verif.Ir.C20_total
#print axioms Verif.Ir.C20_ordered
#print axioms Verif.Ir.C20_inside
#print axioms Verif.Ir.C20_count_partial
#print axioms Verif.Ir.C20_commas_partial
#print axioms Verif.Ir.C20_count_negation
#print axioms Verif.Ir.C20_range_negation
#print axioms Verif.Ir.C20_range_negation_name
#print axioms Verif.Ir.C20_range_partial
#print axioms Verif.Ir.C21_sound
#print axioms Verif.Ir.C21_decimal_partial
#print axioms Verif.Ir.C21_hex_partial
#print axioms Verif.Ir.C21_range
#print axioms Verif.Ir.C21_widths_partial
#print axioms Verif.Ir.C21_negation
#print axioms Verif.Ir.C22_explicit
#print axioms Verif.Ir.C22_complement
#print axioms Verif.Ir.C22_hash
#print axioms Verif.Ir.C22_trait_code
#print axioms Verif.Ir.C22_trait_partial
#print axioms Verif.Ir.C22_trait_negation
#print axioms Verif.Ir.C22_inherent
#print axioms Verif.Ir.Str.C22_namespace_partial
#print axioms Verif.Ir.Str.C22_negation_namespace
#print axioms Verif.Ir.Node.C23_closest
#print axioms Verif.Ir.Node.C23_cover
#print axioms Verif.Ir.Node.C23_descendants
#print axioms Verif.Ir.Node.C23_closest_descendant
#print axioms Verif.Ir.Node.C24_nearest
#print axioms Verif.Ir.Node.C24_none
#print axioms Verif.Ir.Node.C24_subset
#print axioms Verif.Ir.UseTree.C25_flatten_partial
#print axioms Verif.Ir.UseTree.C25_exact_partial
#print axioms Verif.Ir.UseTree.C25_negation
#print axioms Verif.Ir.Resolve.C26_terminates_partial
#print axioms Verif.Ir.Resolve.C26_negation_globs
#print axioms Verif.Ir.Resolve.C26_negation_two_globs
#print axioms Verif.Ir.Resolve.C26_negation_module
#print axioms Verif.Ir.Resolve.C26_found
#print axioms Verif.Ir.Token.C27_total
#print axioms Verif.Ir.Token.C27_touches
#print axioms Verif.Ir.Token.C27_prefer
#print axioms Verif.Ir.Token.C27_left
#print axioms Verif.Ir.Token.C27_affixes
#print axioms Verif.Ir.Token.C27_concat
#print axioms Verif.Ir.Token.C27_next
#print axioms Verif.Ir.Token.C27_prev
#print axioms Verif.Analyzer.C28_item
#print axioms Verif.Analyzer.C28_item_bare
#print axioms Verif.Analyzer.C28_attr
#print axioms Verif.Analyzer.C28_top
#print axioms Verif.Analyzer.C28_top_bare
#print axioms Verif.Analyzer.C28_completions
#print axioms Verif.Analyzer.C28_accept
#print axioms Verif.Analyzer.C28_conflict_partial
#print axioms Verif.Analyzer.C28_negation_conflict
#print axioms Verif.Analyzer.C28_negation_scope
#print axioms Verif.Analyzer.C28_negation_trait_impl
#print axioms Verif.Analyzer.C29_entity_types
#print axioms Verif.Analyzer.C29_entities
#print axioms Verif.Analyzer.C29_symmetric
#print axioms Verif.Analyzer.C29_irreflexive
#print axioms Verif.Analyzer.C29_cooccur
#print axioms Verif.Analyzer.C29_primary_entity
#print axioms Verif.Analyzer.C29_primary_partial
#print axioms Verif.Analyzer.C29_negation
#print axioms Verif.Analyzer.C29_primary_complete_partial
#print axioms Verif.Analyzer.C30_fresh
#print axioms Verif.Analyzer.C30_exhausted
#print axioms Verif.Analyzer.C30_preferred
#print axioms Verif.Analyzer.C30_sequence
#print axioms Verif.Analyzer.C31_preferred
#print axioms Verif.Analyzer.C31_first_free
#print axioms Verif.Analyzer.C31_fresh_partial
#print axioms Verif.Analyzer.C31_negation
#print axioms Verif.Analyzer.C31_template
#print axioms Verif.Analyzer.C31_extension_partial
#print axioms Verif.Analyzer.C31_negation_v5
#print axioms Verif.Analyzer.C31_negation_handler
#print axioms Verif.Analyzer.C32_apply
#print axioms Verif.Analyzer.C32_reduce
#print axioms Verif.Analyzer.C32_round_trip_partial
#print axioms Verif.Analyzer.C32_negation
#print axioms Verif.Analyzer.C32_code
#print axioms Verif.Analyzer.C33_uniform_partial
#print axioms Verif.Analyzer.C33_reversed
#print axioms Verif.Analyzer.C33_negation
#print axioms Verif.Analyzer.C33_children
#print axioms Verif.Analyzer.C34_replace
#print axioms Verif.Analyzer.C34_delete_partial
#print axioms Verif.Analyzer.C34_apply_partial
#print axioms Verif.Analyzer.C34_negation_unaligned
#print axioms Verif.Analyzer.C34_total_insert
#print axioms Verif.Analyzer.C34_negation_panic
#print axioms Verif.Analyzer.C35_dedup_partial
#print axioms Verif.Analyzer.C35_format
#print axioms Verif.Analyzer.C35_negation
#print axioms Verif.Analyzer.C36_distinct
#print axioms Verif.Analyzer.C36_sound
#print axioms Verif.Analyzer.C36_complete
#print axioms Verif.Analyzer.C36_ordered
#print axioms Verif.Analyzer.C36_stable
#print axioms Verif.Analyzer.C36_priority
#print axioms Verif.Analyzer.C37_macros
#print axioms Verif.Analyzer.C37_args
#print axioms Verif.Analyzer.C37_clean
#print axioms Verif.Analyzer.C38_reports
#print axioms Verif.Analyzer.C38_replacements
#print axioms Verif.Analyzer.C38_applied
#print axioms Verif.Analyzer.C39_reports
#print axioms Verif.Analyzer.C39_replacements
#print axioms Verif.Analyzer.C39_applied
#print axioms Verif.Analyzer.C39_missing_partial
#print axioms Verif.Analyzer.C39_negation_exhausted
#print axioms Verif.Analyzer.C39_negation_streams
#print axioms Verif.Analyzer.C40_reports_partial
#print axioms Verif.Analyzer.C40_iff_partial
#print axioms Verif.Analyzer.C40_reports
#print axioms Verif.Analyzer.C40_negation
#print axioms Verif.Analyzer.C41_iff
#print axioms Verif.Analyzer.C41_reports
#print axioms Verif.Analyzer.C42_accepted
#print axioms Verif.Analyzer.C42_shape_partial
#print axioms Verif.Analyzer.C42_severity
#print axioms Verif.Analyzer.C42_negation
#print axioms Verif.Analyzer.C42_negation_topic
#print axioms Verif.Analyzer.C43_primary
#print axioms Verif.Analyzer.C43_no_primary
#print axioms Verif.Analyzer.C43_compatible
#print axioms Verif.Analyzer.C43_attr_partial
#print axioms Verif.Analyzer.C43_arg_partial
#print axioms Verif.Analyzer.C43_reported
#print axioms Verif.Analyzer.C43_reported_arg
#print axioms Verif.Analyzer.C43_negation_first
#print axioms Verif.Analyzer.C43_negation_pair
#print axioms Verif.Analyzer.C44_signature
#print axioms Verif.Analyzer.C44_offered
#print axioms Verif.Analyzer.C44_distinct
#print axioms Verif.Analyzer.C44_primary
#print axioms Verif.Analyzer.C45_validation
#print axioms Verif.Analyzer.C45_pascal
#print axioms Verif.Analyzer.C45_words
#print axioms Verif.Analyzer.C45_exact
#print axioms Verif.Analyzer.C45_consistent_partial
#print axioms Verif.Analyzer.C45_negation
#print axioms Verif.Analyzer.C46_reported
#print axioms Verif.Analyzer.C46_renamed_partial
#print axioms Verif.Analyzer.C46_renamed_long_partial
#print axioms Verif.Analyzer.C46_negation
#print axioms Verif.Analyzer.C47_path_partial
#print axioms Verif.Analyzer.C47_single_partial
#print axioms Verif.Analyzer.C47_negation
#print axioms Verif.Analyzer.C48_silent
#print axioms Verif.Analyzer.C48_v4
#print axioms Verif.Analyzer.C48_v4_kept
#print axioms Verif.Analyzer.C48_v4_settled
#print axioms Verif.Analyzer.C48_v5_partial
#print axioms Verif.Analyzer.C48_negation
#print axioms Verif.Analyzer.C48_negation_report
#print axioms Verif.Migrate.C49_derive_partial
#print axioms Verif.Migrate.C49_negation_event
#print axioms Verif.Migrate.C49_body_partial
#print axioms Verif.Migrate.C49_negation_nested
#print axioms Verif.Migrate.C49_negation_chained
#print axioms Verif.Migrate.C50_once_partial
#print axioms Verif.Migrate.C50_records
#print axioms Verif.Migrate.C50_calls_partial
#print axioms Verif.Migrate.C50_text
#print axioms Verif.Migrate.C50_negation_receiver
#print axioms Verif.Migrate.C50_negation_condition
#print axioms Verif.Analyzer.C51_next_partial
#print axioms Verif.Analyzer.C51_last_partial
#print axioms Verif.Analyzer.C51_negation_nested
#print axioms Verif.Analyzer.C51_negation_name
#print axioms Verif.Analyzer.C51_negation_space
#print axioms Verif.Analyzer.C51_negation_comment
#print axioms Verif.Analyzer.C52_sound
#print axioms Verif.Analyzer.C52_complete
#print axioms Verif.Analyzer.C52_once
#print axioms Verif.Analyzer.C52_total
#print axioms Verif.Analyzer.C53_argument
#print axioms Verif.Analyzer.C53_attribute
#print axioms Verif.Analyzer.C53_content
#print axioms Verif.Analyzer.C53_titles
#print axioms Verif.Analyzer.C53_outside
#print axioms Verif.Analyzer.C54_unexpected_partial
#print axioms Verif.Analyzer.C54_missing
#print axioms Verif.Analyzer.C54_other
#print axioms Verif.Analyzer.C54_exact_partial
#print axioms Verif.Analyzer.C54_negation
#print axioms Verif.Lsp.C55_negation
#print axioms Verif.Lsp.C55_panics_iff_partial
#print axioms Verif.Lsp.C55_resolve_panics_iff_partial
#print axioms Verif.Lsp.C55_decoded
#print axioms Verif.Lsp.C55_unknown
#print axioms Verif.Analyzer.C56_offered
#print axioms Verif.Analyzer.C56_edits
#print axioms Verif.Analyzer.C56_path
#print axioms Verif.Analyzer.C56_macros
#print axioms Verif.Analyzer.C56_order_partial
#print axioms Verif.Analyzer.C56_negation_order
#print axioms Verif.Analyzer.C56_negation_unknown
#print axioms Verif.Analyzer.C57_missing
#print axioms Verif.Analyzer.C57_extra
#print axioms Verif.Analyzer.C57_extra_count
#print axioms Verif.Analyzer.C57_storage_partial
#print axioms Verif.Analyzer.C57_constructor
#print axioms Verif.Analyzer.C57_message
#print axioms Verif.Analyzer.C57_contract_partial
#print axioms Verif.Analyzer.C57_contracts
#print axioms Verif.Analyzer.C57_negation
#print axioms Verif.Analyzer.C58_reported_partial
#print axioms Verif.Analyzer.C58_closed
#print axioms Verif.Analyzer.C58_file
#print axioms Verif.Analyzer.C58_negation
#print axioms Verif.Lsp.C59_lazy_actions_executable
#print axioms Verif.Lsp.C59_eager_actions_carry_edits
#print axioms Verif.Lsp.C60_negation
#print axioms Verif.Lsp.C60_boundary_negation
#print axioms Verif.Lsp.C60_overflow_negation
#print axioms Verif.Lsp.C60_overflow_partial
#print axioms Verif.Lsp.C60_fits
#print axioms Verif.Lsp.C60_line_partial
#print axioms Verif.Lsp.C60_inside_partial
#print axioms Verif.Analyzer.C61_macros
#print axioms Verif.Analyzer.C61_annotated
#print axioms Verif.Analyzer.C61_kinds
#print axioms Verif.Analyzer.C61_accept
#print axioms Verif.Ir.Node.C62_callables
#print axioms Verif.Ir.Node.C62_entities
#print axioms Verif.Analyzer.C63_stubs
#print axioms Verif.Analyzer.C63_resolves
#print axioms Verif.Analyzer.C63_negation
#print axioms Verif.Analyzer.C64_sound_partial
#print axioms Verif.Analyzer.C64_complete_partial
#print axioms Verif.Analyzer.C64_quickfix
#print axioms Verif.Analyzer.C64_negation
#print axioms Verif.Analyzer.C65_undeclared
#print axioms Verif.Analyzer.C65_missing
#print axioms Verif.Analyzer.C65_values
#print axioms Verif.Analyzer.C65_same
#print axioms Verif.Migrate.C66_added
#print axioms Verif.Migrate.C66_text
#print axioms Verif.Migrate.C66_cfg
#print axioms Verif.Migrate.C66_read
#print axioms Verif.Migrate.C66_all
#print axioms Verif.Migrate.C66_kept
#print axioms Verif.Migrate.C66_negation
#print axioms Verif.Migrate.C67_code_partial
#print axioms Verif.Migrate.C67_edits
#print axioms Verif.Migrate.C67_moved
#print axioms Verif.Migrate.C67_negation
#print axioms Verif.Migrate.C68_ids_partial
#print axioms Verif.Migrate.C68_negation
#print axioms Verif.Analyzer.C69_sound
#print axioms Verif.Analyzer.C69_complete
#print axioms Verif.Analyzer.C69_typed
#print axioms Verif.Analyzer.C70_agree
#print axioms Verif.Analyzer.C70_extension
#print axioms Verif.Analyzer.C70_combined_partial
#print axioms Verif.Analyzer.C70_negation_single
#print axioms Verif.Analyzer.C70_versions
#print axioms Verif.Analyzer.C70_test_versions
#print axioms Verif.Analyzer.C70_linked
#print axioms Verif.Analyzer.C71_versioned
#print axioms Verif.Analyzer.C71_order
#print axioms Verif.Analyzer.C72_block_partial
#print axioms Verif.Analyzer.C72_after
#print axioms Verif.Analyzer.C72_between
#print axioms Verif.Analyzer.C72_next
#print axioms Verif.Analyzer.C72_plain
#print axioms Verif.Analyzer.C72_inside
#print axioms Verif.Analyzer.C72_negation_depth
#print axioms Verif.Analyzer.C72_delete
#print axioms Verif.Analyzer.C73_items
#print axioms Verif.Analyzer.C73_nested_args
#print axioms Verif.Analyzer.C73_nested_qualifiers_partial
#print axioms Verif.Analyzer.C73_negation_topic
#print axioms Verif.Analyzer.C73_nested_macros
#print axioms Verif.Analyzer.C73_nested_types_partial
#print axioms Verif.Analyzer.C73_negation_field
#print axioms Verif.Analyzer.C73_placeable
#print axioms Verif.Analyzer.Header.C74_range
#print axioms Verif.Analyzer.Header.C74_fix_partial
#print axioms Verif.Analyzer.Header.C74_fixable
#print axioms Verif.Analyzer.Header.C74_all_partial
#print axioms Verif.Analyzer.Header.C74_negation_body
#print axioms Verif.Analyzer.Header.C74_negation_value
#print axioms Verif.Analyzer.Header.C74_negation_variadic
#print axioms Verif.Analyzer.Header.C74_negation_glue
#print axioms Verif.Analyzer.Header.C74_reports
#print axioms Verif.Ir.Resolve.C75_stable
#print axioms Verif.Ir.Resolve.C75_sound_partial
#print axioms Verif.Ir.Resolve.C75_complete_partial
#print axioms Verif.Ir.Resolve.C75_finds_partial
#print axioms Verif.Ir.Resolve.C75_negation_nested
#print axioms Verif.Ir.Resolve.C75_negation_super
#print axioms Verif.Ir.Resolve.C75_negation_text
#print axioms Verif.Ir.Resolve.C75_negation_alias
#print axioms Verif.Ir.Resolve.C75_negation_global
#print axioms Verif.Ir.Resolve.C75_negation_own
#print axioms Verif.Analyzer.C76_read_partial
#print axioms Verif.Analyzer.C76_unclosed_partial
#print axioms Verif.Analyzer.C76_several
#print axioms Verif.Analyzer.C76_opened
#print axioms Verif.Analyzer.C76_negation_trailing
#print axioms Verif.Analyzer.C76_negation_empty
#print axioms Verif.Lsp.C77_completion
#print axioms Verif.Lsp.C77_no_snippets
#print axioms Verif.Lsp.C77_signatures
#print axioms Verif.Lsp.C77_ascii
#print axioms Verif.Lsp.C77_hover
#print axioms Verif.Lsp.C77_hints
#print axioms Verif.Lsp.C77_parameter
#print axioms Verif.Lsp.C77_diagnostics
#print axioms Verif.Lsp.C77_edits
#print axioms Verif.Lsp.C77_code_actions_partial
#print axioms Verif.Lsp.C77_negation_literals
#print axioms Verif.Lsp.C77_negation_resolve
#print axioms Verif.Lsp.C77_negation_data
#print axioms Verif.Analyzer.Members.C78_chain_reports
#print axioms Verif.Analyzer.Members.C78_trait_reports
#print axioms Verif.Analyzer.Members.C78_chain_fix_partial
#print axioms Verif.Analyzer.Members.C78_chain_fixable
#print axioms Verif.Analyzer.Members.C78_trait_fix
#print axioms Verif.Analyzer.Members.C78_ids_partial
#print axioms Verif.Analyzer.Members.C78_quantity
#print axioms Verif.Analyzer.Members.C78_duplicate_fix
#print axioms Verif.Analyzer.Members.C78_missing_fix
#print axioms Verif.Analyzer.Members.C78_inline_partial
#print axioms Verif.Analyzer.Members.C78_negation_default
#print axioms Verif.Analyzer.Members.C78_negation_rename
#print axioms Verif.Analyzer.Members.C78_chain_places
#print axioms Verif.Analyzer.Members.C78_trait_places
#print axioms Verif.Analyzer.Members.C78_chain_all
#print axioms Verif.Analyzer.Members.C78_chain_clean
#print axioms Verif.Analyzer.Members.C78_negation_both
#print axioms Verif.Analyzer.Members.C78_negation_wildcard
#print axioms Verif.Analyzer.Members.C78_negation_inline
#print axioms Verif.Analyzer.Insert.C79_last_partial
#print axioms Verif.Analyzer.Insert.C79_primary_partial
#print axioms Verif.Analyzer.Insert.C79_first
#print axioms Verif.Analyzer.Insert.C79_first_empty
#print axioms Verif.Analyzer.Insert.C79_bare
#print axioms Verif.Analyzer.Insert.C79_unclosed
#print axioms Verif.Analyzer.Insert.C79_print
#print axioms Verif.Analyzer.Insert.C79_move_next_partial
#print axioms Verif.Analyzer.Insert.C79_move_last_partial
#print axioms Verif.Analyzer.Insert.C79_negation_trailing
#print axioms Verif.Analyzer.Insert.C79_negation_empty
#print axioms Verif.Analyzer.Insert.C79_brackets
#print axioms Verif.Analyzer.Insert.C79_negation_brackets
#print axioms Verif.Analyzer.Insert.C79_negation_move
#print axioms Verif.Analyzer.InsertText.C80_accepted_partial
#print axioms Verif.Analyzer.InsertText.C80_completed
#print axioms Verif.Analyzer.InsertText.C80_function
#print axioms Verif.Analyzer.InsertText.C80_extension
#print axioms Verif.Analyzer.InsertText.C80_selector_partial
#print axioms Verif.Analyzer.InsertText.C80_snippet
#print axioms Verif.Analyzer.InsertText.C80_negation_topic
#print axioms Verif.Analyzer.InsertText.C80_negation_alone
#print axioms Verif.Analyzer.InsertText.C80_negation_split
#print axioms Verif.Analyzer.InsertText.C80_negation_exhausted
#print axioms Verif.Analyzer.Complete.C81_cursor
#print axioms Verif.Analyzer.Complete.C81_offered
#print axioms Verif.Analyzer.Complete.C81_crates
#print axioms Verif.Analyzer.Complete.C81_accept_partial
#print axioms Verif.Analyzer.Complete.C81_negation_bracket
#print axioms Verif.Analyzer.Complete.C81_negation_word
#print axioms Verif.Analyzer.Complete.C81_negation_name
#print axioms Verif.Analyzer.Complete.C81_negation_crate
#print axioms Verif.Analyzer.Complete.C81_negation_nested
#print axioms Verif.Analyzer.CompleteArg.C82_items
#print axioms Verif.Analyzer.CompleteArg.C82_focus
#print axioms Verif.Analyzer.CompleteArg.C82_accepted_partial
#print axioms Verif.Analyzer.CompleteArg.C82_first
#print axioms Verif.Analyzer.CompleteArg.C82_next
#print axioms Verif.Analyzer.CompleteArg.C82_replace
#print axioms Verif.Analyzer.CompleteArg.C82_nested_partial
#print axioms Verif.Analyzer.CompleteArg.C82_negation_paren
#print axioms Verif.Analyzer.CompleteArg.C82_negation_glued
#print axioms Verif.Analyzer.CompleteArg.C82_negation_nested
#print axioms Verif.Analyzer.CompleteEntity.C83_line_partial
#print axioms Verif.Analyzer.CompleteEntity.C83_comment
#print axioms Verif.Analyzer.CompleteEntity.C83_blank
#print axioms Verif.Analyzer.CompleteEntity.C83_offered
#print axioms Verif.Analyzer.CompleteEntity.C83_labels
#print axioms Verif.Analyzer.CompleteEntity.C83_negation_code
#print axioms Verif.Analyzer.CompleteEntity.C83_negation_trailing
#print axioms Verif.Analyzer.CompleteEntity.C83_negation_literal
#print axioms Verif.Analyzer.CompleteEntity.C83_negation_comment
#print axioms Verif.Analyzer.CompleteEntity.C83_shown_partial
#print axioms Verif.Analyzer.CompleteEntity.C83_negation_shown
#print axioms Verif.Analyzer.Walk.C84_checked
#print axioms Verif.Analyzer.Walk.C84_impls
#print axioms Verif.Analyzer.Walk.C84_impl
#print axioms Verif.Analyzer.Walk.C84_accounted_partial
#print axioms Verif.Analyzer.Walk.C84_negation_trait
#print axioms Verif.Analyzer.Walk.C84_negation_impl
#print axioms Verif.Analyzer.Walk.C84_negation_function
#print axioms Verif.Analyzer.Walk.C84_negation_derive
#print axioms Verif.Analyzer.Extract.C85_content_partial
#print axioms Verif.Analyzer.Extract.C85_edits
#print axioms Verif.Analyzer.Extract.C85_refused
#print axioms Verif.Analyzer.Extract.C85_negation_glued
#print axioms Verif.Analyzer.Extract.C85_negation_dropped
#print axioms Verif.Analyzer.Extract.C85_negation_private
#print axioms Verif.Analyzer.Extract.C85_negation_inner
#print axioms Verif.Analyzer.ExtensionTypes.C86_reported_partial
#print axioms Verif.Analyzer.ExtensionTypes.C86_once
#print axioms Verif.Analyzer.ExtensionTypes.C86_negation_inner
#print axioms Verif.Analyzer.Move.C87_contract_reported
#print axioms Verif.Analyzer.Move.C87_root_reported
#print axioms Verif.Analyzer.Move.C87_impl_reported
#print axioms Verif.Analyzer.Move.C87_own_impl_reported
#print axioms Verif.Analyzer.Move.C87_contract_fix_partial
#print axioms Verif.Analyzer.Move.C87_root_fix_partial
#print axioms Verif.Analyzer.Move.C87_own_impl_fix_partial
#print axioms Verif.Analyzer.Move.C87_impl_fix_partial
#print axioms Verif.Analyzer.Move.C87_negation_trait
#print axioms Verif.Analyzer.Move.C87_negation_string
#print axioms Verif.Analyzer.Offer.C88_offered
#print axioms Verif.Analyzer.Offer.C88_root
#print axioms Verif.Analyzer.Offer.C88_declaration
#print axioms Verif.Analyzer.Offer.C88_body_partial
#print axioms Verif.Analyzer.Offer.C88_negation_closing
#print axioms Verif.Analyzer.Offer.C88_negation_selection
#print axioms Verif.Analyzer.Offer.C88_topic
#print axioms Verif.Analyzer.Offer.C88_topic_empty
#print axioms Verif.Analyzer.Offer.C88_negation_tuple
#print axioms Verif.Analyzer.External.C89_sound_partial
#print axioms Verif.Analyzer.External.C89_direct
#print axioms Verif.Analyzer.External.C89_complete_partial
#print axioms Verif.Analyzer.External.C89_alias_partial
#print axioms Verif.Analyzer.External.C89_renamed_partial
#print axioms Verif.Analyzer.External.C89_terminates_partial
#print axioms Verif.Analyzer.External.C89_negation_glob
#print axioms Verif.Analyzer.External.C89_negation_type_alias
#print axioms Verif.Analyzer.External.C89_negation_global
#print axioms Verif.Analyzer.External.C89_negation_global_name
#print axioms Verif.Analyzer.External.C89_negation_rename
#print axioms Verif.Analyzer.External.C89_negation_shadow
#print axioms Verif.Analyzer.External.C89_negation_crate_alias
#print axioms Verif.Analyzer.External.C89_negation_qualified
#print axioms Verif.Migrate.HostFn.C90_once
#print axioms Verif.Migrate.HostFn.C90_records
#print axioms Verif.Migrate.HostFn.C90_disjoint
#print axioms Verif.Migrate.HostFn.C90_exact_partial
#print axioms Verif.Migrate.HostFn.C90_full
#print axioms Verif.Migrate.HostFn.C90_negation_receiver
#print axioms Verif.Migrate.HostFn.C90_negation_nested
#print axioms Verif.Migrate.HostFn.C90_negation_condition
#print axioms Verif.Migrate.HostFn.C90_negation_import
#print axioms Verif.Migrate.HostFn.C90_negation_alias
#print axioms Verif.Migrate.HostFn.C90_negation_again
#print axioms Verif.Migrate.Imports.C91_removed_partial
#print axioms Verif.Migrate.Imports.C91_order_partial
#print axioms Verif.Migrate.Imports.C91_negation_overlap
#print axioms Verif.Migrate.Imports.C91_negation_nested
#print axioms Verif.Migrate.Imports.C91_negation_global
#print axioms Verif.Analyzer.Environment.C92_fix_partial
#print axioms Verif.Analyzer.Environment.C92_code_fix_partial
#print axioms Verif.Analyzer.Environment.C92_offered
#print axioms Verif.Analyzer.Environment.C92_accepted_partial
#print axioms Verif.Analyzer.Environment.C92_code_accepted_partial
#print axioms Verif.Analyzer.Environment.C92_added
#print axioms Verif.Analyzer.Environment.C92_uses_partial
#print axioms Verif.Analyzer.Environment.C92_negation_nested
#print axioms Verif.Analyzer.Environment.C92_negation_same_name
#print axioms Verif.Analyzer.Environment.C92_negation_renamed
#print axioms Verif.Analyzer.Environment.C92_negation_second
#print axioms Verif.Migrate.TestFn.C93_attribute_partial
#print axioms Verif.Migrate.TestFn.C93_negation_overlap
#print axioms Verif.Migrate.TestFn.C93_signature_partial
#print axioms Verif.Migrate.TestFn.C93_negation_generics
#print axioms Verif.Migrate.TestFn.C93_imports
#print axioms Verif.Migrate.TestFn.C93_place_partial
#print axioms Verif.Migrate.TestFn.C93_negation_file
#print axioms Verif.Migrate.TestFn.C93_negation_module
#print axioms Verif.Analyzer.Cfg.C94_recognised
#print axioms Verif.Analyzer.Cfg.C94_suggested
#print axioms Verif.Analyzer.Cfg.C94_only_partial
#print axioms Verif.Analyzer.Cfg.C94_negation_not
#print axioms Verif.Analyzer.Cfg.C94_negation_any
#print axioms Verif.Analyzer.Cfg.C94_negation_without
#print axioms Verif.Analyzer.Cfg.C94_negation_split
#print axioms Verif.Analyzer.Cfg.C94_negation_string
#print axioms Verif.Analyzer.Cfg.C94_negation_comment
#print axioms Verif.Analyzer.Event.C95_generics
#print axioms Verif.Analyzer.Event.C95_others
#print axioms Verif.Analyzer.Event.C95_topics_partial
#print axioms Verif.Analyzer.Event.C95_cfg_partial
#print axioms Verif.Analyzer.Event.C95_fixed
#print axioms Verif.Analyzer.Event.C95_proper_partial
#print axioms Verif.Analyzer.Event.C95_negation_topic
#print axioms Verif.Analyzer.Event.C95_negation_cfg
#print axioms Verif.Lsp.Workspace.C96_create
#print axioms Verif.Lsp.Workspace.C96_create_keeps
#print axioms Verif.Lsp.Workspace.C96_create_accepts
#print axioms Verif.Lsp.Workspace.C96_migrate_partial
#print axioms Verif.Lsp.Workspace.C96_extract_partial
#print axioms Verif.Lsp.Workspace.C96_extract_keeps
#print axioms Verif.Lsp.Workspace.C96_negation_unsaved
#print axioms Verif.Lsp.Workspace.C96_negation_order
#print axioms Verif.Lsp.Workspace.C96_negation_dependency
#print axioms Verif.Lsp.Workspace.C96_negation_resolve
#print axioms Verif.Lsp.Workspace.C96_edits
#print axioms Verif.Ir.ItemAt.C97_closed
#print axioms Verif.Ir.ItemAt.C97_field
#print axioms Verif.Ir.ItemAt.C97_unknown
#print axioms Verif.Ir.ItemAt.C97_unclosed_partial
#print axioms Verif.Ir.ItemAt.C97_field_unclosed
#print axioms Verif.Ir.ItemAt.C97_outside
#print axioms Verif.Ir.ItemAt.C97_behind_partial
#print axioms Verif.Ir.ItemAt.C97_negation_crate
#print axioms Verif.Ir.ItemAt.C97_negation_brace
#print axioms Verif.Analyzer.ExtensionArg.C98_reported
#print axioms Verif.Analyzer.ExtensionArg.C98_bare
#print axioms Verif.Analyzer.ExtensionArg.C98_list_partial
#print axioms Verif.Analyzer.ExtensionArg.C98_negation_two
#print axioms Verif.Lsp.C99_handshake
#print axioms Verif.Lsp.C99_responses
#print axioms Verif.Lsp.C99_waits
#print axioms Verif.Lsp.C99_fails_iff_partial
#print axioms Verif.Lsp.C99_documents
#print axioms Verif.Lsp.C99_served
#print axioms Verif.Lsp.C99_announced
#print axioms Verif.Lsp.C99_commands
#print axioms Verif.Lsp.C99_negation_params
#print axioms Verif.Lsp.C99_negation_between
#print axioms Verif.Analyzer.Missing.C100_storage_reported
#print axioms Verif.Analyzer.Missing.C100_constructor_reported
#print axioms Verif.Analyzer.Missing.C100_message_reported
#print axioms Verif.Analyzer.Missing.C100_trait_reported
#print axioms Verif.Analyzer.Missing.C100_impl_reported
#print axioms Verif.Analyzer.Missing.C100_storage_fix_partial
#print axioms Verif.Analyzer.Missing.C100_trait_fix_partial
#print axioms Verif.Analyzer.Missing.C100_constructor_fix_partial
#print axioms Verif.Analyzer.Missing.C100_message_fix_partial
#print axioms Verif.Analyzer.Missing.C100_impl_fix_partial
#print axioms Verif.Analyzer.Missing.C100_negation_impl
#print axioms Verif.Analyzer.Missing.C100_negation_struct
#print axioms Verif.Analyzer.Missing.C100_negation_function
#print axioms Verif.Analyzer.Missing.C100_negation_trait_function
#print axioms Verif.Analyzer.Missing.C100_negation_type
#print axioms Verif.Analyzer.Generic.C101_unknown
#print axioms Verif.Analyzer.Generic.C101_arguments
#print axioms Verif.Analyzer.Generic.C101_group
#print axioms Verif.Analyzer.Generic.C101_nested
#print axioms Verif.Analyzer.Generic.C101_wrong
#print axioms Verif.Analyzer.Generic.C101_unknown_fix
#print axioms Verif.Analyzer.Generic.C101_fix
#print axioms Verif.Analyzer.Generic.C101_negation_twice
#print axioms Verif.Analyzer.AttrActions.C102_total
#print axioms Verif.Analyzer.AttrActions.C102_macros_offered
#print axioms Verif.Analyzer.AttrActions.C102_args_offered
#print axioms Verif.Analyzer.AttrActions.C102_args_offered_bare
#print axioms Verif.Analyzer.AttrActions.C102_macro
#print axioms Verif.Analyzer.AttrActions.C102_new_partial
#print axioms Verif.Analyzer.AttrActions.C102_extend_partial
#print axioms Verif.Analyzer.AttrActions.C102_extend_bare_partial
#print axioms Verif.Analyzer.AttrActions.C102_attr_offered
#print axioms Verif.Analyzer.AttrActions.C102_attr_partial
#print axioms Verif.Analyzer.AttrActions.C102_attr_bare_partial
#print axioms Verif.Analyzer.AttrActions.C102_snippets
#print axioms Verif.Analyzer.AttrActions.C102_negation_topic
#print axioms Verif.Analyzer.ScaleText.C103_edit
#print axioms Verif.Analyzer.ScaleText.C103_v4
#print axioms Verif.Analyzer.ScaleText.C103_v5
#print axioms Verif.Analyzer.ScaleText.C103_list_partial
#print axioms Verif.Analyzer.ScaleText.C103_snippet
#print axioms Verif.Analyzer.ScaleText.C103_negation_empty
#print axioms Verif.Analyzer.ScaleText.C103_negation_comment
#print axioms Verif.Analyzer.EntityActions.C104_offered
#print axioms Verif.Analyzer.EntityActions.C104_adds_partial
#print axioms Verif.Analyzer.EntityActions.C104_constructor_partial
#print axioms Verif.Analyzer.EntityActions.C104_message_partial
#print axioms Verif.Analyzer.EntityActions.C104_callable_default_partial
#print axioms Verif.Analyzer.EntityActions.C104_place
#print axioms Verif.Analyzer.EntityActions.C104_topic_partial
#print axioms Verif.Analyzer.EntityActions.C104_negation_topic
#print axioms Verif.Analyzer.EntityActions.C104_negation_enum
#print axioms Verif.Analyzer.EntityActions.C104_negation_extension
#print axioms Verif.Analyzer.RemoveRead.C105_rest_partial
#print axioms Verif.Analyzer.RemoveRead.C105_single
#print axioms Verif.Analyzer.RemoveRead.C105_namespace
#print axioms Verif.Analyzer.RemoveRead.C105_negation_trailing
#print axioms Verif.Analyzer.AddArgs.C106_extend_partial
#print axioms Verif.Analyzer.AddArgs.C106_message_partial
#print axioms Verif.Analyzer.AddArgs.C106_new
#print axioms Verif.Analyzer.AddArgs.C106_resolves
#print axioms Verif.Analyzer.AddArgs.C106_missing
#print axioms Verif.Analyzer.AddArgs.C106_negation_trailing
#print axioms Verif.Analyzer.Complement.C107_ends
#print axioms Verif.Analyzer.Complement.C107_meets
#print axioms Verif.Analyzer.Complement.C107_replaced_partial
#print axioms Verif.Analyzer.Complement.C107_added_partial
#print axioms Verif.Analyzer.Complement.C107_handler
#print axioms Verif.Analyzer.Complement.C107_where
#print axioms Verif.Analyzer.Complement.C107_says
#print axioms Verif.Analyzer.Complement.C107_acts
#print axioms Verif.Analyzer.Complement.C107_negation_together
#print axioms Verif.Analyzer.Complement.C107_negation_both
#print axioms Verif.Analyzer.Complement.C107_negation_hollow
#print axioms Verif.Analyzer.Cast.C108_agree
#print axioms Verif.Analyzer.Cast.C108_derived
#print axioms Verif.Analyzer.Cast.C108_same
#print axioms Verif.Analyzer.Cast.C108_entity
#print axioms Verif.Analyzer.Cast.C108_parent
#print axioms Verif.Analyzer.Cast.C108_own
#print axioms Verif.Analyzer.Cast.C108_listed
#print axioms Verif.Analyzer.Cast.C108_impl
#print axioms Verif.Analyzer.Cast.C108_file
#print axioms Verif.Analyzer.Cast.C108_negation_impl
#print axioms Verif.Analyzer.Cast.C108_negation_twice
#print axioms Verif.Analyzer.RepeatFix.C109_ids
#print axioms Verif.Analyzer.RepeatFix.C109_ids_end
#print axioms Verif.Analyzer.RepeatFix.C109_selectors_partial
#print axioms Verif.Analyzer.RepeatFix.C109_selectors_end_partial
#print axioms Verif.Analyzer.RepeatFix.C109_ids_offered
#print axioms Verif.Analyzer.RepeatFix.C109_selectors_offered_partial
#print axioms Verif.Analyzer.RepeatFix.C109_negation_renamed
#print axioms Verif.Analyzer.RepeatFix.C109_negation_taken
#print axioms Verif.Analyzer.ArgFix.C110_issues
#print axioms Verif.Analyzer.ArgFix.C110_ends_partial
#print axioms Verif.Analyzer.ArgFix.C110_read
#print axioms Verif.Analyzer.ArgFix.C110_snippet_partial
#print axioms Verif.Analyzer.ArgFix.C110_negation_topic
#print axioms Verif.Analyzer.ArgFix.C110_negation_nested
#print axioms Verif.Analyzer.ArgFix.C110_negation_hollow
#print axioms Verif.Analyzer.ArgFix.C110_negation_value
#print axioms Verif.Analyzer.ArgFix.C110_negation_comment
#print axioms Verif.Analyzer.ArgFix.C110_negation_snippet
#print axioms Verif.Analyzer.EntityFix.C111_fixes
#print axioms Verif.Analyzer.EntityFix.C111_offered
#print axioms Verif.Analyzer.EntityFix.C111_ends_partial
#print axioms Verif.Analyzer.EntityFix.C111_clean_partial
#print axioms Verif.Analyzer.EntityFix.C111_keeps_partial
#print axioms Verif.Analyzer.EntityFix.C111_fitting_partial
#print axioms Verif.Analyzer.EntityFix.C111_negation_cycle
#print axioms Verif.Analyzer.EntityFix.C111_negation_lost
#print axioms Verif.Analyzer.EntityFix.C111_negation_overlap
#print axioms Verif.Migrate.Whole.C112_once
#print axioms Verif.Migrate.Whole.C112_apart_partial
#print axioms Verif.Migrate.Whole.C112_format
#print axioms Verif.Migrate.Whole.C112_disjoint_partial
#print axioms Verif.Migrate.Whole.C112_negation_last_use
#print axioms Verif.Migrate.Whole.C112_negation_host
#print axioms Verif.Analyzer.ExtractAt.C113_attr_partial
#print axioms Verif.Analyzer.ExtractAt.C113_item_partial
#print axioms Verif.Analyzer.ExtractAt.C113_negation_top
#print axioms Verif.Analyzer.ExtractAt.C113_negation_enum
#print axioms Verif.Analyzer.Decl.C114_block_partial
#print axioms Verif.Analyzer.Decl.C114_statement_partial
#print axioms Verif.Analyzer.Decl.C114_focus_partial
#print axioms Verif.Analyzer.Decl.C114_negation_panic
#print axioms Verif.Analyzer.Decl.C114_negation_comment
#print axioms Verif.Lsp.Client.C115_sent
#print axioms Verif.Lsp.Client.C115_received_partial
#print axioms Verif.Lsp.Client.C115_edits_partial
#print axioms Verif.Lsp.Client.C115_negation_comment
#print axioms Verif.Lsp.Client.C115_negation_cr
#print axioms Verif.Lsp.Crash.C116_column
#print axioms Verif.Lsp.Crash.C116_place
#print axioms Verif.Lsp.Crash.C116_line
#print axioms Verif.Lsp.Crash.C116_selection
#print axioms Verif.Lsp.Crash.C116_negation
#print axioms Verif.Lsp.Screen.C117_screen
#print axioms Verif.Lsp.Screen.C117_reports
#print axioms Verif.Lsp.Bulb.C118_offered_partial
#print axioms Verif.Lsp.Bulb.C118_session_partial
#print axioms Verif.Lsp.Bulb.C118_negation
#print axioms Verif.Lsp.Fit.C119_client
#print axioms Verif.Lsp.Fit.C119_answer
#print axioms Verif.Lsp.Fit.C119_macro
#print axioms Verif.Lsp.Fit.C119_argument
#print axioms Verif.Lsp.Fit.C119_entity_partial
#print axioms Verif.Lsp.Fit.C119_negation_macro
#print axioms Verif.Lsp.Fit.C119_negation_argument
#print axioms Verif.Lsp.Ask.C120_completion_partial
#print axioms Verif.Lsp.Ask.C120_hover_partial
#print axioms Verif.Lsp.Ask.C120_hints_partial
#print axioms Verif.Lsp.Ask.C120_signatures_partial
#print axioms Verif.Lsp.Ask.C120_negation
#print axioms Verif.Ir.Str.C121_read_partial
#print axioms Verif.Ir.Str.C121_negation_raw
#print axioms Verif.Ir.Str.C121_url_partial
#print axioms Verif.Ir.Str.C121_negation_url
#print axioms Verif.Analyzer.SigDoc.C122_explained_partial
#print axioms Verif.Analyzer.SigDoc.C122_five
#print axioms Verif.Analyzer.SigDoc.C122_negation
#print axioms Verif.Ir.Succ.C123_items
#print axioms Verif.Ir.Succ.C123_fused
#print axioms Verif.Ir.Succ.C123_ancestors
#print axioms Verif.Ir.Succ.C123_depth
#print axioms Verif.Ir.Succ.C123_endless
#print axioms Verif.Analyzer.Agree.C124_actions
#print axioms Verif.Analyzer.Agree.C124_shown_partial
#print axioms Verif.Analyzer.Agree.C124_macros_partial
#print axioms Verif.Analyzer.Agree.C124_negation_test
#print axioms Verif.Analyzer.Agree.C124_negation_namespace
#print axioms Verif.Analyzer.Agree.C124_negation_macro
#print axioms Verif.Analyzer.Agree.C124_negation_message
#print axioms Verif.Migrate.Again.C125_current_partial
#print axioms Verif.Migrate.Again.C125_derive
#print axioms Verif.Migrate.Again.C125_attribute_partial
#print axioms Verif.Migrate.Again.C125_chain
#print axioms Verif.Migrate.Again.C125_body
#print axioms Verif.Migrate.Again.C125_negation_test
#print axioms Verif.Migrate.Again.C125_negation_import
#print axioms Verif.Migrate.Again.C125_negation_nested
#print axioms Verif.Migrate.Again.C125_negation_derive
#print axioms Verif.Lsp.Fall.C126_session_partial
#print axioms Verif.Lsp.Fall.C126_refines
#print axioms Verif.Lsp.Fall.C126_silence
#print axioms Verif.Lsp.Fall.C126_client
#print axioms Verif.Lsp.Fall.C126_answered
#print axioms Verif.Lsp.Fall.C126_offered
#print axioms Verif.Lsp.Fall.C126_negation
#print axioms Verif.Analyzer.Root.C127_root
#print axioms Verif.Analyzer.Root.C127_clean
#print axioms Verif.Analyzer.Root.C127_callables
#print axioms Verif.Analyzer.Root.C127_impl
#print axioms Verif.Analyzer.Root.C127_fixed_partial
#print axioms Verif.Analyzer.Root.C127_negation_deep
#print axioms Verif.Analyzer.Root.C127_negation_twice
