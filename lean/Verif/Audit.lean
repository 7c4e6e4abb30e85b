import Verif.Props.Access
import Verif.Props.Access2
import Verif.Props.Attributes
import Verif.Props.Blocks
import Verif.Props.Blocks2
import Verif.Props.Blocks3
import Verif.Props.Blocks4
import Verif.Props.Bumps
import Verif.Props.Bumps2
import Verif.Props.Bumps3
import Verif.Props.Bytes
import Verif.Props.Changelog
import Verif.Props.Collect
import Verif.Props.Conditions
import Verif.Props.Context
import Verif.Props.Equality
import Verif.Props.ForceParse
import Verif.Props.FormatText
import Verif.Props.Formatter
import Verif.Props.Heap
import Verif.Props.History
import Verif.Props.History2
import Verif.Props.History3
import Verif.Props.History4
import Verif.Props.History5
import Verif.Props.Label
import Verif.Props.Lifecycle
import Verif.Props.ListMethods
import Verif.Props.MacroDefinitions
import Verif.Props.Macros
import Verif.Props.Operations
import Verif.Props.Operations2
import Verif.Props.Options
import Verif.Props.OptionsMapping
import Verif.Props.Packager
import Verif.Props.Prep
import Verif.Props.Release
import Verif.Props.Repeat
import Verif.Props.Repr
import Verif.Props.Sections
import Verif.Props.Sharing
import Verif.Props.Slices
import Verif.Props.Sourcelist
import Verif.Props.Sources
import Verif.Props.SourcesMethods
import Verif.Props.SpecParser
import Verif.Props.Stderr
import Verif.Props.Tags
import Verif.Props.Template
import Verif.Props.Text
import Verif.Props.Undo
import Verif.Props.Undo2
import Verif.Props.UpdateReading
import Verif.Props.UpdateTag
import Verif.Props.UpdateValue
import Verif.Props.Url
import Verif.Props.Utils
import Verif.Props.Validity
import Verif.Props.ValueParser
/-
Generated by tools/gen_manifest.py: the axioms behind every property theorem.
-/
#print axioms Specfile.Props.C01_load_save_partial
#print axioms Specfile.Props.C01_exactly
#print axioms Specfile.Props.C01_load_error
#print axioms Specfile.Props.C01_lines
#print axioms Specfile.Props.C01_lines_of_file
#print axioms Specfile.Props.C01_second_time
#print axioms Specfile.Props.C01_reload
#print axioms Specfile.Props.C01_empty_violation
#print axioms Specfile.Props.C01_separator_violation
#print axioms Specfile.Props.C01_lost_violation
#print axioms Specfile.Props.C02_roundtrip_partial
#print axioms Specfile.Props.C02_parse_roundtrip_partial
#print axioms Specfile.Props.C02_mod_whitespace
#print axioms Specfile.Props.C02_violation_dnl
#print axioms Specfile.Props.C02_violation_whitespace
#print axioms Specfile.Props.C02_violation_last_line
#print axioms Specfile.Props.C03_meaning
#print axioms Specfile.Props.C03_sections_noop_partial
#print axioms Specfile.Props.C03_succeeds
#print axioms Specfile.Props.C03_violation_package
#print axioms Specfile.Props.C03_violation_empty_argument
#print axioms Specfile.Props.C03_violation_backslash
#print axioms Specfile.Props.C03_violation_long_s
#print axioms Specfile.Props.C04_tags_noop_partial
#print axioms Specfile.Props.C04_tags_mod_whitespace
#print axioms Specfile.Props.C04_meaning_partial
#print axioms Specfile.Props.C04_violation_whitespace
#print axioms Specfile.Props.C04_violation_spaces
#print axioms Specfile.Props.C04_violation_empty_reference
#print axioms Specfile.Props.C05_meaning
#print axioms Specfile.Props.C05_sourcelist_noop
#print axioms Specfile.Props.C05_raises
#print axioms Specfile.Props.C05_read_back
#print axioms Specfile.Props.C06_changelog_noop
#print axioms Specfile.Props.C06_meaning
#print axioms Specfile.Props.C07_lines
#print axioms Specfile.Props.C07_roundtrip_partial
#print axioms Specfile.Props.C07_macro_lines
#print axioms Specfile.Props.C07_violation_wrapper
#print axioms Specfile.Props.C07_violation_options
#print axioms Specfile.Props.C08_comments_noop
#print axioms Specfile.Props.C08_meaning
#print axioms Specfile.Props.C09_parse_total
#print axioms Specfile.Props.C09_parse_print_mod_whitespace
#print axioms Specfile.Props.C09_parse_print_partial
#print axioms Specfile.Props.C09_parse_print_violation
#print axioms Specfile.Props.C09_print_parse
#print axioms Specfile.Props.C10_tokenize_print_partial
#print axioms Specfile.Props.C10_tokenize_print_plain_partial
#print axioms Specfile.Props.C10_nothing_else_lost
#print axioms Specfile.Props.C10_only_quoting_changes
#print axioms Specfile.Props.C10_tokenize_print_violation
#print axioms Specfile.Props.C10_print_tokenize
#print axioms Specfile.Props.C10_tokenize_errors
#print axioms Specfile.Props.C11_lines_kept
#print axioms Specfile.Props.C11_balanced
#print axioms Specfile.Props.C11_failures
#print axioms Specfile.Props.C11_succeeds_iff_balanced
#print axioms Specfile.Props.C12_validity_partial
#print axioms Specfile.Props.C12_violation
#print axioms Specfile.Props.C13_excluded_lines_partial
#print axioms Specfile.Props.C13_bodies_have_no_effect_partial
#print axioms Specfile.Props.C13_body_lines_inherit
#print axioms Specfile.Props.C13_violation
#print axioms Specfile.Props.C14_tag_lines
#print axioms Specfile.Props.C14_set_value_is_local
#print axioms Specfile.Props.C14_set_by_name
#print axioms Specfile.Props.C15_delete_partial
#print axioms Specfile.Props.C15_out_of_range
#print axioms Specfile.Props.C15_delete_slice_partial
#print axioms Specfile.Props.C15_delete_by_name_partial
#print axioms Specfile.Props.C15_violation_negative
#print axioms Specfile.Props.C15_violation_lowest
#print axioms Specfile.Props.C15_violation_negative_step
#print axioms Specfile.Props.C15_violation_by_name
#print axioms Specfile.Props.C16_delete_partial
#print axioms Specfile.Props.C16_out_of_range
#print axioms Specfile.Props.C16_delete_slice_partial
#print axioms Specfile.Props.C16_delete_by_name_partial
#print axioms Specfile.Props.C16_violation_negative
#print axioms Specfile.Props.C16_violation_lowest
#print axioms Specfile.Props.C16_violation_negative_step
#print axioms Specfile.Props.C16_violation_by_name
#print axioms Specfile.Props.C17_delete_partial
#print axioms Specfile.Props.C17_out_of_range
#print axioms Specfile.Props.C17_delete_slice_partial
#print axioms Specfile.Props.C17_violation_negative
#print axioms Specfile.Props.C17_violation_negative_step
#print axioms Specfile.Props.C18_insert
#print axioms Specfile.Props.C18_out_of_range
#print axioms Specfile.Props.C19_find_first
#print axioms Specfile.Props.C19_contains
#print axioms Specfile.Props.C19_reachable
#print axioms Specfile.Props.C19_get
#print axioms Specfile.Props.C19_set_lines_local
#print axioms Specfile.Props.C19_set_section_local
#print axioms Specfile.Props.C19_delete_local
#print axioms Specfile.Props.C19_edit_raises
#print axioms Specfile.Props.C19_read_back
#print axioms Specfile.Props.C19_set_read_back
#print axioms Specfile.Props.C19_delete_read_back
#print axioms Specfile.Props.C19_headers_outside
#print axioms Specfile.Props.C19_violation_uppercase
#print axioms Specfile.Props.C19_violation_trailing_blank
#print axioms Specfile.Props.C19_violation_moved
#print axioms Specfile.Props.C20_add_lines
#print axioms Specfile.Props.C20_add_read_back
#print axioms Specfile.Props.C20_padding
#print axioms Specfile.Props.C20_timestamp
#print axioms Specfile.Props.C21_find_definition
#print axioms Specfile.Props.C21_find_definition_at_partial
#print axioms Specfile.Props.C21_position_violation
#print axioms Specfile.Props.C21_find_tag
#print axioms Specfile.Props.C21_ascii_names
#print axioms Specfile.Props.C21_contains_tag_partial
#print axioms Specfile.Props.C21_get_tag
#print axioms Specfile.Props.C21_find_tag_at_partial
#print axioms Specfile.Props.C21_position_violation_lines
#print axioms Specfile.Props.C22_definition_position_partial
#print axioms Specfile.Props.C22_violation_definition
#print axioms Specfile.Props.C22_tag_position_partial
#print axioms Specfile.Props.C22_violation_tag_twice
#print axioms Specfile.Props.C22_violation_tag_lines
#print axioms Specfile.Props.C23_insert
#print axioms Specfile.Props.C23_append
#print axioms Specfile.Props.C24_rejected
#print axioms Specfile.Props.C24_history
#print axioms Specfile.Props.C24_set_violation
#print axioms Specfile.Props.C25_insert_partial
#print axioms Specfile.Props.C25_history_partial
#print axioms Specfile.Props.C25_negative_violation
#print axioms Specfile.Props.C26_insert_numbered
#print axioms Specfile.Props.C26_read_back
#print axioms Specfile.Props.C26_implicit_violation
#print axioms Specfile.Props.C27_remove
#print axioms Specfile.Props.C27_remove_numbered
#print axioms Specfile.Props.C27_del
#print axioms Specfile.Props.C27_del_slice_partial
#print axioms Specfile.Props.C27_slice_violation
#print axioms Specfile.Props.C27_foreign_violation
#print axioms Specfile.Props.C28_rejected
#print axioms Specfile.Props.C28_accepted
#print axioms Specfile.Props.C28_add_patch
#print axioms Specfile.Props.C28_list_violation
#print axioms Specfile.Props.C29_get
#print axioms Specfile.Props.C29_set_errors
#print axioms Specfile.Props.C29_set_get_partial
#print axioms Specfile.Props.C29_set_flag_partial
#print axioms Specfile.Props.C29_set_others_partial
#print axioms Specfile.Props.C29_set_tokens
#print axioms Specfile.Props.C29_tokenize_sane
#print axioms Specfile.Props.C29_set_get_violation
#print axioms Specfile.Props.C30_delete_partial
#print axioms Specfile.Props.C30_delete_violation
#print axioms Specfile.Props.C30_delete_absent
#print axioms Specfile.Props.C31_keys
#print axioms Specfile.Props.C31_len
#print axioms Specfile.Props.C31_keys_nodup
#print axioms Specfile.Props.C32_values
#print axioms Specfile.Props.C32_getitem
#print axioms Specfile.Props.C32_setitem_partial
#print axioms Specfile.Props.C32_delitem
#print axioms Specfile.Props.C32_index_errors
#print axioms Specfile.Props.C32_insert_partial
#print axioms Specfile.Props.C32_insert_violation
#print axioms Specfile.Props.C32_insert_raises
#print axioms Specfile.Props.C32_insert_error_violation
#print axioms Specfile.Props.C32_pop
#print axioms Specfile.Props.C32_clear
#print axioms Specfile.Props.C32_extend_partial
#print axioms Specfile.Props.C32_assign_partial
#print axioms Specfile.Props.C32_assign_violation
#print axioms Specfile.Props.C32_get_slice
#print axioms Specfile.Props.C32_set_slice_partial
#print axioms Specfile.Props.C32_set_slice_violation
#print axioms Specfile.Props.C32_delete_slice_partial
#print axioms Specfile.Props.C32_delete_slice_violation
#print axioms Specfile.Props.C33_evr_roundtrip_partial
#print axioms Specfile.Props.C33_evr_violation
#print axioms Specfile.Props.C33_normalisation_violation
#print axioms Specfile.Props.C33_evr_from_string
#print axioms Specfile.Props.C33_evr_accepts
#print axioms Specfile.Props.C33_nevr_roundtrip_partial
#print axioms Specfile.Props.C33_nevr_violation
#print axioms Specfile.Props.C33_nevr_from_string
#print axioms Specfile.Props.C33_nevra_roundtrip_partial
#print axioms Specfile.Props.C34_evr_total_preorder
#print axioms Specfile.Props.C34_evr_operators
#print axioms Specfile.Props.C34_empty_version
#print axioms Specfile.Props.C34_nevr_comparison
#print axioms Specfile.Props.C34_nevra_comparison
#print axioms Specfile.Props.C34_hash_contract_partial
#print axioms Specfile.Props.C34_hash_violation
#print axioms Specfile.Props.C35_split_dist
#print axioms Specfile.Props.C35_split_plain
#print axioms Specfile.Props.C35_set_keeps_dist
#print axioms Specfile.Props.C35_set_plain
#print axioms Specfile.Props.C35_reads_back
#print axioms Specfile.Props.C35_own_dist_violation
#print axioms Specfile.Props.C36_bump
#print axioms Specfile.Props.C36_one_number_partial
#print axioms Specfile.Props.C36_again
#print axioms Specfile.Props.C36_newline_violation
#print axioms Specfile.Props.C37_changes
#print axioms Specfile.Props.C37_only_earlier_partial
#print axioms Specfile.Props.C37_result_partial
#print axioms Specfile.Props.C37_terminates
#print axioms Specfile.Props.C37_violation_twin
#print axioms Specfile.Props.C37_violation_twin_macro
#print axioms Specfile.Props.C37_violation_lines
#print axioms Specfile.Props.C37_violation_collision
#print axioms Specfile.Props.C38_once
#print axioms Specfile.Props.C38_written
#print axioms Specfile.Props.C38_same_object
#print axioms Specfile.Props.C38_write_back
#print axioms Specfile.Props.C38_call
#print axioms Specfile.Props.C38_late_violation
#print axioms Specfile.Props.C39_nested
#print axioms Specfile.Props.C39_no_edits
#print axioms Specfile.Props.C39_lossless_partial
#print axioms Specfile.Props.C39_violation_macros
#print axioms Specfile.Props.C39_violation_argument
#print axioms Specfile.Props.C39_violation_lists
#print axioms Specfile.Props.C39_violation_section
#print axioms Specfile.Props.C39_violation_twins
#print axioms Specfile.Props.C39_sources_patches
#print axioms Specfile.Props.C40_parse_partial
#print axioms Specfile.Props.C40_expand_partial
#print axioms Specfile.Props.C40_context_partial
#print axioms Specfile.Props.C40_violation_copy
#print axioms Specfile.Props.C40_violation_foreign
#print axioms Specfile.Props.C40_violation_files
#print axioms Specfile.Props.C41_retry_partial
#print axioms Specfile.Props.C41_violation_exception
#print axioms Specfile.Props.C41_violation_interrupt
#print axioms Specfile.Props.C42_dummies_partial
#print axioms Specfile.Props.C42_parse_partial
#print axioms Specfile.Props.C42_existing_partial
#print axioms Specfile.Props.C42_signature
#print axioms Specfile.Props.C42_violation_partly
#print axioms Specfile.Props.C42_violation_interrupt
#print axioms Specfile.Props.C42_violation_unlink
#print axioms Specfile.Props.C42_violation_link
#print axioms Specfile.Props.C43_parse
#print axioms Specfile.Props.C43_locale
#print axioms Specfile.Props.C43_sanitize
#print axioms Specfile.Props.C44_remove_only
#print axioms Specfile.Props.C44_remove_partial
#print axioms Specfile.Props.C44_remove_ends_partial
#print axioms Specfile.Props.C44_define_partial
#print axioms Specfile.Props.C44_reinit_partial
#print axioms Specfile.Props.C44_reinit_ends_partial
#print axioms Specfile.Props.C44_violation_endless
#print axioms Specfile.Props.C44_violation
#print axioms Specfile.Props.C45_filter
#print axioms Specfile.Props.C45_filter_sorted
#print axioms Specfile.Props.C45_raises
#print axioms Specfile.Props.C45_violation_no_evr
#print axioms Specfile.Props.C46_split_conditional_partial
#print axioms Specfile.Props.C46_split_conditional_mod_whitespace
#print axioms Specfile.Props.C46_split_conditional_shape
#print axioms Specfile.Props.C46_split_of_conditional
#print axioms Specfile.Props.C46_split_conditional_violation
#print axioms Specfile.Props.C47_filename
#print axioms Specfile.Props.C47_filename_no_slash
#print axioms Specfile.Props.C48_count_brackets
#print axioms Specfile.Props.C48_zero_iff_closed
#print axioms Specfile.Props.C49_objects_partial
#print axioms Specfile.Props.C49_repr_partial
#print axioms Specfile.Props.C49_unchanged
#print axioms Specfile.Props.C49_unsupported_unchanged
#print axioms Specfile.Props.C49_raises
#print axioms Specfile.Props.C49_raises_outside
#print axioms Specfile.Props.C49_index_violation
#print axioms Specfile.Props.C49_objects_violation
#print axioms Specfile.Props.C49_same_meaning_partial
#print axioms Specfile.Props.C49_layout
#print axioms Specfile.Props.C49_short
#print axioms Specfile.Props.C49_unsupported
#print axioms Specfile.Props.C49_unsupported_error
#print axioms Specfile.Props.C49_unpack_violation
#print axioms Specfile.Props.C50_add
#print axioms Specfile.Props.C50_line
#print axioms Specfile.Props.C50_place
#print axioms Specfile.Props.C50_order_partial
#print axioms Specfile.Props.C50_add_succeeds
#print axioms Specfile.Props.C50_add_error
#print axioms Specfile.Props.C50_remove_partial
#print axioms Specfile.Props.C50_remove_absent
#print axioms Specfile.Props.C50_order_violation
#print axioms Specfile.Props.C50_remove_violation
#print axioms Specfile.Props.C51_autorelease
#print axioms Specfile.Props.C51_no_autorelease
#print axioms Specfile.Props.C51_autorelease_text_partial
#print axioms Specfile.Props.C51_autorelease_error
#print axioms Specfile.Props.C51_autochangelog
#print axioms Specfile.Props.C51_no_autochangelog
#print axioms Specfile.Props.C51_autochangelog_error
#print axioms Specfile.Props.C51_comments_ignored
#print axioms Specfile.Props.C51_escape_violation
#print axioms Specfile.Props.C51_empty_reference_violation
#print axioms Specfile.Props.C52_read_back
#print axioms Specfile.Props.C52_read_back_succeeds
#print axioms Specfile.Props.C52_parsed_is_readable
#print axioms Specfile.Props.C52_set_readable
#print axioms Specfile.Props.C52_set_and_read_back
#print axioms Specfile.Props.C53_literals_have_no_macros_partial
#print axioms Specfile.Props.C53_literal_violation
#print axioms Specfile.Props.C54_read_back
#print axioms Specfile.Props.C54_set_and_read_back
#print axioms Specfile.Props.C55_set_body_is_local
#print axioms Specfile.Props.C55_definition_lines
#print axioms Specfile.Props.C55_set_body_succeeds
#print axioms Specfile.Props.C56_add_comment
#print axioms Specfile.Props.C56_extend_comments
#print axioms Specfile.Props.C56_set_comment
#print axioms Specfile.Props.C56_added_read_back
#print axioms Specfile.Props.C56_contains
#print axioms Specfile.Props.C57_create_partial
#print axioms Specfile.Props.C57_violation
#print axioms Specfile.Props.C58_separated_partial
#print axioms Specfile.Props.C58_delimiter_kept
#print axioms Specfile.Props.C58_violation_positional
#print axioms Specfile.Props.C59_is_script
#print axioms Specfile.Props.C60_evr
#print axioms Specfile.Props.C60_violation_address
#print axioms Specfile.Props.C61_extended
#print axioms Specfile.Props.C61_padding
#print axioms Specfile.Props.C61_violation_zero
#print axioms Specfile.Props.C62_assemble_evr
#print axioms Specfile.Props.C62_evr_word
#print axioms Specfile.Props.C62_assemble_padding
#print axioms Specfile.Props.C62_assemble_extended_partial
#print axioms Specfile.Props.C62_extended_violation
#print axioms Specfile.Props.C62_assemble_lines
#print axioms Specfile.Props.C63_read
#print axioms Specfile.Props.C63_get
#print axioms Specfile.Props.C63_slice_partial
#print axioms Specfile.Props.C63_slice_empty
#print axioms Specfile.Props.C63_set
#print axioms Specfile.Props.C63_set_slice
#print axioms Specfile.Props.C63_slice_violation
#print axioms Specfile.Props.C63_extend
#print axioms Specfile.Props.C63_pop
#print axioms Specfile.Props.C63_clear
#print axioms Specfile.Props.C63_index_partial
#print axioms Specfile.Props.C63_index_violation
#print axioms Specfile.Props.C64_insert
#print axioms Specfile.Props.C64_insert_numbered
#print axioms Specfile.Props.C64_colon_violation
#print axioms Specfile.Props.C65_parse
#print axioms Specfile.Props.C65_macro_or_none
#print axioms Specfile.Props.C65_errors
#print axioms Specfile.Props.C65_options
#print axioms Specfile.Props.C65_defaults
#print axioms Specfile.Props.C65_classes
#print axioms Specfile.Props.C66_number
#print axioms Specfile.Props.C66_set_number_partial
#print axioms Specfile.Props.C66_set_name
#print axioms Specfile.Props.C66_set_unnumbered
#print axioms Specfile.Props.C66_negative_violation
#print axioms Specfile.Props.C67_getattr
#print axioms Specfile.Props.C67_getattr_error
#print axioms Specfile.Props.C67_contains
#print axioms Specfile.Props.C67_delete_partial
#print axioms Specfile.Props.C67_delete_out
#print axioms Specfile.Props.C67_delete_slice_partial
#print axioms Specfile.Props.C67_delattr
#print axioms Specfile.Props.C67_delattr_error
#print axioms Specfile.Props.C67_negative_violation
#print axioms Specfile.Props.C67_slice_violation
#print axioms Specfile.Props.C68_save_load_partial
#print axioms Specfile.Props.C68_exactly
#print axioms Specfile.Props.C68_loaded
#print axioms Specfile.Props.C68_no_lines_violation
#print axioms Specfile.Props.C69_exception_partial
#print axioms Specfile.Props.C69_no_exception
#print axioms Specfile.Props.C69_keyError_violation
#print axioms Specfile.Props.C70_autosave
#print axioms Specfile.Props.C70_no_autosave
#print axioms Specfile.Props.C71_dump_any_start
#print axioms Specfile.Props.C71_dump_partial
#print axioms Specfile.Props.C71_levels
#print axioms Specfile.Props.C71_joined
#print axioms Specfile.Props.C71_violation
#print axioms Specfile.Props.C72_result_partial
#print axioms Specfile.Props.C72_force_partial
#print axioms Specfile.Props.C72_violation
#print axioms Specfile.Props.C73_match_partial
#print axioms Specfile.Props.C73_complete_partial
#print axioms Specfile.Props.C73_constructs
#print axioms Specfile.Props.C73_violation_unseparated
#print axioms Specfile.Props.C73_violation_conditional
#print axioms Specfile.Props.C73_violation_merge
#print axioms Specfile.Props.C74_tag
#print axioms Specfile.Props.C74_missing
#print axioms Specfile.Props.C74_cases
#print axioms Specfile.Props.C74_expanded
#print axioms Specfile.Props.C74_unreadable
#print axioms Specfile.Props.C74_set_get_partial
#print axioms Specfile.Props.C74_violation
#print axioms Specfile.Props.C75_release
#print axioms Specfile.Props.C75_missing
#print axioms Specfile.Props.C75_version_release_partial
#print axioms Specfile.Props.C75_version_only_violation
#print axioms Specfile.Props.C75_no_version
#print axioms Specfile.Props.C75_bump_autorelease
#print axioms Specfile.Props.C75_bump_unreadable
#print axioms Specfile.Props.C75_bump_macro_partial
#print axioms Specfile.Props.C75_bump_tag
#print axioms Specfile.Props.C75_bump_violation
#print axioms Specfile.Props.C75_bump_branch_violation
#print axioms Specfile.Props.C76_add
#print axioms Specfile.Props.C76_add_fails
#print axioms Specfile.Props.C76_no_changelog
#print axioms Specfile.Props.C76_single_partial
#print axioms Specfile.Props.C76_has_autochangelog
#print axioms Specfile.Props.C76_email_violation
#print axioms Specfile.Props.C76_packager_violation
#print axioms Specfile.Props.C76_evr_violation
#print axioms Specfile.Props.C77_block_partial
#print axioms Specfile.Props.C77_noop
#print axioms Specfile.Props.C77_unreadable_list
#print axioms Specfile.Props.C77_add_patch
#print axioms Specfile.Props.C77_add_patch_rejected
#print axioms Specfile.Props.C77_case_violation
#print axioms Specfile.Props.C78_no_pattern
#print axioms Specfile.Props.C78_invalid_pattern
#print axioms Specfile.Props.C78_macro_partial
#print axioms Specfile.Props.C78_no_macro_partial
#print axioms Specfile.Props.C78_group_violation
#print axioms Specfile.Props.C79_written_partial
#print axioms Specfile.Props.C79_violation
#print axioms Specfile.Props.C80_reading
#print axioms Specfile.Props.C80_value_partial
#print axioms Specfile.Props.C80_keeps_partial
#print axioms Specfile.Props.C80_enables_partial
#print axioms Specfile.Props.C80_violation_shared
#print axioms Specfile.Props.C80_violation_name
#print axioms Specfile.Props.C81_update_tag_partial
#print axioms Specfile.Props.C81_violation_shared
#print axioms Specfile.Props.C82_collect
#print axioms Specfile.Props.C82_succeeds_partial
#print axioms Specfile.Props.C82_forced
#print axioms Specfile.Props.C82_violation_backslash
#print axioms Specfile.Props.C82_violation_directory
#print axioms Specfile.Props.C83_programs_partial
#print axioms Specfile.Props.C83_separate
#print axioms Specfile.Props.C83_deepcopy
#print axioms Specfile.Props.C83_parse
#print axioms Specfile.Props.C83_violation_copy
#print axioms Specfile.Props.C83_violation_slice
#print axioms Specfile.Props.C83_violation_comments
#print axioms Specfile.Props.C84_definition_valid_partial
#print axioms Specfile.Props.C84_without_conditions
#print axioms Specfile.Props.C84_tag_valid_partial
#print axioms Specfile.Props.C84_entry_valid_partial
#print axioms Specfile.Props.C84_violation
#print axioms Specfile.Props.C85_restored
#print axioms Specfile.Props.C85_captured
#print axioms Specfile.Props.C85_nested
#print axioms Specfile.Props.C86_first_error_partial
#print axioms Specfile.Props.C86_no_error_line
#print axioms Specfile.Props.C86_raises
#print axioms Specfile.Props.C86_empty_violation
#print axioms Specfile.Props.C86_cut_violation
#print axioms Specfile.Props.C87_found
#print axioms Specfile.Props.C87_raises_partial
#print axioms Specfile.Props.C87_violation
#print axioms Specfile.Props.C88_equivalence
#print axioms Specfile.Props.C88_same_text
#print axioms Specfile.Props.C88_changelog_partial
#print axioms Specfile.Props.C88_definitions_partial
#print axioms Specfile.Props.C88_tag_partial
#print axioms Specfile.Props.C88_tags_partial
#print axioms Specfile.Props.C88_sourcelist_partial
#print axioms Specfile.Props.C88_sections_partial
#print axioms Specfile.Props.C88_specfile_partial
#print axioms Specfile.Props.C88_definitions_again
#print axioms Specfile.Props.C88_tags_again
#print axioms Specfile.Props.C88_sourcelist_again
#print axioms Specfile.Props.C88_prep_options_partial
#print axioms Specfile.Props.C88_positionals
#print axioms Specfile.Props.C88_prep_equivalence
#print axioms Specfile.Props.C88_violation_sections
#print axioms Specfile.Props.C88_violation_tags
#print axioms Specfile.Props.C88_violation_sourcelist
#print axioms Specfile.Props.C88_violation_definitions
#print axioms Specfile.Props.C88_violation_changelog
#print axioms Specfile.Props.C88_violation_prep
#print axioms Specfile.Props.C88_violation_specfile
#print axioms Specfile.Props.C88_sources_partial
#print axioms Specfile.Props.C88_violation_sources
#print axioms Specfile.Props.C89_getitem_errors
#print axioms Specfile.Props.C89_setitem_partial
#print axioms Specfile.Props.C89_contains_partial
#print axioms Specfile.Props.C89_contains_violation
#print axioms Specfile.Props.C89_defaults
#print axioms Specfile.Props.C89_pop
#print axioms Specfile.Props.C89_unrecognized
#print axioms Specfile.Props.C89_popitem_partial
#print axioms Specfile.Props.C89_clear
#print axioms Specfile.Props.C90_containers
#print axioms Specfile.Props.C90_pop_partial
#print axioms Specfile.Props.C90_remove_partial
#print axioms Specfile.Props.C90_index
#print axioms Specfile.Props.C90_count
#print axioms Specfile.Props.C90_clear_partial
#print axioms Specfile.Props.C90_extend
#print axioms Specfile.Props.C90_append
#print axioms Specfile.Props.C90_insert
#print axioms Specfile.Props.C90_set_item
#print axioms Specfile.Props.C90_reverse
#print axioms Specfile.Props.C90_remove_lines_partial
#print axioms Specfile.Props.C90_remove_same_partial
#print axioms Specfile.Props.C90_comment_index
#print axioms Specfile.Props.C90_pop_del_partial
#print axioms Specfile.Props.C90_violation_tags_pop
#print axioms Specfile.Props.C90_violation_definitions_pop
#print axioms Specfile.Props.C90_violation_prep_pop
#print axioms Specfile.Props.C90_violation_append
#print axioms Specfile.Props.C90_violation_sections
#print axioms Specfile.Props.C90_violation_tags_remove
#print axioms Specfile.Props.C90_violation_comments
#print axioms Specfile.Props.C91_remote_partial
#print axioms Specfile.Props.C91_raises
#print axioms Specfile.Props.C91_violation
#print axioms Specfile.Props.C92_with
#print axioms Specfile.Props.C92_load_after_with
#print axioms Specfile.Props.C92_with_fails
#print axioms Specfile.Props.C92_edits
#print axioms Specfile.Props.C92_other_files
#print axioms Specfile.Props.C92_no_save
#print axioms Specfile.Props.C92_autosave
#print axioms Specfile.Props.C92_shut
#print axioms Specfile.Props.C92_final_newline
#print axioms Specfile.Props.C92_reload_partial
#print axioms Specfile.Props.C92_save_reload
#print axioms Specfile.Props.C92_reload_inside_violation
#print axioms Specfile.Props.C93_read_partial
#print axioms Specfile.Props.C93_set_partial
#print axioms Specfile.Props.C93_set_element_partial
#print axioms Specfile.Props.C93_delete
#print axioms Specfile.Props.C93_delete_raises
#print axioms Specfile.Props.C93_program_partial
#print axioms Specfile.Props.C93_absent_violation
#print axioms Specfile.Props.C93_stale_violation
#print axioms Specfile.Props.C93_method_violation
#print axioms Specfile.Props.C93_delete_violation
#print axioms Specfile.Props.C93_prep_read_partial
#print axioms Specfile.Props.C93_prep_set_keeps
#print axioms Specfile.Props.C93_prep_set_violation
#print axioms Specfile.Props.C93_construction_partial
#print axioms Specfile.Props.C93_construction_violation
#print axioms Specfile.Props.C93_reading_partial
#print axioms Specfile.Props.C93_reading_violation
#print axioms Specfile.Props.C93_extend_partial
#print axioms Specfile.Props.C93_extend_violation
#print axioms Specfile.Props.C94_reading
#print axioms Specfile.Props.C94_bytes_kept
#print axioms Specfile.Props.C94_saved_text
#print axioms Specfile.Props.C94_unchanged_iff
#print axioms Specfile.Props.C94_edit_partial
#print axioms Specfile.Props.C94_saves_iff
#print axioms Specfile.Props.C94_save_violation
#print axioms Specfile.Props.C94_escapes_violation
#print axioms Specfile.Props.C94_rpm_partial
#print axioms Specfile.Props.C94_open_violation
#print axioms Specfile.Props.C94_open
#print axioms Specfile.Props.C95_containers
#print axioms Specfile.Props.C95_positions
#print axioms Specfile.Props.C95_slice
#print axioms Specfile.Props.C95_copy
#print axioms Specfile.Props.C95_sum_partial
#print axioms Specfile.Props.C95_sum_violation
#print axioms Specfile.Props.C95_product_partial
#print axioms Specfile.Props.C95_set_slice
#print axioms Specfile.Props.C95_set_extended
#print axioms Specfile.Props.C95_delete_partial
#print axioms Specfile.Props.C95_delete_item_partial
#print axioms Specfile.Props.C95_comments_partial
#print axioms Specfile.Props.C95_comments_violation
#print axioms Specfile.Props.C95_section_slice
#print axioms Specfile.Props.C95_section_violation
#print axioms Specfile.Props.C95_delete_violation
#print axioms Specfile.Props.C95_comments_extra_violation
#print axioms Specfile.Props.C96_containers
#print axioms Specfile.Props.C96_programs_partial
#print axioms Specfile.Props.C96_careful
#print axioms Specfile.Props.C96_list_edits
#print axioms Specfile.Props.C96_reachable
#print axioms Specfile.Props.C96_copy_changes
#print axioms Specfile.Props.C96_copy_violation
#print axioms Specfile.Props.C96_slice_violation
#print axioms Specfile.Props.C97_entities_partial
#print axioms Specfile.Props.C97_repeat_partial
#print axioms Specfile.Props.C97_tag_partial
#print axioms Specfile.Props.C97_violation_conditional
#print axioms Specfile.Props.C97_violation_tag
#print axioms Specfile.Props.C97_violation_name
#print axioms Specfile.Props.C97_violation_condition
#print axioms Specfile.Props.C98_changelog
#print axioms Specfile.Props.C98_comments
#print axioms Specfile.Props.C98_versions
#print axioms Specfile.Props.C98_spec_partial
#print axioms Specfile.Props.C98_tags_partial
#print axioms Specfile.Props.C98_parsed_tags_partial
#print axioms Specfile.Props.C98_sources_partial
#print axioms Specfile.Props.C98_options_partial
#print axioms Specfile.Props.C98_sections_partial
#print axioms Specfile.Props.C98_prep_partial
#print axioms Specfile.Props.C98_members_partial
#print axioms Specfile.Props.C98_values_partial
#print axioms Specfile.Props.C98_printed_partial
#print axioms Specfile.Props.C98_violation_enumerations
#print axioms Specfile.Props.C98_violation_unsaved
#print axioms Specfile.Props.C98_violation_names
#print axioms Specfile.Props.C98_violation_flags
#print axioms Specfile.Props.C99_blocks_partial
#print axioms Specfile.Props.C99_order_partial
#print axioms Specfile.Props.C99_separate
#print axioms Specfile.Props.C99_tags_partial
#print axioms Specfile.Props.C99_violation_headers
#print axioms Specfile.Props.C99_violation_conditions
#print axioms Specfile.Props.C99_macros_partial
#print axioms Specfile.Props.C99_violation_brackets
#print axioms Specfile.Props.C99_operations_partial
#print axioms Specfile.Props.C99_sources_entry_partial
#print axioms Specfile.Props.C99_tags_entry_partial
#print axioms Specfile.Props.C99_sources_prep_partial
#print axioms Specfile.Props.C99_violation_version
#print axioms Specfile.Props.C99_macro_operation_partial
#print axioms Specfile.Props.C100_insert_tag
#print axioms Specfile.Props.C100_insert_definition
#print axioms Specfile.Props.C100_changelog
#print axioms Specfile.Props.C100_patch_partial
#print axioms Specfile.Props.C100_tag_value_partial
#print axioms Specfile.Props.C100_macro_value_partial
#print axioms Specfile.Props.C100_option_partial
#print axioms Specfile.Props.C100_violation_blank
#print axioms Specfile.Props.C100_violation_patch
#print axioms Specfile.Props.C100_violation_flag
#print axioms Specfile.Props.C100_violation_source
#print axioms Specfile.Props.C100_append_source_partial
#print axioms Specfile.Props.C100_append_entry
#print axioms Specfile.Props.C100_append_first_partial
#print axioms Specfile.Props.C101_tags_partial
#print axioms Specfile.Props.C101_same_values_partial
#print axioms Specfile.Props.C101_back_partial
#print axioms Specfile.Props.C101_macros_partial
#print axioms Specfile.Props.C101_violation_brackets
#print axioms Specfile.Props.C101_options_partial
#print axioms Specfile.Props.C102_entries_partial
#print axioms Specfile.Props.C102_violation_empty_entry
#print axioms Specfile.Props.C102_violation_star_entry
#print axioms Specfile.Props.C102_calls_partial
#print axioms Specfile.Props.C102_all_partial
#print axioms Specfile.Props.C103_leading
#print axioms Specfile.Props.C103_trailing
#print axioms Specfile.Props.C103_append_partial
#print axioms Specfile.Props.C103_once_more_partial
#print axioms Specfile.Props.C103_violation_empty
#print axioms Specfile.Props.C103_violation_newline
#print axioms Specfile.Props.C103_file_partial
#print axioms Specfile.Props.C103_macro_partial
