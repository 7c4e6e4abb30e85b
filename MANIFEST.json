{
 "claims": [
  {
   "property": "C01",
   "status": "partial",
   "theorems": [
    "Specfile.Props.C01_load_save_partial",
    "Specfile.Props.C01_exactly",
    "Specfile.Props.C01_load_error",
    "Specfile.Props.C01_lines",
    "Specfile.Props.C01_lines_of_file",
    "Specfile.Props.C01_second_time",
    "Specfile.Props.C01_reload",
    "Specfile.Props.C01_empty_violation",
    "Specfile.Props.C01_separator_violation",
    "Specfile.Props.C01_lost_violation"
   ],
   "note": "Holds exactly for the contents of C01_exactly (Stable); other contents are changed by the round trip, witnesses are the C01_*_violation theorems."
  },
  {
   "property": "C02",
   "status": "partial",
   "theorems": [
    "Specfile.Props.C02_roundtrip_partial",
    "Specfile.Props.C02_parse_roundtrip_partial",
    "Specfile.Props.C02_mod_whitespace",
    "Specfile.Props.C02_violation_dnl",
    "Specfile.Props.C02_violation_whitespace",
    "Specfile.Props.C02_violation_last_line"
   ],
   "note": "Exact for lines without three constructs, each refuted by a witness; everything but whitespace is kept otherwise. No definition is called _remainder, see C93_reading_violation."
  },
  {
   "property": "C03",
   "status": "partial",
   "theorems": [
    "Specfile.Props.C03_meaning",
    "Specfile.Props.C03_sections_noop_partial",
    "Specfile.Props.C03_succeeds",
    "Specfile.Props.C03_violation_package",
    "Specfile.Props.C03_violation_empty_argument",
    "Specfile.Props.C03_violation_backslash",
    "Specfile.Props.C03_violation_long_s"
   ],
   "note": "Exact for headers that are not a bare %package and whose options are written canonically; each excluded construct is a proved violation. What is read is characterised completely."
  },
  {
   "property": "C04",
   "status": "partial",
   "theorems": [
    "Specfile.Props.C04_tags_noop_partial",
    "Specfile.Props.C04_tags_mod_whitespace",
    "Specfile.Props.C04_meaning_partial",
    "Specfile.Props.C04_violation_whitespace",
    "Specfile.Props.C04_violation_spaces",
    "Specfile.Props.C04_violation_empty_reference"
   ],
   "note": "Exact for lines without repeated spaces in macro references inside conditional expansions and without stale trailing whitespace in values that span lines; those two and an empty macro reference in a comment are proved violations. Unconditionally no non-whitespace character is lost."
  },
  {
   "property": "C05",
   "status": "proved",
   "theorems": [
    "Specfile.Props.C05_meaning",
    "Specfile.Props.C05_sourcelist_noop",
    "Specfile.Props.C05_raises",
    "Specfile.Props.C05_read_back"
   ],
   "note": ""
  },
  {
   "property": "C06",
   "status": "proved",
   "theorems": [
    "Specfile.Props.C06_changelog_noop",
    "Specfile.Props.C06_meaning"
   ],
   "note": ""
  },
  {
   "property": "C07",
   "status": "partial",
   "theorems": [
    "Specfile.Props.C07_lines",
    "Specfile.Props.C07_roundtrip_partial",
    "Specfile.Props.C07_macro_lines",
    "Specfile.Props.C07_violation_wrapper",
    "Specfile.Props.C07_violation_options"
   ],
   "note": "Line by line characterisation of what is written for every input; equality for lines with canonically written options. Refuted for conditional macro expansions without a macro and for empty quoted arguments (violation witnesses)."
  },
  {
   "property": "C08",
   "status": "proved",
   "theorems": [
    "Specfile.Props.C08_comments_noop",
    "Specfile.Props.C08_meaning"
   ],
   "note": ""
  },
  {
   "property": "C09",
   "status": "partial",
   "theorems": [
    "Specfile.Props.C09_parse_total",
    "Specfile.Props.C09_parse_print_mod_whitespace",
    "Specfile.Props.C09_parse_print_partial",
    "Specfile.Props.C09_parse_print_violation",
    "Specfile.Props.C09_print_parse"
   ],
   "note": "Exact round trip needs single-spaced references; modulo whitespace it is unconditional. Violation witness included."
  },
  {
   "property": "C10",
   "status": "partial",
   "theorems": [
    "Specfile.Props.C10_tokenize_print_partial",
    "Specfile.Props.C10_tokenize_print_plain_partial",
    "Specfile.Props.C10_nothing_else_lost",
    "Specfile.Props.C10_only_quoting_changes",
    "Specfile.Props.C10_tokenize_print_violation",
    "Specfile.Props.C10_print_tokenize",
    "Specfile.Props.C10_tokenize_errors"
   ],
   "note": "Exact for canonically written option strings, always lossless up to quotes and backslashes; converse direction and violation witnesses included."
  },
  {
   "property": "C11",
   "status": "proved",
   "theorems": [
    "Specfile.Props.C11_lines_kept",
    "Specfile.Props.C11_balanced",
    "Specfile.Props.C11_failures",
    "Specfile.Props.C11_succeeds_iff_balanced"
   ],
   "note": "For every oracle, also failing ones, and with conditions that continue on further lines (Spec/Balance). A backslash on its own after the keyword is not taken for a continuation, which the specification says explicitly (FurtherLines.lone)."
  },
  {
   "property": "C12",
   "status": "partial",
   "theorems": [
    "Specfile.Props.C12_validity_partial",
    "Specfile.Props.C12_violation"
   ],
   "note": "Exact when at most one branch follows the one taken; refuted otherwise by a witness. Covers every line the parser can meet: conditions and branches that continue on further lines, missing texts, lines with trailing line breaks."
  },
  {
   "property": "C13",
   "status": "partial",
   "theorems": [
    "Specfile.Props.C13_excluded_lines_partial",
    "Specfile.Props.C13_bodies_have_no_effect_partial",
    "Specfile.Props.C13_body_lines_inherit",
    "Specfile.Props.C13_violation"
   ],
   "note": "Holds for pairwise different definitions; refuted for duplicates by a witness."
  },
  {
   "property": "C14",
   "status": "proved",
   "theorems": [
    "Specfile.Props.C14_tag_lines",
    "Specfile.Props.C14_set_value_is_local",
    "Specfile.Props.C14_set_by_name"
   ],
   "note": ""
  },
  {
   "property": "C15",
   "status": "partial",
   "theorems": [
    "Specfile.Props.C15_delete_partial",
    "Specfile.Props.C15_out_of_range",
    "Specfile.Props.C15_delete_slice_partial",
    "Specfile.Props.C15_delete_by_name_partial",
    "Specfile.Props.C15_violation_negative",
    "Specfile.Props.C15_violation_lowest",
    "Specfile.Props.C15_violation_negative_step",
    "Specfile.Props.C15_violation_by_name"
   ],
   "note": "Non-negative indices and slices with positive step. Negative indices, negative steps and deletion by name lose or move lines: proved violations."
  },
  {
   "property": "C16",
   "status": "partial",
   "theorems": [
    "Specfile.Props.C16_delete_partial",
    "Specfile.Props.C16_out_of_range",
    "Specfile.Props.C16_delete_slice_partial",
    "Specfile.Props.C16_delete_by_name_partial",
    "Specfile.Props.C16_violation_negative",
    "Specfile.Props.C16_violation_lowest",
    "Specfile.Props.C16_violation_negative_step",
    "Specfile.Props.C16_violation_by_name"
   ],
   "note": "Non-negative indices and positive steps; negative indices/steps and deletion by name refuted by witnesses."
  },
  {
   "property": "C17",
   "status": "partial",
   "theorems": [
    "Specfile.Props.C17_delete_partial",
    "Specfile.Props.C17_out_of_range",
    "Specfile.Props.C17_delete_slice_partial",
    "Specfile.Props.C17_violation_negative",
    "Specfile.Props.C17_violation_negative_step"
   ],
   "note": "Non-negative indices, positive steps and out-of-range indices; negative indices and steps refuted by witnesses."
  },
  {
   "property": "C18",
   "status": "proved",
   "theorems": [
    "Specfile.Props.C18_insert",
    "Specfile.Props.C18_out_of_range"
   ],
   "note": ""
  },
  {
   "property": "C19",
   "status": "proved",
   "theorems": [
    "Specfile.Props.C19_find_first",
    "Specfile.Props.C19_contains",
    "Specfile.Props.C19_reachable",
    "Specfile.Props.C19_get",
    "Specfile.Props.C19_set_lines_local",
    "Specfile.Props.C19_set_section_local",
    "Specfile.Props.C19_delete_local",
    "Specfile.Props.C19_edit_raises",
    "Specfile.Props.C19_read_back",
    "Specfile.Props.C19_set_read_back",
    "Specfile.Props.C19_delete_read_back",
    "Specfile.Props.C19_headers_outside",
    "Specfile.Props.C19_violation_uppercase",
    "Specfile.Props.C19_violation_trailing_blank",
    "Specfile.Props.C19_violation_moved"
   ],
   "note": "Lookup, locality and read-back after edits. Lookup by id cannot reach sections with upper-case options (proved violation); two more violations about header text. Assigning to an id that is not there changes nothing and raises nothing, see C93."
  },
  {
   "property": "C20",
   "status": "proved",
   "theorems": [
    "Specfile.Props.C20_add_lines",
    "Specfile.Props.C20_add_read_back",
    "Specfile.Props.C20_padding",
    "Specfile.Props.C20_timestamp"
   ],
   "note": "Lines, read-back, padding and timestamp of the new entry for each changelog."
  },
  {
   "property": "C21",
   "status": "partial",
   "theorems": [
    "Specfile.Props.C21_find_definition",
    "Specfile.Props.C21_find_definition_at_partial",
    "Specfile.Props.C21_position_violation",
    "Specfile.Props.C21_find_tag",
    "Specfile.Props.C21_ascii_names",
    "Specfile.Props.C21_contains_tag_partial",
    "Specfile.Props.C21_get_tag",
    "Specfile.Props.C21_find_tag_at_partial",
    "Specfile.Props.C21_position_violation_lines"
   ],
   "note": "Macro definitions: without position unconditional, with position for pairwise different definitions. Refuted for equal definitions (C21_position_violation) and below values that span lines (C21_position_violation_lines)."
  },
  {
   "property": "C22",
   "status": "partial",
   "theorems": [
    "Specfile.Props.C22_definition_position_partial",
    "Specfile.Props.C22_violation_definition",
    "Specfile.Props.C22_tag_position_partial",
    "Specfile.Props.C22_violation_tag_twice",
    "Specfile.Props.C22_violation_tag_lines"
   ],
   "note": "Macro definitions: pairwise different ones; duplicates refuted by a witness."
  },
  {
   "property": "C23",
   "status": "proved",
   "theorems": [
    "Specfile.Props.C23_insert",
    "Specfile.Props.C23_append"
   ],
   "note": "Full; IndexError for an index below the first one is part of the statement."
  },
  {
   "property": "C24",
   "status": "proved",
   "theorems": [
    "Specfile.Props.C24_rejected",
    "Specfile.Props.C24_history",
    "Specfile.Props.C24_set_violation"
   ],
   "note": "Invariant over all histories of insertions, removals and deletions (also those that raise). Assigning to an index does not look for duplicates (violation witness)."
  },
  {
   "property": "C25",
   "status": "partial",
   "theorems": [
    "Specfile.Props.C25_insert_partial",
    "Specfile.Props.C25_history_partial",
    "Specfile.Props.C25_negative_violation"
   ],
   "note": "Missing: insertions at negative indices, for which the claim is false (violation witness)."
  },
  {
   "property": "C26",
   "status": "proved",
   "theorems": [
    "Specfile.Props.C26_insert_numbered",
    "Specfile.Props.C26_read_back",
    "Specfile.Props.C26_implicit_violation"
   ],
   "note": "Where a nearest source has no number of its own the requested number is ignored by the code (violation witness)."
  },
  {
   "property": "C27",
   "status": "partial",
   "theorems": [
    "Specfile.Props.C27_remove",
    "Specfile.Props.C27_remove_numbered",
    "Specfile.Props.C27_del",
    "Specfile.Props.C27_del_slice_partial",
    "Specfile.Props.C27_slice_violation",
    "Specfile.Props.C27_foreign_violation"
   ],
   "note": "Missing: slices with a negative step, for which the claim is false: they raise IndexError half way (C27_slice_violation) and delete tags that are no sources (C27_foreign_violation). Everything else exact, including what is left of tags and lists."
  },
  {
   "property": "C28",
   "status": "proved",
   "theorems": [
    "Specfile.Props.C28_rejected",
    "Specfile.Props.C28_accepted",
    "Specfile.Props.C28_add_patch",
    "Specfile.Props.C28_list_violation"
   ],
   "note": "With patches in a list only, these get numbers above the new one (violation witness)."
  },
  {
   "property": "C29",
   "status": "partial",
   "theorems": [
    "Specfile.Props.C29_get",
    "Specfile.Props.C29_set_errors",
    "Specfile.Props.C29_set_get_partial",
    "Specfile.Props.C29_set_flag_partial",
    "Specfile.Props.C29_set_others_partial",
    "Specfile.Props.C29_set_tokens",
    "Specfile.Props.C29_tokenize_sane",
    "Specfile.Props.C29_set_get_violation"
   ],
   "note": "Read-back, token frame and other-options frame for argument-taking options; flags when absent. Violation: setting a set flag."
  },
  {
   "property": "C30",
   "status": "partial",
   "theorems": [
    "Specfile.Props.C30_delete_partial",
    "Specfile.Props.C30_delete_violation",
    "Specfile.Props.C30_delete_absent"
   ],
   "note": "Holds except for a bare flag following whitespace (violation witness)."
  },
  {
   "property": "C31",
   "status": "proved",
   "theorems": [
    "Specfile.Props.C31_keys",
    "Specfile.Props.C31_len",
    "Specfile.Props.C31_keys_nodup"
   ],
   "note": "For specifications without repeated letters."
  },
  {
   "property": "C32",
   "status": "partial",
   "theorems": [
    "Specfile.Props.C32_values",
    "Specfile.Props.C32_getitem",
    "Specfile.Props.C32_setitem_partial",
    "Specfile.Props.C32_delitem",
    "Specfile.Props.C32_index_errors",
    "Specfile.Props.C32_insert_partial",
    "Specfile.Props.C32_insert_violation",
    "Specfile.Props.C32_insert_raises",
    "Specfile.Props.C32_insert_error_violation",
    "Specfile.Props.C32_pop",
    "Specfile.Props.C32_clear",
    "Specfile.Props.C32_extend_partial",
    "Specfile.Props.C32_assign_partial",
    "Specfile.Props.C32_assign_violation",
    "Specfile.Props.C32_get_slice",
    "Specfile.Props.C32_set_slice_partial",
    "Specfile.Props.C32_set_slice_violation",
    "Specfile.Props.C32_delete_slice_partial",
    "Specfile.Props.C32_delete_slice_violation"
   ],
   "note": "List semantics of get/set/delete/insert, of slices and of pop/clear/append/extend/assignment on the positional values, for option strings whose options have their arguments. Violations: C32_insert_violation (text level), C32_insert_error_violation, C32_assign_violation (`positional += values` removes all arguments), C32_set_slice_violation, C32_delete_slice_violation."
  },
  {
   "property": "C33",
   "status": "partial",
   "theorems": [
    "Specfile.Props.C33_evr_roundtrip_partial",
    "Specfile.Props.C33_evr_violation",
    "Specfile.Props.C33_normalisation_violation",
    "Specfile.Props.C33_evr_from_string",
    "Specfile.Props.C33_evr_accepts",
    "Specfile.Props.C33_nevr_roundtrip_partial",
    "Specfile.Props.C33_nevr_violation",
    "Specfile.Props.C33_nevr_from_string",
    "Specfile.Props.C33_nevra_roundtrip_partial"
   ],
   "note": "Holds for labels that are unambiguous as text; witnesses show the ambiguous ones."
  },
  {
   "property": "C34",
   "status": "partial",
   "theorems": [
    "Specfile.Props.C34_evr_total_preorder",
    "Specfile.Props.C34_evr_operators",
    "Specfile.Props.C34_empty_version",
    "Specfile.Props.C34_nevr_comparison",
    "Specfile.Props.C34_nevra_comparison",
    "Specfile.Props.C34_hash_contract_partial",
    "Specfile.Props.C34_hash_violation"
   ],
   "note": "Order laws hold for every lawful label comparison; the operators are those of RPM on the decimal epoch, the version (0 if empty) and the release; the hash contract is refuted (empty version)."
  },
  {
   "property": "C35",
   "status": "proved",
   "theorems": [
    "Specfile.Props.C35_split_dist",
    "Specfile.Props.C35_split_plain",
    "Specfile.Props.C35_set_keeps_dist",
    "Specfile.Props.C35_set_plain",
    "Specfile.Props.C35_reads_back",
    "Specfile.Props.C35_own_dist_violation"
   ],
   "note": "Proved for the two functions on raw release strings, for every raw release. C35_own_dist_violation shows why the new release must not end in a dist tag if the old one has none. The way through the Release tag is C52."
  },
  {
   "property": "C36",
   "status": "partial",
   "theorems": [
    "Specfile.Props.C36_bump",
    "Specfile.Props.C36_one_number_partial",
    "Specfile.Props.C36_again",
    "Specfile.Props.C36_newline_violation"
   ],
   "note": "C36_bump characterises the result completely. The claim that everything else is unchanged fails for a value that ends in a line feed, which is dropped (C36_newline_violation); C36_one_number_partial therefore says: up to a final line feed."
  },
  {
   "property": "C37",
   "status": "partial",
   "theorems": [
    "Specfile.Props.C37_changes",
    "Specfile.Props.C37_only_earlier_partial",
    "Specfile.Props.C37_result_partial",
    "Specfile.Props.C37_terminates",
    "Specfile.Props.C37_violation_twin",
    "Specfile.Props.C37_violation_twin_macro",
    "Specfile.Props.C37_violation_lines",
    "Specfile.Props.C37_violation_collision"
   ],
   "note": "Which lines may change is proved for every call, also if it raises (C37_changes); that only valid, earlier definitions change needs distinct names and single-line bodies (C37_only_earlier_partial). Violations: of equal tags or definitions the invalid first one is changed (C37_violation_twin, _twin_macro); ValueError half way if a body changes its number of lines or becomes equal to a later one (C37_violation_lines, _collision)."
  },
  {
   "property": "C38",
   "status": "proved",
   "theorems": [
    "Specfile.Props.C38_once",
    "Specfile.Props.C38_written",
    "Specfile.Props.C38_same_object",
    "Specfile.Props.C38_write_back",
    "Specfile.Props.C38_call",
    "Specfile.Props.C38_late_violation"
   ],
   "note": "Contexts are created, entered, exited, read with .content and dropped in any order; the write-back happens once. C38_late_violation: a context that shares an object and is entered only after the one that created it has ended raises RuntimeError instead of giving the object."
  },
  {
   "property": "C39",
   "status": "partial",
   "theorems": [
    "Specfile.Props.C39_nested",
    "Specfile.Props.C39_no_edits",
    "Specfile.Props.C39_lossless_partial",
    "Specfile.Props.C39_violation_macros",
    "Specfile.Props.C39_violation_argument",
    "Specfile.Props.C39_violation_lists",
    "Specfile.Props.C39_violation_section",
    "Specfile.Props.C39_violation_twins",
    "Specfile.Props.C39_sources_patches"
   ],
   "note": "Proved for all programs of nested with blocks, including sources() and patches(), that keep to the rules of Spec.effect: edit any object that is open, but lines only while nothing else is open and sections only while no object for one of them is; open no section under two keys; do not mix macro_definitions with sections. The violations show that each rule is needed."
  },
  {
   "property": "C40",
   "status": "partial",
   "theorems": [
    "Specfile.Props.C40_parse_partial",
    "Specfile.Props.C40_expand_partial",
    "Specfile.Props.C40_context_partial",
    "Specfile.Props.C40_violation_copy",
    "Specfile.Props.C40_violation_foreign",
    "Specfile.Props.C40_violation_files"
   ],
   "note": "Histories of creating, copying, dropping, changing and parsing with any number of parsers. Missing: a copy that reuses the id of a dropped parser (C40_violation_copy), changes of the macro context or of files from outside (C40_violation_foreign, C40_violation_files), interrupted parses (C41_violation_interrupt). C40_context_partial determines the context in which RPM starts, for macros that are not disguised as undefined ones."
  },
  {
   "property": "C41",
   "status": "partial",
   "theorems": [
    "Specfile.Props.C41_retry_partial",
    "Specfile.Props.C41_violation_exception",
    "Specfile.Props.C41_violation_interrupt"
   ],
   "note": "Holds for RPM errors, and for all exceptions if there was no result before. Other exceptions after a successful parse make the parser unusable (C41_violation_exception), an interrupt leaves it stale (C41_violation_interrupt)."
  },
  {
   "property": "C42",
   "status": "partial",
   "theorems": [
    "Specfile.Props.C42_dummies_partial",
    "Specfile.Props.C42_parse_partial",
    "Specfile.Props.C42_existing_partial",
    "Specfile.Props.C42_signature",
    "Specfile.Props.C42_violation_partly",
    "Specfile.Props.C42_violation_interrupt",
    "Specfile.Props.C42_violation_unlink",
    "Specfile.Props.C42_violation_link"
   ],
   "note": "The source directory is exactly restored if files are written completely or not at all, can be removed, and no link dangles. Each condition is needed (C42_violation_*). Without the conditions on writing and removing, existing files are still untouched (C42_existing_partial). C42_signature is complete."
  },
  {
   "property": "C43",
   "status": "proved",
   "theorems": [
    "Specfile.Props.C43_parse",
    "Specfile.Props.C43_locale",
    "Specfile.Props.C43_sanitize"
   ],
   "note": "RPM itself is taken not to change os.environ; C43_sanitize also covers a body that does."
  },
  {
   "property": "C44",
   "status": "partial",
   "theorems": [
    "Specfile.Props.C44_remove_only",
    "Specfile.Props.C44_remove_partial",
    "Specfile.Props.C44_remove_ends_partial",
    "Specfile.Props.C44_define_partial",
    "Specfile.Props.C44_reinit_partial",
    "Specfile.Props.C44_reinit_ends_partial",
    "Specfile.Props.C44_violation_endless",
    "Specfile.Props.C44_violation"
   ],
   "note": "Partial: definitions that do not expand to the text of their own reference (C44_violation). Removal terminates and succeeds with fewer than twenty unexpandable definitions; with an expansion that stays defined it never ends (C44_violation_endless)."
  },
  {
   "property": "C45",
   "status": "proved",
   "theorems": [
    "Specfile.Props.C45_filter",
    "Specfile.Props.C45_filter_sorted",
    "Specfile.Props.C45_raises",
    "Specfile.Props.C45_violation_no_evr"
   ],
   "note": "Exact for changelogs whose entries have EVRs; failure characterised; an entry without EVR makes it raise TypeError (violation witness)."
  },
  {
   "property": "C46",
   "status": "partial",
   "theorems": [
    "Specfile.Props.C46_split_conditional_partial",
    "Specfile.Props.C46_split_conditional_mod_whitespace",
    "Specfile.Props.C46_split_conditional_shape",
    "Specfile.Props.C46_split_of_conditional",
    "Specfile.Props.C46_split_conditional_violation"
   ],
   "note": "Exact under single-spaced references, always lossless modulo whitespace."
  },
  {
   "property": "C47",
   "status": "proved",
   "theorems": [
    "Specfile.Props.C47_filename",
    "Specfile.Props.C47_filename_no_slash"
   ],
   "note": ""
  },
  {
   "property": "C48",
   "status": "proved",
   "theorems": [
    "Specfile.Props.C48_count_brackets",
    "Specfile.Props.C48_zero_iff_closed"
   ],
   "note": ""
  },
  {
   "property": "C49",
   "status": "partial",
   "theorems": [
    "Specfile.Props.C49_objects_partial",
    "Specfile.Props.C49_repr_partial",
    "Specfile.Props.C49_unchanged",
    "Specfile.Props.C49_unsupported_unchanged",
    "Specfile.Props.C49_raises",
    "Specfile.Props.C49_raises_outside",
    "Specfile.Props.C49_index_violation",
    "Specfile.Props.C49_objects_violation",
    "Specfile.Props.C49_same_meaning_partial",
    "Specfile.Props.C49_layout",
    "Specfile.Props.C49_short",
    "Specfile.Props.C49_unsupported",
    "Specfile.Props.C49_unsupported_error",
    "Specfile.Props.C49_unpack_violation"
   ],
   "note": "Trees: all but those with ** (C49_unpack_violation). Texts with objects such as <TokenType.DEFAULT: 1>, which are hidden from Python's parser behind literals: proved if no constant or object has a quote in front of <; a string that looks like the object changes places with it (C49_objects_violation). Python's parser (tree or position of the error) and repr of a string are parameters. repr() never raises, except IndexError if Python complains about the end of a line (C49_raises, C49_index_violation)."
  },
  {
   "property": "C50",
   "status": "partial",
   "theorems": [
    "Specfile.Props.C50_add",
    "Specfile.Props.C50_line",
    "Specfile.Props.C50_place",
    "Specfile.Props.C50_order_partial",
    "Specfile.Props.C50_add_succeeds",
    "Specfile.Props.C50_add_error",
    "Specfile.Props.C50_remove_partial",
    "Specfile.Props.C50_remove_absent",
    "Specfile.Props.C50_order_violation",
    "Specfile.Props.C50_remove_violation"
   ],
   "note": "Missing: order with repeated numbers and removal of the very first macro, both refuted (violation witnesses). Numbers are not negative; texts given for options do not start with a dash."
  },
  {
   "property": "C51",
   "status": "partial",
   "theorems": [
    "Specfile.Props.C51_autorelease",
    "Specfile.Props.C51_no_autorelease",
    "Specfile.Props.C51_autorelease_text_partial",
    "Specfile.Props.C51_autorelease_error",
    "Specfile.Props.C51_autochangelog",
    "Specfile.Props.C51_no_autochangelog",
    "Specfile.Props.C51_autochangelog_error",
    "Specfile.Props.C51_comments_ignored",
    "Specfile.Props.C51_escape_violation",
    "Specfile.Props.C51_empty_reference_violation"
   ],
   "note": "Exact in terms of the parsed nodes (C51_autorelease, C51_autochangelog); in terms of the text for values without escaped percent signs. C51_escape_violation: the offset error of the parser hides macros behind %%. C51_empty_reference_violation: a changelog line with %{} raises ValueError."
  },
  {
   "property": "C52",
   "status": "proved",
   "theorems": [
    "Specfile.Props.C52_read_back",
    "Specfile.Props.C52_read_back_succeeds",
    "Specfile.Props.C52_parsed_is_readable",
    "Specfile.Props.C52_set_readable",
    "Specfile.Props.C52_set_and_read_back"
   ],
   "note": "Tags: values set, written and read again. The properties of Specfile that wrap this are covered in the Specfile theorems."
  },
  {
   "property": "C53",
   "status": "partial",
   "theorems": [
    "Specfile.Props.C53_literals_have_no_macros_partial",
    "Specfile.Props.C53_literal_violation"
   ],
   "note": "Holds for values without an escaped %%; violation witness included."
  },
  {
   "property": "C54",
   "status": "proved",
   "theorems": [
    "Specfile.Props.C54_read_back",
    "Specfile.Props.C54_set_and_read_back"
   ],
   "note": ""
  },
  {
   "property": "C55",
   "status": "proved",
   "theorems": [
    "Specfile.Props.C55_set_body_is_local",
    "Specfile.Props.C55_definition_lines",
    "Specfile.Props.C55_set_body_succeeds"
   ],
   "note": ""
  },
  {
   "property": "C56",
   "status": "proved",
   "theorems": [
    "Specfile.Props.C56_add_comment",
    "Specfile.Props.C56_extend_comments",
    "Specfile.Props.C56_set_comment",
    "Specfile.Props.C56_added_read_back",
    "Specfile.Props.C56_contains"
   ],
   "note": ""
  },
  {
   "property": "C57",
   "status": "partial",
   "theorems": [
    "Specfile.Props.C57_create_partial",
    "Specfile.Props.C57_violation"
   ],
   "note": "The constructor only checks that the name starts with a tag name; 'Nameless' is a proved violation."
  },
  {
   "property": "C58",
   "status": "partial",
   "theorems": [
    "Specfile.Props.C58_separated_partial",
    "Specfile.Props.C58_delimiter_kept",
    "Specfile.Props.C58_violation_positional"
   ],
   "note": "Holds when the options contain a recognised option; refuted for positional arguments only."
  },
  {
   "property": "C59",
   "status": "proved",
   "theorems": [
    "Specfile.Props.C59_is_script"
   ],
   "note": ""
  },
  {
   "property": "C60",
   "status": "proved",
   "theorems": [
    "Specfile.Props.C60_evr",
    "Specfile.Props.C60_violation_address"
   ],
   "note": "Exact characterisation of the reported EVR; an address with a dash is reported as EVR (violation witness)."
  },
  {
   "property": "C61",
   "status": "proved",
   "theorems": [
    "Specfile.Props.C61_extended",
    "Specfile.Props.C61_padding",
    "Specfile.Props.C61_violation_zero"
   ],
   "note": "Exact characterisation of both searches; zero-padded days are not recognised as extended (violation witness)."
  },
  {
   "property": "C62",
   "status": "partial",
   "theorems": [
    "Specfile.Props.C62_assemble_evr",
    "Specfile.Props.C62_evr_word",
    "Specfile.Props.C62_assemble_padding",
    "Specfile.Props.C62_assemble_extended_partial",
    "Specfile.Props.C62_extended_violation",
    "Specfile.Props.C62_assemble_lines"
   ],
   "note": "EVR, padding and content read back; extended timestamp unless the day is padded with zero (C62_extended_violation)."
  },
  {
   "property": "C63",
   "status": "partial",
   "theorems": [
    "Specfile.Props.C63_read",
    "Specfile.Props.C63_get",
    "Specfile.Props.C63_slice_partial",
    "Specfile.Props.C63_slice_empty",
    "Specfile.Props.C63_set",
    "Specfile.Props.C63_set_slice",
    "Specfile.Props.C63_slice_violation",
    "Specfile.Props.C63_extend",
    "Specfile.Props.C63_pop",
    "Specfile.Props.C63_clear",
    "Specfile.Props.C63_index_partial",
    "Specfile.Props.C63_index_violation"
   ],
   "note": "Missing: reading an empty slice, which raises IndexError (violation witness), and `index` of a location, which raises ValueError for every location, also for one that is contained (C63_index_violation)."
  },
  {
   "property": "C64",
   "status": "proved",
   "theorems": [
    "Specfile.Props.C64_insert",
    "Specfile.Props.C64_insert_numbered",
    "Specfile.Props.C64_colon_violation"
   ],
   "note": "A separator with the colon at its end can lose it (violation witness)."
  },
  {
   "property": "C65",
   "status": "proved",
   "theorems": [
    "Specfile.Props.C65_parse",
    "Specfile.Props.C65_macro_or_none",
    "Specfile.Props.C65_errors",
    "Specfile.Props.C65_options",
    "Specfile.Props.C65_defaults",
    "Specfile.Props.C65_classes"
   ],
   "note": "Full characterisation of the parser, including errors."
  },
  {
   "property": "C66",
   "status": "partial",
   "theorems": [
    "Specfile.Props.C66_number",
    "Specfile.Props.C66_set_number_partial",
    "Specfile.Props.C66_set_name",
    "Specfile.Props.C66_set_unnumbered",
    "Specfile.Props.C66_negative_violation"
   ],
   "note": "Missing: negative numbers, refuted (violation witness)."
  },
  {
   "property": "C67",
   "status": "partial",
   "theorems": [
    "Specfile.Props.C67_getattr",
    "Specfile.Props.C67_getattr_error",
    "Specfile.Props.C67_contains",
    "Specfile.Props.C67_delete_partial",
    "Specfile.Props.C67_delete_out",
    "Specfile.Props.C67_delete_slice_partial",
    "Specfile.Props.C67_delattr",
    "Specfile.Props.C67_delattr_error",
    "Specfile.Props.C67_negative_violation",
    "Specfile.Props.C67_slice_violation"
   ],
   "note": "Missing: negative indices and negative steps, refuted (violation witnesses)."
  },
  {
   "property": "C68",
   "status": "partial",
   "theorems": [
    "Specfile.Props.C68_save_load_partial",
    "Specfile.Props.C68_exactly",
    "Specfile.Props.C68_loaded",
    "Specfile.Props.C68_no_lines_violation"
   ],
   "note": "Holds exactly for the line lists of C68_exactly; an empty list of lines with a trailing newline and lines with separators are counterexamples."
  },
  {
   "property": "C69",
   "status": "partial",
   "theorems": [
    "Specfile.Props.C69_exception_partial",
    "Specfile.Props.C69_no_exception",
    "Specfile.Props.C69_keyError_violation"
   ],
   "note": "Missing: KeyError, which is swallowed in a repeated block (C69_keyError_violation)."
  },
  {
   "property": "C70",
   "status": "proved",
   "theorems": [
    "Specfile.Props.C70_autosave",
    "Specfile.Props.C70_no_autosave"
   ],
   "note": "Saving is assumed to succeed; explicit save() and edits of the list of lines outside of any block are not part of the programs."
  },
  {
   "property": "C71",
   "status": "partial",
   "theorems": [
    "Specfile.Props.C71_dump_any_start",
    "Specfile.Props.C71_dump_partial",
    "Specfile.Props.C71_levels",
    "Specfile.Props.C71_joined",
    "Specfile.Props.C71_violation"
   ],
   "note": "Holds for bodies without lines that look like headers, except that newlines at the beginning of a body are lost (C71_dump_any_start); C71_violation: two lists of macros with the same dump."
  },
  {
   "property": "C72",
   "status": "partial",
   "theorems": [
    "Specfile.Props.C72_result_partial",
    "Specfile.Props.C72_force_partial",
    "Specfile.Props.C72_violation"
   ],
   "note": "Partial: the collected files also have to be sources, otherwise the last parse fails (C72_violation)."
  },
  {
   "property": "C73",
   "status": "partial",
   "theorems": [
    "Specfile.Props.C73_match_partial",
    "Specfile.Props.C73_complete_partial",
    "Specfile.Props.C73_constructs",
    "Specfile.Props.C73_violation_unseparated",
    "Specfile.Props.C73_violation_conditional",
    "Specfile.Props.C73_violation_merge"
   ],
   "note": "Sound for every value except that conditionals on names that are no entities are read as nothing (C73_violation_conditional) and two references in a row make the regex match the empty request (C73_violation_unseparated); the result may also be parsed differently (C73_violation_merge). Completeness for values of one line and entities that are not named like a substitution group."
  },
  {
   "property": "C74",
   "status": "partial",
   "theorems": [
    "Specfile.Props.C74_tag",
    "Specfile.Props.C74_missing",
    "Specfile.Props.C74_cases",
    "Specfile.Props.C74_expanded",
    "Specfile.Props.C74_unreadable",
    "Specfile.Props.C74_set_get_partial",
    "Specfile.Props.C74_violation"
   ],
   "note": "Getting and setting are proved for every spec file; that a value that was set is read again needs a unique tag and tags and sections that are read back (C74_set_get_partial). C74_violation: values with whitespace at their ends are read without it, an empty value makes the tag disappear."
  },
  {
   "property": "C75",
   "status": "partial",
   "theorems": [
    "Specfile.Props.C75_release",
    "Specfile.Props.C75_missing",
    "Specfile.Props.C75_version_release_partial",
    "Specfile.Props.C75_version_only_violation",
    "Specfile.Props.C75_no_version",
    "Specfile.Props.C75_bump_autorelease",
    "Specfile.Props.C75_bump_unreadable",
    "Specfile.Props.C75_bump_macro_partial",
    "Specfile.Props.C75_bump_tag",
    "Specfile.Props.C75_bump_violation",
    "Specfile.Props.C75_bump_branch_violation"
   ],
   "note": "For spec files that are read back as they are written (ReadsBack). Violations: without a Release tag, set_version_and_release changes the version and then raises (C75_version_only_violation); bump_release bumps a macro definition that is commented out or in a false branch, and the release stays (C75_bump_violation, C75_bump_branch_violation)."
  },
  {
   "property": "C76",
   "status": "partial",
   "theorems": [
    "Specfile.Props.C76_add",
    "Specfile.Props.C76_add_fails",
    "Specfile.Props.C76_no_changelog",
    "Specfile.Props.C76_single_partial",
    "Specfile.Props.C76_has_autochangelog",
    "Specfile.Props.C76_email_violation",
    "Specfile.Props.C76_packager_violation",
    "Specfile.Props.C76_evr_violation"
   ],
   "note": "What happens to each changelog is proved for any number of them, also if an exception is raised half way. Violations with several changelogs: the e-mail is appended again for each of them (C76_email_violation, C76_packager_violation) and the EVR is expanded again (C76_evr_violation)."
  },
  {
   "property": "C77",
   "status": "partial",
   "theorems": [
    "Specfile.Props.C77_block_partial",
    "Specfile.Props.C77_noop",
    "Specfile.Props.C77_unreadable_list",
    "Specfile.Props.C77_add_patch",
    "Specfile.Props.C77_add_patch_rejected",
    "Specfile.Props.C77_case_violation"
   ],
   "note": "Partial: sections whose names have upper-case letters are overlooked (C77_case_violation). No-op and rejected patches for spec files that are read back as they are written."
  },
  {
   "property": "C78",
   "status": "partial",
   "theorems": [
    "Specfile.Props.C78_no_pattern",
    "Specfile.Props.C78_invalid_pattern",
    "Specfile.Props.C78_macro_partial",
    "Specfile.Props.C78_no_macro_partial",
    "Specfile.Props.C78_group_violation"
   ],
   "note": "The match of the pattern is a parameter. Partial: if the first group takes no part in the match, the tilde is put before the last character (C78_group_violation)."
  },
  {
   "property": "C79",
   "status": "partial",
   "theorems": [
    "Specfile.Props.C79_written_partial",
    "Specfile.Props.C79_violation"
   ],
   "note": "For spec files that are written as they are read (Stable) and distinct names; of equal definitions or tags the wrong one may be written (C79_violation, C37_violation_twin)."
  },
  {
   "property": "C80",
   "status": "partial",
   "theorems": [
    "Specfile.Props.C80_reading",
    "Specfile.Props.C80_value_partial",
    "Specfile.Props.C80_keeps_partial",
    "Specfile.Props.C80_enables_partial",
    "Specfile.Props.C80_violation_shared",
    "Specfile.Props.C80_violation_name"
   ],
   "note": "C80_reading: proved for macros and tags that depend on each other like a tree (no entity is referred to twice), requests of one line that are not empty; other macros are taken to expand as before. Completeness (C80_keeps_partial) for values of one line. Violations: a macro on which two others depend gets the value that the second one needs (C80_violation_shared); macros named sub_* are not updated (C80_violation_name)."
  },
  {
   "property": "C81",
   "status": "partial",
   "theorems": [
    "Specfile.Props.C81_update_tag_partial",
    "Specfile.Props.C81_violation_shared"
   ],
   "note": "Under the conditions of C80. Violation: C81_violation_shared."
  },
  {
   "property": "C82",
   "status": "partial",
   "theorems": [
    "Specfile.Props.C82_collect",
    "Specfile.Props.C82_succeeds_partial",
    "Specfile.Props.C82_forced",
    "Specfile.Props.C82_violation_backslash",
    "Specfile.Props.C82_violation_directory"
   ],
   "note": "C82_collect and C82_forced hold without restrictions. Partial: collecting raises IndexError if the spec file ends in a backslash after %include (C82_violation_backslash) and OSError if a file is in a directory that does not exist (C82_violation_directory)."
  },
  {
   "property": "C83",
   "status": "partial",
   "theorems": [
    "Specfile.Props.C83_programs_partial",
    "Specfile.Props.C83_separate",
    "Specfile.Props.C83_deepcopy",
    "Specfile.Props.C83_parse",
    "Specfile.Props.C83_violation_copy",
    "Specfile.Props.C83_violation_slice",
    "Specfile.Props.C83_violation_comments"
   ],
   "note": "Objects with identity in a typed memory (Model/Heap). Programs of parsing, deep copies and edits refine the operations on values, including the exceptions; containers without common objects stay independent. Violated for tags.copy() (both have the same list of remaining lines), tags[:] (deleting moves lines into a tag that both hold) and Tag(..., comments=other.comments) (both tags have the same list of preceding lines)."
  },
  {
   "property": "C84",
   "status": "partial",
   "theorems": [
    "Specfile.Props.C84_definition_valid_partial",
    "Specfile.Props.C84_without_conditions",
    "Specfile.Props.C84_tag_valid_partial",
    "Specfile.Props.C84_entry_valid_partial",
    "Specfile.Props.C84_violation"
   ],
   "note": "Combines the round trips (C02, C04, C05) with C12: the flag of the line at the position of the object. Missing where these do not hold (C12_violation, constructs excluded by CleanLines and CleanTagLines). C84_violation: a tag in the second of two branches that follow the one taken is valid."
  },
  {
   "property": "C85",
   "status": "proved",
   "theorems": [
    "Specfile.Props.C85_restored",
    "Specfile.Props.C85_captured",
    "Specfile.Props.C85_nested"
   ],
   "note": "The block is an arbitrary function on the open files that leaves the ones it did not open alone (Tame); C85_nested shows that capturing blocks are such blocks. With fewer than two free file descriptors nothing is captured (C85_captured asks for them), but C85_restored still holds."
  },
  {
   "property": "C86",
   "status": "partial",
   "theorems": [
    "Specfile.Props.C86_first_error_partial",
    "Specfile.Props.C86_no_error_line",
    "Specfile.Props.C86_raises",
    "Specfile.Props.C86_empty_violation",
    "Specfile.Props.C86_cut_violation"
   ],
   "note": "Missing: messages that contain `error: ` once more are cut (C86_cut_violation), and an empty message raises IndexError (C86_empty_violation). C86_raises states exactly when the latter happens."
  },
  {
   "property": "C87",
   "status": "partial",
   "theorems": [
    "Specfile.Props.C87_found",
    "Specfile.Props.C87_raises_partial",
    "Specfile.Props.C87_violation"
   ],
   "note": "C87_found is an equivalence with the documented order. Missing: an unknown user raises KeyError although an e-mail address was found (C87_violation); C87_raises_partial says where exceptions come from."
  },
  {
   "property": "C88",
   "status": "partial",
   "theorems": [
    "Specfile.Props.C88_equivalence",
    "Specfile.Props.C88_same_text",
    "Specfile.Props.C88_changelog_partial",
    "Specfile.Props.C88_definitions_partial",
    "Specfile.Props.C88_tag_partial",
    "Specfile.Props.C88_tags_partial",
    "Specfile.Props.C88_sourcelist_partial",
    "Specfile.Props.C88_sections_partial",
    "Specfile.Props.C88_specfile_partial",
    "Specfile.Props.C88_definitions_again",
    "Specfile.Props.C88_tags_again",
    "Specfile.Props.C88_sourcelist_again",
    "Specfile.Props.C88_prep_options_partial",
    "Specfile.Props.C88_positionals",
    "Specfile.Props.C88_prep_equivalence",
    "Specfile.Props.C88_violation_sections",
    "Specfile.Props.C88_violation_tags",
    "Specfile.Props.C88_violation_sourcelist",
    "Specfile.Props.C88_violation_definitions",
    "Specfile.Props.C88_violation_changelog",
    "Specfile.Props.C88_violation_prep",
    "Specfile.Props.C88_violation_specfile",
    "Specfile.Props.C88_sources_partial",
    "Specfile.Props.C88_violation_sources"
   ],
   "note": "== is an equivalence everywhere (C88_equivalence, C88_prep_equivalence); the _partial theorems name exactly the lines that are left out of the comparison, and each omission has a violation theorem: headers of sections, lines above tags and sources, remainders, positional arguments, the last newline. Sources that are compared with the patches of the same spec file are equal (C88_violation_sources)."
  },
  {
   "property": "C89",
   "status": "partial",
   "theorems": [
    "Specfile.Props.C89_getitem_errors",
    "Specfile.Props.C89_setitem_partial",
    "Specfile.Props.C89_contains_partial",
    "Specfile.Props.C89_contains_violation",
    "Specfile.Props.C89_defaults",
    "Specfile.Props.C89_pop",
    "Specfile.Props.C89_unrecognized",
    "Specfile.Props.C89_popitem_partial",
    "Specfile.Props.C89_clear"
   ],
   "note": "popitem, clear and assignment proved for all token lists. Violations: every recognized option is contained even if it is not there, so that defaults are never used, and unknown keys can be set (C89_contains_violation, a statement about all states); a popped flag after whitespace is still there (C30_delete_violation)."
  },
  {
   "property": "C90",
   "status": "partial",
   "theorems": [
    "Specfile.Props.C90_containers",
    "Specfile.Props.C90_pop_partial",
    "Specfile.Props.C90_remove_partial",
    "Specfile.Props.C90_index",
    "Specfile.Props.C90_count",
    "Specfile.Props.C90_clear_partial",
    "Specfile.Props.C90_extend",
    "Specfile.Props.C90_append",
    "Specfile.Props.C90_insert",
    "Specfile.Props.C90_set_item",
    "Specfile.Props.C90_reverse",
    "Specfile.Props.C90_remove_lines_partial",
    "Specfile.Props.C90_remove_same_partial",
    "Specfile.Props.C90_comment_index",
    "Specfile.Props.C90_pop_del_partial",
    "Specfile.Props.C90_violation_tags_pop",
    "Specfile.Props.C90_violation_definitions_pop",
    "Specfile.Props.C90_violation_prep_pop",
    "Specfile.Props.C90_violation_append",
    "Specfile.Props.C90_violation_sections",
    "Specfile.Props.C90_violation_tags_remove",
    "Specfile.Props.C90_violation_comments"
   ],
   "note": "Proved once for any container that is written as lines above, elements and lines below (Fits), and shown for all seven (C90_containers). Violations: pop, remove and clear lose the lines between an element and its neighbour, such as %if or commands in %prep, which del keeps (C90_violation_tags_pop, _definitions_pop, _prep_pop); append to tags puts the tag inside a condition that ends below (C90_violation_append); remove and index of sections hit another section with the same lines (C90_violation_sections), those of tags a tag in another branch (C90_violation_tags_remove); a text found among comments can be neither counted nor removed (C90_violation_comments). += on macro definitions fails if one of them is called data, see C93_extend_violation."
  },
  {
   "property": "C91",
   "status": "partial",
   "theorems": [
    "Specfile.Props.C91_remote_partial",
    "Specfile.Props.C91_raises",
    "Specfile.Props.C91_violation"
   ],
   "note": "Exact for all locations: C91_remote_partial is an equivalence, C91_raises says exactly when ValueError is raised, which the claim excludes (C91_violation: a local path). The tests of addresses in brackets and of hosts outside of ASCII are parameters."
  },
  {
   "property": "C92",
   "status": "partial",
   "theorems": [
    "Specfile.Props.C92_with",
    "Specfile.Props.C92_load_after_with",
    "Specfile.Props.C92_with_fails",
    "Specfile.Props.C92_edits",
    "Specfile.Props.C92_other_files",
    "Specfile.Props.C92_no_save",
    "Specfile.Props.C92_autosave",
    "Specfile.Props.C92_shut",
    "Specfile.Props.C92_final_newline",
    "Specfile.Props.C92_reload_partial",
    "Specfile.Props.C92_save_reload",
    "Specfile.Props.C92_reload_inside_violation"
   ],
   "note": "All programs of blocks, edits, saves, reloads, changes of path and autosave, and exceptions, with any accessor of the lines. Partial: a reload inside of an open block disconnects the block from the object, so that everything edited there is lost (C92_reload_inside_violation, for every program); C92_reload_partial is the claim outside of blocks. C92_edits gives the resulting text for edits of lines; edits through accessors are the subject of C39. Whether a file can be written depends on the path only."
  },
  {
   "property": "C93",
   "status": "partial",
   "theorems": [
    "Specfile.Props.C93_read_partial",
    "Specfile.Props.C93_set_partial",
    "Specfile.Props.C93_set_element_partial",
    "Specfile.Props.C93_delete",
    "Specfile.Props.C93_delete_raises",
    "Specfile.Props.C93_program_partial",
    "Specfile.Props.C93_absent_violation",
    "Specfile.Props.C93_stale_violation",
    "Specfile.Props.C93_method_violation",
    "Specfile.Props.C93_delete_violation",
    "Specfile.Props.C93_prep_read_partial",
    "Specfile.Props.C93_prep_set_keeps",
    "Specfile.Props.C93_prep_set_violation",
    "Specfile.Props.C93_construction_partial",
    "Specfile.Props.C93_construction_violation",
    "Specfile.Props.C93_reading_partial",
    "Specfile.Props.C93_reading_violation",
    "Specfile.Props.C93_extend_partial",
    "Specfile.Props.C93_extend_violation"
   ],
   "note": "Proved for the three containers at once (NamedKind) where an element has the name, the name is not that of a method, and it was not assigned while no element had it; tag names are ASCII. Violations, all general: assigning to a name that no element has raises nothing and changes no element, and later hides the element (C93_absent_violation, C93_stale_violation); names of methods never read an element (C93_method_violation); del on macro definitions ignores other attributes (C93_delete_violation); assigning to a %prep macro never changes it (C93_prep_set_violation). A macro definition called _remainder makes the constructor overwrite its body, and every spec file with one cannot be read (C93_construction_violation, C93_reading_violation); += overwrites one called data (C93_extend_violation)."
  },
  {
   "property": "C94",
   "status": "partial",
   "theorems": [
    "Specfile.Props.C94_reading",
    "Specfile.Props.C94_bytes_kept",
    "Specfile.Props.C94_saved_text",
    "Specfile.Props.C94_unchanged_iff",
    "Specfile.Props.C94_edit_partial",
    "Specfile.Props.C94_saves_iff",
    "Specfile.Props.C94_save_violation",
    "Specfile.Props.C94_escapes_violation",
    "Specfile.Props.C94_rpm_partial",
    "Specfile.Props.C94_open_violation",
    "Specfile.Props.C94_open"
   ],
   "note": "Decoding is characterised by the definition of UTF-8 in RFC 3629 (C94_reading) and inverted by encoding for all bytes (C94_bytes_kept). A file keeps its bytes exactly if its lines end in line feeds (C94_unchanged_iff); the theorems marked partial assume this. Violations, all general: a file that is not UTF-8 cannot be opened, since the text is encoded strictly for RPM (C94_open_violation); saving a text with another lone surrogate raises and leaves the file empty (C94_save_violation); surrogates of bytes that are put next to each other can be read back as a character (C94_escapes_violation)."
  },
  {
   "property": "C95",
   "status": "partial",
   "theorems": [
    "Specfile.Props.C95_containers",
    "Specfile.Props.C95_positions",
    "Specfile.Props.C95_slice",
    "Specfile.Props.C95_copy",
    "Specfile.Props.C95_sum_partial",
    "Specfile.Props.C95_sum_violation",
    "Specfile.Props.C95_product_partial",
    "Specfile.Props.C95_set_slice",
    "Specfile.Props.C95_set_extended",
    "Specfile.Props.C95_delete_partial",
    "Specfile.Props.C95_delete_item_partial",
    "Specfile.Props.C95_comments_partial",
    "Specfile.Props.C95_comments_violation",
    "Specfile.Props.C95_section_slice",
    "Specfile.Props.C95_section_violation",
    "Specfile.Props.C95_delete_violation",
    "Specfile.Props.C95_comments_extra_violation"
   ],
   "note": "Which positions a slice denotes is characterised for all lengths, bounds and steps (C95_positions), which also applies to the other theorems about slices; slices, copies and assignments hold for all seven containers. Violations: the operators + and * lose the lines above and below all elements (C95_sum_violation, an equivalence); deleting from a source list also deletes the lines above, such as %if (C95_delete_violation); assigning to a slice of comments ignores further items and fails half-way if there are too few (C95_comments_violation, general); section + [...] always raises AttributeError (C95_section_violation). That results share their elements with the operands is left to C83."
  },
  {
   "property": "C96",
   "status": "partial",
   "theorems": [
    "Specfile.Props.C96_containers",
    "Specfile.Props.C96_programs_partial",
    "Specfile.Props.C96_careful",
    "Specfile.Props.C96_list_edits",
    "Specfile.Props.C96_reachable",
    "Specfile.Props.C96_copy_changes",
    "Specfile.Props.C96_copy_violation",
    "Specfile.Props.C96_slice_violation"
   ],
   "note": "Objects with identity for the five kinds of containers other than tags (C83). C96_programs_partial: all programs that do not delete from, or change elements of, a container after it was copied with copy(), sliced, or shared elements with another one; C96_careful names two simple classes of such programs; deep copies are never restricted. C96_list_edits: edits of the list alone never show elsewhere, whatever was shared. Violations, both equivalences for all memories: after y = x.copy() or y = x[:], del y[k] puts the lines around the element into x a second time, unless there are none or nothing takes them (C96_copy_violation, C96_slice_violation)."
  },
  {
   "property": "C97",
   "status": "partial",
   "theorems": [
    "Specfile.Props.C97_entities_partial",
    "Specfile.Props.C97_repeat_partial",
    "Specfile.Props.C97_tag_partial",
    "Specfile.Props.C97_violation_conditional",
    "Specfile.Props.C97_violation_tag",
    "Specfile.Props.C97_violation_name",
    "Specfile.Props.C97_violation_condition"
   ],
   "note": "C97_repeat_partial: the second call of update_value returns the same value and leaves the spec file as it is, whatever was changed the first time, if values depend on each other like a tree, have no conditionals and enclose all macros, names are distinct, and the spec file reads as the old one with the updated values in their places; C97_tag_partial is the same for update_tag, and C97_entities_partial for macros and tags at any depth of references. Violations: a conditional that was left alone the first time is enabled the second time, and the spec file changes twice (C97_violation_conditional, C97_violation_tag); literal text written after %x continues the name of the macro (C97_violation_name); a condition that depends on what was updated removes a macro (C97_violation_condition)."
  },
  {
   "property": "C98",
   "status": "partial",
   "theorems": [
    "Specfile.Props.C98_changelog",
    "Specfile.Props.C98_comments",
    "Specfile.Props.C98_versions",
    "Specfile.Props.C98_spec_partial",
    "Specfile.Props.C98_tags_partial",
    "Specfile.Props.C98_parsed_tags_partial",
    "Specfile.Props.C98_sources_partial",
    "Specfile.Props.C98_options_partial",
    "Specfile.Props.C98_sections_partial",
    "Specfile.Props.C98_prep_partial",
    "Specfile.Props.C98_members_partial",
    "Specfile.Props.C98_values_partial",
    "Specfile.Props.C98_printed_partial",
    "Specfile.Props.C98_violation_enumerations",
    "Specfile.Props.C98_violation_unsaved",
    "Specfile.Props.C98_violation_names",
    "Specfile.Props.C98_violation_flags"
   ],
   "note": "Parameters are repr of the constants and its inverse. Full for changelogs, comments, parsers and versions (C98_changelog, C98_comments, C98_versions). Tags, entries of source lists, sources and patches are rebuilt if names are those of tags and the spec file they belong to is saved (C98_tags_partial, C98_parsed_tags_partial, C98_sources_partial), a Specfile exactly if it is saved (C98_spec_partial), options, sections and %prep exactly if no options are given (C98_options_partial, C98_sections_partial, C98_prep_partial), parsed values unless flags are separated by whitespace (C98_values_partial); C98_printed_partial goes on to the printed text, in which the texts of all nested objects are formatted; that Python reads these texts as the grammar says is a hypothesis. Violations: members of enumerations are printed in angle brackets, so the representations of tokens, macro definitions and macros are no expressions (C98_violation_enumerations), and C98_members_partial shows that nothing else is missing there: if these members could be read, all these objects would be rebuilt; an unsaved spec file (C98_violation_unsaved); a tag that was renamed to something else (C98_violation_names); %{? ?x} (C98_violation_flags)."
  },
  {
   "property": "C99",
   "status": "partial",
   "theorems": [
    "Specfile.Props.C99_blocks_partial",
    "Specfile.Props.C99_order_partial",
    "Specfile.Props.C99_separate",
    "Specfile.Props.C99_tags_partial",
    "Specfile.Props.C99_violation_headers",
    "Specfile.Props.C99_violation_conditions",
    "Specfile.Props.C99_macros_partial",
    "Specfile.Props.C99_violation_brackets",
    "Specfile.Props.C99_operations_partial",
    "Specfile.Props.C99_sources_entry_partial",
    "Specfile.Props.C99_tags_entry_partial",
    "Specfile.Props.C99_sources_prep_partial",
    "Specfile.Props.C99_violation_version",
    "Specfile.Props.C99_macro_operation_partial"
   ],
   "note": "C99_blocks_partial describes the result of any number of blocks of different sections without reference to their order, C99_order_partial says that all permutations give the same text, C99_tags_partial is about two tags of the preamble, C99_macros_partial about the bodies of two macro definitions, C99_operations_partial is about any two operations that only have to do with different sections, with C99_sources_entry_partial, C99_tags_entry_partial and C99_sources_prep_partial for sources, patches, tags, %prep and add_changelog_entry, C99_separate gives conditions under which blocks do not interfere. C99_macro_operation_partial is about a macro defined in the preamble and any operation on other sections. Missing: macros defined in other sections together with operations on sections, and what a block computes must not depend on expansions of other parts. Violations: a changelog entry with the current version (C99_violation_version), lines that are headers of sections (C99_violation_headers), edits that change what conditions in other sections mean (C99_violation_conditions), bodies of macros with open brackets (C99_violation_brackets)."
  },
  {
   "property": "C100",
   "status": "partial",
   "theorems": [
    "Specfile.Props.C100_insert_tag",
    "Specfile.Props.C100_insert_definition",
    "Specfile.Props.C100_changelog",
    "Specfile.Props.C100_patch_partial",
    "Specfile.Props.C100_tag_value_partial",
    "Specfile.Props.C100_macro_value_partial",
    "Specfile.Props.C100_option_partial",
    "Specfile.Props.C100_violation_blank",
    "Specfile.Props.C100_violation_patch",
    "Specfile.Props.C100_violation_flag",
    "Specfile.Props.C100_violation_source",
    "Specfile.Props.C100_append_source_partial",
    "Specfile.Props.C100_append_entry",
    "Specfile.Props.C100_append_first_partial"
   ],
   "note": "C100_insert_tag and C100_insert_definition say exactly when inserting and deleting leaves everything as it was, C100_changelog is about entries, C100_patch_partial about %patch macros, C100_option_partial about options with arguments, C100_tag_value_partial and C100_macro_value_partial about values that are set back in the text of a spec file. C100_append_source_partial says exactly when a source appended as a tag and deleted again leaves everything as it was, C100_append_first_partial does so for the first source or patch, C100_append_entry is about entries of lists. Violations: two empty lines become one (C100_violation_blank), a %patch macro that comes first is not removed (C100_violation_patch), deleting a flag removes the blank before it instead (C100_violation_flag), sources stay renumbered (C100_violation_source)."
  },
  {
   "property": "C101",
   "status": "partial",
   "theorems": [
    "Specfile.Props.C101_tags_partial",
    "Specfile.Props.C101_same_values_partial",
    "Specfile.Props.C101_back_partial",
    "Specfile.Props.C101_macros_partial",
    "Specfile.Props.C101_violation_brackets",
    "Specfile.Props.C101_options_partial"
   ],
   "note": "C101_tags_partial and C101_macros_partial are about sequences of any length, C101_options_partial about those of options with arguments, C101_same_values_partial and C101_back_partial follow. Missing: texts that are not read as they were made on the way, for which it fails (C101_violation_brackets); names with several tags or definitions; tags of other sections."
  },
  {
   "property": "C102",
   "status": "partial",
   "theorems": [
    "Specfile.Props.C102_entries_partial",
    "Specfile.Props.C102_violation_empty_entry",
    "Specfile.Props.C102_violation_star_entry",
    "Specfile.Props.C102_calls_partial",
    "Specfile.Props.C102_all_partial"
   ],
   "note": "C102_entries_partial is about sequences of any length and every text of a changelog section, C102_calls_partial about sequences of calls of add_changelog_entry on a spec file with one changelog, C102_all_partial about those with any number of changelogs, without e-mail. Missing: contents that are empty or that have a line with an asterisk after another line, for which it fails (C102_violation_empty_entry, C102_violation_star_entry); e-mail addresses with several changelogs, for which C76 fails; guessed authors and current times."
  },
  {
   "property": "C103",
   "status": "partial",
   "theorems": [
    "Specfile.Props.C103_leading",
    "Specfile.Props.C103_trailing",
    "Specfile.Props.C103_append_partial",
    "Specfile.Props.C103_once_more_partial",
    "Specfile.Props.C103_violation_empty",
    "Specfile.Props.C103_violation_newline",
    "Specfile.Props.C103_file_partial",
    "Specfile.Props.C103_macro_partial"
   ],
   "note": "C103_leading, C103_trailing and C103_append_partial say which number it is; C103_once_more_partial is the claim; C103_file_partial is about calls of bump_release on a spec file with the release in the tag, C103_macro_partial on one with a macro definition for it. Missing: empty releases and those with a line feed, for which it fails (C103_violation_empty, C103_violation_newline); macro definitions that are not in effect, for which C75 fails."
  }
 ]
}
