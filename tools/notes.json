{
 "C02": "Exact for lines without three constructs, each refuted by a witness; everything but whitespace is kept otherwise. No definition is called _remainder, see C93_reading_violation.",
 "C03": "Exact for headers that are not a bare %package and whose options are written canonically; each excluded construct is a proved violation. What is read is characterised completely.",
 "C04": "Exact for lines without repeated spaces in macro references inside conditional expansions and without stale trailing whitespace in values that span lines; those two and an empty macro reference in a comment are proved violations. Unconditionally no non-whitespace character is lost.",
 "C09": "Exact round trip needs single-spaced references; modulo whitespace it is unconditional. Violation witness included.",
 "C10": "Exact for canonically written option strings, always lossless up to quotes and backslashes; converse direction and violation witnesses included.",
 "C11": "For every oracle, also failing ones, and with conditions that continue on further lines (Spec/Balance). A backslash on its own after the keyword is not taken for a continuation, which the specification says explicitly (FurtherLines.lone).",
 "C12": "Exact when at most one branch follows the one taken; refuted otherwise by a witness. Covers every line the parser can meet: conditions and branches that continue on further lines, missing texts, lines with trailing line breaks.",
 "C13": "Holds for pairwise different definitions; refuted for duplicates by a witness.",
 "C15": "Non-negative indices and slices with positive step. Negative indices, negative steps and deletion by name lose or move lines: proved violations.",
 "C16": "Non-negative indices and positive steps; negative indices/steps and deletion by name refuted by witnesses.",
 "C17": "Non-negative indices, positive steps and out-of-range indices; negative indices and steps refuted by witnesses.",
 "C19": "Lookup, locality and read-back after edits. Lookup by id cannot reach sections with upper-case options (proved violation); two more violations about header text. Assigning to an id that is not there changes nothing and raises nothing, see C93.",
 "C20": "Lines, read-back, padding and timestamp of the new entry for each changelog.",
 "C21": "Macro definitions: without position unconditional, with position for pairwise different definitions. Refuted for equal definitions (C21_position_violation) and below values that span lines (C21_position_violation_lines).",
 "C22": "Macro definitions: pairwise different ones; duplicates refuted by a witness.",
 "C29": "Read-back, token frame and other-options frame for argument-taking options; flags when absent. Violation: setting a set flag.",
 "C30": "Holds except for a bare flag following whitespace (violation witness).",
 "C31": "For specifications without repeated letters.",
 "C32": "List semantics of get/set/delete/insert, of slices and of pop/clear/append/extend/assignment on the positional values, for option strings whose options have their arguments. Violations: C32_insert_violation (text level), C32_insert_error_violation, C32_assign_violation (`positional += values` removes all arguments), C32_set_slice_violation, C32_delete_slice_violation.",
 "C33": "Holds for labels that are unambiguous as text; witnesses show the ambiguous ones.",
 "C34": "Order laws hold for every lawful label comparison; the operators are those of RPM on the decimal epoch, the version (0 if empty) and the release; the hash contract is refuted (empty version).",
 "C45": "Exact for changelogs whose entries have EVRs; failure characterised; an entry without EVR makes it raise TypeError (violation witness).",
 "C46": "Exact under single-spaced references, always lossless modulo whitespace.",
 "C52": "Tags: values set, written and read again. The properties of Specfile that wrap this are covered in the Specfile theorems.",
 "C53": "Holds for values without an escaped %%; violation witness included.",
 "C57": "The constructor only checks that the name starts with a tag name; 'Nameless' is a proved violation.",
 "C58": "Holds when the options contain a recognised option; refuted for positional arguments only.",
 "C60": "Exact characterisation of the reported EVR; an address with a dash is reported as EVR (violation witness).",
 "C61": "Exact characterisation of both searches; zero-padded days are not recognised as extended (violation witness).",
 "C62": "EVR, padding and content read back; extended timestamp unless the day is padded with zero (C62_extended_violation).",
 "C23": "Full; IndexError for an index below the first one is part of the statement.",
 "C24": "Invariant over all histories of insertions, removals and deletions (also those that raise). Assigning to an index does not look for duplicates (violation witness).",
 "C25": "Missing: insertions at negative indices, for which the claim is false (violation witness).",
 "C26": "Where a nearest source has no number of its own the requested number is ignored by the code (violation witness).",
 "C27": "Missing: slices with a negative step, for which the claim is false: they raise IndexError half way (C27_slice_violation) and delete tags that are no sources (C27_foreign_violation). Everything else exact, including what is left of tags and lists.",
 "C28": "With patches in a list only, these get numbers above the new one (violation witness).",
 "C63": "Missing: reading an empty slice, which raises IndexError (violation witness), and `index` of a location, which raises ValueError for every location, also for one that is contained (C63_index_violation).",
 "C64": "A separator with the colon at its end can lose it (violation witness).",
 "C07": "Line by line characterisation of what is written for every input; equality for lines with canonically written options. Refuted for conditional macro expansions without a macro and for empty quoted arguments (violation witnesses).",
 "C50": "Missing: order with repeated numbers and removal of the very first macro, both refuted (violation witnesses). Numbers are not negative; texts given for options do not start with a dash.",
 "C65": "Full characterisation of the parser, including errors.",
 "C66": "Missing: negative numbers, refuted (violation witness).",
 "C67": "Missing: negative indices and negative steps, refuted (violation witnesses).",
 "C35": "Proved for the two functions on raw release strings, for every raw release. C35_own_dist_violation shows why the new release must not end in a dist tag if the old one has none. The way through the Release tag is C52.",
 "C36": "C36_bump characterises the result completely. The claim that everything else is unchanged fails for a value that ends in a line feed, which is dropped (C36_newline_violation); C36_one_number_partial therefore says: up to a final line feed.",
 "C51": "Exact in terms of the parsed nodes (C51_autorelease, C51_autochangelog); in terms of the text for values without escaped percent signs. C51_escape_violation: the offset error of the parser hides macros behind %%. C51_empty_reference_violation: a changelog line with %{} raises ValueError.",
 "C01": "Holds exactly for the contents of C01_exactly (Stable); other contents are changed by the round trip, witnesses are the C01_*_violation theorems.",
 "C68": "Holds exactly for the line lists of C68_exactly; an empty list of lines with a trailing newline and lines with separators are counterexamples.",
 "C49": "Trees: all but those with ** (C49_unpack_violation). Texts with objects such as <TokenType.DEFAULT: 1>, which are hidden from Python's parser behind literals: proved if no constant or object has a quote in front of <; a string that looks like the object changes places with it (C49_objects_violation). Python's parser (tree or position of the error) and repr of a string are parameters. repr() never raises, except IndexError if Python complains about the end of a line (C49_raises, C49_index_violation).",
 "C38": "Contexts are created, entered, exited, read with .content and dropped in any order; the write-back happens once. C38_late_violation: a context that shares an object and is entered only after the one that created it has ended raises RuntimeError instead of giving the object.",
 "C69": "Missing: KeyError, which is swallowed in a repeated block (C69_keyError_violation).",
 "C39": "Proved for all programs of nested with blocks, including sources() and patches(), that keep to the rules of Spec.effect: edit any object that is open, but lines only while nothing else is open and sections only while no object for one of them is; open no section under two keys; do not mix macro_definitions with sections. The violations show that each rule is needed.",
 "C70": "Saving is assumed to succeed; explicit save() and edits of the list of lines outside of any block are not part of the programs.",
 "C40": "Histories of creating, copying, dropping, changing and parsing with any number of parsers. Missing: a copy that reuses the id of a dropped parser (C40_violation_copy), changes of the macro context or of files from outside (C40_violation_foreign, C40_violation_files), interrupted parses (C41_violation_interrupt). C40_context_partial determines the context in which RPM starts, for macros that are not disguised as undefined ones.",
 "C41": "Holds for RPM errors, and for all exceptions if there was no result before. Other exceptions after a successful parse make the parser unusable (C41_violation_exception), an interrupt leaves it stale (C41_violation_interrupt).",
 "C42": "The source directory is exactly restored if files are written completely or not at all, can be removed, and no link dangles. Each condition is needed (C42_violation_*). Without the conditions on writing and removing, existing files are still untouched (C42_existing_partial). C42_signature is complete.",
 "C43": "RPM itself is taken not to change os.environ; C43_sanitize also covers a body that does.",
 "C44": "Partial: definitions that do not expand to the text of their own reference (C44_violation). Removal terminates and succeeds with fewer than twenty unexpandable definitions; with an expansion that stays defined it never ends (C44_violation_endless).",
 "C71": "Holds for bodies without lines that look like headers, except that newlines at the beginning of a body are lost (C71_dump_any_start); C71_violation: two lists of macros with the same dump.",
 "C72": "Partial: the collected files also have to be sources, otherwise the last parse fails (C72_violation).",
 "C73": "Sound for every value except that conditionals on names that are no entities are read as nothing (C73_violation_conditional) and two references in a row make the regex match the empty request (C73_violation_unseparated); the result may also be parsed differently (C73_violation_merge). Completeness for values of one line and entities that are not named like a substitution group.",
 "C37": "Which lines may change is proved for every call, also if it raises (C37_changes); that only valid, earlier definitions change needs distinct names and single-line bodies (C37_only_earlier_partial). Violations: of equal tags or definitions the invalid first one is changed (C37_violation_twin, _twin_macro); ValueError half way if a body changes its number of lines or becomes equal to a later one (C37_violation_lines, _collision).",
 "C74": "Getting and setting are proved for every spec file; that a value that was set is read again needs a unique tag and tags and sections that are read back (C74_set_get_partial). C74_violation: values with whitespace at their ends are read without it, an empty value makes the tag disappear.",
 "C75": "For spec files that are read back as they are written (ReadsBack). Violations: without a Release tag, set_version_and_release changes the version and then raises (C75_version_only_violation); bump_release bumps a macro definition that is commented out or in a false branch, and the release stays (C75_bump_violation, C75_bump_branch_violation).",
 "C76": "What happens to each changelog is proved for any number of them, also if an exception is raised half way. Violations with several changelogs: the e-mail is appended again for each of them (C76_email_violation, C76_packager_violation) and the EVR is expanded again (C76_evr_violation).",
 "C77": "Partial: sections whose names have upper-case letters are overlooked (C77_case_violation). No-op and rejected patches for spec files that are read back as they are written.",
 "C78": "The match of the pattern is a parameter. Partial: if the first group takes no part in the match, the tilde is put before the last character (C78_group_violation).",
 "C79": "For spec files that are written as they are read (Stable) and distinct names; of equal definitions or tags the wrong one may be written (C79_violation, C37_violation_twin).",
 "C80": "C80_reading: proved for macros and tags that depend on each other like a tree (no entity is referred to twice), requests of one line that are not empty; other macros are taken to expand as before. Completeness (C80_keeps_partial) for values of one line. Violations: a macro on which two others depend gets the value that the second one needs (C80_violation_shared); macros named sub_* are not updated (C80_violation_name).",
 "C81": "Under the conditions of C80. Violation: C81_violation_shared.",
 "C82": "C82_collect and C82_forced hold without restrictions. Partial: collecting raises IndexError if the spec file ends in a backslash after %include (C82_violation_backslash) and OSError if a file is in a directory that does not exist (C82_violation_directory).",
 "C83": "Objects with identity in a typed memory (Model/Heap). Programs of parsing, deep copies and edits refine the operations on values, including the exceptions; containers without common objects stay independent. Violated for tags.copy() (both have the same list of remaining lines), tags[:] (deleting moves lines into a tag that both hold) and Tag(..., comments=other.comments) (both tags have the same list of preceding lines).",
 "C84": "Combines the round trips (C02, C04, C05) with C12: the flag of the line at the position of the object. Missing where these do not hold (C12_violation, constructs excluded by CleanLines and CleanTagLines). C84_violation: a tag in the second of two branches that follow the one taken is valid.",
 "C85": "The block is an arbitrary function on the open files that leaves the ones it did not open alone (Tame); C85_nested shows that capturing blocks are such blocks. With fewer than two free file descriptors nothing is captured (C85_captured asks for them), but C85_restored still holds.",
 "C86": "Missing: messages that contain `error: ` once more are cut (C86_cut_violation), and an empty message raises IndexError (C86_empty_violation). C86_raises states exactly when the latter happens.",
 "C87": "C87_found is an equivalence with the documented order. Missing: an unknown user raises KeyError although an e-mail address was found (C87_violation); C87_raises_partial says where exceptions come from.",
 "C88": "== is an equivalence everywhere (C88_equivalence, C88_prep_equivalence); the _partial theorems name exactly the lines that are left out of the comparison, and each omission has a violation theorem: headers of sections, lines above tags and sources, remainders, positional arguments, the last newline. Sources that are compared with the patches of the same spec file are equal (C88_violation_sources).",
 "C89": "popitem, clear and assignment proved for all token lists. Violations: every recognized option is contained even if it is not there, so that defaults are never used, and unknown keys can be set (C89_contains_violation, a statement about all states); a popped flag after whitespace is still there (C30_delete_violation).",
 "C90": "Proved once for any container that is written as lines above, elements and lines below (Fits), and shown for all seven (C90_containers). Violations: pop, remove and clear lose the lines between an element and its neighbour, such as %if or commands in %prep, which del keeps (C90_violation_tags_pop, _definitions_pop, _prep_pop); append to tags puts the tag inside a condition that ends below (C90_violation_append); remove and index of sections hit another section with the same lines (C90_violation_sections), those of tags a tag in another branch (C90_violation_tags_remove); a text found among comments can be neither counted nor removed (C90_violation_comments). += on macro definitions fails if one of them is called data, see C93_extend_violation.",
 "C91": "Exact for all locations: C91_remote_partial is an equivalence, C91_raises says exactly when ValueError is raised, which the claim excludes (C91_violation: a local path). The tests of addresses in brackets and of hosts outside of ASCII are parameters.",
 "C92": "All programs of blocks, edits, saves, reloads, changes of path and autosave, and exceptions, with any accessor of the lines. Partial: a reload inside of an open block disconnects the block from the object, so that everything edited there is lost (C92_reload_inside_violation, for every program); C92_reload_partial is the claim outside of blocks. C92_edits gives the resulting text for edits of lines; edits through accessors are the subject of C39. Whether a file can be written depends on the path only.",
 "C93": "Proved for the three containers at once (NamedKind) where an element has the name, the name is not that of a method, and it was not assigned while no element had it; tag names are ASCII. Violations, all general: assigning to a name that no element has raises nothing and changes no element, and later hides the element (C93_absent_violation, C93_stale_violation); names of methods never read an element (C93_method_violation); del on macro definitions ignores other attributes (C93_delete_violation); assigning to a %prep macro never changes it (C93_prep_set_violation). A macro definition called _remainder makes the constructor overwrite its body, and every spec file with one cannot be read (C93_construction_violation, C93_reading_violation); += overwrites one called data (C93_extend_violation).",
 "C94": "Decoding is characterised by the definition of UTF-8 in RFC 3629 (C94_reading) and inverted by encoding for all bytes (C94_bytes_kept). A file keeps its bytes exactly if its lines end in line feeds (C94_unchanged_iff); the theorems marked partial assume this. Violations, all general: a file that is not UTF-8 cannot be opened, since the text is encoded strictly for RPM (C94_open_violation); saving a text with another lone surrogate raises and leaves the file empty (C94_save_violation); surrogates of bytes that are put next to each other can be read back as a character (C94_escapes_violation).",
 "C95": "Which positions a slice denotes is characterised for all lengths, bounds and steps (C95_positions), which also applies to the other theorems about slices; slices, copies and assignments hold for all seven containers. Violations: the operators + and * lose the lines above and below all elements (C95_sum_violation, an equivalence); deleting from a source list also deletes the lines above, such as %if (C95_delete_violation); assigning to a slice of comments ignores further items and fails half-way if there are too few (C95_comments_violation, general); section + [...] always raises AttributeError (C95_section_violation). That results share their elements with the operands is left to C83.",
 "C96": "Objects with identity for the five kinds of containers other than tags (C83). C96_programs_partial: all programs that do not delete from, or change elements of, a container after it was copied with copy(), sliced, or shared elements with another one; C96_careful names two simple classes of such programs; deep copies are never restricted. C96_list_edits: edits of the list alone never show elsewhere, whatever was shared. Violations, both equivalences for all memories: after y = x.copy() or y = x[:], del y[k] puts the lines around the element into x a second time, unless there are none or nothing takes them (C96_copy_violation, C96_slice_violation).",
 "C97": "C97_repeat_partial: the second call of update_value returns the same value and leaves the spec file as it is, whatever was changed the first time, if values depend on each other like a tree, have no conditionals and enclose all macros, names are distinct, and the spec file reads as the old one with the updated values in their places; C97_tag_partial is the same for update_tag, and C97_entities_partial for macros and tags at any depth of references. Violations: a conditional that was left alone the first time is enabled the second time, and the spec file changes twice (C97_violation_conditional, C97_violation_tag); literal text written after %x continues the name of the macro (C97_violation_name); a condition that depends on what was updated removes a macro (C97_violation_condition).",
 "C98": "Parameters are repr of the constants and its inverse. Full for changelogs, comments, parsers and versions (C98_changelog, C98_comments, C98_versions). Tags, entries of source lists, sources and patches are rebuilt if names are those of tags and the spec file they belong to is saved (C98_tags_partial, C98_parsed_tags_partial, C98_sources_partial), a Specfile exactly if it is saved (C98_spec_partial), options, sections and %prep exactly if no options are given (C98_options_partial, C98_sections_partial, C98_prep_partial), parsed values unless flags are separated by whitespace (C98_values_partial); C98_printed_partial goes on to the printed text, in which the texts of all nested objects are formatted; that Python reads these texts as the grammar says is a hypothesis. Violations: members of enumerations are printed in angle brackets, so the representations of tokens, macro definitions and macros are no expressions (C98_violation_enumerations), and C98_members_partial shows that nothing else is missing there: if these members could be read, all these objects would be rebuilt; an unsaved spec file (C98_violation_unsaved); a tag that was renamed to something else (C98_violation_names); %{? ?x} (C98_violation_flags).",
 "C99": "C99_blocks_partial describes the result of any number of blocks of different sections without reference to their order, C99_order_partial says that all permutations give the same text, C99_tags_partial is about two tags of the preamble, C99_macros_partial about the bodies of two macro definitions, C99_operations_partial is about any two operations that only have to do with different sections, with C99_sources_entry_partial, C99_tags_entry_partial and C99_sources_prep_partial for sources, patches, tags, %prep and add_changelog_entry, C99_separate gives conditions under which blocks do not interfere. C99_macro_operation_partial is about a macro defined in the preamble and any operation on other sections. Missing: macros defined in other sections together with operations on sections, and what a block computes must not depend on expansions of other parts. Violations: a changelog entry with the current version (C99_violation_version), lines that are headers of sections (C99_violation_headers), edits that change what conditions in other sections mean (C99_violation_conditions), bodies of macros with open brackets (C99_violation_brackets).",
 "C100": "C100_insert_tag and C100_insert_definition say exactly when inserting and deleting leaves everything as it was, C100_changelog is about entries, C100_patch_partial about %patch macros, C100_option_partial about options with arguments, C100_tag_value_partial and C100_macro_value_partial about values that are set back in the text of a spec file. C100_append_source_partial says exactly when a source appended as a tag and deleted again leaves everything as it was, C100_append_first_partial does so for the first source or patch, C100_append_entry is about entries of lists. Violations: two empty lines become one (C100_violation_blank), a %patch macro that comes first is not removed (C100_violation_patch), deleting a flag removes the blank before it instead (C100_violation_flag), sources stay renumbered (C100_violation_source).",
 "C101": "C101_tags_partial and C101_macros_partial are about sequences of any length, C101_options_partial about those of options with arguments, C101_same_values_partial and C101_back_partial follow. Missing: texts that are not read as they were made on the way, for which it fails (C101_violation_brackets); names with several tags or definitions; tags of other sections.",
 "C102": "C102_entries_partial is about sequences of any length and every text of a changelog section, C102_calls_partial about sequences of calls of add_changelog_entry on a spec file with one changelog, C102_all_partial about those with any number of changelogs, without e-mail. Missing: contents that are empty or that have a line with an asterisk after another line, for which it fails (C102_violation_empty_entry, C102_violation_star_entry); e-mail addresses with several changelogs, for which C76 fails; guessed authors and current times.",
 "C103": "C103_leading, C103_trailing and C103_append_partial say which number it is; C103_once_more_partial is the claim; C103_file_partial is about calls of bump_release on a spec file with the release in the tag, C103_macro_partial on one with a macro definition for it. Missing: empty releases and those with a line feed, for which it fails (C103_violation_empty, C103_violation_newline); macro definitions that are not in effect, for which C75 fails."
}