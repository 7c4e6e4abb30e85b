#!/usr/bin/env python3
"""Writes /verif/properties.jsonl (one JSON object per line). Edit the table, re-run."""
import json, os
P = []
def p(id, title, statement, quantifier, why, anchors):
    P.append(dict(id=id, title=title, statement=statement, quantifier=quantifier,
                  why_tests_cant=why, anchors=anchors))

# ---------------------------------------------------------------- text fidelity
p("C01", "Loading and saving an unmodified spec file reproduces its text",
  "For a Specfile created from a file with content T, str(specfile) is T, so save() right after loading (or after reload()) writes back exactly T, including the presence or absence of a final newline.",
  "every file content T (as decoded text), of any length and with any mixture of line separators",
  "The content is unbounded text; the claim is about every position of every line separator, and the exact set of contents for which it fails can only be found by proof.",
  ["specfile/specfile.py: Specfile._read_lines, Specfile.__str__, Specfile.save, Specfile.reload"])
p("C02", "Opening and closing macro_definitions() without edits leaves every line unchanged",
  "Parsing any list of spec file lines into macro definitions and writing them back gives the same lines in the same order.",
  "every list of lines (no line contains a line separator), every validity assignment",
  "Multi-line bodies, trailing whitespace, %dnl/#-commented definitions and unterminated bodies interact; the input space is unbounded.",
  ["specfile/macro_definitions.py: MacroDefinitions._parse, MacroDefinitions.get_raw_data, MacroDefinition.get_raw_data"])
p("C03", "Opening and closing sections() without edits leaves every line unchanged",
  "Splitting any list of spec file lines into sections and writing them back gives the same lines in the same order.",
  "every list of lines, every macro-expansion oracle",
  "Section headers carry arbitrary option strings with quotes, escapes and macros; round-tripping must hold for all of them.",
  ["specfile/sections.py: Sections.parse, Sections.get_raw_data, Section.get_raw_data, Section.__str__", "specfile/options.py: Options.tokenize, Token.__str__"])
p("C04", "Opening and closing tags() without edits leaves every line unchanged",
  "Parsing the lines of a section into tags and writing them back gives the same lines in the same order.",
  "every list of lines, every macro-expansion oracle",
  "Tag values may span lines, be wrapped in conditional macros and carry trailing whitespace; unbounded input.",
  ["specfile/tags.py: Tags.parse, Tags.get_raw_section_data, Comments.parse, Comments.get_raw_data"])
p("C05", "Opening and closing a sourcelist/patchlist without edits leaves every line unchanged",
  "Parsing the lines of a %sourcelist/%patchlist section into entries and writing them back gives the same lines in the same order.",
  "every list of lines, every macro-expansion oracle",
  "Unbounded input with comments, blank lines and conditions interleaved.",
  ["specfile/sourcelist.py: Sourcelist.parse, Sourcelist.get_raw_section_data"])
p("C06", "Opening and closing changelog() without edits leaves every line unchanged",
  "Parsing the lines of a %changelog section into entries and writing them back gives the same lines in the same order.",
  "every list of lines",
  "Header detection depends on whether the pending content is blank; the claim ranges over all line sequences.",
  ["specfile/changelog.py: Changelog.parse, Changelog.get_raw_section_data"])
p("C07", "Opening and closing prep() without edits leaves every line unchanged",
  "Parsing the lines of a %prep section and writing them back gives the same lines in the same order.",
  "every list of lines",
  "Any shell line may appear in %prep, including ones wrapped in conditional macros.",
  ["specfile/prep.py: Prep.parse, PrepMacros.get_raw_data, PrepMacro.get_raw_data"])
p("C08", "Comments above a tag are reproduced exactly and split at the right place",
  "Splitting the lines above a tag into preceding lines and comments and joining them again gives the same lines; the comments are exactly the maximal trailing run of comment lines.",
  "every list of lines",
  "Ranges over all line lists.",
  ["specfile/tags.py: Comments.parse, Comments.get_raw_data, Comment.__str__"])
p("C09", "Parsing a value into macro nodes and printing the nodes gives the value back",
  "Whenever a value can be parsed into nodes, concatenating the string form of the nodes yields the value; parsing always terminates with a result or with an unterminated-macro error.",
  "every string",
  "Nested and unbalanced macro constructs of any depth.",
  ["specfile/value_parser.py: ValueParser.parse and Node.__str__ implementations"])
p("C10", "Tokenizing an option string and printing the tokens gives the option string back",
  "Whenever an option string can be tokenized, concatenating the string form of the tokens yields the option string.",
  "every option string, with any mixture of quotes, escapes, whitespace and macros",
  "Quoting and escaping rules interact; all strings must be covered.",
  ["specfile/options.py: Options.tokenize, Token.__str__, Options.__str__"])
# ---------------------------------------------------------------- conditions
p("C11", "Condition processing returns the input lines, in order, whatever macros expand to",
  "The result of processing conditions lists exactly the input lines in order, each with a validity flag; it fails only when an %else/%elif/%endif has no open %if.",
  "every list of lines, every macro definition placement, every expansion oracle (including failing ones)",
  "Depends on an arbitrary external macro expander and unbounded nesting.",
  ["specfile/conditions.py: process_conditions"])
p("C12", "A line is valid exactly when it is in no false branch of any condition",
  "For every line, the reported validity is true iff all enclosing %if/%elif/%else branches are the ones RPM would take.",
  "every nesting of conditions to any depth, every truth assignment of the conditions",
  "Unbounded nesting and branch counts; needs induction over the block structure.",
  ["specfile/conditions.py: process_conditions, resolve_expression"])
p("C13", "Condition keywords inside macro definition bodies have no effect",
  "Lines that belong to a macro definition body never open or close a condition and inherit the validity of their surroundings.",
  "every list of lines, every set of macro definitions",
  "Universally quantified over placements.",
  ["specfile/conditions.py: process_conditions", "specfile/macro_definitions.py: MacroDefinition.get_position"])
# ---------------------------------------------------------------- local edits
p("C14", "Changing one tag value changes only the lines of that tag",
  "After assigning a new value to one tag and writing back, all lines before and after that tag are unchanged, and the tag line is prefix, name, separator, new value, suffix.",
  "every parsed section, every tag in it, every new value",
  "Frame condition over unbounded sections.",
  ["specfile/tags.py: Tags.get_raw_section_data, Tags.__setattr__", "specfile/specfile.py: Specfile._tag"])
p("C15", "Deleting a tag keeps every other tag and every non-blank line that is not the tag or its comments",
  "After deleting a tag by index, the remaining lines are the old ones without the tag line and its comments, in the same order, up to collapsing blank lines at the seam.",
  "every tags object, every index, and every tag addressed by name",
  "Frame condition over unbounded lists; conditions around the tag must not be lost.",
  ["specfile/tags.py: Tags.__delitem__, Tags.__delattr__"])
p("C16", "Deleting a macro definition keeps every other line of the spec file",
  "After deleting a macro definition, the written lines are the old lines without the lines of that definition, in the same order.",
  "every macro definitions object, every index (positive or negative), every definition addressed by name",
  "A macro definition owns all lines preceding it, so a lost prefix loses arbitrary file content; must hold for all files.",
  ["specfile/macro_definitions.py: MacroDefinitions.__delitem__, MacroDefinitions.__delattr__"])
p("C17", "Deleting a changelog entry keeps all other entries intact",
  "After deleting an entry, the written lines are the old ones without its header, content and one following line, in the same order.",
  "every changelog, every index",
  "Frame condition over unbounded lists.",
  ["specfile/changelog.py: Changelog.__delitem__"])
p("C18", "Inserting a tag keeps all existing lines in order and never puts it inside the following condition block's %endif",
  "After inserting a tag, the written lines are the old lines with the new tag line (and its comments) inserted at one place; if the lines before the insertion point contain an %endif, the new tag comes after the first such line.",
  "every tags object, every index, every new tag",
  "Frame condition over unbounded lists.",
  ["specfile/tags.py: Tags.insert"])
p("C19", "Section edits are local: replacing, deleting or looking up one section does not touch the others",
  "Lookup by id finds the first section whose case-insensitive id matches; assigning or deleting it changes only the lines of that section.",
  "every sections object, every id",
  "Universally quantified frame condition.",
  ["specfile/sections.py: Sections.find, Sections.get, Sections.__setattr__, Sections.__delattr__, Sections.__contains__"])
p("C20", "Adding a changelog entry puts it on top and keeps all existing lines",
  "After appending a changelog entry and writing back, the lines are: unparsed leading lines, the new entry, then all previous entry lines unchanged; reading the result back yields the old entries plus the new one.",
  "every changelog section, every well-formed entry",
  "Re-parsing must recover the entry for every existing changelog.",
  ["specfile/changelog.py: Changelog.parse, ChangelogEntry.assemble", "specfile/specfile.py: Specfile.add_changelog_entry"])
# ---------------------------------------------------------------- lookups
p("C21", "Looking up a tag or macro definition by name prefers the first valid match",
  "Lookup by name returns the first valid match, or the first match if none is valid, and raises only if nothing matches; with a position it returns a match at that position or raises.",
  "every list of tags/macro definitions, every name, every validity assignment, every position",
  "Unbounded list; all validity patterns.",
  ["specfile/tags.py: Tags.find", "specfile/macro_definitions.py: MacroDefinitions.find"])
p("C22", "The reported position of a tag or macro definition is its line number",
  "The position reported for a macro definition (tag) is the index of its first line in the written lines.",
  "every list of definitions/tags, every element",
  "Sum over unbounded prefix; equality-based index lookup may hit another element.",
  ["specfile/macro_definitions.py: MacroDefinition.get_position", "specfile/tags.py: Tag.get_position"])
# ---------------------------------------------------------------- sources
p("C23", "Inserting a source adds exactly that location at the requested index",
  "Inserting raises IndexError exactly if the index is below the first one of a non-empty list; otherwise the list of locations afterwards is the old list with the new location inserted at the (clamped) index, and one tag or one entry of a list has been added, no other one is changed apart from its number.",
  "every combination of source tags and sourcelists, every index, every location",
  "Sources live in two kinds of containers; the claim ranges over all of their states.",
  ["specfile/sources.py: Sources.insert, Sources._get_items"])
p("C24", "Duplicate sources are rejected without any change",
  "With duplicates disallowed, inserting an existing location raises and nothing changes; otherwise no location is ever present twice after any sequence of insertions into a duplicate-free list.",
  "every sequence of insert/insert_numbered/remove operations",
  "Invariant over unbounded histories.",
  ["specfile/sources.py: Sources.insert, Sources.insert_numbered, Sources.__contains__"])
p("C25", "Source numbers stay strictly increasing and unique under insertion",
  "If the source tags have strictly increasing numbers, they still do after any insertion.",
  "every list of numbered source tags, every insertion",
  "Renumbering cascades through an unbounded list.",
  ["specfile/sources.py: Sources.insert, Sources.insert_numbered, Sources._deduplicate_tag_names, Sources._get_tag_format"])
p("C26", "insert_numbered gives the new source the requested number and returns its index",
  "After inserting with a number, the source at the returned index has the given location and the requested number, smaller numbers are before it and unchanged, the others are raised only as far as needed.",
  "every number and every list of source tags with increasing numbers where the sources with the nearest number have numbers in their names, or where there are no source tags and new ones are numbered",
  "Nearest-neighbour placement over an unbounded list.",
  ["specfile/sources.py: Sources.insert_numbered"])
p("C27", "Removing sources by location removes all and only those sources",
  "After remove(location), the remaining locations are the old ones with all occurrences of the location filtered out, in order; remove_numbered removes the first source with that number or nothing.",
  "every combination of source tags and sourcelists",
  "Index-based deletion across several containers in reverse order.",
  ["specfile/sources.py: Sources.remove, Sources.remove_numbered, Sources.count"])
p("C28", "add_patch numbers the patch above all existing ones",
  "add_patch with an explicit number raises SourceNumberException exactly if the number does not exceed every existing one, without any change; otherwise a tag with the given number, or the least one that is above all existing ones and not below the initial one, is added after the last patch tag, with the lines of the comment above it.",
  "every list of patches with increasing numbers the last tag of which is numbered, every number",
  "Universally quantified.",
  ["specfile/specfile.py: Specfile.add_patch"])
# ---------------------------------------------------------------- options
p("C29", "Setting an option makes it readable with the set value",
  "After assigning a value to a recognized option, reading it returns the value (numeric strings as integers), and all other tokens are unchanged.",
  "every token list, every option string specification, every option and value",
  "Unbounded token lists and option states.",
  ["specfile/options.py: Options.__setattr__, Options.__getattr__, Options._find_option"])
p("C30", "Deleting an option removes it from the option string",
  "After deleting an option that occurs once, it is no longer present and all other options and positional arguments are unchanged.",
  "every token list, every option",
  "Whitespace and argument tokens are removed together with the option; all layouts must be covered.",
  ["specfile/options.py: Options.__delattr__"])
p("C31", "Options behave as a mapping: length equals the number of iterated keys",
  "len(options) is the number of keys produced by iterating, and a key is iterated iff some token specifies it.",
  "every token list, every option string specification",
  "Unbounded token lists.",
  ["specfile/options.py: Options.__len__, Options.__iter__, Options.__getitem__"])
p("C32", "Positional arguments behave as a list",
  "Inserting, reading and deleting positional arguments, one by one or as slices, and the list methods append, extend, pop and clear act on the list of positional values as on an ordinary list, assigning a list makes it the list of positional values, and the written option string re-tokenizes to it.",
  "every token list, every index and value",
  "Positionals are a view over tokens interleaved with options and whitespace.",
  ["specfile/options.py: Positionals._get_items, Positionals.insert, Positionals.__delitem__, Positionals.__getitem__, Positionals.__setitem__, Options.positional"])
# ---------------------------------------------------------------- EVR
p("C33", "EVR/NEVR/NEVRA strings round-trip",
  "Formatting a well-formed EVR/NEVR/NEVRA and parsing the string gives the same components.",
  "every epoch, version, release, name (with dashes) and architecture",
  "Lazy/greedy regex splitting on dashes is ambiguous in general; unbounded strings.",
  ["specfile/utils.py: EVR.from_string, EVR.__str__, NEVR.from_string, NEVR.__str__, NEVRA.from_string, NEVRA.__str__"])
p("C34", "EVR comparison is a total preorder and consistent with hashing",
  "The six comparison operators agree with one total preorder whenever the underlying label comparison is one; equal objects have equal hashes.",
  "all EVR triples, every lawful label comparison",
  "Quantifies over all values and the external comparison.",
  ["specfile/utils.py: EVR, NEVR, NEVRA comparison methods and __hash__"])
# ---------------------------------------------------------------- release/version
p("C35", "Setting the release keeps the dist suffix and reads back",
  "After setting release to R, reading release gives R, the dist part of the raw release is preserved and a minor bump is dropped.",
  "every raw release string, every new release without a dist suffix of its own",
  "Unbounded strings with an end-anchored regex.",
  ["specfile/specfile.py: Specfile._split_raw_release, Specfile._get_updated_release, Specfile.release"])
p("C36", "Bumping a release increments exactly one number",
  "The bumped release string equals the old one with a single decimal run incremented by one (or with '.1' appended), everything else unchanged.",
  "every release string",
  "Unbounded strings.",
  ["specfile/specfile.py: Specfile._bump_release_string, Specfile.bump_release"])
p("C37", "update_value never touches protected or later entities and falls back to the requested value",
  "After update_value only unprotected, valid macro definitions and tags located before the given position may have changed; the result is either the requested value or a template whose literal parts come from the original value.",
  "every spec file, every value, every protected pattern",
  "Recursive updates through arbitrary reference chains.",
  ["specfile/specfile.py: Specfile.update_value, Specfile.update_tag", "specfile/value_parser.py: ValueParser.construct_regex"])
# ---------------------------------------------------------------- context managers
p("C38", "Nested accessor contexts share one object and write back exactly once",
  "Entering the same accessor with the same arguments while it is active yields the same object; the write-back runs exactly once, when the context that created it ends, whether by normal exit, exception or garbage collection.",
  "every interleaving of call/enter/exit/drop events on any number of accessors",
  "Histories are unbounded and include exceptions.",
  ["specfile/context_management.py: ContextManager.__call__, GeneratorContextManager.content, GeneratorContextManager.__del__"])
p("C39", "Changes made in properly nested contexts are never lost",
  "Edits made through an inner accessor (e.g. tags inside sections) are present in the lines after all contexts end; edits through two unrelated accessors that overlap may be lost.",
  "every nesting of lines/sections/tags/changelog/prep/sources contexts and edits",
  "Interleavings of write-backs.",
  ["specfile/specfile.py: Specfile.lines, Specfile.sections, Specfile.tags, Specfile.changelog, Specfile.prep, Specfile.sources, Specfile.macro_definitions"])
# ---------------------------------------------------------------- parser
p("C40", "Macro expansion always happens in the context of the current content of its own spec file",
  "Whenever expand() (without skip_parsing) evaluates, the global macro context is the one obtained by parsing this spec file's current content with its current macros, no matter what other spec files were parsed before.",
  "every history of parses, expansions, edits and failures over any number of Specfile instances",
  "Global mutable macro context with a global parse cache; all interleavings.",
  ["specfile/spec_parser.py: SpecParser.parse", "specfile/specfile.py: Specfile.expand"])
p("C41", "A failed parse never leaves the parser unusable or stale",
  "After any failed parse, the next parse of the same parser runs a real parse, and its outcome depends only on its inputs.",
  "every history of successful and failing parses, every exception type",
  "Crash points and histories.",
  ["specfile/spec_parser.py: SpecParser.parse"])
p("C42", "Dummy sources are removed and existing files are never touched",
  "After parsing, successful or not, the source directory contains exactly the files (with the same content) it contained before.",
  "every set of sources, every file system state, every write failure and every outcome of the parse",
  "Crash points and failures.",
  ["specfile/spec_parser.py: SpecParser._make_dummy_sources"])
p("C43", "Environment variables are restored after parsing",
  "LANG and LC_ALL have the same value (or absence) after parsing as before, whatever the outcome.",
  "every environment, every outcome",
  "Failures at any point.",
  ["specfile/spec_parser.py: SpecParser._sanitize_environment"])
p("C44", "Removing or redefining a macro leaves no old definition behind",
  "remove() ends with the macro undefined or raises; define() ends with exactly the new definition; reinit() leaves only macros up to the given level.",
  "every macro table, every stack of definitions, every expansion outcome",
  "Retry loop with unbounded definition stacks.",
  ["specfile/macros.py: Macros.remove, Macros.define, Macros.reinit"])
# ---------------------------------------------------------------- misc
p("C45", "Filtering a changelog returns a contiguous range bounded by EVR",
  "filter(since, until) returns the contiguous range of entries from the first entry with EVR >= since to the last entry with EVR <= until.",
  "every changelog whose entries have an EVR, every bounds, every label comparison",
  "Unbounded lists.",
  ["specfile/changelog.py: Changelog.filter"])
p("C46", "Splitting a conditional macro expansion is lossless",
  "prefix + body + suffix equals the original string.",
  "every string",
  "Unbounded strings.",
  ["specfile/utils.py: split_conditional_macro_expansion"])
p("C47", "The filename of a source never contains a directory part",
  "The filename derived from a location contains no '/', is a suffix of the location, and equals the location when there is no '/'.",
  "every location string",
  "Unbounded strings.",
  ["specfile/utils.py: get_filename_from_location"])
p("C48", "Bracket counting recognizes exactly the unterminated macros of a value",
  "The counts are zero for every value whose %{...} and %(...) constructs are balanced and positive when one is left open.",
  "every string",
  "Unbounded nesting.",
  ["specfile/utils.py: count_brackets"])
p("C49", "Formatting a representation never changes what it evaluates to",
  "The formatted expression denotes the same Python expression as the input for every line length threshold, with the same objects such as <Enum.ITEM: 1> at the same places; a text that cannot be formatted is returned unchanged.",
  "every expression tree of the supported subset, every text with any number of objects, every threshold",
  "Unbounded trees.",
  ["specfile/formatter.py: format_expression, formatted"])
p("C50", "Adding and removing %patch macros keeps the order of %prep",
  "add_patch_macro inserts the macro next to its numeric neighbour, keeping increasing numbers increasing and all other lines unchanged; remove_patch_macro removes the first macro with that number and nothing else.",
  "every %prep section, every number",
  "Unbounded lists.",
  ["specfile/prep.py: Prep.add_patch_macro, Prep.remove_patch_macro, PatchMacro.number"])
p("C51", "autorelease/autochangelog detection finds the macro at any nesting depth and ignores comments",
  "has_autorelease/has_autochangelog are true iff the macro is referenced somewhere outside comments, at any depth of conditional macros.",
  "every release string, every changelog section",
  "Unbounded nesting.",
  ["specfile/specfile.py: Specfile.has_autorelease, Specfile.contains_autochangelog, Specfile.has_autochangelog", "specfile/value_parser.py: ValueParser.flatten"])
p("C52", "Setting a tag through a Specfile property is read back by the same property",
  "After specfile.version = V (and the other tag properties), specfile.version is V, all other tags keep their values, and all lines other than the tag line are unchanged.",
  "every spec file whose preamble contains the tag, every single-line value with balanced macros and no surrounding whitespace",
  "Goes through parsing, editing, writing and re-parsing of arbitrary files.",
  ["specfile/specfile.py: Specfile._tag", "specfile/tags.py: Tags.parse", "specfile/sections.py: Sections.parse"])
p("C53", "Literal parts of a value contain no macro reference",
  "After parsing a value, no literal node at any depth contains an unescaped macro reference, so callers can treat literals as plain text.",
  "every string",
  "Unbounded strings with any mixture of escapes and nesting.",
  ["specfile/value_parser.py: ValueParser.parse, ValueParser.flatten"])

p("C54", "Macro definitions that are written are read back",
  "If the fields of macro definitions describe their text (no field absorbs text of another), writing them and parsing the lines gives the same definitions; in particular a body that is set and written is the body found on re-reading.",
  "every list of definitions of any style and any number of body lines, every surrounding lines",
  "Unbounded bodies; the regex backtracks over every split of the line.",
  ["specfile/macro_definitions.py: MacroDefinitions._parse, MacroDefinitions.get_raw_data, MacroDefinitions.__setattr__"])
p("C55", "Setting a macro body changes only the lines of that definition",
  "Assigning a body by name rewrites the lines of the definition that lookup by name finds; all lines above and below are unchanged; it fails only if no definition has the name.",
  "every macro definitions object, every name, every body",
  "All lists of definitions.",
  ["specfile/macro_definitions.py: MacroDefinitions.__setattr__, MacroDefinition.get_raw_data"])

p("C56", "Comments of a tag can be edited without touching other lines",
  "A comment that is appended or inserted becomes one line '# text' at the requested place directly above the tag; replacing the text of a comment keeps its hash sign and whitespace; all other lines stay, and the result is read back.",
  "every list of comments, every index, every text",
  "All lists, indices and texts.",
  ["specfile/tags.py: Comments.append, Comments.insert, Comments.extend, Comments.__setitem__, Comments.__contains__"])
p("C57", "Creating a tag accepts exactly tag names",
  "Creating a tag object succeeds if the name is a known tag name (any case, with number or argument where allowed) and raises ValueError otherwise.",
  "every string",
  "Infinitely many strings.",
  ["specfile/tags.py: Tag.__init__, get_tag_name_regex"])

p("C58", "Section headers separate the name from the options",
  "Whenever a section has options or arguments, its header is written with whitespace between the name and the options, so that reading the header again gives the same section.",
  "every section object",
  "Sections made by programs can have any combination of options, arguments and delimiters.",
  ["specfile/sections.py: Section.id, Section.normalized_id, Section.__str__"])

p("C59", "is_script tells whether the content of a section is a shell script",
  "For every section with a properly written header, is_script is true exactly if the section name is one of the script section names, in any case and with any options.",
  "every section object",
  "Arbitrary options.",
  ["specfile/sections.py: Section.is_script"])

p("C60", "The EVR of a changelog entry is read from the last word of its header",
  "The EVR of an entry is the last word of the header if it contains an inner dash, without enclosing brackets and without a trailing colon; otherwise there is none.",
  "every header line",
  "The regex backtracks over every split of the header.",
  ["specfile/changelog.py: ChangelogEntry.evr"])
p("C61", "The kind of timestamp and the padding are recognised in any header",
  "An entry has an extended timestamp exactly if a date with time and zone and without zero padding of the day is written in the header; the padding is the one before the day of month in the first date.",
  "every header line",
  "Two searches with many alternatives over arbitrary text.",
  ["specfile/changelog.py: ChangelogEntry.extended_timestamp, ChangelogEntry.day_of_month_padding"])
p("C62", "An assembled entry has the properties it was assembled from",
  "An entry assembled from a timestamp, an author, content, an EVR and a padding reports this EVR, padding and kind of timestamp, and has the content as given.",
  "every valid timestamp, every author, EVR and padding",
  "Infinitely many authors and EVRs; the values are read back by regexes.",
  ["specfile/changelog.py: ChangelogEntry.assemble, ChangelogEntry.evr, ChangelogEntry.extended_timestamp, ChangelogEntry.day_of_month_padding"])

p("C63", "Sources read like a list of locations and are assigned like one",
  "Length, membership, count, indexing and slicing of sources agree with the list of the locations of the tags followed by those in the lists; assigning to an index or slice changes these locations and no number. Extending, popping, clearing and searching the sources do to this list what they do to a list, except that an extension stops at the first duplicate when duplicates are not allowed.",
  "every combination of source tags and sourcelists, every index and slice, every list of new locations",
  "Sources live in two kinds of containers and are addressed through computed indices.",
  ["specfile/sources.py: Sources.__getitem__, Sources.__setitem__, Sources.__contains__, Sources.count, Sources._get_items"])
p("C64", "New and renumbered source tags are written like their neighbours",
  "A new source tag has the kind of number (none, plain, padded with zeros) of the source next to it and its value starts in the same column where that is possible; renumbered tags keep their format; without sources the tag is written as configured, a patch after the last source.",
  "every list of tags, every insertion",
  "Names, widths and separators are arbitrary.",
  ["specfile/sources.py: Sources._get_tag_format, Sources._get_initial_tag_setup, Patches._get_initial_tag_setup, Sources._get_tag_validity"])

p("C65", "Macros in %prep are recognised where they are written",
  "A line has a macro if its first macro name is followed by whitespace or by nothing, also inside of a conditional macro expansion; the macro has the class of its name with its options, all other lines are kept with the macro below them.",
  "every list of lines",
  "A regex is searched in arbitrary shell text; names and options are arbitrary.",
  ["specfile/prep.py: Prep.parse, SetupMacro, PatchMacro, AutosetupMacro, AutopatchMacro"])
p("C66", "The number of a %patch macro is found wherever it is given, and set there",
  "The number is the one at the end of the name, else the argument of -P, else the first argument, else 0. A number that was set is read back, and nothing else than the place of the number changes.",
  "every %patch macro, every number",
  "Names and options are arbitrary.",
  ["specfile/prep.py: PatchMacro.number"])
p("C67", "Macros in %prep are found and deleted without touching other lines",
  "A macro accessed by name is the first one of that name. Deleting a macro by index, slice or name removes its line, all other lines stay in place.",
  "every %prep section, every index, slice and name",
  "Lines are kept with the macro below them and have to be moved when it is deleted.",
  ["specfile/prep.py: PrepMacros.__delitem__, PrepMacros.__getattr__, PrepMacros.__delattr__, PrepMacros.__contains__, PrepMacros.find"])

p("C68", "What is saved is loaded again",
  "After save(), loading the file gives the lines that were saved, so str(specfile) of the new Specfile is the text that was written.",
  "every list of lines, with or without a trailing newline",
  "Lines are joined and split again; whether that is the identity depends on empty last lines and on separators inside lines, so all lists of lines matter.",
  ["specfile/specfile.py: Specfile.save, Specfile.__str__, Specfile._read_lines, Specfile.reload"])

p("C69", "An exception raised inside a context reaches the caller",
  "If code inside a with block of an accessor raises an exception, the write-back still happens and the same exception leaves the block; a block that raises nothing raises nothing when it ends, provided the write-back does not fail.",
  "every interleaving of call/enter/exit events on any number of accessors, every exception",
  "Whether the exception survives depends on which blocks are nested and which of them created the object.",
  ["specfile/context_management.py: ContextManager.__call__, GeneratorContextManager"])
p("C70", "With autosave the file always has the current lines",
  "With autosave enabled, whenever no accessor block is open the file contains the current lines, also after exceptions; without autosave no accessor writes the file.",
  "every program of nested accessor blocks, edits and exceptions",
  "Programs are unbounded; saving happens in the block that created the lines object, wherever that is in the nesting.",
  ["specfile/specfile.py: Specfile.lines, Specfile.macro_definitions, Specfile.sections, Specfile.tags, Specfile.changelog, Specfile.prep"])
p("C71", "The listing of macros is read back",
  "For every dump that RPM prints for a list of macros, dump() returns exactly these macros: name, options, body, level and whether it was used.",
  "every list of macros, bodies with any number of lines, every negative and positive level",
  "Bodies are arbitrary text over several lines and may contain what looks like a header.",
  ["specfile/macros.py: Macros._parse, Macros.dump"])
p("C72", "With force_parse, missing files do not prevent parsing",
  "With force_parse enabled, if a spec file can be parsed once the files exist that it includes, loads or references from tags, then it is parsed although they do not exist, and tainted tells so; without missing files the result is the same as without force_parse and is not tainted.",
  "every spec file, every source directory, every behaviour of RPM",
  "Three attempts with different sets of dummy files; depends on which files exist at each attempt.",
  ["specfile/spec_parser.py: SpecParser._do_parse"])

p("C73", "A value is rewritten to read as requested, keeping its macros",
  "If the regex of construct_regex matches a requested value, substituting the match into the template succeeds and gives a value with the same macros in the same order, in which only literal text differs and delimiters next to references are kept; read with the matched texts as values of the referenced entities, the old expansions for other macros and conditionals as they are after the returned flips, it is the requested value. Every request that can be met this way is matched.",
  "every value, every requested value, all sets of modifiable and flippable entities, every expansion",
  "The regex is generated from the value, so there are infinitely many of them; conditionals nest arbitrarily.",
  ["specfile/value_parser.py: ValueParser.construct_regex"])

p("C74", "Properties of the spec file stand for its tags",
  "A property such as version or license is the value of the tag with this name that counts (the first one that is valid, or the first one), None if there is none, and the expanded property is its expansion. Setting the property replaces the lines of this tag and leaves every other line of the spec file as it was; afterwards the property has the value that was set. A property without a tag cannot be set and the attempt changes nothing.",
  "every spec file, every set of tag names, every value",
  "The value passes through reading sections and tags, writing them and reading them again; spec files are arbitrary text.",
  ["specfile/specfile.py: Specfile._tag, Specfile._expanded_tag, Specfile.tags"])
p("C75", "Operations on the release change the release and nothing else",
  "release is the raw release without its dist tag and minor bump; setting it keeps the dist tag. set_version_and_release sets both tags or neither. bump_release does nothing with %autorelease; otherwise it bumps either the first macro definition that seems to define the release or the Release tag, and changes no other line.",
  "every spec file, every raw release, all macro definitions",
  "Which line changes depends on all macro definitions of the spec file; the release is arbitrary text.",
  ["specfile/specfile.py: Specfile.release, Specfile.set_version_and_release, Specfile.bump_release"])
p("C76", "A changelog entry is added to every changelog that is not automatic",
  "add_changelog_entry puts an entry with the author, e-mail, timestamp and expanded EVR that were given or determined on top of every changelog section that does not use %autochangelog and changes no other section; it does nothing if there is none. has_autochangelog tells whether a changelog uses %autochangelog.",
  "every spec file with any number of changelog sections, all arguments, every expansion",
  "The number of changelogs is unbounded and arguments are carried from one to the next.",
  ["specfile/specfile.py: Specfile.add_changelog_entry, Specfile.has_autochangelog, Specfile.contains_autochangelog, Specfile.changelog"])

p("C77", "Sources and patches are edited where they are in the spec file",
  "sources() and patches() give the source tags of the preamble and all entries of the source lists of the spec file; when the block ends, tags and lists are written where they were read and every other line stays as it was. A block that changes nothing leaves the spec file as it was. add_patch puts a tag with the right number after the last patch, or raises and changes nothing.",
  "every spec file, any number of source lists, every change of the sources",
  "Several sections are read and written at once; their number and position are arbitrary.",
  ["specfile/specfile.py: Specfile.sources, Specfile.patches, Specfile.add_patch"])
p("C78", "Pre-release versions are written with a tilde",
  "update_version writes a pre-release suffix recognised by the pattern behind a tilde instead of its delimiter and puts the macro definition that controls it into effect, otherwise it comments this definition out; only the lines of the definition change apart from what updating the Version tag changes. Without a pattern it updates the Version tag. A pattern without a group is rejected and nothing changes.",
  "every spec file, every version, every pattern, all macro definitions and styles",
  "Pattern, version and macro definitions are arbitrary, and any of them may be missing.",
  ["specfile/specfile.py: Specfile.update_version"])

p("C79", "Exactly the updated macros and tags are written back",
  "update_value looks at the valid macro definitions without options and the valid tags whose names are not protected, in the order of their lines, taking macros that are commented out or expand to nothing as disabled. Afterwards an updated macro has its new body and is in effect, a macro that was to be enabled or disabled is, an updated tag has its new value, and every other definition and tag is what it was.",
  "every spec file that is written as it is read, every value, request, position and protection",
  "Spec files have any number of macros and tags, and which of them are updated follows from a recursive search.",
  ["specfile/specfile.py: Specfile.update_value"])
p("C80", "An updated value reads as requested",
  "update_value returns either the requested value itself or the given value with other literal text, such that it reads as the requested value in the updated spec file: every macro or tag it refers to was updated, in the same sense, to the text that is needed at this place. Macros are kept whenever some choice of values for the references makes the value read as requested, unless a macro would refer to itself.",
  "every value and request, all macros and tags and all dependencies between them, every expansion",
  "Updates recurse through macros that refer to macros; values, requests and dependencies are unbounded.",
  ["specfile/specfile.py: Specfile.update_value", "specfile/value_parser.py: ValueParser.construct_regex"])
p("C81", "update_tag updates the tag it is asked for",
  "update_tag takes the value of the tag with this name that counts and its line, updates this value, and writes the result to the tag with this name; the tag then reads as requested. Apart from updated macros and tags nothing changes.",
  "every spec file that is written as it is read, every tag name, every request and protection",
  "The tag is looked up twice with an update of the spec file in between; spec files are arbitrary text.",
  ["specfile/specfile.py: Specfile.update_tag"])
p("C82", "force_parse makes up exactly the files that are needed",
  "When RPM does not accept a spec file and force_parse is set, dummies are made for the missing ones of exactly those files in the source directory that the spec file includes with %include or loads with %{load:...}, and, with content, of those to which shell expansions in tag values refer when the value would be empty. References are found completely, across continued lines and inside of conditional macros. If the spec file cannot be parsed, the exception is RPMException.",
  "every spec file, every behaviour of RPM, every set of existing files",
  "Directives, conditionals and references combine arbitrarily; a test sees only single spec files, and what RPM needs depends on the spec file.",
  ["specfile/spec_parser.py: SpecParser._do_parse"])

p("C83", "Editing one container of tags never changes another",
  "Whatever is parsed, copied and edited in whatever order: inserting, deleting and changing tags and comments in one Tags object changes that object exactly as described for it alone and leaves every other Tags object, and what it would write, unchanged, unless both hold the same Tag.",
  "every program that parses, copies and edits, with any number of containers, including operations that raise",
  "Sharing of mutable objects shows only in particular orders of operations on particular copies; a test tries a few of them.",
  ["specfile/tags.py: Tags, Tag, Comments", "specfile/tags.py: Tags.copy", "specfile/tags.py: Tag.__deepcopy__"])
p("C84", "Definitions, tags and listed sources are valid exactly if RPM would use their line",
  "The valid attribute of a macro definition, a tag or an entry of %sourcelist/%patchlist tells whether the line it begins on is in use, that is, whether all the branches of conditions around this line are taken; macro definitions that are read without conditions are all valid.",
  "every list of lines, every macro-expansion oracle, every object found in them",
  "Objects consume varying numbers of lines, so an object could get the validity of another line; the claim ranges over all arrangements of conditions, comments and multi-line objects.",
  ["specfile/macro_definitions.py: MacroDefinitions._parse", "specfile/tags.py: Tags.parse", "specfile/sourcelist.py: Sourcelist.parse", "specfile/conditions.py: process_conditions"])

p("C85", "Capturing stderr loses nothing and restores everything",
  "capture_stderr gives exactly the lines that were written to stderr within its block, and afterwards stderr is the file it was before, every other open file is untouched and no file descriptor is left open, however the block ends: also if it raises, if blocks are nested, and if there are no free file descriptors.",
  "every block, whatever it writes and however it ends, every state of the open files, every depth of nesting",
  "File descriptors run out only in long-lived processes, and blocks may raise, be nested and write any amount of text; a test sees one such case at a time.",
  ["specfile/context_management.py: capture_stderr"])
p("C86", "RPMException shows the first error of RPM",
  "The text of an RPMException is the message of the first line of the output of RPM that reports an error, complete and without the prefix and the newline; if no line does, it is the whole output. Converting the exception to text never raises.",
  "every output of RPM",
  "The output of RPM contains text of the spec file, which is arbitrary.",
  ["specfile/exceptions.py: RPMException"])
p("C87", "The packager is looked up in the documented order",
  "guess_packager takes the variable RPM_PACKAGER if it is set, even if empty, otherwise the macro %packager if it is defined, otherwise the name configured in git, or the name of the user if there is none, with the e-mail address configured in git if there is one; the e-mail address alone if there is no name. If nothing is found the result is empty; no exception is raised.",
  "every environment, every macro context, every configuration of git, every user database",
  "The result combines five independent sources, each of which may be missing, empty or failing.",
  ["specfile/changelog.py: guess_packager"])
p("C88", "Equal objects write the same text",
  "Comparing with == is an equivalence relation, and two equal objects write the same lines: changelogs, definitions of macros, tags, lists of sources, sections, macros in %prep and whole spec files. What is read twice from the same lines is equal, whatever values macros have.",
  "every two objects of the same kind, every text they are read from",
  "Equality quantifies over all pairs of objects; a test compares a few of them and does not see what the comparison leaves out.",
  ["specfile/changelog.py: ChangelogEntry.__eq__", "specfile/macro_definitions.py: MacroDefinition.__eq__", "specfile/tags.py: Comment.__eq__, Tag.__eq__", "specfile/sourcelist.py: SourcelistEntry.__eq__", "specfile/prep.py: PrepMacro.__eq__, Prep.__eq__", "specfile/options.py: Positionals.__eq__", "specfile/spec_parser.py: SpecParser.__eq__", "specfile/specfile.py: Specfile.__eq__", "specfile/sections.py: Section, Sections"])
p("C89", "Options can be used like a dictionary",
  "For options of a macro in %prep, key in options holds exactly for the keys that are iterated, options[key] raises KeyError for the others, options.get and options.setdefault use the default for them, options.pop and options.popitem give the value of an option and remove it and nothing else, and options.clear ends and removes all options and nothing else.",
  "every token list, every option string specification, every key and value",
  "The methods are inherited from abstract base classes and call each other in a loop over unbounded token lists.",
  ["specfile/options.py: Options.__getitem__, Options.__setitem__, Options.__delitem__, Options.__iter__, Options.__len__"])

p("C90", "List methods of containers touch the lines of their elements only",
  "The containers handed out by the contexts are lists. append, extend, += and insert add the lines of the new elements at the place given and keep all others; pop returns the element at the index and removes its lines only; remove removes the given element, index finds it and count counts the elements equal to it; clear removes the elements; reverse and assignment move and replace whole elements. Lines that belong to no element are kept by all of them, as they are by del.",
  "all containers of changelog entries, macro definitions, %prep macros, sections, listed sources, tags and comments; all elements and indices",
  "The methods are inherited and the tests never call most of them; which lines survive depends on what is between the elements.",
  ["specfile/changelog.py:198-263", "specfile/macro_definitions.py:152-260", "specfile/prep.py:156-253", "specfile/sections.py:140-215", "specfile/sourcelist.py:81-125", "specfile/tags.py:68-169", "specfile/tags.py:306-480"])

p("C91", "A source is remote exactly if its location is a URL",
  "For every source or patch, remote is true exactly if the location with macros expanded is a URL with a scheme and a non-empty host, and false for every other location, including one that cannot be expanded; it never raises.",
  "every expanded location",
  "The decision is made by a general URL parser on texts of any length and form; tests try a handful of typical locations.",
  ["specfile/sources.py:50-54"])

p("C92", "Files are written when they are saved, and only then",
  "After a with block of a Specfile object, also one left by an exception, the file at the path the object then has contains the text of the object, with all edits made before the exception, and the caller gets that exception. Without autosave, save or such a block no file is written; with autosave the file has the text of the object whenever no block is open. No other file is ever touched. If writing fails the object keeps all edits and can be saved elsewhere. reload replaces the object by what is in the file, wherever it is called, and later edits are made to that.",
  "every program of nested blocks, edits, saves, reloads, changes of path and autosave, and exceptions; every file system; every accessor of the lines",
  "Programs nest blocks, exceptions and saves in unboundedly many ways; tests save once and look at one file.",
  ["specfile/specfile.py:66-76", "specfile/specfile.py:103-135", "specfile/specfile.py:180-186", "specfile/specfile.py:224-268", "specfile/context_management.py:108-145"])

p("C93", "Elements can be read, set and deleted as attributes",
  "For tags, macro definitions and sections, reading the attribute with the name of an element gives the first valid element of that name, or the first one; assigning a value or an element to it changes that element and no other, and reading gives what was assigned; deleting removes that element and keeps all others. If there is no such element, all three raise AttributeError and change nothing. The same holds for macros in %prep, and for elements of any name.",
  "every container of any length and content, every name, every program of assignments, deletions and list operations",
  "Attribute access is intercepted for all names, including those that the objects use themselves; tests read and assign a few names that exist.",
  ["specfile/tags.py:391-424", "specfile/macro_definitions.py:160-226", "specfile/sections.py:170-203", "specfile/prep.py:224-238", "specfile/prep.py:278-286"])

p("C94", "Bytes that are not UTF-8 survive loading, editing and saving",
  "A spec file may contain any bytes. It can be opened; bytes that are not UTF-8 are read as lone surrogates and all others as the characters they encode. Saving without a change leaves the file as it was; replacing a line changes the bytes of that line only; what is saved is the text of the object, which is read again from the file; a text that cannot be saved leaves the file as it was. RPM gets to read the bytes of the file.",
  "every sequence of bytes, every line of it, every replacement",
  "There are infinitely many invalid sequences, overlong and truncated ones among them, and where they end is decided byte by byte; tests have only files in UTF-8.",
  ["specfile/specfile.py:66-79", "specfile/specfile.py:100-101", "specfile/specfile.py:122-125", "specfile/specfile.py:180-186", "specfile/spec_parser.py:220-233"])

p("C95", "Slices, sums, products and copies of containers",
  "A slice of a container has the elements at the positions Python says, in that order, and a copy has all of them; both are written with the lines of those elements and with the lines that belong to no element. A sum or product of containers is written with the lines of the elements of the operands and keeps the lines that belong to no element. Assigning to a slice replaces the elements at its positions and nothing else, or raises and changes nothing; deleting a slice removes exactly its elements and keeps the lines between them and their neighbours. Sections, whose elements are lines, behave the same way.",
  "all containers, all bounds and steps, all elements",
  "Seven classes inherit or override each operator separately; bounds and steps have infinitely many combinations, and tests slice small containers without other lines.",
  ["specfile/changelog.py:241-245", "specfile/macro_definitions.py:224-228", "specfile/prep.py:201-205", "specfile/sections.py:96-103", "specfile/sourcelist.py:118-125", "specfile/tags.py:118-148", "specfile/tags.py:353-357"])

p("C96", "Editing one changelog, %prep, list of sections, sources or macro definitions never changes another",
  "However containers were made (parsed, copied with copy(), sliced, deep-copied, or given elements of each other), an edit of one of them changes what that container writes and nothing else: the other containers still write the same lines, and each container is at the end as if the containers were values. A deep copy may be edited in every way. An element that is in two containers is the same object in both, so assigning to its attributes shows in both.",
  "all programs of parsing, copying, slicing, deep copying and editing any number of containers, all elements, exceptions included",
  "Whether two containers share an object depends on the whole history of a program; tests edit one container at a time and compare that one only.",
  ["specfile/changelog.py:241-263", "specfile/macro_definitions.py:224-248", "specfile/prep.py:201-241", "specfile/sections.py:205-206", "specfile/sourcelist.py:118-125"])

p("C97", "Repeating an update changes nothing",
  "If a value is updated to a request, whatever combination of macro definitions, tags and literal text was changed to get there, then updating the resulting value to the same request again gives the same value and changes no macro definition, no tag and no line of the spec file.",
  "every spec file, every value and every request, whatever macros and tags the value depends on",
  "The second update starts from text that the first one has written: other expressions are matched against the request, and other macros and tags could be chosen. Tests run each update once.",
  ["specfile/specfile.py:719-929", "specfile/value_parser.py: ValueParser.construct_regex"])

p("C98", "The representation of an object is an expression for an equal object",
  "Evaluating the text that repr() gives for an object of this library creates an object of the same class with the same values in all of its attributes and nested objects.",
  "every object of every class of the library that has a representation of its own, with any values of its attributes",
  "The arguments are printed in an order that has to be the one of the parameters, for every class, and constructors normalise or refuse what attributes may contain later; tests evaluate a few representations of simple objects.",
  ["specfile/*.py: __repr__ and __init__ of all classes", "specfile/formatter.py: formatted"])

p("C99", "Edits of different parts of a spec file can be made in any order",
  "Blocks of code that access different sections with tags(), changelog() or prep(), one after another, give the same spec file in any order: each section has the lines its block makes of the original ones, all other sections stay as they are, and each block has the same result as it would have alone. The same holds for setting two different tags of the preamble, for setting two different macro definitions, and for changing sources or patches, tags or %prep before or after add_changelog_entry() or each other.",
  "every spec file, any number of blocks of different sections doing anything with their objects, in any order; also blocks that raise an exception, sections that cannot be parsed and sections that do not exist",
  "Every block parses the whole spec file again and writes all of it, so that each order is another sequence of parsing and writing; the number of orders grows with the factorial of the number of blocks.",
  ["specfile/specfile.py: Specfile.sections", "specfile/specfile.py: Specfile.tags", "specfile/specfile.py: Specfile.changelog", "specfile/specfile.py: Specfile.prep", "specfile/specfile.py: Specfile.macro_definitions", "specfile/sections.py: Sections.parse"])

p("C100", "Undoing an edit restores the text",
  "An edit followed by the opposite edit leaves the object, and so the text, exactly as it was: a tag inserted into the tags or a definition inserted into the macro definitions and deleted again; a changelog entry added and deleted again; a %patch macro added with add_patch_macro() and removed with remove_patch_macro(); a source or patch appended and deleted again; an option with an argument set and deleted; a tag or the body of a macro set to another value and set back.",
  "every list of tags, definitions or %prep macros and every position in it, every changelog, all options, all values that can be read back",
  "Each pair of edits moves lines between neighbouring items (comments, empty lines, %endif) in a way that depends on all of them; tests compare the result of single edits with literals, they do not check that every edit has an inverse.",
  ["specfile/tags.py: Tags.insert, Tags.__delitem__", "specfile/macro_definitions.py: MacroDefinitions.__delitem__", "specfile/changelog.py: Changelog.__delitem__", "specfile/specfile.py: Specfile.add_changelog_entry", "specfile/prep.py: Prep.add_patch_macro, Prep.remove_patch_macro", "specfile/sources.py: Sources.insert, Sources.__delitem__", "specfile/options.py: Options.__setattr__, Options.__delattr__"])
p("C101", "After any sequence of assignments everything has the value assigned last",
  "Tags of the preamble (or bodies of macros) are set any number of times, in any order, each time in a context of its own: no assignment raises, and in the end the text is the original text with each value replaced by the one assigned last. Options with arguments that are set any number of times read as the last values, all others as before. Two sequences with the same last values make the same text, and a sequence that ends with the old values gives the old text.",
  "every spec file, every sequence of assignments to tags or macros that have one definition each, of values that can be read back",
  "Every assignment reads the text made by all those before it; tests set one value, or two, of literal spec files, the claim is about sequences of any length.",
  ["specfile/specfile.py: Specfile.tags, Specfile.macro_definitions", "specfile/tags.py: Tags.__setattr__, Tags.parse, Tags.get_raw_section_data", "specfile/macro_definitions.py: MacroDefinitions.__setattr__, MacroDefinitions.parse, MacroDefinitions.get_raw_data", "specfile/sections.py: Sections.parse, Sections.get_raw_data", "specfile/options.py: Options.__setattr__, Options.__getattr__"])
p("C102", "Adding changelog entries one after the other keeps the whole history",
  "Any number of entries are added, each time the changelog is read from the text made by the additions before: in the end the changelog lists all entries that were there, unchanged and in the same order, and then one entry for each addition with its date, author, EVR and content, in the order of the additions. In the text the new entries stand above the old ones, the newest first, separated by empty lines, and every other line is as it was, also those of the other sections of the spec file.",
  "every text of a changelog section, every sequence of additions with contents that are not empty and do not look like further entries",
  "Where an entry ends is decided by the lines after it, so an added entry can swallow or split others when the text is read again; tests add one entry to a literal changelog.",
  ["specfile/specfile.py: Specfile.add_changelog_entry", "specfile/changelog.py: Changelog.parse, Changelog.get_raw_section_data, ChangelogEntry.assemble"])
p("C103", "Bumping a release n times adds n to one number",
  "After any number n of bumps the release is the one before with a single decimal number incremented by n, the same one each time, and everything else unchanged, or, if there was no number to bump, with a dot and n appended. Calling bump_release() n times on a spec file changes the Release tag, or the first macro definition named like the release if there is one, in this way and nothing else.",
  "every release that is not empty and has one line, every number of bumps",
  "Which number is bumped is decided anew from the result of the bump before; tests bump literal strings once.",
  ["specfile/specfile.py: Specfile._bump_release_string, Specfile.bump_release"])

with open(os.path.join(os.path.dirname(__file__), "..", "properties.jsonl"), "w") as f:
    for x in P:
        f.write(json.dumps(x) + "\n")
print(len(P))
