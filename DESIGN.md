# Formal model of packit/specfile (0.32.3)

Lean 4 model in `lean/Verif`, one module per Python module, with theorems that
quantify over every input, state or history. `properties.jsonl` lists the
properties (regenerated by `tools/gen_properties.py`), `MANIFEST.json` maps them
to theorem names, `seeded/LOG.jsonl` records the wrong-program experiments.

## Layout

* `Verif/Py/*`     – Python string primitives (`str` as `List Char`), character classes, `splitlines`, `strip`, `join`, `int`.
* `Verif/Regex/*`  – backtracking regular-expression engine with Python's priority order; the regexes of the code are written as terms of this AST.
* `Verif/Model/*`  – the code, function by function; each definition cites file and lines.
* `Verif/Spec/*`   – independent small specifications (where the property is not directly expressible by list/string equalities).
* `Verif/Proof/*`  – helper lemmas.
* `Verif/Props/*`  – the property theorems, each followed by concrete cases meeting its hypotheses, and counterexample theorems where the code violates the full property.

## Trusted base

* Lean's kernel; the axioms `propext`, `Classical.choice`, `Quot.sound` (at most; checked with `#print axioms` in `Verif/Audit.lean`).
* The transcription of Python to Lean (comments cite lines). Python `str` is a list of Unicode scalar values (lone surrogates are not modelled).
* Unicode tables (`\w`, `\d`, `str.isalnum`, `str.lower`, …) are a class `Uni` with laws; ASCII behaviour is fixed by the laws, the rest is arbitrary, so theorems hold for every table that satisfies the laws. An instance shows the laws are consistent.
* RPM (`rpm.expandMacro`, `rpm.spec`, `rpm.labelCompare`, `rpm.addMacro/delMacro`) is external: it is a parameter (an arbitrary function or an arbitrary transition), never axiomatised.
* In the model of the parser, RPM changes neither the source directory nor `os.environ`, expansion does not change the macro table, the hash of the parse inputs is injective, and a link in the source directory points to a name in the same directory that is no link.
* User-supplied regular expressions and hooks are opaque parameters.

## Properties: what is modelled and how it is proved

| id | model | proof |
|----|-------|-------|
| C01 | `_read_lines` (splitlines, trailing newline test), `__str__`, `save` on a file-content state | induction over the text; exact characterisation of the contents for which it holds, counterexamples for the empty file and foreign separators |
| C02 | `MacroDefinitions._parse` line by line with its two regexes, `get_raw_data` | invariant of the parsing loop ("lines consumed = lines emitted"); `_partial` because of three real violations, each proved by witness |
| C03 | `Sections.parse` and `get_raw_data` over the option tokenizer | loop invariant; `_partial` under "header options round-trip" (C10) |
| C04 | `Tags.parse`, `Comments.parse`, `get_raw_section_data` | loop invariant; `_partial` |
| C05 | `Sourcelist.parse` | loop invariant, full |
| C06 | `Changelog.parse` | loop invariant, full |
| C07 | `Prep.parse` | loop invariant; `_partial` (conditional-wrapped non-macro lines) |
| C08 | `Comments.parse` | full |
| C09 | `ValueParser.parse` with fuel proved sufficient | strong induction; `_partial` (argument whitespace normalisation), unconditional modulo whitespace |
| C10 | `Options.tokenize`, `Token.__str__` | automaton invariant; `_partial` |
| C11–C13 | `process_conditions` with the expander as an oracle | loop invariant; refinement against a block-structured semantics |
| C14–C18 | list operations on parsed objects | direct list reasoning |
| C19 | `Sections.find/get/…` | list reasoning |
| C20 | `ChangelogEntry.assemble` + `Changelog.parse` | re-parse theorem |
| C21, C22 | `find`, `get_position` | list induction |
| C23–C28 | `Sources` over a state of tag containers and sourcelists, `Specfile.add_patch` | refinement to a flat list of (location, number); invariants over histories |
| C29–C32 | `Options`, `Positionals` over token lists, with the methods inherited from `MutableSequence` (Model/OptionsMapping) | list induction, `_partial` where the code is wrong |
| C33 | regexes of EVR/NEVR/NEVRA | regex inversion lemmas and priority arguments |
| C34 | comparison operators over an arbitrary lawful label comparison | order laws; hash contract refuted by witness |
| C35, C36 | release splitting and bumping regexes | regex inversion |
| C37 | `update_value` on the lines of the spec file, with both parsers | invariants of the entities by induction on the depth; edits as relations between parsed spec files |
| C40, C41 | `SpecParser.parse` as a transition system with a global macro context | invariant over histories (`Sound`); the start context is determined; violation witnesses |
| C42, C43 | file system and environment as maps, failure oracles for every write and removal | induction over sources; `MoreFiles` as invariant when anything may fail |
| C44 | `Macros.remove` loop over a macro table with stacks | induction over the stack, fuel only bounds the loop |
| C71 | `Macros._parse` with its regex | regex characterisation; the listing as a relation |
| C72 | `_do_parse` with all three attempts | composition of C42 with an arbitrary `rpm.spec` |
| C73 | `construct_regex` and `Template.substitute` | parts of a value as a relation; soundness and completeness of the regex by induction over tokens |
| C77, C78 | `sources()`, `patches()`, `add_patch` and `update_version` on the lines of a spec file | lists of sections as relations; composition with C28 and C55 |
| C79, C80, C81 | what `update_value` collects, writes back and returns; `update_tag` | `Reading`: an inductive relation for values that read as requested through any number of macros; tree-like dependencies keep nested updates apart (rely/guarantee over texts) |
| C82 | `collect_included_sources`, `collect_loaded_sources`, `collect_sources_referenced_from_tags` | inductive relations for continued directives, nested nodes and complete references, each equivalent to what the code finds |
| C83 | `Tags`, `Tag`, `Comments` as objects in memory (Model/Heap): construction, copies, deletion, insertion, edits | ownership invariant (no object occurs twice, containers are disjoint), frame lemmas, refinement of the operations on values |
| C84 | `MacroDefinitions.parseLoop`, `Tags.parseLoop`, `Sourcelist.parseLoop` | position of each object in the lines, flag of this line, C12 |
| C85 | `capture_stderr` on a table of file descriptors (Model/Stderr) | the block as an arbitrary well-behaved function; refinement to the text it prints, closed under nesting |
| C86 | `RPMException.__str__` | list reasoning |
| C87 | `guess_packager` (Model/Packager), environment, git and user database as parameters | equivalence with an inductive relation |
| C88 | `__eq__` of all containers (Model/Equality); macros in %prep compare option values, which may raise | equivalence relations by pulling back along projections, list induction |
| C89 | `Options` as a mapping, with the methods inherited from `MutableMapping` (Model/OptionsMapping) | induction over the number of tokens, pieces of an option string |
| C90 | the methods inherited from `UserList`, over a class of containers (Model/ListMethods) | one proof for all containers from how they are written, list splitting; del against pop branch by branch |
| C91 | `remote` with `urllib.parse.urlsplit`; the tests of addresses and of non-ASCII hosts are parameters | splitting and uniqueness of prefixes; exact characterisation of results and errors |
| C74–C76 | `Specfile` operations on the lines of a spec file: `_tag`, `release`, `set_version_and_release`, `bump_release`, `add_changelog_entry` | composition of the parsers with list reasoning; changelog entries as a relation between lists of sections |
| C45–C48 | utilities | list/string induction |
| C49 | `fmt` on an expression AST with a token-level reader; the loop that hides `<...>` objects behind literals, with Python's parser as a parameter | structural induction; first occurrence of a literal by the absence of a quote before `<` |
| C50 | `Prep.add_patch_macro/remove_patch_macro` | list reasoning |
| C51 | flattening of value nodes | structural induction |
| C52 | composition of section and tag parsing/writing | re-parse theorem |
| C53 | `ValueParser.parse` | induction over the parser |
| C54 | `MacroDefinitions._parse` on written definitions | exact behaviour of the regex (first match in backtracking order) on every readable definition |
| C55 | `__setattr__`, `get_raw_data` | list reasoning |
| C56, C57 | `Comments` list operations, the regex of tag names | list reasoning, regex inversion |
| C58, C59 | `Section.id`, `is_script` | direct, re-parse of the header |
| C60, C61 | the regexes of changelog headers | exact behaviour of `evr` (first match in backtracking order); language semantics of group-free regexes for the two searches |
| C62 | `ChangelogEntry.assemble` | the assembled text is in the languages of C60 and C61 |
| C65–C67 | `Prep.parse`, `PatchMacro.number`, `PrepMacros` | regex characterisation; options read as pieces; deletion against the list of lines |
| C01, C68 | `Text.readLines`, `text`, `save`, `reload` | `splitlines` characterised; exact set of stable contents |
| C49 | `Formatter.fmt` on token pieces, `formatExpression`/`formatted` on text | independent parser of the Python subset; layout specification |
| C38, C69 | `Context.step`: handles, generators and their write-back as a transition system | invariant of reachable states; ownership of a key along a history |
| C39, C70 | `Access.run`: programs of nested `with` blocks over arbitrary parsers (`Codec`), instantiated with the real ones | refinement to a semantics in which every open object has its own place (`Spec.effect`), with `sources()` and `patches()` sharing the object of `tags()`; frame invariant |
| C92 | `Lifecycle.run`: programs over one `Specfile` object and a file system, lists of lines with identity | one induction principle for invariants of programs (`run_induct`); pure semantics of line edits (`Spec.does`) |
| C93 | `Attributes.getattr/setattr/delattr` over any container (`Kind`) with the attributes the Python object has itself; `Attributes.Defs` for the construction of macro definitions | laws of the three kinds proved once (`Attributes.laws`), theorems generic in the kind |
| C94 | `Bytes`: UTF-8 with `surrogateescape` over lists of bytes and code points, lines of code points, `save`, `forRpm`, `construct` | `Spec.Encodes`/`Utf8`/`ReadAs` state UTF-8 by arithmetic; induction over the file with one step per sequence or escaped byte |
| C95 | `Slices`: slices, operators and copies over the class of containers of C90, comments and sections on their own | `Spec.Denotes` states the positions of a slice by bounds and divisibility, unique by sortedness; list splitting as for C90 |
| C96 | `Sharing`: one typed memory for five kinds of containers, with `copy`, slices, deep copies, edits and elements put into other containers | refinement to containers as values for programs that a static analysis (`Spec.Marks`) accepts; frame lemma per edit; equivalences for deleting in a shallow copy |
| C97 | `Update.update`, `Template.construct` run twice | a request that fits gives a rewritten value the same template again (`construct_repeat`); induction over the first run gives `Settled`, a derivation that the second run follows |
| C98 | `__repr__` as expressions (Model/Repr), `__init__` with parameters and defaults, evaluation of expressions (Model/Construct), the printed text (Model/ReprText); `repr` of constants and its inverse are parameters | evaluation of calls and displays element by element; structural induction over nodes; parser-made tags and nodes meet the conditions of the constructors |
| C99 | blocks of `tags`, `changelog`, `prep` one after another on the lines of a spec file (Model/Blocks) | specification of the merged sections by index; invariant over the blocks done so far; sections written properly are read back (C19); operations local to some headers (Spec/Local) commute |
| C100 | inserting and deleting tags, definitions, entries, `%patch` macros and options; values set and set back | specification of the place of a new tag by its lines (Spec/Undo); both edits computed on the list split at the place; reading back (C20, C52) for the text |
| C101 | sequences of assignments to tags and macros, each in a context of its own | the last value by a search from the end of the sequence (Spec/History); induction over the sequence from its end, reading back (C52, C54) in each step |
| C102 | sequences of added changelog entries | the list of the new entries and the lines (Props/History3); induction over the sequence, reading back (C20) in each step; for spec files (Props/History4, History5) reading the sections back (C19) in each step |
| C103 | any number of bumps of a release | the parts of a release (Spec/Release); a number found once is found again (C36), induction over the number of bumps; for spec files (Props/Bumps2) with C75 and reading back (C52) in each step, with a macro for the release (Props/Bumps3) with reading back of definitions (C54) |
| C63, C64 | the same model, Model/SourcesMethods (inherited methods) | refinement to lists; format of new and renumbered tags against their neighbours |

## Not modelled

Logging, `rpm` itself, copies of a `Specfile` as a whole (those of its parts are: C83, C95, C96), file system metadata (owners, permissions), locale, threads (the library is not thread-safe and does not claim to be).

## Deviation from the rules for /repo

On 2026-11-16 at 14:01 UTC a Python command meant to print the source of `collections.UserList` was started in
/repo/specfile. The interpreter imported `/repo/specfile/types.py` in place of the standard module `types` (it stopped at
the missing `typing_extensions`) and wrote `/repo/specfile/__pycache__/types.cpython-311.pyc`. The file and the directory
were removed at once; no source file was changed, and nothing in the model rests on that run.
