import Verif.Model.Repr
import Verif.Model.Tags
import Verif.Model.Sections
/-
The methods `__init__` of the classes of /repo/specfile, with the order, the names and the defaults of their
parameters, and the evaluation of expressions made of constants, displays and calls of these classes.

Parameters (`Python`) are the literals of Python, what there is to be read under a path, and the directory of a path.
Calls with arguments of other types than the annotated ones are left out, the result is `none`, like that of a call that
raises an exception. The binding of arguments and the evaluation (from `keyword` and `elements` on) are those of Python,
for which there is no line in /repo: they serve to read what changelog.py:83 etc. print. Copies made by the constructors are not visible, as nothing else refers to the arguments.
-/
namespace Specfile.Construct
open Py Formatter Representation
open Options (Opts Val)
open Equality (SpecKey ParserKey)

/-- the objects that expressions can stand for; the classes of /repo/specfile, changelog.py:38 etc. -/
inductive Obj where
  | lit (c : Lit)
  | list (l : List Obj)
  | tuple (l : List Obj)
  | dict (l : List (Lit × Obj))
  | path (p : Str)
  | parser (p : ParserKey)
  | spec (s : SpecKey)
  | comment (c : Comment)
  | comments (c : Comments)
  | tag (t : Tag × Option SpecKey)
  | tags (data : List (Tag × Option SpecKey)) (remainder : List Str)
  | entry (e : ChangelogEntry)
  | changelog (c : Changelog)
  | listed (e : SourcelistEntry × Option SpecKey)
  | sourcelist (l : List (SourcelistEntry × Option SpecKey) × List Str)
  | tokenType (t : TokenType)
  | token (t : Token)
  | options (o : Opts)
  | positionals (o : Opts)
  | style (s : CommentOutStyle)
  | definition (m : MacroDefinition)
  | definitions (m : MacroDefinitions)
  | level (n : Int)
  | rpmMacro (m : Macro)
  | sect (s : Section)
  | sections (s : Sections)
  | prepMacro (m : PrepMacro)
  | prepMacros (p : Prep)
  | prep (p : Prep)
  | tagSource (patch : Bool) (t : Tag × Option SpecKey) (number : Option Int)
  | listSource (patch : Bool) (e : SourcelistEntry × Option SpecKey) (number : Int)
  | sources (s : SourcesObj)
  | node (n : Node)
  | evr (x : EVR)
  | nevr (x : NEVR)
  | nevra (x : NEVRA)

/-- what the evaluation depends on: `repr` backwards; reading and parsing the file with a path, specfile.py:76-80;
`path.parent`, specfile.py:78; the names of architectures, utils.py:164. `member` is what text in angle brackets stands
for: nothing in Python, it is there to say what would be if members of enumerations were printed by their names. -/
structure Python where
  literal : Str → Option Lit
  member : Str → Option Obj := fun _ => none
  read : Str → Option Text.Content
  parent : Str → Str
  arches : List Str

/-! ### arguments -/

/-- a parameter of type `str`, changelog.py:51 etc. -/
def asStr : Obj → Option Str
  | .lit (.str s) => some s
  | _ => none

/-- a parameter of type `bool`, tags.py:213 etc. -/
def asBool : Obj → Option Bool
  | .lit (.bool b) => some b
  | _ => none

/-- a parameter of type `int`, utils.py:22 etc. -/
def asInt : Obj → Option Int
  | .lit (.int n) => some n
  | _ => none

/-- `None` or something else, tags.py:216 etc. -/
def orAbsent (f : Obj → Option α) : Obj → Option (Option α)
  | .lit .none => some none
  | x => (f x).map some

/-- the arguments of all elements -/
def asAll (f : Obj → Option α) : List Obj → Option (List α)
  | [] => some []
  | x :: xs => match f x with
    | none => none
    | some a => (asAll f xs).map (a :: ·)

/-- a parameter of type `List`, changelog.py:52 etc. -/
def asList (f : Obj → Option α) : Obj → Option (List α)
  | .list l => asAll f l
  | _ => none

/-- `data.copy() if data is not None else []`, changelog.py:65-67 etc. -/
def orEmpty (f : Obj → Option α) (x : Obj) : Option (List α) := (orAbsent (asList f) x).map (·.getD [])

/-- a parameter that may be `None` for an empty text, tags.py:241-242, prep.py:56-57, options.py:240 -/
def asText (x : Obj) : Option Str := (orAbsent asStr x).map (·.getD [])

/-- a path, or its text; specfile.py:55-56 -/
def asPath : Obj → Option Str
  | .path p => some p
  | .lit (.str s) => some s
  | _ => none

/-- an element of `macros`, specfile.py:58 -/
def asPair : Obj → Option (Str × Option Str)
  | .tuple [a, b] => match asStr a, orAbsent asStr b with
    | some a, some b => some (a, b)
    | _, _ => none
  | _ => none

/-- a parameter of the type `Specfile`, tags.py:216 etc. -/
def asSpec : Obj → Option SpecKey
  | .spec s => some s
  | _ => none

/-- tags.py:79 -/
def asComment : Obj → Option Comment
  | .comment c => some c
  | _ => none

/-- tags.py:212, sourcelist.py:33 -/
def asComments : Obj → Option Comments
  | .comments c => some c
  | _ => none

/-- tags.py:327, sources.py:78 -/
def asTag : Obj → Option (Tag × Option SpecKey)
  | .tag t => some t
  | _ => none

/-- sources.py:246 -/
def asTags : Obj → Option (List (Tag × Option SpecKey) × List Str)
  | .tags d r => some (d, r)
  | _ => none

/-- changelog.py:210 -/
def asEntry : Obj → Option ChangelogEntry
  | .entry e => some e
  | _ => none

/-- sourcelist.py:91, sources.py:175 -/
def asListed : Obj → Option (SourcelistEntry × Option SpecKey)
  | .listed e => some e
  | _ => none

/-- sources.py:247 -/
def asSourcelist : Obj → Option (List (SourcelistEntry × Option SpecKey) × List Str)
  | .sourcelist l => some l
  | _ => none

/-- options.py:31 -/
def asTokenType : Obj → Option TokenType
  | .tokenType t => some t
  | _ => none

/-- options.py:224 -/
def asToken : Obj → Option Token
  | .token t => some t
  | _ => none

/-- prep.py:37, sections.py:44, options.py:68 -/
def asOptions : Obj → Option Opts
  | .options o => some o
  | _ => none

/-- a value of `defaults`, options.py:226 -/
def asValue : Obj → Option Val
  | .lit (.bool b) => some (.bool b)
  | .lit (.int n) => some (.int n)
  | .lit (.str s) => some (.str s)
  | _ => none

/-- the items of `defaults`; names of options are single characters; options.py:226 -/
def asDefaults : List (Lit × Obj) → Option (List (Char × Val))
  | [] => some []
  | (.str [c], v) :: l => match asValue v, asDefaults l with
    | some v, some l => some ((c, v) :: l)
    | _, _ => none
  | _ => none

/-- options.py:226 -/
def asDict : Obj → Option (List (Char × Val))
  | .dict l => asDefaults l
  | _ => none

/-- macro_definitions.py:52 -/
def asStyle : Obj → Option CommentOutStyle
  | .style s => some s
  | _ => none

/-- a tuple of four texts, macro_definitions.py:53 -/
def asFour : Obj → Option (Str × Str × Str × Str)
  | .tuple [a, b, c, d] => match asStr a, asStr b, asStr c, asStr d with
    | some a, some b, some c, some d => some (a, b, c, d)
    | _, _, _, _ => none
  | _ => none

/-- macro_definitions.py:162 -/
def asDefinition : Obj → Option MacroDefinition
  | .definition m => some m
  | _ => none

/-- macros.py:47 -/
def asLevel : Obj → Option Int
  | .level n => some n
  | _ => none

/-- `UserList.__init__`, sections.py:140 -/
def asSection : Obj → Option Section
  | .sect s => some s
  | _ => none

/-- prep.py:166 -/
def asPrepMacro : Obj → Option PrepMacro
  | .prepMacro m => some m
  | _ => none

/-- prep.py:265 -/
def asPrepMacros : Obj → Option Prep
  | .prepMacros p => some p
  | _ => none

/-- value_parser.py:131 -/
def asNode : Obj → Option Node
  | .node n => some n
  | _ => none

/-! ### binding of arguments to parameters -/

/-- parameters with their defaults: those that can be given by position, and those after `*`; utils.py:22 etc. -/
structure Signature where
  parameters : List (Str × Option Obj)
  keywordOnly : List (Str × Option Obj) := []

/-- a parameter without a default, changelog.py:51 etc. -/
def required (n : Str) : Str × Option Obj := (n, none)

/-- `= None`, changelog.py:53 etc. -/
def orNone (n : Str) : Str × Option Obj := (n, some (.lit .none))

/-- `= True` and `= False`, tags.py:213, specfile.py:57 etc. -/
def orBool (b : Bool) (n : Str) : Str × Option Obj := (n, some (.lit (.bool b)))

/-- a default that is a text, tags.py:51 etc. -/
def orStr (s n : Str) : Str × Option Obj := (n, some (.lit (.str s)))

/-- a default that is a number, utils.py:22 etc. -/
def orInt (i : Int) (n : Str) : Str × Option Obj := (n, some (.lit (.int i)))

/-- a keyword argument -/
def keyword (n : Str) (kws : List (Str × Obj)) : Option Obj := (kws.find? (fun k => k.1 == n)).map (·.2)

/-- the values of the parameters: by position, by keyword, or by default -/
def bindAll : List (Str × Option Obj) → List Obj → List (Str × Obj) → Option (List Obj)
  | [], [], _ => some []
  | [], _ :: _, _ => none
  | (n, _) :: ps, a :: as, kws =>
    if (keyword n kws).isSome then none else (bindAll ps as kws).map (a :: ·)
  | (n, d) :: ps, [], kws =>
    match (keyword n kws).or d with
    | none => none
    | some v => (bindAll ps [] kws).map (v :: ·)

/-- the values of all parameters; keywords that are no parameters are an error -/
def bindArguments (s : Signature) (pos : List Obj) (kws : List (Str × Obj)) : Option (List Obj) :=
  if kws.all (fun k => (s.parameters ++ s.keywordOnly).any (fun p => p.1 == k.1)) then
    match bindAll s.parameters pos kws, bindAll s.keywordOnly [] kws with
    | some a, some b => some (a ++ b)
    | _, _ => none
  else none

/-! ### the classes -/

/-- the classes, by their names; changelog.py:38 etc. -/
inductive Class where
  | path | parser | spec | comment | comments | tag | tags | entry | changelog | listed | sourcelist | token | options
  | positionals | definition | definitions | rpmMacro | sect | sections | prepMacro (k : PrepKind) | prepMacros | prep
  | tagSource (patch : Bool) | listSource (patch : Bool) | sources (patches : Bool)
  | literal | shell | expression | sub | encl | cond | builtin | evr | nevr | nevra

/-- changelog.py:38 and 198, macro_definitions.py:31 and 152, macros.py:30, options.py:22, 65 and 210, prep.py:95, 105,
137, 148, 156 and 257, sections.py:30 and 140, sourcelist.py:20 and 81, sources.py:75, 172, 237, 652, 656 and 660,
spec_parser.py:29, specfile.py:45, tags.py:42, 68, 197 and 306, utils.py:17, 87 and 161, value_parser.py:26, 45, 66,
73, 96, 128 and 159 -/
def classes : List (Str × Class) := [
  (s% "PosixPath", .path), (s% "SpecParser", .parser), (s% "Specfile", .spec), (s% "Comment", .comment),
  (s% "Comments", .comments), (s% "Tag", .tag), (s% "Tags", .tags), (s% "ChangelogEntry", .entry),
  (s% "Changelog", .changelog), (s% "SourcelistEntry", .listed), (s% "Sourcelist", .sourcelist), (s% "Token", .token),
  (s% "Options", .options), (s% "Positionals", .positionals), (s% "MacroDefinition", .definition),
  (s% "MacroDefinitions", .definitions), (s% "Macro", .rpmMacro), (s% "Section", .sect), (s% "Sections", .sections),
  (s% "SetupMacro", .prepMacro .setup), (s% "PatchMacro", .prepMacro .patch),
  (s% "AutosetupMacro", .prepMacro .autosetup), (s% "AutopatchMacro", .prepMacro .autopatch),
  (s% "PrepMacros", .prepMacros), (s% "Prep", .prep), (s% "TagSource", .tagSource false),
  (s% "TagPatch", .tagSource true), (s% "ListSource", .listSource false), (s% "ListPatch", .listSource true),
  (s% "Sources", .sources false), (s% "Patches", .sources true), (s% "StringLiteral", .literal),
  (s% "ShellExpansion", .shell), (s% "ExpressionExpansion", .expression), (s% "MacroSubstitution", .sub),
  (s% "EnclosedMacroSubstitution", .encl), (s% "ConditionalMacroExpansion", .cond), (s% "BuiltinMacro", .builtin),
  (s% "EVR", .evr), (s% "NEVR", .nevr), (s% "NEVRA", .nevra)]

/-- the class with a name -/
def classOf (f : Str) : Option Class := (classes.find? (fun c => c.1 == f)).map (·.2)

/-- the parameters of `__init__`; the lines are those of `build` -/
def signature : Class → Signature
  | .path => ⟨[required (s% "path")], []⟩
  | .parser => ⟨[required (s% "sourcedir"), orNone (s% "macros"), orBool false (s% "force_parse")], []⟩
  | .spec => ⟨[required (s% "path"), orNone (s% "sourcedir"), orBool false (s% "autosave"), orNone (s% "macros"),
      orBool false (s% "force_parse")], []⟩
  | .comment => ⟨[required (s% "text"), orStr (s% "# ") (s% "prefix")], []⟩
  | .comments => ⟨[orNone (s% "data"), orNone (s% "preceding_lines")], []⟩
  | .tag => ⟨[required (s% "name"), required (s% "value"), required (s% "separator"), required (s% "comments"),
      orBool true (s% "valid"), orNone (s% "prefix"), orNone (s% "suffix"), orNone (s% "context")], []⟩
  | .tags => ⟨[orNone (s% "data"), orNone (s% "remainder")], []⟩
  | .entry => ⟨[required (s% "header"), required (s% "content"), orNone (s% "following_lines")], []⟩
  | .changelog => ⟨[orNone (s% "data"), orNone (s% "predecessor")], []⟩
  | .listed => ⟨[required (s% "location"), required (s% "comments"), orBool true (s% "valid"), orNone (s% "context")], []⟩
  | .sourcelist => ⟨[orNone (s% "data"), orNone (s% "remainder")], []⟩
  | .token => ⟨[required (s% "type"), required (s% "value")], []⟩
  | .options => ⟨[required (s% "tokens"), orNone (s% "optstring"), orNone (s% "defaults")], []⟩
  | .positionals => ⟨[required (s% "options")], []⟩
  | .definition => ⟨[required (s% "name"), required (s% "body"), required (s% "is_global"),
      required (s% "commented_out"), required (s% "comment_out_style"), required (s% "whitespace"),
      orStr [] (s% "prefix"), orBool true (s% "valid"), orNone (s% "preceding_lines")], []⟩
  | .definitions => ⟨[orNone (s% "data"), orNone (s% "remainder")], []⟩
  | .rpmMacro => ⟨[required (s% "name"), required (s% "options"), required (s% "body"), required (s% "level"),
      required (s% "used")], []⟩
  | .sect => ⟨[required (s% "name"), orNone (s% "options"), orStr [] (s% "delimiter"), orStr ['\n'] (s% "separator"),
      orNone (s% "data")], []⟩
  | .sections => ⟨[orNone (s% "initlist")], []⟩
  | .prepMacro _ => ⟨[required (s% "name"), required (s% "options"), required (s% "delimiter"), orNone (s% "prefix"),
      orNone (s% "suffix"), orNone (s% "preceding_lines")], []⟩
  | .prepMacros => ⟨[orNone (s% "data"), orNone (s% "remainder")], []⟩
  | .prep => ⟨[required (s% "macros")], []⟩
  | .tagSource _ => ⟨[required (s% "tag"), orNone (s% "number")], []⟩
  | .listSource _ => ⟨[required (s% "source"), required (s% "number")], []⟩
  | .sources _ => ⟨[required (s% "tags"), required (s% "sourcelists"), orBool false (s% "allow_duplicates"),
      orBool false (s% "default_to_implicit_numbering"), orInt 1 (s% "default_source_number_digits"),
      orNone (s% "context")], []⟩
  | .literal => ⟨[required (s% "value")], []⟩
  | .shell => ⟨[required (s% "body")], []⟩
  | .expression => ⟨[required (s% "body")], []⟩
  | .sub => ⟨[required (s% "body")], []⟩
  | .encl => ⟨[required (s% "body")], []⟩
  | .cond => ⟨[required (s% "condition"), required (s% "body")], []⟩
  | .builtin => ⟨[required (s% "name"), required (s% "body")], []⟩
  | .evr => ⟨[], [required (s% "version"), orStr [] (s% "release"), orInt 0 (s% "epoch")]⟩
  | .nevr => ⟨[], [required (s% "name"), required (s% "version"), orStr [] (s% "release"), orInt 0 (s% "epoch")]⟩
  | .nevra => ⟨[], [required (s% "name"), required (s% "version"), required (s% "release"), required (s% "arch"),
      orInt 0 (s% "epoch")]⟩

/-- an exception is no result -/
def result : Except Err α → Option α
  | .error _ => none
  | .ok a => some a

/-- `__init__` with the values of the parameters: spec_parser.py:49-63, specfile.py:53-81, tags.py:51-53, 77-94, 207-244
and 326-339, changelog.py:49-67 and 208-224, sourcelist.py:30-48 and 89-104, options.py:31-33, 68-75 and 222-241,
macro_definitions.py:46-83 and 160-175, macros.py:42-54, sections.py:41-73 and 140 (inherited), prep.py:34-61, 164-179
and 265-266, sources.py:78-87, 175-184 and 244-269, value_parser.py:29-30, 48-49, 76-81, 99-107, 131-137 and 162-164,
utils.py:22-25, 92-96 and 167-173 -/
def build [Uni] (P : Python) : Class → List Obj → Option Obj
  | .path, [p] => (asPath p).map .path
  | .parser, [d, m, f] => do
    .some (.parser ⟨← asPath d, ← orEmpty asPair m, ← asBool f⟩)
  | .spec, [p, d, a, m, f] => do
    let p ← asPath p
    let content ← P.read p
    .some (.spec ⟨← asBool a, p, content, ⟨(← orAbsent asPath d).getD (P.parent p), ← orEmpty asPair m, ← asBool f⟩⟩)
  | .comment, [t, p] => do .some (.comment ⟨← asStr t, ← asStr p⟩)
  | .comments, [d, p] => do .some (.comments ⟨← orEmpty asComment d, ← orEmpty asStr p⟩)
  | .tag, [n, v, s, c, b, p, x, k] => do
    let t ← result (Tags.mkTag ⟨← asStr n, ← asStr v, ← asStr s, ← asComments c, ← asBool b, ← asText p, ← asText x⟩)
    .some (.tag (t, ← orAbsent asSpec k))
  | .tags, [d, r] => do .some (.tags (← orEmpty asTag d) (← orEmpty asStr r))
  | .entry, [h, c, f] => do .some (.entry ⟨← asStr h, ← asList asStr c, ← orEmpty asStr f⟩)
  | .changelog, [d, p] => do .some (.changelog ⟨← orEmpty asEntry d, ← orEmpty asStr p⟩)
  | .listed, [l, c, b, k] => do .some (.listed (⟨← asStr l, ← asComments c, ← asBool b⟩, ← orAbsent asSpec k))
  | .sourcelist, [d, r] => do .some (.sourcelist (← orEmpty asListed d, ← orEmpty asStr r))
  | .token, [t, v] => do .some (.token ⟨← asTokenType t, ← asStr v⟩)
  | .options, [t, o, d] => do .some (.options ⟨← asList asToken t, ← asText o, (← orAbsent asDict d).getD []⟩)
  | .positionals, [o] => (asOptions o).map .positionals
  | .definition, [n, b, g, c, s, w, p, v, l] => do
    let w ← asFour w
    .some (.definition ⟨← asStr n, ← asStr b, ← asBool g, ← asBool c, ← asStyle s, w.1, w.2.1, w.2.2.1, w.2.2.2,
      ← asStr p, ← asBool v, ← orEmpty asStr l⟩)
  | .definitions, [d, r] => do .some (.definitions ⟨← orEmpty asDefinition d, ← orEmpty asStr r⟩)
  | .rpmMacro, [n, o, b, l, u] => do
    .some (.rpmMacro ⟨← asStr n, ← orAbsent asStr o, ← asStr b, ← asLevel l, ← asBool u⟩)
  | .sect, [n, o, d, s, l] => do
    let s ← result (Sections.mkSection (← asStr n) (← orAbsent asOptions o) (← asStr d) (← asStr s) (← orEmpty asStr l))
    .some (.sect s)
  | .sections, [d] => (orEmpty asSection d).map .sections
  | .prepMacro k, [n, o, d, p, s, l] => do
    .some (.prepMacro ⟨k, ← asStr n, ← asOptions o, ← asStr d, ← asText p, ← asText s, ← orEmpty asStr l⟩)
  | .prepMacros, [d, r] => do .some (.prepMacros ⟨← orEmpty asPrepMacro d, ← orEmpty asStr r⟩)
  | .prep, [m] => (asPrepMacros m).map .prep
  | .tagSource b, [t, n] => do .some (.tagSource b (← asTag t) (← orAbsent asInt n))
  | .listSource b, [e, n] => do .some (.listSource b (← asListed e) (← asInt n))
  | .sources b, [t, l, a, i, d, k] => do
    let t ← asTags t
    .some (.sources ⟨b, t.1, t.2, ← asList asSourcelist l, ← asBool a, ← asBool i, ← asInt d, ← orAbsent asSpec k⟩)
  | .literal, [v] => (asStr v).map (fun v => .node (.lit v))
  | .shell, [b] => (asStr b).map (fun b => .node (.shell b))
  | .expression, [b] => (asStr b).map (fun b => .node (.expr b))
  | .sub, [b] => (asStr b).map (fun b => .node (ValueParser.mkSub b))
  | .encl, [b] => do .some (.node (← result (ValueParser.mkEncl (← asStr b))))
  | .cond, [c, b] => do
    let c ← asStr c
    .some (.node (.cond (ValueParser.splitPrefix c).1 (ValueParser.splitPrefix c).2 (← asList asNode b)))
  | .builtin, [n, b] => do .some (.node (.builtin (← asStr n) (← asStr b)))
  | .evr, [v, r, e] => do .some (.evr ⟨← asInt e, ← asStr v, ← asStr r⟩)
  | .nevr, [n, v, r, e] => do .some (.nevr ⟨← asStr n, ⟨← asInt e, ← asStr v, ← asStr r⟩⟩)
  | .nevra, [n, v, r, a, e] => do
    let x ← result (Utils.nevraInit P.arches ⟨← asStr n, ← asInt e, ← asStr v, ← orAbsent asStr r, ← asStr a⟩)
    .some (.nevra x)
  | _, _ => none

/-- a call of the class -/
def construct [Uni] (P : Python) (f : Str) (pos : List Obj) (kws : List (Str × Obj)) : Option Obj := do
  let c ← classOf f
  build P c (← bindArguments (signature c) pos kws)

/-! ### evaluation -/

/-- an element of a list, an argument or an item of a dictionary -/
inductive Arg where
  | pos (x : Obj)
  | kw (n : Str) (x : Obj)
  | item (k : Lit) (x : Obj)

/-- the elements of a display -/
def elements : List Arg → Option (List Obj)
  | [] => some []
  | .pos x :: l => (elements l).map (x :: ·)
  | _ => none

/-- arguments by position come before keywords -/
def arguments : List Arg → Option (List Obj × List (Str × Obj))
  | [] => some ([], [])
  | .pos x :: l => (arguments l).map (fun r => (x :: r.1, r.2))
  | .kw n x :: l => match arguments l with
    | some ([], kws) => if kws.any (fun k => k.1 == n) then none else some ([], (n, x) :: kws)
    | _ => none
  | .item .. :: _ => none

/-- `d[k] = x` -/
def put (d : List (Lit × Obj)) (k : Lit) (x : Obj) : List (Lit × Obj) :=
  if d.any (fun e => e.1 == k) then d.map (fun e => if e.1 == k then (k, x) else e) else d ++ [(k, x)]

/-- the items of a dictionary, the last one with the same key counts -/
def itemsOf : List (Lit × Obj) → List Arg → Option (List (Lit × Obj))
  | d, [] => some d
  | d, .item k x :: l => itemsOf (put d k x) l
  | _, _ => none

mutual
/-- the object an expression stands for -/
def eval [Uni] (P : Python) : Expr → Option Obj
  | .const r => match P.literal r with
    | some c => some (.lit c)
    | none => P.member r
  | .tuple items => do .some (.tuple (← elements (← evalItems P items)))
  | .list items => do .some (.list (← elements (← evalItems P items)))
  | .dict items => do .some (.dict (← itemsOf [] (← evalItems P items)))
  | .call f items => do
    let a ← arguments (← evalItems P items)
    construct P f a.1 a.2
  | .other => none
/-- the elements -/
def evalItems [Uni] (P : Python) : Items → Option (List Arg)
  | .nil => some []
  | .cons .pos v rest => do
    let x ← eval P v
    .some (.pos x :: (← evalItems P rest))
  | .cons (.kw n) v rest => do
    let x ← eval P v
    .some (.kw n x :: (← evalItems P rest))
  | .cons .unpack _ _ => none
  | .cons (.key k) v rest => do
    let k ← eval P k
    let x ← eval P v
    let r ← evalItems P rest
    match k with
    | .lit c => .some (.item c x :: r)
    | _ => none
end

end Specfile.Construct
