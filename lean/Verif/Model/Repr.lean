import Verif.Model.Formatter
import Verif.Model.Equality
import Verif.Model.Sources
import Verif.Model.Macros
import Verif.Model.Utils
/-
Model of the methods `__repr__` of /repo/specfile: the expression that an object prints, before it is formatted
(Model/Formatter, Model/FormatText). The methods `__init__` are in Model/Construct.

An object that is printed inside of another one is given by its expression. The parameter `R` is `repr` of the
constants of Python; a negative number, which for Python is an operator and a number, is one constant here.
-/
namespace Specfile.Representation
open Py Formatter
open Options (Opts Val)
open Equality (SpecKey ParserKey)

/-- constants: texts, numbers, `True`, `False` and `None`; changelog.py:83 etc. -/
inductive Lit where
  | str (s : Str)
  | int (n : Int)
  | bool (b : Bool)
  | none
  deriving DecidableEq, Repr

/-- the elements of a list or a tuple, or the arguments of a call; changelog.py:83 etc. -/
def positional : List Expr → Items
  | [] => .nil
  | e :: es => .cons .pos e (positional es)

/-- the keyword arguments of a call, utils.py:71, 145-146 and 228-230 -/
def keywords : List (Str × Expr) → Items
  | [] => .nil
  | (k, e) :: es => .cons (.kw k) e (keywords es)

/-- the elements of a dictionary, options.py:245 -/
def entries : List (Expr × Expr) → Items
  | [] => .nil
  | (k, e) :: es => .cons (.key k) e (entries es)

section
variable (R : Lit → Str)

/-- `{…!r}` with a constant, changelog.py:83 etc. -/
def lit (c : Lit) : Expr := .const (R c)

/-- `{…!r}` with a text, changelog.py:83 etc. -/
def text (s : Str) : Expr := lit R (.str s)

/-- `{…!r}` with a truth value, tags.py:262 etc. -/
def truth (b : Bool) : Expr := lit R (.bool b)

/-- `{…!r}` with a text or `None`, macros.py:70 -/
def optText : Option Str → Expr
  | none => lit R .none
  | some s => text R s

/-- `{…!r}` with a list, changelog.py:231 etc. -/
def list (es : List Expr) : Expr := .list (positional es)

/-- `{…!r}` with a list of texts, changelog.py:83 etc. -/
def lines (l : List Str) : Expr := list (l.map (text R))

/-- `Class(…)`, changelog.py:83 etc. -/
def call (f : Str) (es : List Expr) : Expr := .call f (positional es)

/-! ### specfile.py:94-98, spec_parser.py:75-76 -/

/-- `repr` of a path -/
def path (p : Str) : Expr := call (s% "PosixPath") [text R p]

/-- `{…macros!r}`: a list of pairs; spec_parser.py:76, specfile.py:97 -/
def definitions (ms : List (Str × Option Str)) : Expr :=
  list (ms.map (fun m => .tuple (positional [text R m.1, optText R m.2])))

/-- `SpecParser.__repr__`, spec_parser.py:75-76 -/
def parser (p : ParserKey) : Expr :=
  call (s% "SpecParser") [path R p.sourcedir, definitions R p.macros, truth R p.forceParse]

/-- `Specfile.__repr__`, specfile.py:94-98 -/
def spec (s : SpecKey) : Expr :=
  call (s% "Specfile") [path R s.path, path R s.parser.sourcedir, truth R s.autosave, definitions R s.parser.macros,
    truth R s.parser.forceParse]

/-- `{self._context!r}`, tags.py:262, sourcelist.py:60, sources.py:291 -/
def context : Option SpecKey → Expr
  | none => lit R .none
  | some s => spec R s

/-! ### tags.py -/

/-- `Comment.__repr__`, tags.py:64-65 -/
def comment (c : Comment) : Expr := call (s% "Comment") [text R c.text, text R c.pfx]

/-- `Comments.__repr__`, tags.py:97-98 -/
def comments (c : Comments) : Expr := call (s% "Comments") [list (c.data.map (comment R)), lines R c.preceding]

/-- `Tag.__repr__`, tags.py:259-263; the tag comes with its context -/
def tag (t : Tag × Option SpecKey) : Expr :=
  call (s% "Tag") [text R t.1.name, text R t.1.value, text R t.1.sep, comments R t.1.comments, truth R t.1.valid,
    text R t.1.pfx, text R t.1.sfx, context R t.2]

/-- `Tags.__repr__`, tags.py:342-343 -/
def tags (data : List (Tag × Option SpecKey)) (remainder : List Str) : Expr :=
  call (s% "Tags") [list (data.map (tag R)), lines R remainder]

/-! ### changelog.py -/

/-- `ChangelogEntry.__repr__`, changelog.py:82-83 -/
def entry (e : ChangelogEntry) : Expr :=
  call (s% "ChangelogEntry") [text R e.header, lines R e.content, lines R e.following]

/-- `Changelog.__repr__`, changelog.py:230-231 -/
def changelog (c : Changelog) : Expr :=
  call (s% "Changelog") [list (c.data.map (entry R)), lines R c.predecessor]

/-! ### sourcelist.py -/

/-- `SourcelistEntry.__repr__`, sourcelist.py:57-61; the entry comes with its context -/
def listed (e : SourcelistEntry × Option SpecKey) : Expr :=
  call (s% "SourcelistEntry") [text R e.1.location, comments R e.1.comments, truth R e.1.valid, context R e.2]

/-- `Sourcelist.__repr__`, sourcelist.py:107-108 -/
def sourcelist (l : List (SourcelistEntry × Option SpecKey) × List Str) : Expr :=
  call (s% "Sourcelist") [list (l.1.map (listed R)), lines R l.2]

/-! ### options.py -/

/-- `repr` of a member of an enumeration, options.py:15-19 and 37 -/
def tokenType : TokenType → Expr
  | .default => .const (s% "<TokenType.DEFAULT: 1>")
  | .whitespace => .const (s% "<TokenType.WHITESPACE: 2>")
  | .quoted => .const (s% "<TokenType.QUOTED: 3>")
  | .doubleQuoted => .const (s% "<TokenType.DOUBLE_QUOTED: 4>")

/-- `Token.__repr__`, options.py:36-37 -/
def token (t : Token) : Expr := call (s% "Token") [tokenType t.type, text R t.value]

/-- a value of `defaults`, options.py:245 -/
def valueLit : Val → Lit
  | .bool b => .bool b
  | .int n => .int n
  | .str s => .str s

/-- `Options.__repr__`, options.py:244-245 -/
def options (o : Opts) : Expr :=
  call (s% "Options") [list (o.tokens.map (token R)), text R o.optstring,
    .dict (entries (o.defaults.map (fun d => (text R [d.1], lit R (valueLit d.2)))))]

/-- `Positionals.__repr__`, options.py:78-79 -/
def positionals (o : Opts) : Expr := call (s% "Positionals") [options R o]

/-! ### macro_definitions.py and macros.py -/

/-- `repr` of a member of an enumeration, macro_definitions.py:18-28 -/
def style : CommentOutStyle → Expr
  | .dnl => .const (s% "<CommentOutStyle.DNL: 1>")
  | .hash => .const (s% "<CommentOutStyle.HASH: 2>")
  | .other => .const (s% "<CommentOutStyle.OTHER: 3>")

/-- `MacroDefinition.__repr__`, macro_definitions.py:100-105 -/
def definition (m : MacroDefinition) : Expr :=
  call (s% "MacroDefinition") [text R m.name, text R m.body, truth R m.isGlobal, truth R m.commentedOut, style m.style,
    .tuple (positional [text R m.ws0, text R m.ws1, text R m.ws2, text R m.ws3]), text R m.pfx, truth R m.valid,
    lines R m.preceding]

/-- `MacroDefinitions.__repr__`, macro_definitions.py:178-179 -/
def macroDefinitions (m : MacroDefinitions) : Expr :=
  call (s% "MacroDefinitions") [list (m.data.map (definition R)), lines R m.remainder]

/-- `Macro.__repr__`, macros.py:68-72; `level` is the representation of the level -/
def rpmMacro (level : Int → Str) (m : Macro) : Expr :=
  call (s% "Macro") [text R m.name, optText R m.options, text R m.body, .const (level m.level), truth R m.used]

/-! ### sections.py and prep.py -/

/-- `Section.__repr__`, sections.py:82-86 -/
def sect (s : Section) : Expr :=
  call (s% "Section") [text R s.name, options R s.options, text R s.delimiter, text R s.separator, lines R s.data]

/-- `Sections.__repr__`, sections.py:167-168 -/
def sections (s : Sections) : Expr := call (s% "Sections") [list (s.map (sect R))]

/-- `self.__class__.__name__`, prep.py:95, 105, 137 and 148 -/
def className : PrepKind → Str
  | .setup => s% "SetupMacro"
  | .patch => s% "PatchMacro"
  | .autosetup => s% "AutosetupMacro"
  | .autopatch => s% "AutopatchMacro"

/-- `PrepMacro.__repr__`, prep.py:76-83 -/
def prepMacro (m : PrepMacro) : Expr :=
  call (className m.kind) [text R m.name, options R m.options, text R m.delimiter, text R m.pfx, text R m.sfx,
    lines R m.preceding]

/-- `PrepMacros.__repr__`, prep.py:182-183 -/
def prepMacros (p : Prep) : Expr := call (s% "PrepMacros") [list (p.data.map (prepMacro R)), lines R p.remainder]

/-- `Prep.__repr__`, prep.py:274-275 -/
def prep (p : Prep) : Expr := call (s% "Prep") [prepMacros R p]

/-! ### sources.py -/

/-- `Sources` with all its objects, sources.py:244-269 -/
structure SourcesObj where
  patches : Bool
  tags : List (Tag × Option SpecKey)
  remainder : List Str
  lists : List (List (SourcelistEntry × Option SpecKey) × List Str)
  allowDuplicates : Bool
  implicitDefault : Bool
  digits : Int
  context : Option SpecKey

/-- `TagSource.__repr__` and `TagPatch`, sources.py:95-98 and 652 -/
def tagSource (patch : Bool) (t : Tag × Option SpecKey) (number : Option Int) : Expr :=
  call (if patch then s% "TagPatch" else s% "TagSource") [tag R t, lit R (number.elim .none .int)]

/-- `ListSource.__repr__` and `ListPatch`, sources.py:192-195 and 656 -/
def listSource (patch : Bool) (e : SourcelistEntry × Option SpecKey) (number : Int) : Expr :=
  call (if patch then s% "ListPatch" else s% "ListSource") [listed R e, lit R (.int number)]

/-- `Sources.__repr__` and `Patches`, sources.py:285-292 and 660 -/
def sources (s : SourcesObj) : Expr :=
  call (if s.patches then s% "Patches" else s% "Sources") [tags R s.tags s.remainder, list (s.lists.map (sourcelist R)),
    truth R s.allowDuplicates, truth R s.implicitDefault, lit R (.int s.digits), context R s.context]

/-! ### value_parser.py -/

mutual
/-- `Node.__repr__`, value_parser.py:33-34, 52-55, 84-85, 110-112, 140-143 and 167-168 -/
def node : Node → Expr
  | .lit v => call (s% "StringLiteral") [text R v]
  | .shell b => call (s% "ShellExpansion") [text R b]
  | .expr b => call (s% "ExpressionExpansion") [text R b]
  | .sub p n => call (s% "MacroSubstitution") [text R (p ++ n)]
  | .encl p n args =>
    call (s% "EnclosedMacroSubstitution") [text R (p ++ n ++ if args.isEmpty then [] else ' ' :: joinC ' ' args)]
  | .cond p n body => call (s% "ConditionalMacroExpansion") [text R (p ++ n), list (nodes body)]
  | .builtin n b => call (s% "BuiltinMacro") [text R n, text R b]
/-- the list of the nodes of the body, value_parser.py:142 -/
def nodes : List Node → List Expr
  | [] => []
  | n :: ns => node n :: nodes ns
end

/-! ### utils.py -/

/-- `EVR.__repr__`, utils.py:70-71 -/
def evr (x : EVR) : Expr :=
  .call (s% "EVR") (keywords [(s% "epoch", lit R (.int x.epoch)), (s% "version", text R x.version),
    (s% "release", text R x.release)])

/-- `NEVR.__repr__`, utils.py:143-147 -/
def nevr (x : NEVR) : Expr :=
  .call (s% "NEVR") (keywords [(s% "name", text R x.name), (s% "epoch", lit R (.int x.evr.epoch)),
    (s% "version", text R x.evr.version), (s% "release", text R x.evr.release)])

/-- `NEVRA.__repr__`, utils.py:226-231 -/
def nevra (x : NEVRA) : Expr :=
  .call (s% "NEVRA") (keywords [(s% "name", text R x.name), (s% "epoch", lit R (.int x.epoch)),
    (s% "version", text R x.version), (s% "release", optText R x.release), (s% "arch", text R x.arch)])

end
end Specfile.Representation
