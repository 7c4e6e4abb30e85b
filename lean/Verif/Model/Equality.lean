import Verif.Model.Changelog
import Verif.Model.Sourcelist
import Verif.Model.Sections
import Verif.Model.Prep
import Verif.Model.Text
/-
`==` of the objects the contexts hand out: the methods `__eq__` of /repo/specfile and the ones inherited from
`collections.UserList` and `collections.abc.Mapping`. `MacroDefinition.__eq__` is in Model/MacroDefinitions, `Tag.__eq__`
in Model/Tags. That a list compares an object equal to itself without calling `__eq__` is not modelled.
-/
namespace Specfile.Equality
open Py
open Options (Opts Val)

/-- `list.__eq__`: lists of different length are different, otherwise the first difference decides. Also
`UserList.__eq__`, which compares `data` and no other attribute: changelog.py:198, macro_definitions.py:152,
prep.py:156, sections.py:30 and 140, sourcelist.py:81, tags.py:68 and 306 define no `__eq__`. -/
def listEq {α : Type} (eq : α → α → Bool) : List α → List α → Bool
  | [], [] => true
  | x :: xs, y :: ys => eq x y && listEq eq xs ys
  | _, _ => false

/-- the loop of `list.__eq__` if the elements can raise, prep.py:271 -/
def listEqLoop {α : Type} (eq : α → α → Except Err Bool) : List α → List α → Except Err Bool
  | x :: xs, y :: ys =>
    match eq x y with
    | .error e => .error e
    | .ok false => .ok false
    | .ok true => listEqLoop eq xs ys
  | _, _ => .ok true

/-- `list.__eq__` if the elements can raise, prep.py:271 -/
def listEqM {α : Type} (eq : α → α → Except Err Bool) (xs ys : List α) : Except Err Bool :=
  if xs.length ≠ ys.length then .ok false else listEqLoop eq xs ys

/-- `ChangelogEntry.__eq__`, changelog.py:69-76 -/
def entryEq (a b : ChangelogEntry) : Bool := a.header == b.header && a.content == b.content && a.following == b.following

/-- `Changelog.__eq__`, inherited; changelog.py:198 -/
def changelogEq (a b : Changelog) : Bool := listEq entryEq a.data b.data

/-- `Comment.__eq__`, tags.py:55-58 -/
def commentEq (a b : Comment) : Bool := a.text == b.text && a.pfx == b.pfx

/-- `Comments.__eq__`, inherited; tags.py:68 -/
def commentsEq (a b : Comments) : Bool := listEq commentEq a.data b.data

/-- `Tags.__eq__`, inherited; tags.py:306 -/
def tagsEq (a b : Tags) : Bool := listEq Tags.eqv a.data b.data

/-- `MacroDefinitions.__eq__`, inherited; macro_definitions.py:152 -/
def macrosEq (a b : MacroDefinitions) : Bool := listEq MacroDefinition.eqv a.data b.data

/-- `SourcelistEntry.__eq__`, sourcelist.py:51-54 -/
def sourcelistEntryEq (a b : SourcelistEntry) : Bool := a.location == b.location && commentsEq a.comments b.comments

/-- `Sourcelist.__eq__`, inherited; sourcelist.py:81 -/
def sourcelistEq (a b : Sourcelist) : Bool := listEq sourcelistEntryEq a.data b.data

/-- `Section.__eq__`, inherited; sections.py:30 -/
def sectionEq (a b : Section) : Bool := a.data == b.data

/-- `Sections.__eq__`, inherited; sections.py:140 -/
def sectionsEq (a b : Sections) : Bool := listEq sectionEq a b

/-- `==` of the values of options: `bool` is a subclass of `int`; options.py:320-337 -/
def valEq : Val → Val → Bool
  | .str a, .str b => a == b
  | .int a, .int b => a == b
  | .bool a, .bool b => a == b
  | .bool a, .int b => (if a then 1 else 0) == b
  | .int a, .bool b => a == (if b then 1 else 0)
  | _, _ => false

/-- `==` of values that may be `None`; options.py:320-337 -/
def optValEq : Option Val → Option Val → Bool
  | none, none => true
  | some a, some b => valEq a b
  | _, _ => false

/-- the loop of `list(options.items())`, inherited from `Mapping`; options.py:222, 425-429 and 443-447 -/
def itemsLoop [Uni] (o : Opts) : List Char → Except Err (List (Char × Option Val))
  | [] => .ok []
  | c :: cs =>
    match Options.get o c with
    | .error e => .error e
    | .ok v => match itemsLoop o cs with
      | .error e => .error e
      | .ok r => .ok ((c, v) :: r)

/-- `list(options.items())`, options.py:222, 425-429 and 443-447 -/
def optionItems [Uni] (o : Opts) : Except Err (List (Char × Option Val)) := itemsLoop o (Options.keys o)

/-- `dict(a) == dict(b)`; a key that occurs twice has the same value both times, as it is read from the same options;
options.py:222 -/
def dictEq (a b : List (Char × Option Val)) : Bool :=
  a.all (fun x => b.any (fun y => x.1 == y.1 && optValEq x.2 y.2)) &&
  b.all (fun y => a.any (fun x => y.1 == x.1 && optValEq y.2 x.2))

/-- `Options.__eq__`, inherited from `Mapping`; options.py:222 -/
def optionsEq [Uni] (a b : Opts) : Except Err Bool :=
  match optionItems a with
  | .error e => .error e
  | .ok x => match optionItems b with
    | .error e => .error e
    | .ok y => .ok (dictEq x y)

/-- `PrepMacro.__eq__`, prep.py:63-73 -/
def prepMacroEq [Uni] (a b : PrepMacro) : Except Err Bool :=
  if a.name ≠ b.name then .ok false
  else match optionsEq a.options b.options with
    | .error e => .error e
    | .ok false => .ok false
    | .ok true => .ok (a.delimiter == b.delimiter && a.pfx == b.pfx && a.sfx == b.sfx && a.preceding == b.preceding)

/-- `Prep.__eq__`, prep.py:268-271, and `PrepMacros.__eq__`, inherited; prep.py:156 -/
def prepEq [Uni] (a b : Prep) : Except Err Bool := listEqM prepMacroEq a.data b.data

/-- `list(options.positional)`, options.py:96-107 -/
def readAll [Uni] : List Str → Except Err (List Val)
  | [] => .ok []
  | s :: l =>
    match Options.readValue s with
    | .error e => .error e
    | .ok v => match readAll l with
      | .error e => .error e
      | .ok r => .ok (v :: r)

/-- `Positionals.__eq__` with other positional arguments, options.py:81-84: `list(self) == other` calls the reflected
method, so that both are turned into lists, the one on the left first -/
def positionalsEq [Uni] (a b : Opts) : Except Err Bool :=
  match readAll (Options.positionalValues a) with
  | .error e => .error e
  | .ok x => match readAll (Options.positionalValues b) with
    | .error e => .error e
    | .ok y => .ok (listEq valEq x y)

/-- `SpecParser`, as far as it is compared: spec_parser.py:65-72 -/
structure ParserKey where
  sourcedir : Str
  macros : List (Str × Option Str)
  forceParse : Bool
  deriving DecidableEq, Repr

/-- `Specfile`, as far as it is compared and written: specfile.py:53-81 and 100-101. Paths are texts in normal form. -/
structure SpecKey where
  autosave : Bool
  path : Str
  content : Text.Content
  parser : ParserKey
  deriving DecidableEq, Repr

/-- `SpecParser.__eq__`, spec_parser.py:65-72 -/
def parserEq (a b : ParserKey) : Bool :=
  a.sourcedir == b.sourcedir && a.macros == b.macros && a.forceParse == b.forceParse

/-- `Specfile.__eq__`, specfile.py:83-91 -/
def specfileEq (a b : SpecKey) : Bool :=
  a.autosave == b.autosave && a.path == b.path && a.content.lines == b.content.lines && parserEq a.parser b.parser

end Specfile.Equality
