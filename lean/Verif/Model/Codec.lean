import Verif.Model.Access
import Verif.Model.Sections
import Verif.Model.Changelog
import Verif.Model.Prep
import Verif.Model.Sources
/-
The parsers that the accessors of `Specfile` use, /repo/specfile/specfile.py:224-427.
-/
namespace Specfile.Access
open Py

/-- the accessors of a section with their serialized arguments: an omitted argument differs from its default, a section
is serialized with its content (`ContextManager.__call__`, context_management.py:109-114) -/
inductive Accessor where
  | tags
  | tagsNamed (id : Str)
  | tagsOf (s : Section)
  | changelog
  | changelogOf (s : Section)
  | prep
  deriving DecidableEq

/-- the objects that these accessors yield, specfile.py:278, 301 and 328 -/
inductive Obj where
  | tags (t : Tags)
  | changelog (c : Changelog)
  | prep (p : Prep)

/-- `sources` and `patches` with their serialized arguments: those that are given by position and those that are given by
name; an omitted argument differs from its default (`ContextManager.__call__`, context_management.py:109-114) -/
structure ListAccessor where
  patches : Bool
  args : List (Option Str × Nat) := []
  deriving DecidableEq

/-- `Tags.parse`, `Changelog.parse`, `Prep.parse`, specfile.py:292, 321 and 341 -/
def parseObj [Uni] (names : List Str) (ex : Conditions.Oracle) (a : Accessor) (s : Section) : Except Err Obj :=
  match a with
  | .tags | .tagsNamed _ | .tagsOf _ => (Tags.parse names ex s.data).map Obj.tags
  | .changelog | .changelogOf _ => .ok (.changelog (Changelog.parse s.data))
  | .prep => (Prep.parse s.data).map Obj.prep

/-- `get_raw_section_data`, specfile.py:296, 325 and 345 -/
def rawObj : Obj → List Str
  | .tags t => Tags.raw t
  | .changelog c => Changelog.raw c
  | .prep p => Prep.raw p

/-- `getattr(sections, section)`, specfile.py:290-291 -/
def named [Uni] (id : Str) (ss : List (Nat × Section)) : Except Err (Option Nat) :=
  match Sections.find (ss.map (·.2)) id with
  | .error _ => .error .attributeError
  | .ok i => .ok (some i)

/-- The parsers of specfile.py. Simplified: macros expand in the same way throughout (`ex`), and a parser of sections
that fails is not distinguished. See specfile.py:246-253, 263-268, 289-296, 312-325 and 335-345, 365-386 and 406-427. -/
def specCodec [Uni] (names : List Str) (ex : Conditions.Oracle) : Codec :=
  ⟨Section, MacroDefinitions, Obj, Accessor, MacroDefinitions.parse ex true, MacroDefinitions.raw, Sections.parse ex,
    Sections.raw, parseObj names ex, fun _ x s => { s with data := rawObj x },
    ListAccessor, Sourcelist, .tags, named (s% "package"),
    fun g s => decide (Sections.id s = if g.patches then s% "patchlist" else s% "sourcelist"),
    fun s => Sourcelist.parse ex s.data, fun l s => { s with data := Sourcelist.raw l }⟩

/-- `sections.changelog` or `sections.prep` with `None` if there is none, specfile.py:313-317 and 336-339 -/
def namedOrNone [Uni] (id : Str) (ss : List (Nat × Section)) : Except Err (Option Nat) :=
  match Sections.find (ss.map (·.2)) id with
  | .error _ => .ok none
  | .ok i => .ok (some i)

/-- a section that is passed as argument, specfile.py:276-278 and 299-301 -/
def given (i : Nat) (ss : List (Nat × Section)) : Except Err (Option Nat) := .ok (ss.findIdx? (fun p => p.1 == i))

end Specfile.Access
