import Verif.Model.UpdateValue
import Verif.Model.Release
import Verif.Model.Changelog
import Verif.Model.Sources
/-
Model of the operations of `Specfile` on a whole spec file, /repo/specfile/specfile.py:347-1038, called
outside of `with` blocks.
-/
namespace Specfile.Ops
open Py Update
open Changelog (Timestamp)

/-! ### tags as properties -/

/-- the value of a tag, `None` if there is none: the getter of `_tag`, specfile.py:565-570 -/
def valueOf [Uni] (name : Str) (t : Tags) : Option Str :=
  match getTag t name with
  | .error _ => none
  | .ok i => (t.data[i]?).map (·.value)

/-- the getter of `_tag`, specfile.py:565-570 -/
def tagValue [Uni] (W : World) (name : Str) (lines : List Str) : Out (Option Str) :=
  withTags W lines (fun t => (t, .ok (valueOf name t)))

/-- the setter of `_tag`, specfile.py:572-574 -/
def setTag [Uni] (W : World) (name value : Str) (lines : List Str) : Out Unit := withTags W lines (assignTag name value)

/-- `None` is not expanded, specfile.py:590-595 -/
def expandOption (ex : Str → Except Err Str) : Option Str → Except Err (Option Str)
  | none => .ok none
  | some v =>
    match ex v with
    | .error e => .error e
    | .ok x => .ok (some x)

/-- the getter of `_expanded_tag`, specfile.py:590-595, and `Tag.expanded_value`, tags.py:283-288. `expand` never raises
`AttributeError`. -/
def expandedTag [Uni] (W : World) (name : Str) (lines : List Str) : Out (Option Str) :=
  withTags W lines (fun t => (t, expandOption (W.expand lines) (valueOf name t)))

/-- the value of the tag Release; a missing one is `None`, which cannot be processed;
specfile.py:605, 660 and 664 -/
def rawRelease [Uni] (W : World) (lines : List Str) : Out Str :=
  match tagValue W (s% "release") lines with
  | (l, .error e) => (l, .error e)
  | (l, .ok none) => (l, .error .typeError)
  | (l, .ok (some v)) => (l, .ok v)

/-- `release`, specfile.py:657-660 -/
def release [Uni] (W : World) (lines : List Str) : Out Str :=
  match rawRelease W lines with
  | (l, .error e) => (l, .error e)
  | (l, .ok v) => (l, .ok (Release.splitRaw v).1)

/-- the setter of `release`, specfile.py:662-664 -/
def setRelease [Uni] (W : World) (value : Str) (lines : List Str) : Out Unit :=
  match rawRelease W lines with
  | (l, .error e) => (l, .error e)
  | (l, .ok v) => setTag W (s% "release") (Release.updated v value) l

/-- `tags.release.value = self._get_updated_release(tags.release.value, release)`, specfile.py:681 -/
def assignRelease [Uni] (release : Str) (t : Tags) : Tags × Except Err Unit :=
  match getTag t (s% "release") with
  | .error e => (t, .error e)
  | .ok i => (t.setValueAt i (Release.updated (((t.data[i]?).map (·.value)).getD []) release), .ok ())

/-- specfile.py:680-681 -/
def assignVersionRelease [Uni] (version release : Str) (t : Tags) : Tags × Except Err Unit :=
  match assignTag (s% "version") version t with
  | (t', .error e) => (t', .error e)
  | (t', .ok ()) => assignRelease release t'

/-- `set_version_and_release`, specfile.py:671-681 -/
def setVersionRelease [Uni] (W : World) (version release : Str) (lines : List Str) : Out Unit :=
  withTags W lines (assignVersionRelease version release)

/-! ### bumping the release -/

/-- the test of specfile.py:1034 -/
def definesRelease [Uni] (md : MacroDefinition) : Bool :=
  [s% "release", s% "baserelease"].contains (Uni.lower md.name)

/-- the loop over macro definitions, specfile.py:1033-1036; tells whether one was bumped -/
def bumpMacros [Uni] (m : MacroDefinitions) : MacroDefinitions × Bool :=
  match m.data.findIdx? definesRelease with
  | none => (m, false)
  | some i => ({ m with data := m.data.modify i (fun d => { d with body := Release.bump d.body }) }, true)

/-- `bump_release`, specfile.py:1023-1038 -/
def bumpRelease [Uni] (W : World) (lines : List Str) : Out Unit :=
  match rawRelease W lines with
  | (l, .error e) => (l, .error e)
  | (l, .ok raw) =>
    match Release.hasAutorelease raw with
    | .error e => (l, .error e)
    | .ok true => (l, .ok ())
    | .ok false =>
      match withMacros W l (fun m => ((bumpMacros m).1, .ok (bumpMacros m).2)) with
      | (l, .error e) => (l, .error e)
      | (l, .ok true) => (l, .ok ())
      | (l, .ok false) =>
        match rawRelease W l with
        | (l, .error e) => (l, .error e)
        | (l, .ok raw) => setTag W (s% "release") (Release.bump raw) l

/-! ### changelog -/

/-- `section.normalized_id == "changelog"`, specfile.py:473 and 508 -/
def isChangelog [Uni] (s : Section) : Bool := Sections.normalizedId s == s% "changelog"

/-- the loop of `has_autochangelog`, specfile.py:472-477 -/
def anyAutochangelog [Uni] : Sections → Except Err Bool
  | [] => .ok false
  | s :: ss =>
    if isChangelog s then
      match Release.containsAutochangelog s.data with
      | .error e => .error e
      | .ok true => .ok true
      | .ok false => anyAutochangelog ss
    else anyAutochangelog ss

/-- `has_autochangelog`, specfile.py:467-477 -/
def hasAutochangelog [Uni] (W : World) (lines : List Str) : Out Bool :=
  withSections W lines (fun ss => (ss, anyAutochangelog ss))

/-- What `add_changelog_entry` depends on: expansions with an empty macro `dist`, the packager that is found
(`guess_packager`), the current local time and the current UTC date.
See specfile.py:517, 523-527 and 529. -/
structure Env where
  expand : Str → Except Err Str
  packager : Except Err Str
  now : Timestamp
  today : Timestamp

/-- the arguments of `add_changelog_entry` that are assigned in the loop, specfile.py:479-486 -/
structure Args where
  author : Option Str
  email : Option Str
  timestamp : Option Timestamp
  evr : Option Str
  deriving DecidableEq, Repr

/-- the author, specfile.py:528-533; the e-mail is used only if the author is given -/
def authorOf (env : Env) (a : Args) : Except Err Str :=
  match a.author with
  | none =>
    match env.packager with
    | .error e => .error e
    | .ok p => if p.isEmpty then .error .specfileException else .ok p
  | some x =>
    match a.email with
    | none => .ok x
    | some e => .ok (x ++ s% " <" ++ e ++ s% ">")

/-- `evr` unless it is given, specfile.py:512-513 -/
def defaultEvr : Str := s% "%{?epoch:%{epoch}:}%{version}-%{release}"

/-- what is done with a changelog, specfile.py:512-551: the changelog and the arguments for the next one -/
def addTo [Uni] (env : Env) (entry : List Str) (a : Args) (c : Changelog) : Changelog × Except Err Args :=
  match env.expand (a.evr.getD defaultEvr) with
  | .error e => (c, .error e)
  | .ok evr =>
    match authorOf env a with
    | .error e => (c, .error e)
    | .ok author =>
      (c.add (c.newTimestamp a.timestamp env.now env.today) author entry evr,
        .ok ⟨some author, a.email, some (c.newTimestamp a.timestamp env.now env.today), some evr⟩)

/-- the loop over the sections, specfile.py:507-551; the context manager writes the changelog back also if an exception is
raised, specfile.py:322-325 -/
def addLoop [Uni] (env : Env) (entry : List Str) : Args → Sections → Sections × Except Err Unit
  | _, [] => ([], .ok ())
  | a, s :: ss =>
    if isChangelog s then
      match Release.containsAutochangelog s.data with
      | .error e => (s :: ss, .error e)
      | .ok true => (s :: (addLoop env entry a ss).1, (addLoop env entry a ss).2)
      | .ok false =>
        match addTo env entry a (Changelog.parse s.data) with
        | (c, .error e) => ({ s with data := Changelog.raw c } :: ss, .error e)
        | (c, .ok a') => ({ s with data := Changelog.raw c } :: (addLoop env entry a' ss).1, (addLoop env entry a' ss).2)
    else (s :: (addLoop env entry a ss).1, (addLoop env entry a ss).2)

/-- `add_changelog_entry`, specfile.py:479-551; `entry` is a list of lines. The expansions happen while the sections are
accessed, that is with the lines as they were. -/
def addChangelogEntry [Uni] (W : World) (env : List Str → Env) (entry : List Str) (a : Args) (lines : List Str) : Out Unit :=
  withSections W lines (addLoop (env lines) entry a)

/-! ### sources and patches -/

/-- the sections with this id and their source lists, specfile.py:366-370 and 407-411; the case of the id matters. `i` is the
index of the first section. -/
def listsOf [Uni] (ex : Conditions.Oracle) (id : Str) : Nat → Sections → Except Err (List (Nat × Sourcelist))
  | _, [] => .ok []
  | i, s :: ss =>
    if Sections.id s = id then
      match Sourcelist.parse ex s.data with
      | .error e => .error e
      | .ok l =>
        match listsOf ex id (i + 1) ss with
        | .error e => .error e
        | .ok ls => .ok ((i, l) :: ls)
    else listsOf ex id (i + 1) ss

/-- source lists are written to their sections, specfile.py:385-386 and 426-427 -/
def storeLists : List Nat → List Sourcelist → Sections → Sections
  | i :: is, l :: ls, ss => storeLists is ls (ss.modify i (fun s => { s with data := Sourcelist.raw l }))
  | _, _, ss => ss

/-- the parameters of `sources` and `patches`, specfile.py:348-353 and 389-394 -/
structure SourceArgs where
  patches : Bool
  allowDuplicates : Bool := false
  implicitDefault : Bool := false
  digits : Nat := 1

/-- the id of the sections with source lists, specfile.py:369 and 410 -/
def SourceArgs.id (a : SourceArgs) : Str := if a.patches then s% "patchlist" else s% "sourcelist"

/-- a block `with self.sources()` or `with self.patches()` on sections that are given, specfile.py:365-386 and 406-427 -/
def sourcesBlock [Uni] (W : World) {α : Type} (a : SourceArgs) (lines : List Str) (body : Sources → Sources × Except Err α)
    (ss : Sections) : Sections × Except Err α :=
  match Sections.find ss (s% "package") with
  | .error _ => (ss, .error .attributeError)
  | .ok i =>
    match ss[i]? with
    | none => (ss, .error .indexError)
    | some s =>
      match Tags.parse W.names (W.oracle lines) s.data with
      | .error e => (ss, .error e)
      | .ok t =>
        match listsOf (W.oracle lines) a.id 0 ss with
        | .error e => (ss.set i { s with data := Tags.raw t }, .error e)
        | .ok ls =>
          let r := body ⟨t, ls.map (·.2), a.patches, a.allowDuplicates, a.implicitDefault, a.digits⟩
          ((storeLists (ls.map (·.1)) r.1.lists ss).set i { s with data := Tags.raw r.1.tags }, r.2)

/-- a block `with self.sources()` or `with self.patches()` outside of other blocks, specfile.py:347-427 -/
def withSources [Uni] (W : World) {α : Type} (a : SourceArgs) (lines : List Str)
    (body : Sources → Sources × Except Err α) : Out α :=
  withSections W lines (sourcesBlock W a lines body)

/-- `add_patch`, specfile.py:683-717 -/
def addPatch [Uni] (W : World) (location : Str) (number : Option Int) (comment : Option Str) (initialNumber : Int)
    (digits : Nat) (lines : List Str) : Out Unit :=
  withSources W ⟨true, false, false, digits⟩ lines (fun s =>
    ((s.addPatch location number comment initialNumber).1, result () (s.addPatch location number comment initialNumber).2))

/-! ### updating the version -/

/-- the match of `^.*?{pattern}$`, specfile.py:980: `none` without a match, otherwise the span of the first group, if the
pattern has one; a group that takes no part has the span (-1, -1) -/
abbrev Pattern := Str → Option (Option (Int × Int))

/-- `s[:i]`; specfile.py:989 -/
def upTo (s : Str) (i : Int) : Str := if i < 0 then s.take (s.length - i.natAbs) else s.take i.toNat

/-- `s[i:]`; specfile.py:989 -/
def from_ (s : Str) (i : Int) : Str := if i < 0 then s.drop (s.length - i.natAbs) else s.drop i.toNat

/-- `update_macro`, specfile.py:965-975; the name is not empty -/
def toggleMacro (name : Str) (style : CommentOutStyle) (prerelease : Bool) (m : MacroDefinitions) : MacroDefinitions :=
  match m.find name none with
  | .error _ => m
  | .ok i => { m with data := m.data.modify i (fun d =>
      { d with style := if d.commentedOut then d.style else style, commentedOut := !prerelease }) }

/-- `update_macro`, specfile.py:965-975 -/
def updateMacro [Uni] (W : World) (name : Option Str) (style : CommentOutStyle) (prerelease : Bool) (lines : List Str) :
    Out Unit :=
  match name with
  | none => (lines, .ok ())
  | some n =>
    if n.isEmpty then (lines, .ok ())
    else withMacros W lines (fun m => (toggleMacro n style prerelease m, .ok ()))

/-- `handle_prerelease`, specfile.py:977-989; `pattern` is `none` if it is not set -/
def handlePrerelease [Uni] (W : World) (pattern : Option Pattern) (name : Option Str) (style : CommentOutStyle)
    (version : Str) (lines : List Str) : Out Str :=
  match pattern with
  | none => (lines, .ok version)
  | some p =>
    match p version with
    | none =>
      match updateMacro W name style false lines with
      | (l, .error e) => (l, .error e)
      | (l, .ok ()) => (l, .ok version)
    | some none => (lines, .error .specfileException)
    | some (some (i, j)) =>
      match updateMacro W name style true lines with
      | (l, .error e) => (l, .error e)
      | (l, .ok ()) => (l, .ok (upTo version i ++ '~' :: from_ version j))

/-- `update_version`, specfile.py:931-991; `prot` is the default regular expression of protected entities -/
def updateVersion [Uni] (W : World) (prot : Str → Bool) (version : Str) (pattern : Option Pattern) (name : Option Str)
    (style : CommentOutStyle) (lines : List Str) : Out Unit :=
  match handlePrerelease W pattern name style version lines with
  | (l, .error e) => (l, .error e)
  | (l, .ok v) => updateTag W prot (s% "Version") v l

end Specfile.Ops
