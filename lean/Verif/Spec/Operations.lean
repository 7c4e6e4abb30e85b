import Verif.Spec.Find
import Verif.Spec.Release
import Verif.Spec.Sections
import Verif.Spec.Definitions
import Verif.Model.UpdateValue
import Verif.Model.Operations
import Verif.Spec.Changelog
/-
What a spec file consists of, for statements about operations on a whole spec file.
-/
namespace Specfile.Spec
open Py Update

/-- the tags of the spec file are `t`, the sections `rest` follow -/
def FileTags [Uni] (W : World) (lines : List Str) (t : Tags) (rest : Sections) : Prop :=
  ∃ data, Sections.parse (W.oracle lines) lines = .ok (preambleOf data :: rest) ∧
    Tags.parse W.names (W.oracle lines) data = .ok t

/-- the tag with index `k` is the one that is found by this name: the first valid one, or the first one -/
def TagNamed [Uni] (name : Str) (t : Tags) (k : Nat) : Prop :=
  Best (fun x => Uni.capitalize x.name = Uni.capitalize name) (fun x => x.valid = true) t.data k

/-- there is no tag with this name -/
def NoTag [Uni] (name : Str) (t : Tags) : Prop := ∀ x ∈ t.data, Uni.capitalize x.name ≠ Uni.capitalize name

/-- `t'` is `t` except that the tag with index `k` has the value `v` -/
structure TagSet (t : Tags) (k : Nat) (v : Str) (t' : Tags) : Prop where
  remainder : t'.remainder = t.remainder
  set : t'.data[k]? = (t.data[k]?).map (fun x => { x with value := v })
  others : ∀ (j : Nat), j ≠ k → t'.data[j]? = t.data[j]?

/-- reading the lines as macro definitions, sections and tags and writing them again changes nothing -/
structure ReadsBack [Uni] (W : World) (lines : List Str) : Prop where
  macros : ∀ m, MacroDefinitions.parse (W.oracle lines) true lines = .ok m → MacroDefinitions.raw m = lines
  sections : ∀ ss, Sections.parse (W.oracle lines) lines = .ok ss → Sections.raw ss = lines
  tags : ∀ t rest, FileTags W lines t rest → Tags.raw t ++ Sections.raw rest = lines

/-- the result of giving a release to a raw release: the dist tag is kept -/
def GivenRelease [Uni] (raw release raw' : Str) : Prop :=
  (∀ r d minor, DistRelease raw r d minor → raw' = release ++ d) ∧ (¬ HasDist raw → raw' = release)

/-! ### changelog entries -/

/-- a line refers to `%autochangelog`, and the lines before it can be parsed -/
def UsesAutochangelog [Uni] (data : List Str) : Prop :=
  ∃ a l b, data = a ++ l :: b ∧ SeenIn (s% "autochangelog") l ∧ ∀ x ∈ a, ∀ e, ¬ Breaks x e

/-- no line refers to `%autochangelog`, and all of them can be parsed -/
def FreeOfAutochangelog [Uni] (data : List Str) : Prop := ∀ l ∈ data, ¬ SeenIn (s% "autochangelog") l ∧ ∀ e, ¬ Breaks l e

/-- the newest entry, which is the last one, has a time -/
def NewestHasTime [Uni] (c : Changelog) : Prop :=
  ∃ l e, c.data = l ++ [e] ∧ ∃ a x b, e.header = a ++ (x ++ b) ∧ ExtendedStamp x

/-- the timestamp of a new entry: the one that is given; otherwise the local time if the newest entry has a time, and the
date if not -/
def StampFor [Uni] (env : Ops.Env) (given : Option Changelog.Timestamp) (c : Changelog) (t : Changelog.Timestamp) : Prop :=
  (∀ g, given = some g → t = g) ∧ (given = none → (NewestHasTime c → t = env.now) ∧ (¬ NewestHasTime c → t = env.today))

/-- the padding of the day of month of a new entry: the longest one among the entries, the newest of these -/
def PadFor [Uni] (c : Changelog) (pad : Str) : Prop :=
  (c.data = [] → pad = s% "0") ∧
  (c.data ≠ [] → ∃ a e b, c.data = a ++ e :: b ∧ PaddingOf e.header pad ∧
    (∀ x ∈ b, ∀ p, PaddingOf x.header p → p.length < pad.length) ∧
    (∀ x ∈ a, ∀ p, PaddingOf x.header p → p.length ≤ pad.length))

/-- the author of a new entry: the one that is given, with the e-mail if there is one; otherwise the packager -/
def AuthorFor (packager : Except Err Str) (author email : Option Str) (x : Str) : Prop :=
  (author = none → packager = .ok x ∧ x ≠ []) ∧
  ∀ a, author = some a → (email = none → x = a) ∧ ∀ e, email = some e → x = a ++ s% " <" ++ e ++ s% ">"

/-- `data` is the changelog `c` with a new entry on top; `a'` has the author, the timestamp and the EVR that were used -/
def EntryOnTop [Uni] (env : Ops.Env) (entry : List Str) (a : Ops.Args) (c : Changelog) (data : List Str) (a' : Ops.Args) :
    Prop :=
  ∃ evr author t pad header,
    env.expand (a.evr.getD (s% "%{?epoch:%{epoch}:}%{version}-%{release}")) = .ok evr ∧
    AuthorFor env.packager a.author a.email author ∧ StampFor env a.timestamp c t ∧ PadFor c pad ∧
    HeaderOf t author (some evr) pad header ∧
    data = c.predecessor ++ (header :: (entry ++ if c.data = [] then [] else [[]])) ++ (c.data.reverse.map logLines).flatten ∧
    a' = ⟨some author, a.email, some t, some evr⟩

/-- an entry is added to every changelog that does not use `%autochangelog`; the other sections stay as they are -/
inductive EntryAdded [Uni] (env : Ops.Env) (entry : List Str) : Ops.Args → List Section → Ops.Args → List Section → Prop
  | done (a : Ops.Args) : EntryAdded env entry a [] a []
  | other {a a' s ss ss'} (hs : Sections.normalizedId s ≠ s% "changelog") (h : EntryAdded env entry a ss a' ss') :
    EntryAdded env entry a (s :: ss) a' (s :: ss')
  | automatic {a a' s ss ss'} (hs : Sections.normalizedId s = s% "changelog") (hu : UsesAutochangelog s.data)
    (h : EntryAdded env entry a ss a' ss') : EntryAdded env entry a (s :: ss) a' (s :: ss')
  | added {a a' a'' s ss ss' c data} (hs : Sections.normalizedId s = s% "changelog") (hf : FreeOfAutochangelog s.data)
    (hc : GoodChangelog c) (hl : changelogLines c = s.data) (he : EntryOnTop env entry a c data a')
    (h : EntryAdded env entry a' ss a'' ss') : EntryAdded env entry a (s :: ss) a'' ({ s with data := data } :: ss')

/-- no entry can be added to this section -/
inductive CannotAdd [Uni] (env : Ops.Env) (a : Ops.Args) (s : Section) : Err → Prop
  | text {u l v} (h : s.data = u ++ l :: v) (hb : Breaks l .valueError)
    (hu : ∀ x ∈ u, ¬ SeenIn (s% "autochangelog") x ∧ ∀ e, ¬ Breaks x e) : CannotAdd env a s .valueError
  | evr {e} (hf : FreeOfAutochangelog s.data)
    (h : env.expand (a.evr.getD (s% "%{?epoch:%{epoch}:}%{version}-%{release}")) = .error e) : CannotAdd env a s e
  | author (hf : FreeOfAutochangelog s.data) (h : a.author = none)
    (hp : env.packager = .ok []) : CannotAdd env a s .specfileException
  | packager {e} (hf : FreeOfAutochangelog s.data) (h : a.author = none) (hp : env.packager = .error e) :
    CannotAdd env a s e

/-! ### sources -/

/-- the source lists in the sections with this id -/
inductive ListsIn [Uni] (ex : Conditions.Oracle) (id : Str) : List Section → List Sourcelist → Prop
  | done : ListsIn ex id [] []
  | other {s ss ls} (hs : Sections.id s ≠ id) (h : ListsIn ex id ss ls) : ListsIn ex id (s :: ss) ls
  | list {s ss l ls} (hs : Sections.id s = id) (hl : Sourcelist.parse ex s.data = .ok l) (h : ListsIn ex id ss ls) :
    ListsIn ex id (s :: ss) (l :: ls)

/-- the source lists are written to the sections with this id; the other sections stay as they are -/
inductive ListsStored (id : Str) : List Section → List Sourcelist → List Section → Prop
  | done : ListsStored id [] [] []
  | other {s ss ls ss'} (hs : Sections.id s ≠ id) (h : ListsStored id ss ls ss') : ListsStored id (s :: ss) ls (s :: ss')
  | list {s ss l ls ss'} (hs : Sections.id s = id) (h : ListsStored id ss ls ss') :
    ListsStored id (s :: ss) (l :: ls) ({ s with data := Sourcelist.raw l } :: ss')

/-! ### pre-releases -/

/-- the macro definition with index `k` is the one that is found by this name -/
def DefinitionNamed (name : Str) (m : MacroDefinitions) (k : Nat) : Prop :=
  Best (fun d => d.name = name) (fun d => d.valid = true) m.data k

/-- a macro definition is in effect or commented out; a new comment has the given style -/
structure Toggled (style : CommentOutStyle) (inEffect : Bool) (d d' : MacroDefinition) : Prop where
  same : d' = { d with commentedOut := !inEffect, style := d'.style }
  kept : d.commentedOut = true → d'.style = d.style
  new : d.commentedOut = false → d'.style = style

end Specfile.Spec
