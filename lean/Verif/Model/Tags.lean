import Verif.Py.Seq
import Verif.Model.Utils
import Verif.Model.Conditions
import Verif.Model.MacroDefinitions
/-
Model of /repo/specfile/tags.py.
-/
namespace Specfile
open Py Regex

/-- `Comment`, tags.py:42-53 -/
structure Comment where
  text : Str
  pfx : Str
  deriving DecidableEq, Repr

/-- `Comments`, tags.py:68-94 -/
structure Comments where
  data : List Comment
  preceding : List Str
  deriving DecidableEq, Repr

namespace Comment
/-- `Comment.__str__`, tags.py:60-61 -/
def str (c : Comment) : Str := c.pfx ++ c.text
/-- `Comment(text)`: the default prefix, tags.py:51 -/
def ofText (t : Str) : Comment := ⟨t, s% "# "⟩
end Comment

namespace Comments

/-- `get_raw_data`, tags.py:193-194 -/
def raw (c : Comments) : List Str := c.preceding ++ c.data.map (·.str)

/-- `raw` property (texts), tags.py:105-108 -/
def texts (c : Comments) : List Str := c.data.map (·.text)

/-- `UserList.__eq__`: only `data` is compared; Tags derives from it in tags.py:306 -/
def eqv (a b : Comments) : Bool := a.data == b.data

/-- `comment_regex`, tags.py:182; groups 1 and 2 -/
def commentRe : Re Nat :=
  .bos ⬝ .grp 1 (star isSpace ⬝ ch '#' ⬝ star isSpace) ⬝ .grp 2 (star dot) ⬝ .eos

/-- the loop over the reversed lines, tags.py:183-190; the accumulators are built from the end -/
def parseRev (comments : List Comment) (preceding : List Str) : List Str → Comments
  | [] => ⟨comments, preceding⟩
  | l :: ls =>
    match rmatch commentRe l with
    | none => parseRev comments (l :: preceding) ls
    | some t =>
      if !preceding.isEmpty then parseRev comments (l :: preceding) ls
      else parseRev (⟨(t.get 2).getD [], (t.get 1).getD []⟩ :: comments) preceding ls

/-- `Comments.parse`, tags.py:171-191 -/
def parse (lines : List Str) : Comments := parseRev [] [] lines.reverse

/-- `append` with a string, tags.py:150-153 -/
def append (c : Comments) (t : Str) : Comments := { c with data := c.data ++ [.ofText t] }

/-- `insert` with a string, tags.py:155-158 -/
def insert (c : Comments) (i : Int) (t : Str) : Comments :=
  let k := insertPos c.data.length i
  { c with data := c.data.take k ++ .ofText t :: c.data.drop k }

/-- `extend` with strings, tags.py:165-169 -/
def extend (c : Comments) (ts : List Str) : Comments :=
  { c with data := c.data ++ ts.map .ofText }

/-- `__setitem__` with an index and a string, tags.py:142-143 -/
def setText (c : Comments) (i : Int) (t : Str) : Except Err Comments :=
  match pyIndex c.data.length i with
  | none => .error .indexError
  | some k => .ok { c with data := c.data.modify k (fun x => { x with text := t }) }

/-- `__contains__` with a string, tags.py:100-103 -/
def contains (c : Comments) (t : Str) : Bool := c.texts.contains t

end Comments

/-- `Tag`, tags.py:197-244. The context is left out: expansions are an oracle where they matter. Objects
are values: mutation of a shared object is not modelled here but in Model/Heap (`copy.copy` of comments
shares the list of preceding lines). -/
structure Tag where
  name : Str
  value : Str
  sep : Str
  comments : Comments
  valid : Bool
  pfx : Str
  sfx : Str
  deriving DecidableEq, Repr

/-- `Tags`, tags.py:306-339 -/
structure Tags where
  data : List Tag
  remainder : List Str
  deriving DecidableEq, Repr

namespace Tags
open MacroDefinitions (splitTrailing)

/-- a literal under `re.IGNORECASE`, tags.py:505 -/
def litI [Uni] {κ : Type} : Str → Re κ
  | [] => .eps
  | c :: cs => .cls (Uni.ieq c) ⬝ litI cs

/-- `[^\s)]`, tags.py:36 -/
def argChar (c : Char) : Bool := !isSpace c && c != ')'

/-- `(?:\s*\(\s*[^\s)]*\s*\))?`, tags.py:36 -/
def argRe {κ : Type} : Re κ :=
  opt (star isSpace ⬝ ch '(' ⬝ star isSpace ⬝ star argChar ⬝ star isSpace ⬝ ch ')')

/-- `get_tag_name_regex`, tags.py:32-39. Tag names are ASCII letters, `re.escape` does nothing. -/
def nameRe [Uni] {κ : Type} (name : Str) : Re κ :=
  if Constants.tagsWithArg.contains name then litI name ⬝ argRe
  else if name = s% "source" ∨ name = s% "patch" then litI name ⬝ star Uni.isDecimal
  else litI name

/-- `regex_pattern`, tags.py:499-501; groups 1 (`n`), 2 (`s`), 3 (`v`) -/
def tagRe [Uni] (name : Str) : Re Nat :=
  .bos ⬝ .grp 1 (nameRe name) ⬝ .grp 2 (star isSpace ⬝ ch ':' ⬝ star isSpace) ⬝ .grp 3 (plus dot)

/-- `next((m for m in (r.match(line) for r in tag_regexes) if m), None)`, tags.py:505, 516; `names`
is `TAG_NAMES` in the order in which the set is iterated -/
def tagMatch [Uni] (names : List Str) (line : Str) : Option (St Nat) :=
  names.findSome? (fun n => rmatch (tagRe n) line)

/-- `Tag.__init__`, tags.py:232-244: only the name is checked -/
def mkTag [Uni] (t : Tag) : Except Err Tag :=
  if t.name.isEmpty ∨ ¬ Constants.tagNames.any
      (fun n => (rmatch (nameRe n : Re Nat) t.name).isSome) then .error .valueError
  else .ok t

/-- `Tag.__eq__`, tags.py:246-256 -/
def eqv (a b : Tag) : Bool :=
  a.name == b.name && a.value == b.value && a.sep == b.sep && a.comments.eqv b.comments &&
    a.pfx == b.pfx && a.sfx == b.sfx

/-- `normalized_name`, tags.py:275-281 -/
def normalizedName [Uni] (t : Tag) : Str := Uni.capitalize t.name

/-- the text of a tag, tags.py:557 -/
def tagText (t : Tag) : Str := t.pfx ++ t.name ++ t.sep ++ t.value ++ t.sfx

/-- the lines of a tag and its comments, tags.py:555-560 -/
def tagRaw (t : Tag) : List Str := t.comments.raw ++ splitC '\n' (tagText t)

/-- `get_raw_section_data`, tags.py:546-562 -/
def raw (t : Tags) : List Str := (t.data.map tagRaw).flatten ++ t.remainder

/-- `container.index(self)`, tags.py:302 -/
def index (data : List Tag) (x : Tag) : Option Nat := data.findIdx? (fun y => eqv y x)

/-- `Tag.get_position`, tags.py:290-303 -/
def position (m : Tags) (x : Tag) : Except Err Nat :=
  match index m.data x with
  | none => .error .valueError
  | some i => .ok (((m.data.take i).map (fun y => y.comments.raw.length + 1)).sum +
      x.comments.raw.length)

/-- `__contains__`, tags.py:391-397 -/
def contains [Uni] (m : Tags) (name : Str) : Bool :=
  m.data.any (fun t => Uni.lower t.name == Uni.lower name)

/-- the loop of `find` without position, tags.py:449-456 -/
def findLoop [Uni] (name : Str) : Nat → Option Nat → List Tag → Option Nat
  | _, first, [] => first
  | i, first, x :: xs =>
    if Uni.capitalize x.name == Uni.capitalize name then
      if x.valid then some i
      else findLoop name (i + 1) (if first.isNone then some i else first) xs
    else findLoop name (i + 1) first xs

/-- the loop of `find` with a position, tags.py:449-458 -/
def findPosLoop [Uni] (m : Tags) (name : Str) (pos : Nat) : Nat → List Tag → Except Err Nat
  | _, [] => .error .valueError
  | i, x :: xs =>
    if Uni.capitalize x.name == Uni.capitalize name then
      match m.position x with
      | .error e => .error e
      | .ok p => if p = pos then .ok i else findPosLoop m name pos (i + 1) xs
    else findPosLoop m name pos (i + 1) xs

/-- `find`, tags.py:432-461 -/
def find [Uni] (m : Tags) (name : Str) (pos : Option Nat) : Except Err Nat :=
  match pos with
  | none => match findLoop name 0 none m.data with
    | none => .error .valueError
    | some i => .ok i
  | some p => findPosLoop m name p 0 m.data

/-- `get`, tags.py:429-430; also `__getattr__` (399-405) for a name that is contained, up to the
exception type -/
def get [Uni] (m : Tags) (name : Str) (pos : Option Nat) : Except Err Tag :=
  match m.find name pos with
  | .error e => .error e
  | .ok i => match m.data[i]? with
    | none => .error .indexError
    | some x => .ok x

/-- assigning `tags[i].value`, tags.py:235 -/
def setValueAt (m : Tags) (i : Nat) (v : Str) : Tags :=
  { m with data := m.data.modify i (fun x => { x with value := v }) }

/-- `__setattr__` with a string, tags.py:407-416. For a name that is not contained the tags stay as they are and the
string becomes an attribute of the Python object, see `Verif.Model.Attributes`. -/
def setValue [Uni] (m : Tags) (name v : Str) : Except Err Tags :=
  if !m.contains name then .ok m
  else match m.find name none with
  | .error _ => .error .attributeError
  | .ok i => .ok (m.setValueAt i v)

/-- outcome of a mutating operation: the state it leaves behind and the exception, if any;
tags.py:359-424 and 463-477 -/
abbrev Res := Tags × Option Err

/-- the lines that take the place of a deleted tag, tags.py:368-383: `preceding` are its preceding
lines, `lines` the lines that follow -/
def compress (preceding lines : List Str) : List Str :=
  (preceding.reverse.dropWhile (·.isEmpty)).reverse ++
    (if (!preceding.isEmpty && preceding.getLast? == some []) ||
        (!lines.isEmpty && lines.head? == some []) then [[]] else []) ++
    lines.dropWhile (·.isEmpty)

/-- `delete` in `__delitem__`, tags.py:360-383 -/
def delItem (m : Tags) (i : Int) : Res :=
  match pyIndex m.data.length i with
  | none => (m, some .indexError)
  | some k =>
    let lines := ((m.data[k]?).map (·.comments.preceding)).getD []
    let data := m.data.eraseIdx k
    if i < data.length then
      match pyIndex data.length i with
      | none => ({ m with data := data }, some .indexError)
      | some j =>
        ({ m with data := data.modify j (fun x =>
            { x with comments := { x.comments with preceding := compress lines x.comments.preceding } }) },
         none)
    else ({ data := data, remainder := compress lines m.remainder }, none)

/-- the loop over the indices of a slice, tags.py:386-387 -/
def delAll (m : Tags) : List Nat → Res
  | [] => (m, none)
  | i :: l =>
    match delItem m i with
    | (m', some e) => (m', some e)
    | (m', none) => delAll m' l

/-- `__delitem__` with a slice, tags.py:385-387 -/
def delSlice (m : Tags) (start stop step : Option Int) : Res :=
  match sliceIndices m.data.length start stop step with
  | .error e => (m, some e)
  | .ok l => delAll m l.reverse

/-- `__delattr__`, tags.py:418-424; a name that is not contained is taken to be no attribute of the Python object
either, see `Verif.Model.Attributes` -/
def delAttr [Uni] (m : Tags) (name : Str) : Res :=
  if !m.contains name then (m, some .attributeError)
  else match m.find name none with
  | .error _ => (m, some .attributeError)
  | .ok i => ({ m with data := m.data.eraseIdx i }, none)

/-- the lines up to and including the first `%endif`, and the rest, tags.py:472-477 -/
def splitEndif (lines : List Str) : List Str × List Str :=
  match lines.findIdx? (fun l => startsWith l (s% "%endif")) with
  | none => ([], lines)
  | some k => (lines.take (k + 1), lines.drop (k + 1))

/-- prepend lines to the preceding lines of a tag, tags.py:376-383 -/
def prependTo (t : Tag) (ls : List Str) : Tag :=
  { t with comments := { t.comments with preceding := ls ++ t.comments.preceding } }

/-- `insert`, tags.py:463-477. An index below `-len` makes `self.data[i]` raise. -/
def insert (m : Tags) (i : Int) (item : Tag) : Res :=
  let n := m.data.length
  if i < n then
    match pyIndex n i with
    | none => (m, some .indexError)
    | some k =>
      let lines := ((m.data[k]?).map (·.comments.preceding)).getD []
      let s := splitEndif lines
      ({ m with data := m.data.take k ++ prependTo item s.1 ::
          (m.data.drop k).modify 0 (fun x => { x with comments := { x.comments with preceding := s.2 } }) },
       none)
  else
    let s := splitEndif m.remainder
    (⟨m.data ++ [prependTo item s.1], s.2⟩, none)

/-! ### parsing -/

/-- `bc > 0 or pc > 0`, tags.py:521 -/
def open_ (value : Str) : Bool :=
  decide ((Utils.countBrackets value).1 > 0) || decide ((Utils.countBrackets value).2 > 0)

/-- the `while` loop, tags.py:519-528: value, trailing whitespace, number of lines consumed. `ws` is
only replaced when a line has trailing whitespace. -/
def takeValue (value ws : Str) : List (Str × Bool) → Str × Str × Nat
  | [] => (value, ws, 0)
  | l :: ls =>
    if open_ value then
      let s := splitTrailing l.1
      let r := takeValue (value ++ ws ++ '\n' :: s.1) (if s.2.isEmpty then ws else s.2) ls
      (r.1, r.2.1, r.2.2 + 1)
    else (value, ws, 0)

/-- the main loop of `parse`, tags.py:508-543; `skip` is the number of lines already consumed by the
value of the previous tag. The constructor of `Tag` cannot fail here, the name has just been matched. -/
def parseLoop [Uni] (names : List Str) (buffer : List Str) :
    Nat → List (Str × Bool) → Except Err Tags
  | _, [] => .ok ⟨[], buffer⟩
  | skip + 1, _ :: ls => parseLoop names buffer skip ls
  | 0, l :: ls =>
    let s := splitTrailing l.1
    match Utils.splitConditional s.1 with
    | .error e => .error e
    | .ok c =>
      match tagMatch names c.body with
      | none => parseLoop names (buffer ++ [c.pfx ++ c.body ++ c.sfx ++ s.2]) 0 ls
      | some t =>
        let v := (t.get 3).getD []
        let r := if c.sfx.isEmpty then takeValue v s.2 ls else (v, s.2, 0)
        let tag : Tag := { name := (t.get 1).getD [], value := r.1, sep := (t.get 2).getD []
                           comments := Comments.parse buffer, valid := l.2, pfx := c.pfx
                           sfx := c.sfx ++ r.2.1 }
        match parseLoop names [] r.2.2 ls with
        | .error e => .error e
        | .ok rest => .ok ⟨tag :: rest.data, rest.remainder⟩

/-- `parse`, tags.py:479-544; `ex` as in `Model/Conditions.lean` -/
def parse [Uni] (names : List Str) (ex : Conditions.Oracle) (lines : List Str) : Except Err Tags :=
  match Conditions.processConditions ex (parseLines lines).excluded lines with
  | .error e => .error e
  | .ok ls => parseLoop names [] 0 ls
where parseLines := MacroDefinitions.parseLines

end Tags
end Specfile
