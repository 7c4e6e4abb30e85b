import Verif.Model.Tags
import Verif.Model.Options
/-
Model of /repo/specfile/sections.py.
-/
namespace Specfile
open Py Regex

/-- `Section`, sections.py:30-73. Reading `id` or `normalized_id` stores a missing delimiter
(113-114, 121-122); this is modelled by computing the delimiter on the fly (`Sections.delim`), which
differs only for a section made by a program whose options are removed again after its id was read. -/
structure Section where
  name : Str
  options : Options.Opts
  delimiter : Str
  separator : Str
  data : List Str
  deriving DecidableEq, Repr

/-- `Sections`, sections.py:140-161 -/
abbrev Sections := List Section

namespace Sections
open Tags (litI)

/-- `PREAMBLE`, sections.py:27 -/
def preamble : Str := s% "package"

/-- `SECTION_OPTIONS.get(name)` with `None` replaced by the empty string as in `Options.__init__`,
constants.py:82-88, options.py:240 -/
def optstring (name : Str) : Str :=
  if Constants.scriptSections.contains name then s% "n:f:p:P:eq"
  else ((Constants.sectionOptionsBase.find? (fun x => x.1 == name)).map (·.2)).getD []

/-- `Section.__init__`, sections.py:41-73 -/
def mkSection [Uni] (name : Str) (options : Option Options.Opts) (delimiter separator : Str)
    (data : List Str) : Except Err Section :=
  if !Constants.sectionNames.contains (Uni.lower name) then .error .valueError
  else .ok ⟨name, options.getD ⟨[], optstring (Uni.lower name), []⟩, delimiter, separator, data⟩

/-- the delimiter after "ensure delimiter is not empty when there are any options",
sections.py:112-114, 120-122; the truth value of options is `len(options) != 0` -/
def delim (s : Section) : Str :=
  if Options.len s.options ≠ 0 ∧ s.delimiter.isEmpty then [' '] else s.delimiter

/-- `id`, sections.py:109-115 -/
def id (s : Section) : Str := s.name ++ delim s ++ Options.tokensStr s.options.tokens

/-- `normalized_id`, sections.py:117-123 -/
def normalizedId [Uni] (s : Section) : Str :=
  Uni.lower s.name ++ delim s ++ Options.tokensStr s.options.tokens

/-- `Section.__str__`, sections.py:75-79 -/
def str [Uni] (s : Section) : Str :=
  let data := (s.data.map (fun l => l ++ ['\n'])).flatten
  if normalizedId s = preamble then data else '%' :: (id s ++ s.separator ++ data)

/-- `Section.get_raw_data`, sections.py:134-137 -/
def rawSection [Uni] (s : Section) : List Str :=
  if normalizedId s = preamble then s.data else splitlines (str s)

/-- `is_script`, sections.py:125-129 -/
def isScript [Uni] (s : Section) : Except Err Bool :=
  match words (normalizedId s) with
  | [] => .error .indexError
  | w :: _ => .ok (Constants.scriptSections.contains w || Constants.simpleScriptSections.contains w)

/-- `Sections.__str__`, sections.py:163-164 -/
def strAll [Uni] (ss : Sections) : Str := (ss.map str).flatten

/-- `Sections.get_raw_data`, sections.py:301-305 -/
def raw [Uni] (ss : Sections) : List Str := (ss.map rawSection).flatten

/-- `__contains__`, sections.py:170-176 -/
def contains [Uni] (ss : Sections) (id : Str) : Bool :=
  ss.any (fun s => normalizedId s == Uni.lower id)

/-- `find`, sections.py:211-215 -/
def find [Uni] (ss : Sections) (id : Str) : Except Err Nat :=
  match ss.findIdx? (fun s => normalizedId s == Uni.lower id) with
  | none => .error .valueError
  | some i => .ok i

/-- `get`, sections.py:208-209; also `__getattr__` (178-184) for an id that is contained, up to the
exception type -/
def get [Uni] (ss : Sections) (id : Str) : Except Err Section :=
  match find ss id with
  | .error e => .error e
  | .ok i => match ss[i]? with
    | none => .error .indexError
    | some s => .ok s

/-- `__setattr__` with a list of lines, sections.py:186-195. For an id that is not contained the sections stay as they
are and the value becomes an attribute of the Python object, see `Verif.Model.Attributes`. -/
def setData [Uni] (ss : Sections) (id : Str) (data : List Str) : Except Err Sections :=
  if !contains ss id then .ok ss
  else match find ss id with
  | .error _ => .error .attributeError
  | .ok i => .ok (ss.modify i (fun s => { s with data := data }))

/-- `__setattr__` with a section, sections.py:186-195, see `setData` -/
def setSection [Uni] (ss : Sections) (id : Str) (new : Section) : Except Err Sections :=
  if !contains ss id then .ok ss
  else match find ss id with
  | .error _ => .error .attributeError
  | .ok i => .ok (ss.set i new)

/-- `__delattr__`, sections.py:197-203; an id that is not contained is taken to be no attribute of the Python object
either, see `Verif.Model.Attributes` -/
def delSection [Uni] (ss : Sections) (id : Str) : Except Err Sections :=
  match find ss id with
  | .error _ => .error .attributeError
  | .ok i => .ok (ss.eraseIdx i)

/-! ### parsing -/

/-- `re.split(r"(\s+)", line)`, sections.py:245: the first token, and pairs of a run of whitespace and
the token after it -/
def splitWs : Str → Str × List (Str × Str)
  | [] => ([], [])
  | c :: cs =>
    if isSpace c then
      match splitWs cs with
      | ([], (w, t) :: ps) => ([], (c :: w, t) :: ps)
      | (h, ps) => ([], ([c], h) :: ps)
    else ((c :: (splitWs cs).1), (splitWs cs).2)

/-- `"".join` of the tokens after the first one, sections.py:257-265 -/
def joinPairs (ps : List (Str × Str)) : Str := (ps.map (fun p => p.1 ++ p.2)).flatten

/-- The last token is moved to the content of the section, sections.py:246-256: what is left of the
pairs, the separator and the content. -/
def splitContent (ex : Str → Except Err Str) (ps : List (Str × Str)) :
    Except Err (List (Str × Str) × Str × List Str) :=
  match ps.getLast? with
  | none => .ok (ps, ['\n'], [])
  | some (ws, t) =>
    if startsWith t ['%'] then
      match ex t with
      | .error .rpmException => .ok (ps, ['\n'], [])
      | .error e => .error e
      | .ok x => if startsWith x ['\n'] then .ok (ps.dropLast, ws, [t]) else .ok (ps, ['\n'], [])
    else .ok (ps, ['\n'], [])

/-- what `split_id` returns: name, options, delimiter, separator, content; sections.py:242-265 -/
structure Header where
  name : Str
  options : Option Options.Opts
  delimiter : Str
  separator : Str
  content : List Str
  deriving DecidableEq, Repr

/-- `split_id`, sections.py:242-265 -/
def splitId [Uni] (ex : Str → Except Err Str) (line : Str) : Except Err Header :=
  match splitContent ex (splitWs line).2 with
  | .error e => .error e
  | .ok ([], separator, content) => .ok ⟨(splitWs line).1, none, [], separator, content⟩
  | .ok ((delimiter, t) :: ps, separator, content) =>
    match Options.tokenize (t ++ joinPairs ps) with
    | .error e => .error e
    | .ok ts => .ok ⟨(splitWs line).1, some ⟨ts, optstring (Uni.lower (splitWs line).1), []⟩, delimiter,
        separator, content⟩

/-- `^%name(\s+.*(?<!\\)$|$)` with `re.IGNORECASE`, sections.py:273; names are ASCII letters and
underscores, `re.escape` does nothing; the group is not used -/
def headerRe [Uni] (name : Str) : Re Nat :=
  .bos ⬝ ch '%' ⬝ litI name ⬝
    ((plus isSpace ⬝ star dot ⬝ .notAfter (· == '\\') ⬝ .eos) ∣∣ .eos)

/-- the test for a section header, sections.py:281-283. The order of the names does not matter. -/
def isHeader [Uni] (line : Str) : Bool :=
  startsWith line ['%'] && Constants.sectionNames.any (fun n => (rmatch (headerRe n) line).isSome)

/-- `section_starts` without its last element, sections.py:276-285; `i` is the index of the first line -/
def starts [Uni] (excluded : List Conditions.Range) : Nat → List Str → List Nat
  | _, [] => []
  | i, l :: ls =>
    if !Conditions.isExcluded excluded i && isHeader l then i :: starts excluded (i + 1) ls
    else starts excluded (i + 1) ls

/-- the loop over pairs of section starts, sections.py:288-298 -/
def build [Uni] (ex : Conditions.Oracle) (lines : List Str) : List (Nat × Nat) → Except Err Sections
  | [] => .ok []
  | (start, fin) :: r =>
    match splitId (ex start) ((lines.getD start []).drop 1) with
    | .error e => .error e
    | .ok h =>
      match mkSection h.name h.options h.delimiter h.separator
          (h.content ++ (lines.take fin).drop (start + 1)) with
      | .error e => .error e
      | .ok s => match build ex lines r with
        | .error e => .error e
        | .ok ss => .ok (s :: ss)

/-- `parse` from the excluded lines on, sections.py:272-299; `ex` as in `Model/Conditions.lean` -/
def parseWith [Uni] (excluded : List Conditions.Range) (ex : Conditions.Oracle) (lines : List Str) : Except Err Sections :=
  let ss := starts excluded 0 lines ++ [lines.length]
  match mkSection preamble none [] ['\n'] (lines.take (ss.headD 0)) with
  | .error e => .error e
  | .ok p => match build ex lines (ss.zip ss.tail) with
    | .error e => .error e
    | .ok r => .ok (p :: r)

/-- `parse`, sections.py:217-299. No macro definition is supposed to be called `_remainder`, see
`Verif.Model.Attributes`. -/
def parse [Uni] (ex : Conditions.Oracle) (lines : List Str) : Except Err Sections :=
  parseWith (MacroDefinitions.parseLines lines).excluded ex lines

end Sections
end Specfile
