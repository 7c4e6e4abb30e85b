import Verif.Model.Tags
/-
Model of /repo/specfile/sourcelist.py.
-/
namespace Specfile
open Py

/-- `SourcelistEntry`, sourcelist.py:20-49; the context is left out -/
structure SourcelistEntry where
  location : Str
  comments : Comments
  valid : Bool
  deriving DecidableEq, Repr

/-- `Sourcelist`, sourcelist.py:81-104 -/
structure Sourcelist where
  data : List SourcelistEntry
  remainder : List Str
  deriving DecidableEq, Repr

namespace Sourcelist

/-- the loop of `parse`, sourcelist.py:144-153 -/
def parseLoop (buffer : List Str) : List (Str × Bool) → Sourcelist
  | [] => ⟨[], buffer⟩
  | (line, valid) :: ls =>
    if !line.isEmpty && !startsWith (lstrip line) ['#'] then
      let r := parseLoop [] ls
      { r with data := ⟨line, Comments.parse buffer, valid⟩ :: r.data }
    else parseLoop (buffer ++ [line]) ls

/-- `parse`, sourcelist.py:127-153 -/
def parse [Uni] (ex : Conditions.Oracle) (lines : List Str) : Except Err Sourcelist :=
  match Conditions.processConditions ex (MacroDefinitions.parseLines lines).excluded lines with
  | .error e => .error e
  | .ok ls => .ok (parseLoop [] ls)

/-- `get_raw_section_data`, sourcelist.py:155-167 -/
def raw (s : Sourcelist) : List Str :=
  (s.data.map (fun e => e.comments.raw ++ [e.location])).flatten ++ s.remainder

end Sourcelist
end Specfile
