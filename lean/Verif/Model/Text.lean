import Verif.Py.Str
import Verif.Py.Err
/-
Model of loading and saving the text of a spec file, /repo/specfile/specfile.py:100-101, 122-125 and
180-186.

The file is the text after decoding with UTF-8 and `surrogateescape`; decoding and encoding are not modelled.
-/
namespace Specfile.Text
open Py

/-- Newline translation of Python text files opened for reading with the default `newline=None`, as
`Path.read_text` does in specfile.py:124: `\r\n` and `\r` become `\n`. Writing translates `\n` to `os.linesep`, which is
`\n` on the platforms where RPM exists. -/
def universal : Str → Str
  | [] => []
  | '\r' :: '\n' :: cs => '\n' :: universal cs
  | c :: cs => (if c = '\r' then '\n' else c) :: universal cs

/-- the lines of a spec file and whether its text ends in a newline, `_lines` and `_trailing_newline`;
specfile.py:76 -/
structure Content where
  lines : List Str
  newline : Bool
deriving DecidableEq, Repr

/-- `_read_lines`, specfile.py:122-125; `content[-1]` raises `IndexError` for an empty file -/
def readLines (file : Str) : Except Err Content :=
  match (universal file).getLast? with
  | none => .error .indexError
  | some c => .ok ⟨splitlines (universal file), c == '\n'⟩

/-- `__str__`, specfile.py:100-101 -/
def text (c : Content) : Str := joinC '\n' c.lines ++ (if c.newline then ['\n'] else [])

/-- `save`, specfile.py:184-186: the new content of the file -/
def save (c : Content) : Str := text c

/-- `reload`, specfile.py:180-182: the object is unchanged if reading fails -/
def reload (file : Str) (c : Content) : Content × Option Err :=
  match readLines file with
  | .ok c' => (c', none)
  | .error e => (c, some e)

end Specfile.Text
