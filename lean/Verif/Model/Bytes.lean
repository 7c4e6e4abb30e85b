import Verif.Py.Err
/-
Model of the bytes of a spec file: decoding and encoding with UTF-8 and `surrogateescape`, specfile.py:122-125 and 184-186,
and strict encoding for RPM, spec_parser.py:228. Here a text is a list of code points, because lone surrogates are not
characters in Lean.
-/
namespace Specfile.Bytes
open Py

/-- a byte of a file, specfile.py:124 -/
abbrev Byte := Fin 256

/-- a continuation byte; specfile.py:124 (CPython's UTF-8 decoder) -/
def cont (b : Byte) : Bool := 0x80 ≤ b.val && b.val ≤ 0xBF

/-- the least second byte after a first byte, which excludes overlong forms; specfile.py:124 (CPython's UTF-8 decoder) -/
def least (b : Byte) : Nat := if b.val = 0xE0 then 0xA0 else if b.val = 0xF0 then 0x90 else 0x80

/-- the greatest second byte after a first byte, which excludes surrogates and numbers above 0x10FFFF; specfile.py:124
(CPython's UTF-8 decoder) -/
def greatest (b : Byte) : Nat := if b.val = 0xED then 0x9F else if b.val = 0xF4 then 0x8F else 0xBF

/-- the code point that a byte and those after it stand for, and the number of bytes after the first; `none` if they are
no UTF-8. specfile.py:124
(CPython's UTF-8 decoder) -/
def sequence (b : Byte) (r : List Byte) : Option (Nat × Nat) :=
  if b.val < 0x80 then some (b.val, 0)
  else if b.val < 0xC2 then none
  else if b.val < 0xE0 then
    match r with
    | c :: _ => if cont c then some ((b.val - 0xC0) * 64 + (c.val - 0x80), 1) else none
    | _ => none
  else if b.val < 0xF0 then
    match r with
    | c :: d :: _ =>
      if least b ≤ c.val && c.val ≤ greatest b && cont d then
        some ((b.val - 0xE0) * 4096 + (c.val - 0x80) * 64 + (d.val - 0x80), 2)
      else none
    | _ => none
  else if b.val < 0xF5 then
    match r with
    | c :: d :: e :: _ =>
      if least b ≤ c.val && c.val ≤ greatest b && cont d &&
          cont e then
        some ((b.val - 0xF0) * 262144 + (c.val - 0x80) * 4096 + (d.val - 0x80) * 64 + (e.val - 0x80), 3)
      else none
    | _ => none
  else none

/-- the loop of decoding with `surrogateescape`; `skip` is the number of bytes that belong to the code point before. CPython
escapes all bytes of an incomplete sequence at once; as they are continuation bytes, it makes no difference to escape
them one by one. specfile.py:124 -/
def decodeLoop : Nat → List Byte → List Nat
  | _, [] => []
  | k + 1, _ :: r => decodeLoop k r
  | 0, b :: r =>
    match sequence b r with
    | some (c, n) => c :: decodeLoop n r
    | none => (0xDC00 + b.val) :: decodeLoop 0 r

/-- `bytes.decode("utf8", "surrogateescape")`, specfile.py:124 -/
def decode (bs : List Byte) : List Nat := decodeLoop 0 bs

/-- a number as a byte, specfile.py:186 -/
def byte (n : Nat) : Byte := Fin.ofNat 256 n

/-- UTF-8 of a code point; `escape` tells `surrogateescape` from `strict`. specfile.py:186 and spec_parser.py:228 (CPython's
UTF-8 encoder) -/
def encodePoint (escape : Bool) (c : Nat) : Except Err (List Byte) :=
  if c < 0x80 then .ok [byte c]
  else if c < 0x800 then .ok [byte (0xC0 + c / 64), byte (0x80 + c % 64)]
  else if 0xD800 ≤ c ∧ c < 0xE000 then
    if escape = true ∧ 0xDC80 ≤ c ∧ c < 0xDD00 then .ok [byte (c - 0xDC00)] else .error .unicodeError
  else if c < 0x10000 then .ok [byte (0xE0 + c / 4096), byte (0x80 + c / 64 % 64), byte (0x80 + c % 64)]
  else if c < 0x110000 then
    .ok [byte (0xF0 + c / 262144), byte (0x80 + c / 4096 % 64), byte (0x80 + c / 64 % 64), byte (0x80 + c % 64)]
  else .error .valueError

/-- `str.encode`, specfile.py:186 and spec_parser.py:228 -/
def encode (escape : Bool) : List Nat → Except Err (List Byte)
  | [] => .ok []
  | c :: cs =>
    match encodePoint escape c with
    | .error e => .error e
    | .ok bs => match encode escape cs with
      | .error e => .error e
      | .ok r => .ok (bs ++ r)

/-- newline translation on reading, as `Text.universal`; specfile.py:124 -/
def universal : List Nat → List Nat
  | [] => []
  | [c] => [if c = 13 then 10 else c]
  | c :: d :: cs => if c = 13 then (if d = 10 then universal (d :: cs) else 10 :: universal (d :: cs)) else c :: universal (d :: cs)

/-- line boundaries of `str.splitlines`, as `Py.isLineBreak`; specfile.py:125 -/
def isBreak (n : Nat) : Bool :=
  (0xA ≤ n && n ≤ 0xD) || (0x1C ≤ n && n ≤ 0x1E) || n == 0x85 || n == 0x2028 || n == 0x2029

/-- `str.splitlines`, specfile.py:125; there is no `\r` any more -/
def splitlines : List Nat → List (List Nat)
  | [] => []
  | c :: cs =>
    if isBreak c then [] :: splitlines cs
    else match splitlines cs with
      | [] => [[c]]
      | l :: ls => (c :: l) :: ls

/-- `_read_lines`, specfile.py:122-125 -/
def readLines (file : List Byte) : Except Err (List (List Nat) × Bool) :=
  match (universal (decode file)).getLast? with
  | none => .error .indexError
  | some c => .ok (splitlines (universal (decode file)), c == 10)

/-- `"\n".join(lines)`, specfile.py:101 -/
def join : List (List Nat) → List Nat
  | [] => []
  | [l] => l
  | l :: m :: ls => l ++ 10 :: join (m :: ls)

/-- `__str__`, specfile.py:100-101 -/
def text (lines : List (List Nat)) (newline : Bool) : List Nat := join lines ++ (if newline then [10] else [])

/-- `save`, specfile.py:184-186: what the file contains afterwards, and the exception. `Path.write_text` opens the file, which
empties it, before the text is encoded. -/
def save (lines : List (List Nat)) (newline : Bool) : List Byte × Option Err :=
  match encode true (text lines newline) with
  | .ok bs => (bs, none)
  | .error e => ([], some e)

/-- what RPM gets to read, spec_parser.py:228 -/
def forRpm (lines : List (List Nat)) (newline : Bool) : Except Err (List Byte) := encode false (text lines newline)

/-- `Specfile(path)`, specfile.py:74-79: the content is read and given to RPM, here a function of the bytes it reads.
Simplified: not modelled is that parsing is skipped if the same parser has just parsed the same content. -/
def construct (rpm : List Byte → Option Err) (file : List Byte) : Except Err (List (List Nat) × Bool) :=
  match readLines file with
  | .error e => .error e
  | .ok (lines, newline) =>
    match forRpm lines newline with
    | .error e => .error e
    | .ok bs => match rpm bs with
      | some e => .error e
      | none => .ok (lines, newline)

end Specfile.Bytes
