import Verif.Model.Macros
/-
Model of the capture of stderr, /repo/specfile/context_management.py:16-38, and of the exception that holds what was
captured, /repo/specfile/exceptions.py:11-23. Simplified: bytes are characters, so decoding does not fail; `sys.stderr` is
the object that writes to the descriptor of `sys.__stderr__`.
-/
namespace Specfile
open Py

namespace Stderr

/-- A process: the content of each open file, what each descriptor refers to, a bound for the files in use, and what
`sys.stderr` has not written yet. `limit` is the number of descriptors the process may use.
See context_management.py:26-38. -/
structure Proc where
  file : Nat → Str
  fd : Nat → Option Nat
  next : Nat
  pending : Str
  limit : Nat

/-- the lowest descriptor that is not in use, context_management.py:27 -/
def Proc.free (p : Proc) : Option Nat := (List.range p.limit).find? (fun i => (p.fd i).isNone)

/-- let a descriptor refer to something, `os.dup2` and `os.close`; context_management.py:29 and 35 -/
def Proc.point (p : Proc) (i : Nat) (f : Option Nat) : Proc := { p with fd := fun k => if k = i then f else p.fd k }

/-- write to a descriptor; nothing happens if it is closed. context_management.py:28 and 34 -/
def Proc.write (p : Proc) (i : Nat) (s : Str) : Proc :=
  match p.fd i with
  | none => p
  | some f => { p with file := fun k => if k = f then p.file k ++ s else p.file k }

/-- `sys.stderr.flush()`, context_management.py:28 and 34 -/
def Proc.flush (p : Proc) (n : Nat) : Proc := { p.write n p.pending with pending := [] }

/-- `readlines`: the lines with their ends, context_management.py:38 -/
def readlines : Str → List Str
  | [] => []
  | c :: s =>
    if c = '\n' then [c] :: readlines s
    else match readlines s with
      | [] => [[c]]
      | l :: ls => (c :: l) :: ls

/-- What a `with` statement gives: the process afterwards, the captured lines, and the exception.
See context_management.py:16-38. -/
structure Outcome where
  proc : Proc
  data : List Str
  error : Option Err

/-- the `finally` block, and the closing of both files; `t` and `b` are their descriptors, `f` is the temporary file.
context_management.py:33-38 -/
def finish (n t b f : Nat) (q : Proc) (e : Option Err) : Outcome :=
  let q := q.flush n
  let q := q.point n (q.fd b)
  ⟨(q.point b none).point t none, readlines (q.file f), e⟩

/-- `capture_stderr`, context_management.py:16-38, around code that is given as a function; `n` is the descriptor of
`sys.__stderr__` -/
def capture (n : Nat) (body : Proc → Proc × Option Err) (p : Proc) : Outcome :=
  match p.free with
  | none => ⟨p, [], some .osError⟩
  | some t =>
    -- tempfile.TemporaryFile()
    let f := p.next
    let p1 : Proc := { p.point t (some f) with file := fun k => if k = f then [] else p.file k, next := p.next + 1 }
    match p1.fd n, p1.free with
    | some g, some b =>
      -- os.dup, sys.stderr.flush(), os.dup2
      let p2 := (((p1.point b (some g)).flush n).point n (some f))
      let r := body p2
      finish n t b f r.1 r.2
    | _, _ => ⟨p1.point t none, [], some .osError⟩

/-! ### `RPMException` -/

/-- the part of a text after the first occurrence of `sep`, up to the second one: `s.split(sep)[1]`; exceptions.py:22 -/
def splitSecond (sep : Str) (s : Str) : Except Err Str :=
  match splitOn sep s with
  | _ :: x :: _ => .ok x
  | _ => .error .indexError
where
  /-- the part before the first occurrence of `sep`, and the part after it; exceptions.py:22 -/
  cut (sep : Str) : Str → Option (Str × Str)
    | [] => if sep.isEmpty then some ([], []) else none
    | c :: s =>
      if sep.isPrefixOf (c :: s) then some ([], (c :: s).drop sep.length)
      else (cut sep s).map (fun r => (c :: r.1, r.2))
  /-- `s.split(sep)`, as far as it matters: the first two parts; exceptions.py:22 -/
  splitOn (sep s : Str) : List Str :=
    match cut sep s with
    | none => [s]
    | some (a, rest) =>
      match cut sep rest with
      | none => [a, rest]
      | some (b, rest) => [a, b, rest]

/-- `str(RPMException(stderr))`, exceptions.py:18-23 -/
def message (stderr : List Str) : List Str → Except Err Str
  | [] => .ok ('\n' :: stderr.flatten)
  | l :: ls =>
    let line := rstrip l
    if startsWith line (s% "error:") then splitSecond (s% "error: ") line
    else message stderr ls

/-- exceptions.py:18-23 -/
def RPMException.str (stderr : List Str) : Except Err Str := message stderr stderr

end Stderr
end Specfile
