import Verif.Model.Text
/-
Model of the life of a `Specfile` object and of the files it reads and writes, /repo/specfile/specfile.py:66-76,
100-112, 122-135, 180-186 and 224-268: loading, `with Specfile(...)`, `save`, `reload`, setting `path` and `autosave`,
and the blocks of `lines` and of the accessors of the lines (`macro_definitions`, `sections`).

`Verif.Model.Access` models the accessors in detail, for a single file and without `reload`. Here the accessors of the
lines are parameters (`Views`), but the list that `lines()` yields has an identity: `reload` makes a new list, so that
an open block keeps the old one.

Simplifications: whether a file can be written depends on its path only, and writing fails before the file is
touched. Decoding and encoding are not modelled, as in `Verif.Model.Text`. An exception of a parser is assumed not to
be a `KeyError`, as in `Verif.Model.Access`. The RPM parser is not called, see `Verif.Model.SpecParser`.
-/
namespace Specfile.Lifecycle
open Py Text

/-- the accessors of the lines and their objects, specfile.py:238-268 -/
structure Views where
  V : Type
  X : Type
  parse : V → List Str → Except Err X
  raw : V → X → List Str

variable (P : Type) (A : Views)

/-- a `Specfile` object and the files, specfile.py:66-76 -/
structure State where
  disk : P → Option Str
  path : P
  /-- `_lines` and `_trailing_newline` -/
  content : Content
  autosave : Bool
  /-- the list yielded by the open `lines()` block, if there is one: `some none` if it is `_lines`, otherwise its
  content -/
  opened : Option (Option (List Str))
  /-- the objects of the open accessors -/
  views : A.V → Option A.X

/-- code that uses one `Specfile` object, specfile.py:103-268 seen from the caller -/
inductive Prog where
  | skip
  | seq (p q : Prog)
  | raise (e : Err)
  /-- `try: p except Exception: q` -/
  | handle (p q : Prog)
  /-- change the list yielded by `lines()` in place -/
  | editLines (u : List Str → List Str)
  | editView (v : A.V) (u : A.X → A.X)
  | withLines (p : Prog)
  | withView (v : A.V) (p : Prog)
  | save
  | reload
  | setPath (q : P)
  | setAutosave (b : Bool)
  /-- `with spec: p` -/
  | withSpec (p : Prog)
  /-- something else writes a file -/
  | foreign (q : P) (t : Str)

variable {P A} [DecidableEq P] [DecidableEq A.V] (canWrite : P → Bool)

/-- `__init__`, specfile.py:66-76, without the parser -/
def load (disk : P → Option Str) (path : P) (autosave : Bool) : Except Err (State P A) :=
  match disk path with
  | none => .error .osError
  | some f =>
    match readLines f with
    | .error e => .error e
    | .ok c => .ok ⟨disk, path, c, autosave, none, fun _ => none⟩

/-- write one file, specfile.py:186 -/
def write (disk : P → Option Str) (q : P) (t : Str) : P → Option Str := fun r => if r = q then some t else disk r

/-- `save`, specfile.py:184-186 -/
def save (s : State P A) : State P A × Option Err :=
  if canWrite s.path then ({ s with disk := write s.disk s.path (text s.content) }, none) else (s, some .osError)

/-- `reload`, specfile.py:180-182; `_lines` becomes another list -/
def reload (s : State P A) : State P A × Option Err :=
  match s.disk s.path with
  | none => (s, some .osError)
  | some f =>
    match readLines f with
    | .error e => (s, some e)
    | .ok c =>
      ({ s with content := c, opened := match s.opened with
          | some none => some (some s.content.lines)
          | o => o }, none)

/-- the content of the list that an open block has, specfile.py:233 -/
def held (s : State P A) : List Str :=
  match s.opened with
  | some (some l) => l
  | _ => s.content.lines

/-- `lines[:] = l`, specfile.py:253 and 268 -/
def setHeld (s : State P A) (l : List Str) : State P A :=
  match s.opened with
  | some (some _) => { s with opened := some (some l) }
  | _ => { s with content := { s.content with lines := l } }

/-- an exception raised by the second step replaces the one of the first step, specfile.py:105-112 and 232-236 -/
def andThen (r : State P A × Option Err) (f : State P A → State P A × Option Err) : State P A × Option Err :=
  match f r.1 with
  | (s, some e) => (s, some e)
  | (s, none) => (s, r.2)

/-- the end of an outermost `lines()` block, specfile.py:234-236 -/
def closeLines (s : State P A) : State P A × Option Err :=
  if s.autosave then save canWrite { s with opened := none } else ({ s with opened := none }, none)

/-- `lines`, specfile.py:224-236, used by another accessor -/
def needLines (s : State P A) (body : State P A → State P A × Option Err) : State P A × Option Err :=
  if s.opened.isSome then body s
  else andThen (body { s with opened := some none }) (closeLines canWrite)

/-- the block of an accessor that is open already, context_management.py:121-127: a `KeyError` is swallowed -/
def shared (r : State P A × Option Err) : State P A × Option Err :=
  (r.1, if r.2 = some .keyError then none else r.2)

/-- context_management.py:131-143 -/
def setView (s : State P A) (v : A.V) (x : Option A.X) : State P A :=
  { s with views := fun w => if w = v then x else s.views w }

/-- an accessor of the lines between parsing and writing back, specfile.py:246-253 and 263-268 -/
def inView (v : A.V) (s : State P A) (body : State P A → State P A × Option Err) : State P A × Option Err :=
  match A.parse v (held s) with
  | .error e => (s, some e)
  | .ok x =>
    let r := body (setView s v (some x))
    (setView (match r.1.views v with
      | some x => setHeld r.1 (A.raw v x)
      | none => r.1) v none, r.2)

/-- run a program; the final state and the exception that leaves it. specfile.py:103-268, context_management.py:108-145 -/
def run : Prog P A → State P A → State P A × Option Err
  | .skip, s => (s, none)
  | .seq p q, s =>
    match run p s with
    | (s, none) => run q s
    | r => r
  | .raise e, s => (s, some e)
  | .handle p q, s =>
    match run p s with
    | (s, some _) => run q s
    | r => r
  | .editLines u, s => if s.opened.isSome then (setHeld s (u (held s)), none) else (s, none)
  | .editView v u, s => (setView s v ((s.views v).map u), none)
  | .withLines p, s =>
    if s.opened.isSome then shared (run p s) else needLines canWrite s (run p)
  | .withView v p, s =>
    match s.views v with
    | some _ => shared (run p s)
    | none => needLines canWrite s (fun s => inView v s (run p))
  | .save, s => save canWrite s
  | .reload, s => reload s
  | .setPath q, s => ({ s with path := q }, none)
  | .setAutosave b, s => ({ s with autosave := b }, none)
  | .withSpec p, s => andThen (run p s) (save canWrite)
  | .foreign q t, s => ({ s with disk := write s.disk q t }, none)

end Specfile.Lifecycle
