import Verif.Model.Macros
import Verif.Model.Tags
import Verif.Model.Utils
/-
Model of /repo/specfile/spec_parser.py. RPM, the file system and the environment are parts of a `World`; what RPM does
is given by `Env`.
-/
namespace Specfile.SpecParser
open Py Regex

/-! ### files -/

/-- an entry of the source directory; the target of a link is a name in the same directory and no link;
spec_parser.py:142-143 -/
inductive Entry where
  | file (content : List Nat)
  | dir
  | link (target : Str)
  deriving DecidableEq

/-- the source directory, spec_parser.py:142 -/
abbrev Files := Str → Option Entry

/-- `path.exists()` follows links, spec_parser.py:143 and 158 -/
def pathExists (fs : Files) (n : Str) : Bool :=
  match fs n with
  | none => false
  | some (.link t) => (fs t).isSome
  | some _ => true

/-- what can happen when a file is written: nothing, `OSError` before or after the file is created, or an exception
that is no `OSError`; spec_parser.py:116-123 and 160-163 -/
inductive Fault where
  | none
  | refused
  | partly
  | raised (e : Err)

/-- what happens when a given file is written or removed, spec_parser.py:116-123, 160-163 and 170 -/
structure Faults where
  write : Str → Fault
  unlink : Str → Option Err

/-- the directory after a file was written or removed, spec_parser.py:118-120, 161 and 170 -/
def put (fs : Files) (n : Str) (e : Option Entry) : Files := fun m => if m = n then e else fs m

/-- where a write to `n` goes, spec_parser.py:118-120 -/
def writeTarget (fs : Files) (n : Str) : Str :=
  match fs n with
  | some (.link t) => t
  | _ => n

/-- `write_magic` and the corresponding block for non-empty sources, spec_parser.py:110-124 and 160-165: whether the file is
recorded -/
def write (F : Faults) (fs : Files) (n : Str) (content : List Nat) : Files × Except Err Bool :=
  match F.write n with
  | .none => (put fs (writeTarget fs n) (some (.file content)), .ok true)
  | .refused => (fs, .ok false)
  | .partly => (put fs (writeTarget fs n) (some (.file [])), .ok false)
  | .raised e => (fs, .error e)

/-- `SIGNATURES`, spec_parser.py:127-136 -/
def signatures : List (Str × List Nat) :=
  [(s% ".bz2", [66, 90, 104]), (s% ".zip", [80, 75, 48, 48]), (s% ".xz", [253, 55, 122, 88, 90, 0]),
   (s% ".zst", [40, 181, 47]), (s% ".lz", [76, 90, 73, 80]), (s% ".lrz", [76, 82, 90, 73]), (s% ".gz", [31, 139]),
   (s% ".7z", [55, 122, 188, 175, 39, 28])]

/-- the content that is written for a source, spec_parser.py:115-120 and 145-152 -/
def magic (filename : Str) : List Nat :=
  match signatures.find? (fun x => endsWith filename x.1) with
  | some x => x.2 ++ List.replicate (13 - x.2.length) 0
  | none => List.replicate 13 0

/-- `DUMMY`, spec_parser.py:161 -/
def dummyText : List Nat := [68, 85, 77, 77, 89]

/-- the loops of spec_parser.py:138-152 and 153-165 -/
def create (F : Faults) (content : Str → List Nat) : List Str → Files → List Str → Files × Except Err (List Str)
  | [], fs, made => (fs, .ok made)
  | s :: ss, fs, made =>
    let filename := Utils.filenameFromLocation s
    if filename.isEmpty || pathExists fs filename then create F content ss fs made
    else
      match write F fs filename (content filename) with
      | (fs', .ok true) => create F content ss fs' (made ++ [filename])
      | (fs', .ok false) => create F content ss fs' made
      | (fs', .error e) => (fs', .error e)

/-- `path.unlink()` for every created file, spec_parser.py:169-170 -/
def unlinkAll (F : Faults) : List Str → Files → Files × Option Err
  | [], fs => (fs, none)
  | n :: ns, fs =>
    match F.unlink n with
    | some e => (fs, some e)
    | none =>
      match fs n with
      | none | some .dir => (fs, some .osError)
      | some _ => unlinkAll F ns (put fs n none)

/-! ### the world -/

/-- the part of the world that parsing depends on or changes: the macro context, the source directory, `os.environ`;
spec_parser.py:142, 182 and 220 -/
structure World where
  table : Macros.Table
  files : Files
  env : Str → Option Str

/-- `_make_dummy_sources`, spec_parser.py:92-170, around `body`. The sets are given in the order of their iteration. -/
def withDummies {α : Type} (F : Faults) (sources nonEmpty : List Str) (body : List Str → World → World × Except Err α)
    (w : World) : World × Except Err α :=
  match create F magic sources w.files [] with
  | (fs, .error e) => ({ w with files := fs }, .error e)
  | (fs, .ok made) =>
    match create F (fun _ => dummyText) nonEmpty fs made with
    | (fs, .error e) => ({ w with files := fs }, .error e)
    | (fs, .ok made) =>
      match body made { w with files := fs } with
      | (w', r) =>
        match unlinkAll F made w'.files with
        | (fs, none) => ({ w' with files := fs }, r)
        | (fs, some e) => ({ w' with files := fs }, .error e)

/-- `os.environ[key] = …` and `del os.environ[key]`, spec_parser.py:186-192 -/
def setEnv (env : Str → Option Str) (k : Str) (v : Option Str) : Str → Option Str := fun x => if x = k then v else env x

/-- `restore`, spec_parser.py:184-188 -/
def restore (old env : Str → Option Str) (k : Str) : Except Err (Str → Option Str) :=
  match old k with
  | some v => .ok (setEnv env k (some v))
  | none => if (env k).isSome then .ok (setEnv env k none) else .error .keyError

/-- `_sanitize_environment`, spec_parser.py:172-197, around `body` -/
def sanitize {α : Type} (body : World → World × Except Err α) (w : World) : World × Except Err α :=
  match body { w with env := setEnv (setEnv w.env (s% "LANG") (some (s% "C.UTF-8"))) (s% "LC_ALL") (some (s% "C.UTF-8")) } with
  | (w', r) =>
    match restore w.env w'.env (s% "LANG") with
    | .error e => (w', .error e)
    | .ok env =>
      match restore w.env env (s% "LC_ALL") with
      | .error e => ({ w' with env := env }, .error e)
      | .ok env => ({ w' with env := env }, r)

/-- What is external to the parser. Simplified: RPM changes neither the source directory nor `os.environ`.
See spec_parser.py:220-233, 245 and 259. -/
structure Env where
  rpm : Macros.Rpm
  /-- bound on the iterations of `Macros.remove` -/
  fuel : Nat
  /-- objects of type `rpm.spec` -/
  Spec : Type
  /-- `rpm.spec(…)` with the flag `RPMSPEC_FORCE` or without it: the new macro context and the result -/
  build : Str → Bool → World → Macros.Table × Except Err Spec
  /-- locations in `spec.sources` -/
  sources : Spec → List Str
  /-- `content.encode()` succeeds -/
  encodable : Str → Bool
  /-- `Path(…).parent.samefile(sourcedir)` -/
  inSourcedir : Str → Str → Except Err Bool
  /-- `Path(…).name` -/
  pathName : Str → Str
  faults : Faults
  /-- `TAG_NAMES` in the order of the iteration -/
  tagNames : List Str

/-- the attributes that are inputs of parsing, spec_parser.py:55-57 -/
structure Inputs where
  sourcedir : Str
  macros : List (Str × Option Str)
  force : Bool
  deriving DecidableEq

/-- spec_parser.py:221-225 -/
def defineAll (E : Env) : List (Str × Option Str) → Macros.Table → Macros.Table × Option Err
  | [], T => (T, none)
  | (name, value) :: l, T =>
    match (match value with
      | none => Macros.remove E.rpm E.fuel name T
      | some body => Macros.define E.rpm E.fuel name body T) with
    | (T', none) => defineAll E l T'
    | r => r

/-- `except ValueError`, spec_parser.py:234-235 -/
def asRpm {α : Type} : Except Err α → Except Err α
  | .error .valueError => .error .rpmException
  | r => r

/-- `rpm.spec(tmp.name, flags)`, spec_parser.py:233 -/
def runRpm (E : Env) (content : Str) (forced : Bool) (w : World) : World × Except Err E.Spec :=
  ({ w with table := (E.build content forced w).1 }, (E.build content forced w).2)

/-- the preparation of the macro context, spec_parser.py:220-226 -/
def prepare [Uni] (E : Env) (inp : Inputs) (extra : List (Str × Option Str)) (T : Macros.Table) :
    Macros.Table × Option Err :=
  match Macros.reinit E.rpm E.fuel Macros.rpmrc T with
  | (T, some e) => (T, some e)
  | (T, none) =>
    match defineAll E (inp.macros ++ extra) T with
    | (T, some e) => (T, some e)
    | (T, none) => Macros.define E.rpm E.fuel (s% "_sourcedir") inp.sourcedir T

/-- `get_rpm_spec`, spec_parser.py:219-235; `forced` tells the flags `ANYARCH | FORCE` from `ANYARCH`. Simplified: the temporary
file is not modelled. -/
def getRpmSpec [Uni] (E : Env) (inp : Inputs) (extra : List (Str × Option Str)) (content : Str) (forced : Bool)
    (w : World) : World × Except Err E.Spec :=
  match prepare E inp extra w.table with
  | (T, some e) => ({ w with table := T }, .error e)
  | (T, none) =>
    if E.encodable content then
      match sanitize (runRpm E content forced) { w with table := T } with
      | (w', r) => (w', asRpm r)
    else ({ w with table := T }, .error .unicodeError)

/-! ### sources that parsing needs -/

/-- `Path(Macros.expand(…))`, recorded when it lies in the source directory, e.g. spec_parser.py:279-282 -/
def addSource (E : Env) (inp : Inputs) (T : Macros.Table) (found : List Str) (expression : Str) :
    Except Err (List Str) :=
  match E.rpm.expand T expression with
  | .error e => .error e
  | .ok s =>
    match E.inSourcedir inp.sourcedir s with
    | .error e => .error e
    | .ok true => .ok (found ++ [E.pathName s])
    | .ok false => .ok found

/-- the same for a list, spec_parser.py:268-282 -/
def addSources (E : Env) (inp : Inputs) (T : Macros.Table) (found : List Str) : List Str → Except Err (List Str)
  | [] => .ok found
  | x :: xs =>
    match addSource E inp T found x with
    | .error e => .error e
    | .ok found => addSources E inp T found xs

/-- `include_regex`, spec_parser.py:266 -/
def includeRe : Re Nat := .bos ⬝ star isSpace ⬝ lit (s% "%include") ⬝ plus isSpace ⬝ .grp 1 (star dot) ⬝ .eos

/-- the argument that begins in this line, spec_parser.py:270-273 -/
def includeArg (line : Str) : Option Str := (rmatch includeRe line).map (fun t => (t.get 1).getD [])

/-- the arguments of `%include`, spec_parser.py:268-276; `pending` is the argument so far if the last line ended in a backslash -/
def includes (pending : Option Str) : List Str → Except Err (List Str)
  | [] => if pending.isSome then .error .indexError else .ok []
  | line :: lines =>
    match (match pending with
      | none => includeArg line
      | some arg => some (arg.dropLast ++ line)) with
    | none => includes none lines
    | some arg =>
      if endsWith line ['\\'] then includes (some arg) lines
      else (includes none lines).map (arg :: ·)

/-- `collect_included_sources`, spec_parser.py:263-283. Simplified: when a line is missing after a backslash, the earlier
arguments are not expanded first. -/
def includedSources (E : Env) (inp : Inputs) (T : Macros.Table) (content : Str) : Except Err (List Str) :=
  match includes none (splitlines content) with
  | .error e => .error e
  | .ok args => addSources E inp T [] args

/-- the argument of `%{load:…}`; spec_parser.py:289 -/
def loadArg : Node → Option Str
  | .builtin name body => if name = s% "load" then some body else none
  | _ => none

/-- `collect_loaded_sources`, spec_parser.py:285-296 -/
def loadedSources [Uni] (E : Env) (inp : Inputs) (T : Macros.Table) (content : Str) : Except Err (List Str) :=
  match ValueParser.parse content with
  | .error e => .error e
  | .ok nodes => addSources E inp T [] ((ValueParser.flatten nodes).filterMap loadArg)

/-- `source_ref_regex`, spec_parser.py:241 -/
def sourceRefRe [Uni] : Re Nat :=
  ch '%' ⬝ (opt (.grp 1 (ch '{')) ⬝ star ValueParser.isQB ⬝ lit (s% "SOURCE") ⬝ plus Uni.isDecimal ⬝
      .ifgrp 1 (ch '}') .eps ∣∣
    lit (s% "{S:") ⬝ plus Uni.isDecimal ⬝ ch '}')

/-- `finditer` for a pattern that does not match the empty string, spec_parser.py:252 -/
def findAll [Uni] : Nat → Str → List Str
  | 0, _ => []
  | n + 1, s =>
    match search sourceRefRe s with
    | none => []
    | some f => f.text :: findAll n f.st.rest

/-- the references to sources in a shell expansion, spec_parser.py:250-253 -/
def shellRefs [Uni] : Node → List Str
  | .shell body => findAll body.length body
  | _ => []

/-- `collect_sources_referenced_from_tags`, spec_parser.py:242-260 -/
def tagSources [Uni] (E : Env) (inp : Inputs) (T : Macros.Table) (found : List Str) : List Tag → Except Err (List Str)
  | [] => .ok found
  | t :: ts =>
    match E.rpm.expand T t.value with
    | .error e => .error e
    | .ok s =>
      if s.isEmpty then
        match ValueParser.parse t.value with
        | .error e => .error e
        | .ok nodes =>
          match addSources E inp T found ((ValueParser.flatten nodes).flatMap shellRefs) with
          | .error e => .error e
          | .ok found => tagSources E inp T found ts
      else tagSources E inp T found ts

/-- `collect_sources_referenced_from_tags`, spec_parser.py:237-261 -/
def referencedSources [Uni] (E : Env) (inp : Inputs) (T : Macros.Table) (content : Str) : Except Err (List Str) :=
  match Tags.parse E.tagNames (fun _ s => E.rpm.expand T s) (splitlines content) with
  | .error e => .error e
  | .ok tags => tagSources E inp T [] tags.data

/-- spec_parser.py:308-311 -/
def collect [Uni] (E : Env) (inp : Inputs) (T : Macros.Table) (content : Str) : Except Err (List Str × List Str) :=
  match includedSources E inp T content with
  | .error e => .error e
  | .ok included =>
    match loadedSources E inp T content with
    | .error e => .error e
    | .ok loaded =>
      match referencedSources E inp T content with
      | .error e => .error e
      | .ok referenced => .ok (included ++ loaded, referenced)

/-! ### parsing -/

/-- spec_parser.py:348-350 -/
def fullParse [Uni] (E : Env) (inp : Inputs) (extra : List (Str × Option Str)) (content : Str)
    (sources nonEmpty : List Str) (tainted : Bool) (w : World) : World × Except Err (E.Spec × Bool) :=
  match withDummies E.faults sources nonEmpty (fun _ => getRpmSpec E inp extra content false) w with
  | (w', r) => (w', r.map (·, tainted))

/-- spec_parser.py:315-328 -/
def retry [Uni] (E : Env) (inp : Inputs) (extra : List (Str × Option Str)) (content : Str) (made : List Str)
    (w : World) : World × Except Err E.Spec :=
  if made.isEmpty then (w, .error .rpmException) else getRpmSpec E inp extra content true w

/-- spec_parser.py:304-331 and the rest, after the first parse failed -/
def forcedParse [Uni] (E : Env) (inp : Inputs) (extra : List (Str × Option Str)) (content : Str) (w : World) :
    World × Except Err (E.Spec × Bool) :=
  match collect E inp w.table content with
  | .error e => (w, .error e)
  | .ok (sources, nonEmpty) =>
    if sources.isEmpty && nonEmpty.isEmpty then (w, .error .rpmException)
    else
      match withDummies E.faults sources nonEmpty (retry E inp extra content) w with
      | (w', .error e) => (w', .error e)
      | (w', .ok spec) =>
        fullParse E inp extra content ((E.sources spec).filter (fun s => !nonEmpty.contains s)) nonEmpty true w'

/-- `_do_parse`, spec_parser.py:199-350 -/
def doParse [Uni] (E : Env) (inp : Inputs) (extra : List (Str × Option Str)) (content : Str) (w : World) :
    World × Except Err (E.Spec × Bool) :=
  match getRpmSpec E inp extra content true w with
  | (w', .ok spec) => fullParse E inp extra content (E.sources spec) [] false w'
  | (w', .error .rpmException) =>
    if inp.force then forcedParse E inp extra content w' else (w', .error .rpmException)
  | (w', .error e) => (w', .error e)

/-! ### parsers and the global cache -/

/-- `SpecParser`, spec_parser.py:49-63; `spec = none` means that the attribute is missing -/
structure Parser (E : Env) where
  inputs : Inputs
  spec : Option (Option E.Spec)
  tainted : Bool

/-- What is hashed, spec_parser.py:368-375. The hash itself is taken to be injective. `shape` stands for the parts of the
pickled data that depend on the identity of objects, so that equal inputs may have different hashes. -/
structure Payload where
  id : Nat
  inputs : Inputs
  content : Str
  extra : Option (List (Str × Option Str))
  shape : Nat
  deriving DecidableEq

/-- the state of the interpreter: living parsers by `id()`, `_last_parse_hash`, the world;
spec_parser.py:46-47 and 78-79 -/
structure Sys (E : Env) where
  parsers : Nat → Option (Parser E)
  last : Option Payload
  world : World

/-- an attribute of a parser is assigned, spec_parser.py:387 and 394-395 -/
def Sys.update {E : Env} (s : Sys E) (id : Nat) (p : Option (Parser E)) : Sys E :=
  { s with parsers := fun i => if i = id then p else s.parsers i }

/-- `isinstance(e, Exception)`, spec_parser.py:388 -/
def isException : Err → Bool
  | .keyboardInterrupt => false
  | _ => true

/-- what a failed parse leaves behind, spec_parser.py:382-384 and 388-396 -/
def failed {E : Env} (p : Parser E) (e : Err) : Parser E :=
  if e = .rpmException then { p with spec := some none, tainted := false }
  else
    match p.spec with
    | some (some _) => { p with spec := none }
    | _ => p

/-- `parse`, spec_parser.py:352-396; for an `id` without parser nothing happens -/
def parse [Uni] {E : Env} (id : Nat) (content : Str) (extra : Option (List (Str × Option Str))) (shape : Nat)
    (s : Sys E) : Sys E × Option Err :=
  match s.parsers id with
  | none => (s, none)
  | some p =>
    if s.last = some ⟨id, p.inputs, content, extra, shape⟩ then (s, none)
    else
      match p.spec with
      | none => (s, some .attributeError)
      | some _ =>
        match doParse E p.inputs (extra.getD []) content s.world with
        | (w, .ok (spec, tainted)) =>
          ({ s.update id (some { p with spec := some (some spec), tainted := tainted }) with
             world := w, last := some ⟨id, p.inputs, content, extra, shape⟩ }, none)
        | (w, .error e) =>
          ({ s.update id (some (failed p e)) with
             world := w, last := if isException e then none else s.last }, some e)

/-- `SpecParser.__init__`, spec_parser.py:49-63 -/
def new {E : Env} (id : Nat) (inp : Inputs) (s : Sys E) : Sys E :=
  { s.update id (some ⟨inp, some none, false⟩) with last := none }

/-- `__deepcopy__`, spec_parser.py:81-90 -/
def copy {E : Env} (src id : Nat) (s : Sys E) : Sys E :=
  match s.parsers src with
  | none => s
  | some p => s.update id (some ⟨p.inputs, some none, false⟩)

/-- `Specfile.expand`, specfile.py:188-209, with the content of the spec file -/
def expand [Uni] {E : Env} (id : Nat) (content : Str) (extra : Option (List (Str × Option Str))) (skip : Bool)
    (shape : Nat) (expression : Str) (s : Sys E) : Sys E × Except Err Str :=
  if !skip || extra.isSome then
    match parse id content extra shape s with
    | (s', some e) => (s', .error e)
    | (s', none) => (s', E.rpm.expand s'.world.table expression)
  else (s, E.rpm.expand s.world.table expression)

end Specfile.SpecParser
