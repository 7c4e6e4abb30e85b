import Verif.Py.Err
import Verif.Py.Str
/-
Model of `guess_packager`, /repo/specfile/changelog.py:367-418. The environment, RPM, git and the user database are
external: `Host`.
-/
namespace Specfile.Packager
open Py

/-- What `guess_packager` looks at. Simplified: running git does not fail (changelog.py:398-410). -/
structure Host where
  /-- the environment variable `RPM_PACKAGER`, changelog.py:391-392 -/
  variable_ : Option Str
  /-- `Macros.expand`, changelog.py:394 -/
  expand : Str → Except Err Str
  /-- what `git config` prints for a key, if git is installed; changelog.py:401-412 -/
  git : Option (Str → Str)
  /-- `getpass.getuser()`, changelog.py:368 -/
  user : Except Err Str
  /-- the field `pw_gecos` of a user, changelog.py:369; `KeyError` for an unknown user -/
  gecos : Str → Except Err Str

/-- `_getent_name`, changelog.py:367-371 -/
def getentName (h : Host) : Except Err Str :=
  match h.user with
  | .error e => .error e
  | .ok u =>
    match h.gecos u with
    | .error e => .error e
    | .ok g => .ok (if g.isEmpty then u else g)

/-- `guess_packager` after git was asked, changelog.py:413-418 -/
def fromParts (h : Host) (email fullname : Str) : Except Err Str :=
  match (if fullname.isEmpty then getentName h else .ok fullname) with
  | .error e => .error e
  | .ok fullname =>
    .ok (if !fullname.isEmpty && !email.isEmpty then fullname ++ s% " <" ++ email ++ s% ">"
      else if email.isEmpty then fullname else email)

/-- `guess_packager`, changelog.py:374-418 -/
def guessPackager (h : Host) : Except Err Str :=
  match h.variable_ with
  | some v => .ok v
  | none =>
    match h.expand (s% "%packager") with
    | .error e => .error e
    | .ok p =>
      if p != s% "%packager" then .ok p
      else
        match h.git with
        | none => fromParts h [] []
        | some config => fromParts h (strip (config (s% "user.email"))) (strip (config (s% "user.name")))

end Specfile.Packager
