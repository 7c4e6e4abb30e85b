import Verif.Py.Str
import Verif.Py.Err
/-
Model of `Source.remote`, /repo/specfile/sources.py:51-54, with `urllib.parse.urlsplit` of Python 3.11.
-/
namespace Specfile.Url
open Py

/-- The tests of a host that are not modelled; they matter to sources.py:53 only by raising `ValueError`:
`bracketed` is `_check_bracketed_host`, the test of an address in square brackets, `normalized` is `_checknetloc`, the
test of hosts with characters outside of ASCII. -/
structure Checks where
  bracketed : Str → Bool
  normalized : Str → Bool

/-- `lstrip(_WHATWG_C0_CONTROL_OR_SPACE)` and the removal of tabs and line breaks; done by `urlsplit`, sources.py:53 -/
def clean (url : Str) : Str :=
  (url.dropWhile (fun c => decide (c.toNat ≤ 32))).filter (fun c => c != '\t' && c != '\r' && c != '\n')

/-- an ASCII letter, `url[0].isascii() and url[0].isalpha()` in `urlsplit`, sources.py:53 -/
def letter (c : Char) : Bool := decide ('a' ≤ c ∧ c ≤ 'z' ∨ 'A' ≤ c ∧ c ≤ 'Z')

/-- `scheme_chars` of `urllib.parse`, sources.py:53 -/
def schemeChar (c : Char) : Bool :=
  letter c || decide ('0' ≤ c ∧ c ≤ '9') || c == '+' || c == '-' || c == '.'

/-- the scheme and what follows its colon, `urlsplit`, sources.py:53. The scheme is not converted to lower case, only
whether it is empty matters. -/
def splitScheme (url : Str) : Str × Str :=
  let s := url.takeWhile (fun c => c != ':')
  if s.length < url.length && s.head?.any letter && s.all schemeChar then (s, url.drop (s.length + 1)) else ([], url)

/-- `_splitnetloc`, sources.py:53 -/
def netloc (url : Str) : Str :=
  if startsWith url (s% "//") then (url.drop 2).takeWhile (fun c => c != '/' && c != '?' && c != '#') else []

/-- `netloc.partition("[")[2].partition("]")[0]` in `urlsplit`, sources.py:53 -/
def inBrackets (host : Str) : Str := ((host.dropWhile (fun c => c != '[')).drop 1).takeWhile (fun c => c != ']')

/-- whether `urlsplit` raises `ValueError` for this host, sources.py:53 -/
def malformed (ch : Checks) (host : Str) : Bool :=
  (host.contains '[' && !host.contains ']') || (host.contains ']' && !host.contains '[') ||
  (host.contains '[' && host.contains ']' && !ch.bracketed (inBrackets host)) ||
  (!host.isEmpty && host.any (fun c => decide (128 ≤ c.toNat)) && !ch.normalized host)

/-- `remote`, sources.py:51-54; `urlsplit` treats `None` like an empty text -/
def remote (ch : Checks) (expanded : Option Str) : Except Err Bool :=
  let u := splitScheme (clean (expanded.getD []))
  let host := netloc u.2
  if malformed ch host then .error .valueError
  else .ok (!u.1.isEmpty && !host.isEmpty)

end Specfile.Url
