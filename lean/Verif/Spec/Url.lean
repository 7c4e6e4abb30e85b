import Verif.Py.Str
/-
What a URL with a host is.
-/
namespace Specfile.Spec
open Py

/-- The text as it is read: without control characters and spaces in front, and without tabs and line breaks. -/
def UrlText (location text : Str) : Prop :=
  ∃ lead rest : Str, location = lead ++ rest ∧ (∀ c ∈ lead, c.toNat ≤ 32) ∧ (∀ c ∈ rest.head?, ¬ c.toNat ≤ 32) ∧
    text = rest.filter (fun c => c ∉ ['\t', '\r', '\n'])

/-- a letter, followed by letters, digits, `+`, `-` and `.` -/
def IsScheme (s : Str) : Prop :=
  (∃ c ∈ s.head?, 'a' ≤ c ∧ c ≤ 'z' ∨ 'A' ≤ c ∧ c ≤ 'Z') ∧
  ∀ c ∈ s, ('a' ≤ c ∧ c ≤ 'z' ∨ 'A' ≤ c ∧ c ≤ 'Z') ∨ ('0' ≤ c ∧ c ≤ '9') ∨ c ∈ ['+', '-', '.']

/-- the text has the given host: `//`, followed by the host up to `/`, `?`, `#` or the end -/
def HostOf (text host : Str) : Prop :=
  ∃ rest : Str, text = s% "//" ++ host ++ rest ∧ (∀ c ∈ host, c ∉ ['/', '?', '#']) ∧ ∀ c ∈ rest.head?, c ∈ ['/', '?', '#']

/-- the location is a URL with this host -/
def UrlWith (location host : Str) : Prop :=
  ∃ text scheme rest, UrlText location text ∧ text = scheme ++ ':' :: rest ∧ IsScheme scheme ∧ HostOf rest host

/-- the location has this host, with or without a scheme -/
def HasHost (location host : Str) : Prop :=
  UrlWith location host ∨ ∃ text, UrlText location text ∧ HostOf text host

/-- a host that is no host: one of the brackets is missing, or what is inside of brackets is no address, or it has characters
outside of ASCII that are not allowed -/
inductive BadHost (address allowed : Str → Bool) : Str → Prop
  | unclosed {host} : '[' ∈ host → ']' ∉ host → BadHost address allowed host
  | unopened {host} : ']' ∈ host → '[' ∉ host → BadHost address allowed host
  /-- `b` is the text from the first `[` to the next `]` -/
  | address {a b rest} : '[' ∉ a → ']' ∉ b → (∀ c ∈ rest.head?, c = ']') → ']' ∈ a ++ rest → address b = false →
      BadHost address allowed (a ++ '[' :: (b ++ rest))
  | characters {host} : (∃ c ∈ host, 128 ≤ c.toNat) → allowed host = false → BadHost address allowed host

end Specfile.Spec
