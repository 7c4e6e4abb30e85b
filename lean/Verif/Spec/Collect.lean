import Verif.Model.SpecParser
/-
Which files a spec file refers to, for parsing it although they are missing.
-/
namespace Specfile.Spec
open Py SpecParser

/-- a line that includes a file, `arg` is the text after `%include` and space -/
def IncludeLine (line arg : Str) : Prop :=
  (∃ a b, line = a ++ (s% "%include" ++ (b ++ arg)) ∧ (∀ c ∈ a, isSpace c = true) ∧ b ≠ [] ∧ ∀ c ∈ b, isSpace c = true) ∧
    ∀ c ∈ arg.head?, isSpace c = false

/-- `Unfolded x ls text after`: the text `x` is continued in the lines `ls` as long as there is a backslash at the end,
which gives `text` and leaves the lines `after` -/
inductive Unfolded : Str → List Str → Str → List Str → Prop
  | last {x : Str} {ls : List Str} : ¬ ['\\'] <:+ x → Unfolded x ls x ls
  | more {x l text : Str} {ls after : List Str} : Unfolded l ls text after → Unfolded (x ++ ['\\']) (l :: ls) (x ++ text) after

/-- the arguments of `%include` in lines -/
inductive Includes : List Str → List Str → Prop
  | nil : Includes [] []
  | other {l : Str} {ls args : List Str} : (∀ arg, ¬ IncludeLine l arg) → Includes ls args → Includes (l :: ls) args
  | directive {l x arg : Str} {ls after args : List Str} : IncludeLine l x → Unfolded x ls arg after → Includes after args →
      Includes (l :: ls) (arg :: args)

/-- a node that is no conditional, at top level or inside of conditionals -/
inductive Nested (n : Node) : List Node → Prop
  | here {ns : List Node} : n ∈ ns → (∀ p x b, n ≠ .cond p x b) → Nested n ns
  | inside {p x : Str} {b ns : List Node} : .cond p x b ∈ ns → Nested n b → Nested n ns

/-- `text` is the argument of a `%{load:…}` in `content` -/
def Loads [Uni] (content text : Str) : Prop :=
  ∃ nodes, ValueParser.parse content = .ok nodes ∧ Nested (.builtin (s% "load") text) nodes

/-- `%SOURCE1`, `%{SOURCE1}`, `%{?SOURCE1}`, `%{S:1}` -/
inductive SourceReference [Uni] : Str → Prop
  | bare {q d : Str} : (∀ c ∈ q, c = '?' ∨ c = '!') → d ≠ [] → (∀ c ∈ d, Uni.isDecimal c = true) →
      SourceReference ('%' :: (q ++ (s% "SOURCE" ++ d)))
  | braced {q d : Str} : (∀ c ∈ q, c = '?' ∨ c = '!') → d ≠ [] → (∀ c ∈ d, Uni.isDecimal c = true) →
      SourceReference ('%' :: '{' :: (q ++ (s% "SOURCE" ++ (d ++ ['}']))))
  | short {d : Str} : d ≠ [] → (∀ c ∈ d, Uni.isDecimal c = true) → SourceReference (s% "%{S:" ++ (d ++ ['}']))

/-- the references to sources in a text from left to right, with complete numbers -/
inductive ReferencesIn [Uni] : Str → List Str → Prop
  | none {s : Str} : (∀ a r b, s = a ++ (r ++ b) → ¬ SourceReference r) → ReferencesIn s []
  | next {a r b : Str} {rs : List Str} : SourceReference r →
      (∀ c d, r.getLast? = some d → Uni.isDecimal d = true → b.head? = some c → Uni.isDecimal c = false) →
      (∀ a' r' b', a ++ (r ++ b) = a' ++ (r' ++ b') → SourceReference r' → a.length ≤ a'.length) →
      ReferencesIn b rs → ReferencesIn (a ++ (r ++ b)) (r :: rs)

/-- `text` refers to a source in a shell expansion in the value -/
def ShellRefers [Uni] (value text : Str) : Prop :=
  ∃ nodes body rs, ValueParser.parse value = .ok nodes ∧ Nested (.shell body) nodes ∧ ReferencesIn body rs ∧ text ∈ rs

/-- `text` expands to the path of a file `name` in the source directory -/
def LocatedAt (E : Env) (inp : Inputs) (T : Macros.Table) (text name : Str) : Prop :=
  ∃ path, E.rpm.expand T text = .ok path ∧ E.inSourcedir inp.sourcedir path = .ok true ∧ E.pathName path = name

end Specfile.Spec
