import Verif.Model.Macros
/-
What the listing of macros printed by RPM looks like, and how a stack of definitions is undone.
-/
namespace Specfile.Spec
open Py Macros

/-- A line that begins the listing of a macro: blanks, a level, a mark, a blank, a name, possibly options, a tab. -/
def LooksLikeHeader [Uni] (line : Str) : Prop :=
  ∃ pad sign digits mark name options rest,
    line = pad ++ (sign ++ (digits ++ (mark :: ' ' :: (name ++ (options ++ '\t' :: rest))))) ∧
    (∀ c ∈ pad, isSpace c = true) ∧ (sign = [] ∨ sign = ['-']) ∧
    digits ≠ [] ∧ (∀ c ∈ digits, Uni.isDecimal c = true) ∧ (mark = '=' ∨ mark = ':') ∧
    name ≠ [] ∧ (∀ c ∈ name, isWord c = true)

/-- `lines` are lines of a listing that hold the macro `m`: a header with the first line of the body, then the other
lines of the body. -/
def Lists (m : Macro) (lines : List Str) : Prop :=
  ∃ pad first more,
    (∀ c ∈ pad, isSpace c = true) ∧
    m.body = joinC '\n' (first :: more) ∧ (∀ l ∈ first :: more, '\n' ∉ l) ∧
    lines = (pad ++ (intStr m.level ++ ((if m.used then '=' else ':') :: ' ' ::
        (m.name ++ (m.options.getD [] ++ '\t' :: first)))) ++ ['\n']) :: more.map (· ++ ['\n'])

/-- Macros whose listing can be read back, except for newlines that the body begins with. -/
structure Listable [Uni] (m : Macro) : Prop where
  level : m.level ∈ levels
  name : m.name ≠ [] ∧ ∀ c ∈ m.name, isWord c = true
  /-- options are `(…)`, without tab and newline -/
  options : ∀ o ∈ m.options, ∃ w, o = '(' :: (w ++ [')']) ∧ w ≠ [] ∧ '\t' ∉ w ∧ '\n' ∉ w
  /-- no line of the body ends in a backslash -/
  backslash : ∀ l ∈ splitC '\n' m.body, l.getLast? ≠ some '\\'
  /-- no further line of the body looks like a header -/
  more : ∀ l ∈ (splitC '\n' m.body).tail, ¬ LooksLikeHeader l

/-- the lines RPM prints for `ms`: something, then all the macros, then a summary -/
def PrintedListing [Uni] (ms : List Macro) (dump : List Str) : Prop :=
  ∃ (junk : List Str) (blocks : List (List Str)) (summary : Str), dump = junk.map (· ++ ['\n']) ++ (blocks.flatten ++ [summary]) ∧
    (∀ l ∈ junk, ¬ LooksLikeHeader l ∧ l.getLast? ≠ some '\\') ∧
    ms.length = blocks.length ∧ (∀ x ∈ ms.zip blocks, Lists x.1 x.2) ∧ (∀ m ∈ ms, Listable m)

/-- such lines for macros whose bodies do not begin with an empty line -/
def IsListing [Uni] (ms : List Macro) (dump : List Str) : Prop :=
  PrintedListing ms dump ∧ ∀ m ∈ ms, m.body.head? ≠ some '\n'

/-- a macro without the newlines its body begins with -/
def withoutLeadingNewlines (m : Macro) : Macro := { m with body := m.body.dropWhile (· == '\n') }

/-- `T` with another stack of definitions for `name` -/
def withStack (T : Table) (name : Str) (l : List Macro) : Table := fun n => if n = name then l else T n

/-- `T'` is `T` with any number of definitions removed from the tops of the stacks -/
def Below (T' T : Table) : Prop := ∀ n, T' n <:+ T n

/-- two percent signs are written for one, from left to right -/
inductive Unescaped : Str → Str → Prop
  | nil : Unescaped [] []
  | pair {s t} : Unescaped s t → Unescaped ('%' :: '%' :: s) ('%' :: t)
  | single {s t} : s.head? ≠ some '%' → Unescaped s t → Unescaped ('%' :: s) ('%' :: t)
  | other {c s t} : c ≠ '%' → Unescaped s t → Unescaped (c :: s) (c :: t)

/-- an undefined macro is not expanded, only percent signs are read as usual -/
def KeptWhenUndefined (R : Rpm) (name : Str) : Prop :=
  ∀ T : Table, T name = [] → ∃ n, Unescaped name n ∧
    R.expand T ('%' :: '{' :: (name ++ ['}'])) = .ok ('%' :: '{' :: (n ++ ['}']))

/-- no definition of `name` in `T` expands to the text that an undefined macro is left as -/
def NotDisguised (R : Rpm) (T : Table) (name : Str) : Prop :=
  ∀ T', Below T' T → T' name ≠ [] → ∀ n, Unescaped name n →
    R.expand T' ('%' :: '{' :: (name ++ ['}'])) ≠ .ok ('%' :: '{' :: (n ++ ['}']))

/-- expanding raises nothing but `RPMException` -/
def RaisesRpm (R : Rpm) : Prop := ∀ T s e, R.expand T s = .error e → e = .rpmException

/-- how many of the definitions below the active one can not be expanded when they are active -/
def failures (R : Rpm) (T : Table) (name : Str) : Nat :=
  ((List.range ((T name).length - 1)).filter (fun k =>
    R.expand (withStack T name ((T name).drop (k + 1))) ('%' :: '{' :: (name ++ ['}'])) == .error .rpmException)).length

/-- `ms` are the active definitions of `T` -/
def ActiveDefs (T : Table) (ms : List Macro) : Prop := ∀ m, m ∈ ms ↔ (T m.name).head? = some m

/-- every definition is stored under its name -/
def Filed (T : Table) : Prop := ∀ n, ∀ m ∈ T n, m.name = n

end Specfile.Spec
