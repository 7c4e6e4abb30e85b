import Verif.Spec.Conditions
/-
Balanced conditions, with conditions that continue on further lines.
-/
namespace Specfile.Spec
open Py

/-- There are `n` lines that a text continues on: as long as it ends in a backslash, the next line is put in the place of
the backslash. -/
inductive Joins : Str → List Str → Nat → Prop
  | nothing {text ls} : text.getLast? ≠ some '\\' → Joins text ls 0
  | ended {text} : Joins text [] 0
  | next {text l ls n} : Joins (text ++ l) ls n → Joins (text ++ ['\\']) (l :: ls) (n + 1)

/-- the condition continues on `n` lines; a backslash on its own is not regarded as a continuation -/
inductive FurtherLines : Str → List Str → Nat → Prop
  | lone {text ls} : Lone text → FurtherLines text ls 0
  | text {text e ls n} : ¬ Lone text → Trimmed text e → Joins e ls n → FurtherLines text ls n

/-- The conditions are balanced: `d` of them are open before the first line, which has the index `i`; every `%elif`, `%else`
and `%endif` belongs to one of them. Lines that continue a condition are skipped, whatever they contain. -/
inductive BalancedLines (ex : Nat → Str → Except Err Str) (inBody : Nat → Prop) : Nat → Nat → List Str → Prop
  | done {i d} : BalancedLines ex inBody i d []
  | inBody {i d line ls} : inBody i → BalancedLines ex inBody (i + 1) d ls → BalancedLines ex inBody i d (line :: ls)
  | plain {i d line l ls} : ¬ inBody i → Expands (ex i) line l → NoCondition l →
      BalancedLines ex inBody (i + 1) d ls → BalancedLines ex inBody i d (line :: ls)
  | open_ {i d line l kw text n ls} : ¬ inBody i → Expands (ex i) line l → kw ∈ openers →
      ConditionLine l kw text → FurtherLines text ls n → BalancedLines ex inBody (i + 1 + n) (d + 1) (ls.drop n) →
      BalancedLines ex inBody i d (line :: ls)
  | elif {i d line l kw text n ls} : ¬ inBody i → Expands (ex i) line l → kw ∈ elifs ++ negElifs →
      ConditionLine l kw text → FurtherLines text ls n → BalancedLines ex inBody (i + 1 + n) (d + 1) (ls.drop n) →
      BalancedLines ex inBody i (d + 1) (line :: ls)
  | else_ {i d line l text ls} : ¬ inBody i → Expands (ex i) line l → ConditionLine l (s% "%else") text →
      BalancedLines ex inBody (i + 1) (d + 1) ls → BalancedLines ex inBody i (d + 1) (line :: ls)
  | close {i d line l text ls} : ¬ inBody i → Expands (ex i) line l → ConditionLine l (s% "%endif") text →
      BalancedLines ex inBody (i + 1) d ls → BalancedLines ex inBody i (d + 1) (line :: ls)

end Specfile.Spec
