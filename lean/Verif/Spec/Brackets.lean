import Verif.Py.Str
/-
Texts with macro brackets: `%{…}` (or `%(…)`), where a backslash or a percent sign takes the next
character with it, and plain brackets count only inside such a construct.
-/
namespace Specfile.Spec
open Py

/-- A pair that is not a bracket for `o`: an escaped character, or `%` followed by anything but
the opening bracket. -/
inductive Pair (o : Char) : Str → Prop
  | escaped (x : Char) : Pair o ['\\', x]
  | percent (x : Char) (h : x ≠ o) : Pair o ['%', x]

/-- Balanced text inside brackets. -/
inductive Inside (o c : Char) : Str → Prop
  | nil : Inside o c []
  | pair {p s} : Pair o p → Inside o c s → Inside o c (p ++ s)
  | char {x s} : x ≠ '\\' → x ≠ '%' → x ≠ o → x ≠ c → Inside o c s → Inside o c (x :: s)
  | macro {a s} : Inside o c a → Inside o c s → Inside o c ('%' :: o :: (a ++ c :: s))
  | bracket {a s} : Inside o c a → Inside o c s → Inside o c (o :: (a ++ c :: s))

/-- Text in which every macro construct is closed. -/
inductive Closed (o c : Char) : Str → Prop
  | nil : Closed o c []
  | pair {p s} : Pair o p → Closed o c s → Closed o c (p ++ s)
  | char {x s} : x ≠ '\\' → x ≠ '%' → Closed o c s → Closed o c (x :: s)
  | macro {a s} : Inside o c a → Closed o c s → Closed o c ('%' :: o :: (a ++ c :: s))

/-- Text in which exactly `n` brackets are left open (the outermost one is a macro). -/
inductive Open (o c : Char) : Nat → Str → Prop
  | closed {s} : Closed o c s → Open o c 0 s
  | macro {n s a} : Open o c n s → Inside o c a → Open o c (n + 1) (s ++ '%' :: o :: a)
  | bracket {n s a} : Open o c (n + 1) s → Inside o c a → Open o c (n + 2) (s ++ o :: a)

/-- The same, allowing a lone backslash or percent sign at the very end. -/
def LeavesOpen (o c : Char) (n : Nat) (s : Str) : Prop :=
  ∃ t, Open o c n t ∧ (s = t ∨ s = t ++ ['\\'] ∨ s = t ++ ['%'])

end Specfile.Spec
