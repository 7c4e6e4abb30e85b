import Verif.Model.ValueParser
import Verif.Spec.Value
/-
The grammar of macro references in values, stated independently of the parser: which node lists
are unambiguous when printed.
-/
namespace Specfile.Spec
open Py

/-- `?` or `!` -/
def isFlag (c : Char) : Bool := c == '?' || c == '!'

/-- the text after a flag prefix does not continue the prefix -/
def NoFlagStart (s : Str) : Prop := ∀ c ∈ s.head?, isFlag c = false

/-- name of an unenclosed macro reference: `-?\w*[*#]?` -/
def PlainName [Uni] (n : Str) : Prop :=
  ∃ d w e, n = d ++ w ++ e ∧ (d = [] ∨ d = ['-']) ∧ (∀ c ∈ w, isWord c = true) ∧
    (e = [] ∨ e = ['*'] ∨ e = ['#'])

/-- the character `c` would extend the reference `%pn` -/
def Extends [Uni] (p n : Str) (c : Char) : Prop :=
  if n.getLast? = some '*' ∨ n.getLast? = some '#' then False
  else c = '*' ∨ c = '#' ∨ isWord c = true ∨
    (n = [] ∧ (c = '-' ∨ isFlag c = true)) ∨
    (n = [] ∧ p = [] ∧ (c = '(' ∨ c = '{' ∨ c = '[' ∨ c = '%'))

/-- the text `t` printed after a node neither continues a plain reference nor splits a literal -/
def Follows [Uni] : Node → Str → Prop
  | .lit _, t => ∀ c ∈ t.head?, c = '%'
  | .sub p m, t => (∀ c ∈ t.head?, ¬ Extends p m c) ∧ (p = [] → m = [] → t ≠ [])
  | _, _ => True

mutual
/-- A node that is printed unambiguously, disregarding what follows it. -/
def GoodNode [Uni] : Node → Prop
  | .lit v => v ≠ [] ∧ '%' ∉ v
  | .shell b => Balanced '(' ')' b
  | .expr b => Balanced '[' ']' b
  | .sub p n => p.all isFlag = true ∧ PlainName n
  | .encl p n args => p.all isFlag = true ∧ NoFlagStart n ∧
      (∀ w ∈ n :: args, w ≠ [] ∧ (∀ c ∈ w, isSpace c = false) ∧ ':' ∉ w) ∧
      Balanced '{' '}' (p ++ joinC ' ' (n :: args))
  | .cond p n body => p.all isFlag = true ∧ '?' ∈ p ∧ NoFlagStart n ∧ ':' ∉ n ∧ GoodNodes body ∧
      Balanced '{' '}' (p ++ n ++ ':' :: Node.strs body)
  | .builtin n b => ':' ∉ n ∧ '?' ∉ n.takeWhile isFlag ∧ Balanced '{' '}' (n ++ ':' :: b)
/-- A sequence of nodes that is printed unambiguously: every literal is maximal and no plain
reference is continued by the text that follows it. -/
def GoodNodes [Uni] : List Node → Prop
  | [] => True
  | n :: ns => GoodNode n ∧ GoodNodes ns ∧ Follows n (Node.strs ns)
end

end Specfile.Spec
