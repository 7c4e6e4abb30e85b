import Verif.Model.Construct
import Verif.Model.ReprText
import Verif.Spec.ValueGrammar
import Verif.Spec.FormatText
/-
What is needed for a representation to be an expression for the same object.
-/
namespace Specfile.Spec
open Py
open Representation (Lit)
open Construct (Python)
open Options (Opts Val)
open Equality (SpecKey)

/-- the literals of Python are read back -/
def LiteralsRead (P : Python) (R : Lit → Str) : Prop := ∀ c, P.literal (R c) = some c

/-- text in angle brackets cannot be read -/
def ObjectsNotRead (P : Python) : Prop := ∀ r, isObject r = true → P.literal r = none ∧ P.member r = none

/-- the expression is read as this object, which is no literal -/
def StandsFor (P : Python) (e : Formatter.Expr) (x : Construct.Obj) : Prop := ∃ r, e = .const r ∧ P.literal r = none ∧ P.member r = some x

/-- the members of enumerations could be read -/
structure MembersRead (P : Python) (level : Int → Str) : Prop where
  types : ∀ t, StandsFor P (Representation.tokenType t) (.tokenType t)
  styles : ∀ s, StandsFor P (Representation.style s) (.style s)
  levels : ∀ n, StandsFor P (.const (level n)) (.level n)

/-- the spec file an object belongs to, if any, can be read and there is nothing unsaved -/
def ContextSaved (P : Python) : Option SpecKey → Prop
  | none => True
  | some s => P.read s.path = some s.content

/-- a dictionary has each key once -/
def DistinctKeys (d : List (Char × Val)) : Prop := (d.map (·.1)).Nodup

/-- no options have been given -/
def WithoutTokens (o : Opts) : Prop := o.tokens = [] ∧ DistinctKeys o.defaults

mutual
/-- names do not go on with flags, and names and arguments of enclosed references are words -/
def Rebuildable : Node → Prop
  | .lit _ => True
  | .shell _ => True
  | .expr _ => True
  | .sub p n => p.all isFlag = true ∧ NoFlagStart n
  | .encl p n args => p.all isFlag = true ∧ NoFlagStart n ∧ ∀ w ∈ n :: args, w ≠ [] ∧ ∀ c ∈ w, isSpace c = false
  | .cond p n body => p.all isFlag = true ∧ NoFlagStart n ∧ AllRebuildable body
  | .builtin _ _ => True
/-- all of them -/
def AllRebuildable : List Node → Prop
  | [] => True
  | n :: ns => Rebuildable n ∧ AllRebuildable ns
end

mutual
/-- no reference such as `%{? ?x}` -/
def NoSplitFlags : Node → Prop
  | .encl _ n _ => NoFlagStart n
  | .cond _ _ body => NoneSplitFlags body
  | _ => True
/-- in none of them -/
def NoneSplitFlags : List Node → Prop
  | [] => True
  | n :: ns => NoSplitFlags n ∧ NoneSplitFlags ns
end

mutual
/-- Python reads what is printed for each object inside, and for the object itself, as the grammar says -/
def PythonReads (parse : Str → Formatter.Parsed) (repr : Str → Str) (threshold fuel : Nat) : Formatter.Expr → Prop
  | .const _ => True
  | .tuple items => PythonReadsItems parse repr threshold fuel items
  | .list items => PythonReadsItems parse repr threshold fuel items
  | .dict items => PythonReadsItems parse repr threshold fuel items
  | .call f items => PythonReadsItems parse repr threshold fuel items ∧
    ∀ s src, Representation.shownItems parse repr threshold fuel items = .ok s →
      Formatter.text src = f ++ '(' :: s ++ s% ")" → parsePython (tokens src) = some (.call f items) →
      parse (f ++ '(' :: s ++ s% ")") = .tree (.call f items)
  | .other => True
/-- of all elements -/
def PythonReadsItems (parse : Str → Formatter.Parsed) (repr : Str → Str) (threshold fuel : Nat) : Formatter.Items → Prop
  | .nil => True
  | .cons k v rest => PythonReadsKey parse repr threshold fuel k ∧ PythonReads parse repr threshold fuel v ∧
    PythonReadsItems parse repr threshold fuel rest
/-- of a key -/
def PythonReadsKey (parse : Str → Formatter.Parsed) (repr : Str → Str) (threshold fuel : Nat) : Formatter.Key → Prop
  | .key e => PythonReads parse repr threshold fuel e
  | _ => True
end

end Specfile.Spec
