import Verif.Model.Attributes
import Verif.Spec.Find
/-
What reading, setting and deleting an element as an attribute should do (C93).
-/
namespace Specfile.Spec
open Py Attributes

/-- an element of each kind of container is called `name` -/
def TagCalled [Uni] (name : Str) (t : Tag) : Prop := Uni.capitalize t.name = Uni.capitalize name
def DefinitionCalled (name : Str) (d : MacroDefinition) : Prop := d.name = name
def SectionCalled [Uni] (name : Str) (s : Section) : Prop := Sections.normalizedId s = Uni.lower name

/-- names by which tags are found: words of ASCII characters -/
def AsciiWord (n : Str) : Prop := n ≠ [] ∧ n.all isAscii = true

/-- the name of a kind of container: `called` is what it means to have a name, `valid` what elements are preferred,
`fit` and `fitName` the elements and the names for which it is known -/
structure Naming (K : Kind) where
  called : Str → K.E → Prop
  valid : K.E → Prop
  fit : K.E → Prop
  fitName : Str → Prop

def tagNaming [Uni] : Naming tags := ⟨TagCalled, fun t => t.valid = true, fun t => AsciiWord t.name, AsciiWord⟩
def definitionNaming : Naming definitions := ⟨DefinitionCalled, fun d => d.valid = true, fun _ => True, fun _ => True⟩
def sectionNaming [Uni] : Naming sections := ⟨SectionCalled, fun _ => True, fun _ => True, fun _ => True⟩

/-- containers whose elements have names: the three kinds, with what it means to be called something -/
inductive NamedKind [Uni] : (K : Kind) → Naming K → Prop where
  | tags : NamedKind tags tagNaming
  | definitions : NamedKind definitions definitionNaming
  | sections : NamedKind sections sectionNaming

/-- an attribute is set that is not an element -/
def NewAttribute {K : Kind} (N : Naming K) (o : Obj K) : Act K → Prop
  | .set n _ => ∀ e ∈ o.data, ¬ N.called n e
  | _ => False

/-- every element that a step brings in is fit, and so is every name -/
def FitStep {K : Kind} (N : Naming K) : Act K → Prop
  | .set n (.element e) => N.fitName n ∧ N.fit e
  | .set n (.part _) => N.fitName n
  | .del n => N.fitName n
  | .insert _ e => N.fit e
  | .erase _ => True

/-- a program that only assigns to elements that are there -/
def SetsElements {K : Kind} (N : Naming K) (method : Str → Bool) (o : Obj K) : List (Act K) → Prop
  | [] => True
  | a :: l => FitStep N a ∧ ¬ NewAttribute N o a ∧ SetsElements N method (act method o a) l

end Specfile.Spec
