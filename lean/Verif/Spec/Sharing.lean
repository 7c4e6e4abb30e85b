import Verif.Model.Sharing
/-
Containers as values, and programs that do not edit in place what is shared.
-/
namespace Specfile.Spec
open Py ListMethods Slices Sharing

/-- containers with the deletion that is modelled for values -/
class Deleting (C : Type) (α : outParam Type) extends Passing C α where
  del : C → Int → C × Option Err
  delAt : C → Option Int → Option Int → Option Int → C × Option Err

instance : Deleting Changelog ChangelogEntry where
  del := Changelog.delete
  delAt := Changelog.deleteSlice

instance : Deleting MacroDefinitions MacroDefinition where
  del := MacroDefinitions.delItem
  delAt := MacroDefinitions.delSlice

instance [Uni] : Deleting Prep PrepMacro where
  del := Prep.delItem
  delAt := Prep.delSlice

instance : Deleting Sections Section where
  del := Slices.delItem
  delAt := Slices.delSlice

instance : Deleting Sourcelist SourcelistEntry where
  del := Slices.delItem
  delAt := Slices.delSlice

section
variable {C α : Type} [Deleting C α]

/-- what an edit does if containers are values -/
def editValue (c : C) : Edit α → C × Option Err
  | .del i => Deleting.del c i
  | .delSlice start stop step => Deleting.delAt c start stop step
  | .insert i x => (ListMethods.insert c i x, none)
  | .append x => (ListMethods.append c x, none)
  | .set i x => ListMethods.setItem c i x
  | .pop i =>
    match ListMethods.pop c i with
    | (c, .ok _) => (c, none)
    | (c, .error e) => (c, some e)
  | .clear => (ListMethods.clear c, none)
  | .reverse => (ListMethods.reverse c, none)
  | .change i f =>
    match pyIndex (Listed.data c).length i with
    | none => (c, some .indexError)
    | some k => (Listed.withData c ((Listed.data c).modify k f), none)

end

/-- statements of a program; containers are numbered in the order in which they are made -/
inductive Statement (C α : Type) where
  /-- `parse(…)` with the result `c` -/
  | parse (c : C)
  /-- `copy.deepcopy(x)` -/
  | deepcopy (x : Nat)
  /-- `x.copy()` -/
  | copy (x : Nat)
  /-- `x[start:stop:step]` -/
  | slice (x : Nat) (start stop step : Option Int)
  /-- an edit of `x` -/
  | edit (x : Nat) (e : Edit α)
  /-- `x.insert(i, y[j])` -/
  | put (x : Nat) (i : Int) (y : Nat) (j : Int)

section
variable {C α : Type} [Deleting C α]

/-- the memory and the containers after a statement, and the exception -/
def perform (s : Mem α × List Nat) : Statement C α → (Mem α × List Nat) × Option Err
  | .parse c =>
    match parsed s.1 c with
    | (h, r) => ((h, s.2 ++ [r]), none)
  | .deepcopy x =>
    match s.2[x]? with
    | none => (s, some .keyError)
    | some r =>
      match deepcopyOf s.1 r with
      | (h, r') => ((h, s.2 ++ [r']), none)
  | .copy x =>
    match s.2[x]? with
    | none => (s, some .keyError)
    | some r =>
      match copyOf s.1 r with
      | (h, r') => ((h, s.2 ++ [r']), none)
  | .slice x start stop step =>
    match s.2[x]? with
    | none => (s, some .keyError)
    | some r =>
      match sliceOf s.1 r start stop step with
      | .error e => (s, some e)
      | .ok (h, r') => ((h, s.2 ++ [r']), none)
  | .edit x e =>
    match s.2[x]? with
    | none => (s, some .keyError)
    | some r =>
      match e.run C s.1 r with
      | (h, o) => ((h, s.2), o)
  | .put x i y j =>
    match s.2[x]?, s.2[y]? with
    | some r, some r' =>
      match putItem s.1 r i r' j with
      | (h, o) => ((h, s.2), o)
    | _, _ => (s, some .keyError)

/-- the same if containers are values -/
def calculate (s : List C) : Statement C α → List C × Option Err
  | .parse c => (s ++ [c], none)
  | .deepcopy x =>
    match s[x]? with
    | none => (s, some .keyError)
    | some c => (s ++ [c], none)
  | .copy x =>
    match s[x]? with
    | none => (s, some .keyError)
    | some c => (s ++ [Slices.copy c], none)
  | .slice x start stop step =>
    match s[x]? with
    | none => (s, some .keyError)
    | some c =>
      match getSlice c start stop step with
      | .error e => (s, some e)
      | .ok d => (s ++ [d], none)
  | .edit x e =>
    match s[x]? with
    | none => (s, some .keyError)
    | some c => (s.set x (editValue c e).1, (editValue c e).2)
  | .put x i y j =>
    match s[x]?, s[y]? with
    | some c, some d =>
      match pyIndex (Listed.data d).length j with
      | none => (s, some .indexError)
      | some k =>
        match (Listed.data d)[k]? with
        | none => (s, some .indexError)
        | some a => (s.set x (ListMethods.insert c i a), none)
    | _, _ => (s, some .keyError)

/-- a whole program that catches all exceptions: what is left and the exceptions -/
def performAll (s : Mem α × List Nat) : List (Statement C α) → (Mem α × List Nat) × List (Option Err)
  | [] => (s, [])
  | c :: l =>
    match perform s c with
    | (s', e) => ((performAll s' l).1, e :: (performAll s' l).2)

def calculateAll (s : List C) : List (Statement C α) → List C × List (Option Err)
  | [] => (s, [])
  | c :: l =>
    match calculate s c with
    | (s', e) => ((calculateAll s' l).1, e :: (calculateAll s' l).2)

/-- edits that change an element or a list of lines, not only which elements are in the container -/
def InPlace (C : Type) {α : Type} [Deleting C α] : Edit α → Prop
  | .del _ | .delSlice .. => Passing.passes C = true
  | .change .. => True
  | _ => False

end

/-- What can be told from the text of a program: how many containers there are, which of them may have an element or a
list of lines in common with another one, and which of them may have an element twice. -/
structure Marks where
  count : Nat
  shared : List Nat
  doubled : List Nat

/-- the marks after a statement -/
def Marks.after {C α : Type} (m : Marks) : Statement C α → Marks
  | .parse _ => { m with count := m.count + 1 }
  | .deepcopy x =>
    if x < m.count then
      ⟨m.count + 1, if x ∈ m.doubled then m.count :: m.shared else m.shared,
        if x ∈ m.doubled then m.count :: m.doubled else m.doubled⟩
    else m
  | .copy x =>
    if x < m.count then
      ⟨m.count + 1, x :: m.count :: m.shared, if x ∈ m.doubled then m.count :: m.doubled else m.doubled⟩
    else m
  | .slice x _ _ step =>
    if x < m.count ∧ step.getD 1 ≠ 0 then
      ⟨m.count + 1, x :: m.count :: m.shared, if x ∈ m.doubled then m.count :: m.doubled else m.doubled⟩
    else m
  | .edit .. => m
  | .put x _ y _ => ⟨m.count, x :: y :: m.shared, x :: m.doubled⟩

/-- no container is edited in place after it was copied, sliced, or had elements put into or taken from it; a deep copy may
be edited again -/
def Careful {C α : Type} [Deleting C α] : Marks → List (Statement C α) → Prop
  | _, [] => True
  | m, .edit x e :: l => (InPlace C e → x ∉ m.shared) ∧ Careful m l
  | m, s :: l => Careful (m.after s) l

/-- `del` on values in terms of elements and other lines -/
def delParts (C : Type) {α : Type} [Passing C α] (l : List α) (r : List Str) (i : Int) : C × Option Err :=
  match pyIndex l.length i with
  | none => (Passing.build l r, some .indexError)
  | some k =>
    if Passing.passes C then
      if i < (l.eraseIdx k).length then
        match pyIndex (l.eraseIdx k).length i with
        | none => (Passing.build (l.eraseIdx k) r, some .indexError)
        | some j =>
          (Passing.build ((l.eraseIdx k).modify j (Passing.pass C ((l[k]?.map (Passing.lines C)).getD []))) r, none)
      else (Passing.build (l.eraseIdx k) (Passing.below C ((l[k]?.map (Passing.lines C)).getD []) r), none)
    else (Passing.build (l.eraseIdx k) r, none)

/-- the loop of `del` with a slice on values -/
def delLoop {C α : Type} [Deleting C α] (c : C) : List Nat → C × Option Err
  | [] => (c, none)
  | i :: l =>
    match Deleting.del c i with
    | (c', some e) => (c', some e)
    | (c', none) => delLoop c' l

/-- a container consists of its elements and its other lines, and is deleted from accordingly -/
structure Sound (C : Type) {α : Type} [Deleting C α] : Prop where
  build : ∀ c : C, Passing.build (Listed.data c) (Passing.rest c) = c
  data : ∀ l r, Listed.data (Passing.build l r : C) = l
  rest : Passing.passes C = true → ∀ l r, Passing.rest (Passing.build l r : C) = r
  withData : ∀ l r l', Listed.withData (Passing.build l r : C) l' = Passing.build l' r
  sliced : ∀ l r l', Buildable.sliced (Passing.build l r : C) l' = Passing.build l' r
  del : ∀ l r i, Deleting.del (Passing.build l r : C) i = delParts C l r i
  delAt : ∀ (c : C) start stop step, Deleting.delAt c start stop step =
    match sliceIndices (Listed.data c).length start stop step with
    | .error e => (c, some e)
    | .ok ks => if Passing.passes C then delLoop c ks.reverse
      else (Listed.withData c (dropAll ks 0 (Listed.data c)), none)
  pass : Passing.passes C = true → ∀ l x, Passing.pass C l x = x ↔ l = []
  below : Passing.passes C = true → ∀ l r, Passing.below C l r = r ↔ l = []

/-- the objects of a container exist -/
structure Exists {α : Type} (h : Mem α) (r : Nat) : Prop where
  self : r < h.next
  data : ∀ a ∈ (h.obj r).data, a < h.next
  rest : (h.obj r).rest < h.next

end Specfile.Spec
