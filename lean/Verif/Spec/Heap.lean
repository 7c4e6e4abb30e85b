import Verif.Model.Heap
/-
Objects that belong to one container only, and operations on values.
-/
namespace Specfile.Spec
open Py Heap

/-- what an operation does if objects are values -/
def effectOn (m : Tags) : Op → Tags × Option Err
  | .del i => m.delItem i
  | .delSlice start stop step => m.delSlice start stop step
  | .insert i t => m.insert i t
  | .setValue i v => if i < m.data.length then (m.setValueAt i v, none) else (m, some .indexError)
  | .setText i j v =>
    match m.data[i]? with
    | none => (m, some .indexError)
    | some t =>
      match t.comments.setText j v with
      | .error e => (m, some e)
      | .ok c => ({ m with data := m.data.set i { t with comments := c } }, none)
  | .append i v =>
    match m.data[i]? with
    | none => (m, some .indexError)
    | some t => ({ m with data := m.data.set i { t with comments := t.comments.append v } }, none)

/-- the value that is left after operations, each of which may raise and be caught -/
def effectOfAll (m : Tags) (ops : List Op) : Tags := ops.foldl (fun m o => (effectOn m o).1) m

/-- the comments of the tags of a container -/
def commentsOf (h : Heap) (r : Nat) : List Nat := (h.tags r).data.map (fun t => (h.tag t).comments)

/-- the lists of lines of a container -/
def linesOf (h : Heap) (r : Nat) : List Nat :=
  (h.tags r).remainder :: (commentsOf h r).map (fun c => (h.comments c).preceding)

/-- the single comments in a container -/
def textsOf (h : Heap) (r : Nat) : List Nat := (commentsOf h r).flatMap (fun c => (h.comments c).data)

/-- no object occurs twice in a container, and all of them exist -/
structure Own (h : Heap) (r : Nat) : Prop where
  self : r < h.next
  tag : (h.tags r).data.Nodup ∧ ∀ a ∈ (h.tags r).data, a < h.next
  comments : (commentsOf h r).Nodup ∧ ∀ a ∈ commentsOf h r, a < h.next
  lines : (linesOf h r).Nodup ∧ ∀ a ∈ linesOf h r, a < h.next
  texts : (textsOf h r).Nodup ∧ ∀ a ∈ textsOf h r, a < h.next

/-- two containers have no object in common -/
structure Apart (h : Heap) (r r' : Nat) : Prop where
  self : r ≠ r'
  tag : ∀ a ∈ (h.tags r).data, a ∉ (h.tags r').data
  comments : ∀ a ∈ commentsOf h r, a ∉ commentsOf h r'
  lines : ∀ a ∈ linesOf h r, a ∉ linesOf h r'
  texts : ∀ a ∈ textsOf h r, a ∉ textsOf h r'

/-- operations on several containers in the order in which they happen -/
def runAll (h : Heap) : List (Nat × Op) → Heap
  | [] => h
  | (r, o) :: l => runAll (o.run h r).1 l

/-- the operations on one container -/
def opsOn (r : Nat) (l : List (Nat × Op)) : List Op := (l.filter (fun x => x.1 == r)).map (·.2)

/-- statements of a program; containers are numbered in the order in which they are made -/
inductive Command where
  /-- `Tags.parse(…)` with the result `m` -/
  | parse (m : Tags)
  /-- `copy.deepcopy(x)` -/
  | deepcopy (x : Nat)
  /-- an operation on `x` -/
  | edit (x : Nat) (o : Op)

/-- the memory and the containers after a statement, and the exception -/
def execute (s : Heap × List Nat) : Command → (Heap × List Nat) × Option Err
  | .parse m =>
    match build s.1 m with
    | (h, r) => ((h, s.2 ++ [r]), none)
  | .deepcopy x =>
    match s.2[x]? with
    | none => (s, some .keyError)
    | some r =>
      match Heap.deepcopy s.1 r with
      | (h, r') => ((h, s.2 ++ [r']), none)
  | .edit x o =>
    match s.2[x]? with
    | none => (s, some .keyError)
    | some r =>
      match o.run s.1 r with
      | (h, e) => ((h, s.2), e)

/-- the same if containers are values -/
def evaluate (s : List Tags) : Command → List Tags × Option Err
  | .parse m => (s ++ [m], none)
  | .deepcopy x =>
    match s[x]? with
    | none => (s, some .keyError)
    | some m => (s ++ [m], none)
  | .edit x o =>
    match s[x]? with
    | none => (s, some .keyError)
    | some m => (s.set x (effectOn m o).1, (effectOn m o).2)

/-- a whole program that catches all exceptions: what is left and the exceptions -/
def executeAll (s : Heap × List Nat) : List Command → (Heap × List Nat) × List (Option Err)
  | [] => (s, [])
  | c :: l =>
    match execute s c with
    | (s', e) => ((executeAll s' l).1, e :: (executeAll s' l).2)

def evaluateAll (s : List Tags) : List Command → List Tags × List (Option Err)
  | [] => (s, [])
  | c :: l =>
    match evaluate s c with
    | (s', e) => ((evaluateAll s' l).1, e :: (evaluateAll s' l).2)

end Specfile.Spec
