import Verif.Model.Context
/-
What a log of starts and write-backs should look like.
-/
namespace Specfile.Spec
open Py Context

/-- the part of the log about one key: `true` for a start, `false` for a write-back, with the object -/
def history {K V : Type} [DecidableEq K] (k : K) : List (Log K V) → List (Bool × V)
  | [] => []
  | .started k' v :: l => if k' = k then (true, v) :: history k l else history k l
  | .finished k' v :: l => if k' = k then (false, v) :: history k l else history k l

/-- every start is followed by the write-back of the same object before the next start; the last one may be
missing -/
inductive Paired {V : Type} : List (Bool × V) → Prop where
  | nil : Paired []
  | started (v) : Paired [(true, v)]
  | both {v l} (h : Paired l) : Paired ((true, v) :: (false, v) :: l)

/-- no write-back is missing -/
inductive AllWritten {V : Type} : List (Bool × V) → Prop where
  | nil : AllWritten []
  | both {v l} (h : AllWritten l) : AllWritten ((true, v) :: (false, v) :: l)

/-- events that end the context of a handle -/
def Ends {K W : Type} (g : Nat) : Event K W → Prop
  | .exit g' _ => g' = g
  | .content g' => g' = g
  | .drop g' => g' = g
  | _ => False

/-- what can happen -/
def Reachable {K V W : Type} [DecidableEq K] (f : Function K V W) (s : State K V W) : Prop :=
  ∃ w evs, s = run f (State.init w) evs

end Specfile.Spec
