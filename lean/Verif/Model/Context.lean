import Verif.Py.Err
/-
Model of /repo/specfile/context_management.py:41-145: `GeneratorContextManager` and `ContextManager`, as a
transition system. The part of Python's `contextlib._GeneratorContextManager` that is inherited (`__enter__`,
`__exit__`) is included.

Simplifications: the serialized arguments of a call are an abstract key `K`, references to yielded objects are an
abstract `V`, everything outside the decorated function is an abstract world `W` (it contains the objects behind
the references and any other context managers). `__exit__` is only called by `with` statements, that is once and
after a successful `__enter__`. The decorated function does not call itself with the same arguments while it is
running.
-/
namespace Specfile.Context
open Py

/-- a decorated generator function: what runs up to the `yield` and what runs after it; it yields once;
context_management.py:85-86 -/
structure Function (K V W : Type) where
  first : K → W → W × Except Err V
  second : K → V → W → W × Option Err

/-- a generator of the decorated function; `gi_frame` is `None` iff it is exhausted. A suspended one knows what it
yielded. See context_management.py:88 and 117-118. -/
inductive Gen (V : Type) where
  | suspended (v : V)
  | exhausted
deriving DecidableEq

/-- where the generator of a `GeneratorContextManager` is: before the first statement, at the `yield`, finished;
context_management.py:41-47 -/
inductive Place where
  | fresh | inside | over
deriving DecidableEq

/-- a `GeneratorContextManager` returned by `__call__`. Its generator is `new_value` (context_management.py:135-143) if `owner` is
set, otherwise `existing_value` (context_management.py:121-127). -/
structure Handle (K : Type) where
  key : K
  owner : Bool
  place : Place
  /-- `__enter__` has been called, it deletes attributes and cannot be called again -/
  entered : Bool
deriving DecidableEq

/-- what the decorated function did, for the statements only; context_management.py:131-140 -/
inductive Log (K V : Type) where
  | started (k : K) (v : V)
  | finished (k : K) (v : V)
deriving DecidableEq

/-- `ContextManager` and the objects that it returned, context_management.py:85-90 -/
structure State (K V W : Type) where
  world : W
  /-- the attribute `generators`, context_management.py:88 -/
  generators : K → Option (Gen V)
  /-- the attribute `values`, context_management.py:89 -/
  values : K → Option V
  /-- all handles that were returned -/
  handles : List (Handle K)
  log : List (Log K V)

/-- context_management.py:85-90 -/
def State.init {K V W : Type} (w : W) : State K V W := ⟨w, fun _ => none, fun _ => none, [], []⟩

/-- what a caller does: context_management.py:49-67 and 108-145 -/
inductive Event (K W : Type) where
  /-- the decorated function is called -/
  | call (k : K)
  /-- `handle.__enter__()` -/
  | enter (g : Nat)
  /-- the `with` statement ends, possibly with an exception -/
  | exit (g : Nat) (e : Option Err)
  /-- `handle.content` -/
  | content (g : Nat)
  /-- the last reference to the handle is gone -/
  | drop (g : Nat)
  /-- anything else happens outside -/
  | other (f : W → W)

/-- what the caller sees, context_management.py:49-67 -/
inductive Out (V : Type) where
  | handle (g : Nat)
  | value (v : V)
  | raised (e : Err)
  | done
  /-- the `with` statement ended with an exception which was swallowed -/
  | swallowed
  /-- not modelled: no such handle, or `__exit__` without `__enter__` -/
  | misuse
deriving DecidableEq

/-- `d[k] = x`, context_management.py:131-133 -/
def set {K A : Type} [DecidableEq K] (d : K → Option A) (k : K) (x : Option A) : K → Option A :=
  fun k' => if k' = k then x else d k'

variable {K V W : Type} [DecidableEq K] (f : Function K V W)

/-- `ContextManager.__call__`, context_management.py:115-145 -/
def call (s : State K V W) (k : K) : State K V W × Out V :=
  match s.generators k with
  | some (.suspended _) =>
    ({ s with handles := s.handles ++ [⟨k, false, .fresh, false⟩] }, .handle s.handles.length)
  | _ =>
    match f.first k s.world with
    | (w, .ok v) =>
      ({ world := w, generators := set s.generators k (some (.suspended v)), values := set s.values k (some v),
         handles := s.handles ++ [⟨k, true, .fresh, false⟩], log := s.log ++ [.started k v] },
       .handle s.handles.length)
    | (w, .error e) =>
      ({ s with world := w, generators := set s.generators k (some .exhausted) }, .raised e)

/-- context_management.py:142-143 -/
def delete (s : State K V W) (k : K) : State K V W × Option Err :=
  match s.values k with
  | none => ({ s with generators := set s.generators k none }, some .keyError)
  | some _ => ({ s with generators := set s.generators k none, values := set s.values k none }, none)

/-- the `finally` block of `new_value`, context_management.py:139-143 -/
def finalise (s : State K V W) (k : K) : State K V W × Option Err :=
  match s.generators k with
  | none => (s, some .keyError)
  | some .exhausted => delete s k
  | some (.suspended v) =>
    let s' := { s with world := (f.second k v s.world).1, generators := set s.generators k (some .exhausted),
                       log := s.log ++ [.finished k v] }
    match (f.second k v s.world).2 with
    | some e => (s', some e)
    | none => delete s' k

/-- move the handle, context_management.py:65-66 -/
def mark (s : State K V W) (g : Nat) (h : Handle K) : State K V W := { s with handles := s.handles.set g h }

/-- run the generator of a handle to its end, from wherever it is;
context_management.py:52 and 66 -/
def finish (s : State K V W) (g : Nat) (h : Handle K) : State K V W × Option Err :=
  let s' := mark s g { h with place := .over }
  if h.owner && h.place != .over then finalise f s' h.key else (s', none)

/-- `__enter__` of `contextlib`: `next(self.gen)`, `StopIteration` becomes `RuntimeError`;
inherited in context_management.py:41 -/
def enter (s : State K V W) (g : Nat) (h : Handle K) : State K V W × Out V :=
  if h.entered then (s, .raised .attributeError)
  else
    match h.place with
    | .over => (mark s g { h with entered := true }, .raised .runtimeError)
    | .inside => (s, .misuse)
    | .fresh =>
      match s.values h.key with
      | some v => (mark s g { h with place := .inside, entered := true }, .value v)
      | none =>
        match finish f s g { h with entered := true } with
        | (s', some e) => (s', .raised e)
        | (s', none) => (s', .raised (if h.owner then .keyError else .runtimeError))

/-- `__exit__` of `contextlib`: `next(self.gen)` or `self.gen.throw(...)`;
inherited in context_management.py:41 -/
def exit (s : State K V W) (g : Nat) (h : Handle K) (e : Option Err) : State K V W × Out V :=
  match h.place with
  | .inside =>
    match finish f s g h with
    | (s', some e') => (s', .raised e')
    | (s', none) =>
      match e with
      | none => (s', .done)
      | some e => if !h.owner && e == .keyError then (s', .swallowed) else (s', .raised e)
  | _ => (s, .misuse)

/-- `content`, context_management.py:54-67 -/
def content (s : State K V W) (g : Nat) (h : Handle K) : State K V W × Out V :=
  match h.place with
  | .over => (s, .raised .stopIteration)
  | .inside =>
    match finish f s g h with
    | (s', some e) => (s', .raised e)
    | (s', none) => (s', .raised .stopIteration)
  | .fresh =>
    match s.values h.key with
    | some v =>
      match finish f s g h with
      | (s', some e) => (s', .raised e)
      | (s', none) => (s', .value v)
    | none =>
      match finish f s g h with
      | (s', some e) => (s', .raised e)
      | (s', none) => (s', .raised (if h.owner then .keyError else .stopIteration))

/-- one event; `__del__`, context_management.py:49-52, runs the generator to its end and exceptions in it are ignored by Python -/
def step (s : State K V W) : Event K W → State K V W × Out V
  | .call k => call f s k
  | .enter g => match s.handles[g]? with
    | some h => enter f s g h
    | none => (s, .misuse)
  | .exit g e => match s.handles[g]? with
    | some h => exit f s g h e
    | none => (s, .misuse)
  | .content g => match s.handles[g]? with
    | some h => content f s g h
    | none => (s, .misuse)
  | .drop g => match s.handles[g]? with
    | some h => ((finish f s g h).1, .done)
    | none => (s, .misuse)
  | .other u => ({ s with world := u s.world }, .done)

/-- a history, context_management.py:41-145 -/
def run (s : State K V W) : List (Event K W) → State K V W
  | [] => s
  | e :: es => run (step f s e).1 es

end Specfile.Context
