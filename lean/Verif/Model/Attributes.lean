import Verif.Model.Sections
import Verif.Model.Prep
/-
Reading, setting and deleting the elements of a container as attributes of the Python object (`tags.url = "…"`), and
the construction of macro definitions, which sets attributes itself.

Python reads an attribute in three steps: the attributes of the object itself, those of its class (its methods), and only
then `__getattr__`. `__setattr__` and `__delattr__` are called for every name.
-/
namespace Specfile.Attributes
open Py

/-! ### any container -/

/-- what `Tags` (tags.py:391-424), `MacroDefinitions` (macro_definitions.py:181-214) and `Sections` (sections.py:170-203)
have in common. `part` is the assignment of a value that is not an element (to `value`, `body` or `data` of the element);
`deletes` tells whether `__delattr__` passes a name that is not contained on to `object.__delattr__`. -/
structure Kind where
  E : Type
  P : Type
  contains : List E → Str → Bool
  find : List E → Str → Except Err Nat
  part : E → P → E
  deletes : Bool

/-- a value that is assigned: an element, or a part of one -/
inductive Value (K : Kind) where
  | element (e : K.E)
  | part (p : K.P)

/-- an object: its elements and the attributes it has itself. The attributes `data` and `_remainder` are not among `own`,
and names are supposed to be others than these (see `Defs` below for what happens otherwise). -/
structure Obj (K : Kind) where
  data : List K.E
  own : List (Str × Value K)

/-- what is read: an attribute of the object itself, one of its class, or the element with an index -/
inductive Found (K : Kind) where
  | own (v : Value K)
  | method
  | element (k : Nat)

variable {K : Kind}

/-- an attribute of the object itself -/
def ownAttr (o : Obj K) (name : Str) : Option (Value K) :=
  (o.own.find? (fun p => p.1 == name)).map (·.2)

/-- reading, tags.py:399-405, macro_definitions.py:189-195, sections.py:178-184; `method` tells which names are
attributes of the class -/
def getattr (method : Str → Bool) (o : Obj K) (name : Str) : Except Err (Found K) :=
  match ownAttr o name with
  | some v => .ok (.own v)
  | none =>
    if method name then .ok .method
    else if !K.contains o.data name then .error .attributeError
    else match K.find o.data name with
      | .error _ => .error .attributeError
      | .ok k => .ok (.element k)

/-- setting, tags.py:407-416, macro_definitions.py:197-206, sections.py:186-195 -/
def setattr (o : Obj K) (name : Str) (v : Value K) : Except Err (Obj K) :=
  if !K.contains o.data name then .ok { o with own := (name, v) :: o.own.filter (fun p => p.1 != name) }
  else match K.find o.data name with
    | .error _ => .error .attributeError
    | .ok k => match v with
      | .element e => .ok { o with data := o.data.set k e }
      | .part p => .ok { o with data := o.data.modify k (fun e => K.part e p) }

/-- deleting, tags.py:418-424, macro_definitions.py:208-214 (where a name that is not contained is only read, with
`object.__getattribute__`), sections.py:197-203 -/
def delattr (method : Str → Bool) (o : Obj K) (name : Str) : Except Err (Obj K) :=
  if !K.contains o.data name then
    if K.deletes then
      if (ownAttr o name).isSome then .ok { o with own := o.own.filter (fun p => p.1 != name) }
      else .error .attributeError
    else if (ownAttr o name).isSome || method name then .ok o
    else .error .attributeError
  else match K.find o.data name with
    | .error _ => .error .attributeError
    | .ok k => .ok { o with data := o.data.eraseIdx k }

/-- tags, tags.py:391-424; neither `__contains__` nor `find` looks at the remaining lines -/
def tags [Uni] : Kind where
  E := Tag
  P := Str
  contains l name := Tags.contains ⟨l, []⟩ name
  find l name := Tags.find ⟨l, []⟩ name none
  part t v := { t with value := v }
  deletes := true

/-- macro definitions, macro_definitions.py:181-214; neither `__contains__` nor `find` looks at the remaining lines -/
def definitions : Kind where
  E := MacroDefinition
  P := Str
  contains l name := MacroDefinitions.contains ⟨l, []⟩ name
  find l name := MacroDefinitions.find ⟨l, []⟩ name none
  part d v := { d with body := v }
  deletes := false

/-- sections, sections.py:170-203 -/
def sections [Uni] : Kind where
  E := Section
  P := List Str
  contains := Sections.contains
  find := Sections.find
  part s v := { s with data := v }
  deletes := true

/-- one step of a program that works on a container: the attributes, and the list below (`insert`, `del data[i]`),
tags.py:407-424, macro_definitions.py:197-214, sections.py:186-203 -/
inductive Act (K : Kind) where
  | set (name : Str) (v : Value K)
  | del (name : Str)
  | insert (i : Nat) (e : K.E)
  | erase (i : Nat)

/-- the object after a step; a step that raises changes nothing. The lists are those of Python with an index in range
(an index that is not is taken to change nothing); tags.py:407-424. -/
def act (method : Str → Bool) (o : Obj K) : Act K → Obj K
  | .set n v => match setattr o n v with | .ok o' => o' | .error _ => o
  | .del n => match delattr method o n with | .ok o' => o' | .error _ => o
  | .insert i e => { o with data := o.data.insertIdx i e }
  | .erase i => { o with data := o.data.eraseIdx i }

/-- the object after a program, tags.py:407-424 -/
def runActs (method : Str → Bool) (o : Obj K) : List (Act K) → Obj K
  | [] => o
  | a :: l => runActs method (act method o a) l

/-! ### prep macros -/

/-- `Prep` or `PrepMacros` with the attributes it has itself; there is no `__setattr__`, prep.py:164-238, 258-283 -/
structure PrepObj where
  prep : Prep
  own : List (Str × Str)

/-- reading: the object itself, then the macro, prep.py:224-230 and 278-281; names of methods are left out, none of them
is a valid name of a macro -/
def prepGet (o : PrepObj) (name : Str) : Except Err (Str ⊕ PrepMacro) :=
  match o.own.find? (fun p => p.1 == name) with
  | some p => .ok (.inl p.2)
  | none =>
    if !Prep.validName name then .error .attributeError
    else match Prep.getAttr o.prep name with
      | .error e => .error e
      | .ok m => .ok (.inr m)

/-- setting is that of any Python object: prep.py:164-254 defines no `__setattr__` -/
def prepSet (o : PrepObj) (name v : Str) : PrepObj :=
  { o with own := (name, v) :: o.own.filter (fun p => p.1 != name) }

/-- deleting, prep.py:232-238 and 283-286 -/
def prepDel (o : PrepObj) (name : Str) : PrepObj × Option Err :=
  if !Prep.validName name then
    if o.own.any (fun p => p.1 == name) then ({ o with own := o.own.filter (fun p => p.1 != name) }, none)
    else (o, some .attributeError)
  else
    let r := Prep.delAttr o.prep name
    ({ o with prep := r.1 }, r.2)

/-! ### the construction of macro definitions -/

/-- macro definitions with what the attributes `_remainder` and `data` of the Python object may do to them,
macro_definitions.py:160-175: `remainder` is `none` if the attribute is not there, and `spoiled` is the index of the
definition whose body is a list instead of a string -/
structure Defs where
  data : List MacroDefinition
  remainder : Option (List Str)
  spoiled : Option Nat
  deriving DecidableEq, Repr

/-- `__init__`, macro_definitions.py:160-175: `self._remainder = …` calls `__setattr__` (197-206), and `self.data` has its
elements by then -/
def init (data : List MacroDefinition) (remainder : List Str) : Defs :=
  if !definitions.contains data (s% "_remainder") then ⟨data, some remainder, none⟩
  else match definitions.find data (s% "_remainder") with
    | .error _ => ⟨data, none, none⟩
    | .ok k => ⟨data, none, some k⟩

/-- `self.data += …` of `UserList.__iadd__`: the list is extended, and then `__setattr__` is called for `data`,
macro_definitions.py:197-206 -/
def iadd (d : Defs) (items : List MacroDefinition) : Defs :=
  let data := d.data ++ items
  if !definitions.contains data (s% "data") then { d with data := data }
  else match definitions.find data (s% "data") with
    | .error _ => { d with data := data }
    | .ok k => { d with data := data, spoiled := some k }

/-- the loop of `get_raw_data` from the definition with index `i` on, macro_definitions.py:133-147 and 398-401: adding a
string to a list is a `TypeError` -/
def rawLoop (spoiled : Option Nat) : Nat → List MacroDefinition → Except Err (List Str)
  | _, [] => .ok []
  | i, x :: xs =>
    if spoiled == some i then .error .typeError
    else match rawLoop spoiled (i + 1) xs with
      | .error e => .error e
      | .ok ls => .ok (x.raw ++ ls)

/-- `get_raw_data`, macro_definitions.py:398-403. Without the attribute, `self._remainder` is a macro definition, which is
not iterable. -/
def rawLines (d : Defs) : Except Err (List Str) :=
  match rawLoop d.spoiled 0 d.data with
  | .error e => .error e
  | .ok ls => match d.remainder with
    | none => .error .typeError
    | some r => .ok (ls ++ r)

/-- the excluded lines, conditions.py:90-94 and sections.py:267-271: `get_position` (macro_definitions.py:119-131) takes a
slice, which copies `self._remainder` (macro_definitions.py:224-226 and 175); a macro definition cannot be copied that
way. `body.split` of a list is an `AttributeError` too. -/
def excludedLines (d : Defs) : Except Err (List Conditions.Range) :=
  match d.data, d.remainder with
  | [], _ => .ok []
  | _ :: _, none => .error .attributeError
  | _ :: _, some r => if d.spoiled.isSome then .error .attributeError else .ok (MacroDefinitions.excluded ⟨d.data, r⟩)

/-- the macro definitions in lines, macro_definitions.py:285-372 with the construction at its end -/
def defsOf [Uni] (lines : List Str) : Defs :=
  init (MacroDefinitions.parseLines lines).data (MacroDefinitions.parseLines lines).remainder

/-- `Sections.parse`, sections.py:217-299, with the macro definitions as they are constructed -/
def parseSections [Uni] (ex : Conditions.Oracle) (lines : List Str) : Except Err Sections :=
  match excludedLines (defsOf lines) with
  | .error e => .error e
  | .ok r => Sections.parseWith r ex lines

/-- `MacroDefinitions.parse` and `get_raw_data`, macro_definitions.py:374-403, as in
`Specfile.macro_definitions` (specfile.py:238-253) if nothing is changed -/
def parseDefinitions [Uni] (ex : Conditions.Oracle) (lines : List Str) : Except Err (List Str) :=
  match excludedLines (defsOf lines) with
  | .error e => .error e
  | .ok r => match Conditions.processConditions ex r lines with
    | .error e => .error e
    | .ok ls =>
      let m := MacroDefinitions.parseFlagged ls
      rawLines (init m.data m.remainder)

end Specfile.Attributes
