import Verif.Model.Options
/-
`Options` used as a mapping and `Positionals` used as a list: the methods of /repo/specfile/options.py and the ones they
inherit from `collections.abc.MutableMapping` and `collections.abc.MutableSequence`.
-/
namespace Specfile.Options
open Py

/-! ### options as a mapping -/

/-- `Options` together with the attributes that have been set on the object under a name that is no option;
options.py:339-341. Names are single characters, as in `Opts`. -/
structure Obj where
  opts : Opts
  attrs : Char → Option (Option Val)

/-- `Options.__getitem__`, options.py:425-429: an attribute of the object comes first, `__getattr__` is only called if
there is none; `super().__getattribute__` then raises `AttributeError` -/
def Obj.getItem [Uni] (o : Obj) (c : Char) : Except Err (Option Val) :=
  match o.attrs c with
  | some v => .ok v
  | none => if valid o.opts.optstring c then get o.opts c else .error .keyError

/-- `Options.__setitem__`, options.py:431-435; a name that is no option becomes an attribute of the object (340-341) -/
def Obj.setItem (o : Obj) (c : Char) (v : Option Val) : Obj × Option Err :=
  if valid o.opts.optstring c then
    match set o.opts c v with
    | .error e => (o, some e)
    | .ok p => ({ o with opts := p }, none)
  else ({ o with attrs := fun d => if d = c then some v else o.attrs d }, none)

/-- `Options.__delitem__`, options.py:437-441 and 393-395 -/
def Obj.delItem (o : Obj) (c : Char) : Obj × Option Err :=
  if valid o.opts.optstring c then ({ o with opts := del o.opts c }, none)
  else match o.attrs c with
    | none => (o, some .keyError)
    | some _ => ({ o with attrs := fun d => if d = c then none else o.attrs d }, none)

/-- `key in options`, inherited from `Mapping`: whether `options[key]` raises no `KeyError`; options.py:210 -/
def Obj.contains [Uni] (o : Obj) (c : Char) : Except Err Bool :=
  match o.getItem c with
  | .error .keyError => .ok false
  | .error e => .error e
  | .ok _ => .ok true

/-- `options.get(key, default)`, inherited from `Mapping`; options.py:210 -/
def Obj.getDefault [Uni] (o : Obj) (c : Char) (default : Option Val) : Except Err (Option Val) :=
  match o.getItem c with
  | .error .keyError => .ok default
  | r => r

/-- `options.pop(key)`, inherited from `MutableMapping`: the value is read, then deleted; options.py:210 -/
def Obj.pop [Uni] (o : Obj) (c : Char) : Obj × Except Err (Option Val) :=
  match o.getItem c with
  | .error e => (o, .error e)
  | .ok v => match o.delItem c with
    | (p, some e) => (p, .error e)
    | (p, none) => (p, .ok v)

/-- `options.setdefault(key, default)`, inherited from `MutableMapping`; options.py:210 -/
def Obj.setDefault [Uni] (o : Obj) (c : Char) (default : Option Val) : Obj × Except Err (Option Val) :=
  match o.getItem c with
  | .ok v => (o, .ok v)
  | .error .keyError => match o.setItem c default with
    | (p, some e) => (p, .error e)
    | (p, none) => (p, .ok default)
  | .error e => (o, .error e)

/-- `options.popitem()`, inherited from `MutableMapping`: the first key, its value, and what is left; options.py:210 -/
def Obj.popItem [Uni] (o : Obj) : Obj × Except Err (Char × Option Val) :=
  match keys o.opts with
  | [] => (o, .error .keyError)
  | c :: _ =>
    match o.getItem c with
    | .error e => (o, .error e)
    | .ok v => match o.delItem c with
      | (p, some e) => (p, .error e)
      | (p, none) => (p, .ok (c, v))

/-- the loop of `options.clear()`, inherited from `MutableMapping`: `popitem` until it raises `KeyError`; the fuel is one
more than the number of tokens; options.py:210 -/
def Obj.clearLoop [Uni] : Nat → Obj → Obj × Option Err
  | 0, o => (o, some .outOfFuel)
  | n + 1, o =>
    match o.popItem with
    | (p, .error .keyError) => (p, none)
    | (p, .error e) => (p, some e)
    | (p, .ok _) => clearLoop n p

/-- `options.clear()`, inherited from `MutableMapping`; options.py:210 -/
def Obj.clear [Uni] (o : Obj) : Obj × Option Err := o.clearLoop (o.opts.tokens.length + 1)

/-! ### positional arguments as a list -/

/-- the values of tokens, read one after another, options.py:99-104 -/
def readTokens [Uni] (ts : List Token) : List Nat → Except Err (List Val)
  | [] => .ok []
  | k :: ks =>
    match readValue (valueAt ts k) with
    | .error e => .error e
    | .ok v => match readTokens ts ks with
      | .error e => .error e
      | .ok r => .ok (v :: r)

/-- the indices of tokens that a slice of positional arguments denotes, `items[i]`; options.py:101, 120 and 139 -/
def sliceTokens (o : Opts) (start stop step : Option Int) : Except Err (List Nat) :=
  match sliceIndices (positionalIdx o).length start stop step with
  | .error e => .error e
  | .ok ks => .ok (ks.map (fun k => (positionalIdx o).getD k 0))

/-- `Positionals.__getitem__` with a slice, options.py:97-104 -/
def posGetSlice [Uni] (o : Opts) (start stop step : Option Int) : Except Err (List Val) :=
  match sliceTokens o start stop step with
  | .error e => .error e
  | .ok ks => readTokens o.tokens ks

/-- the loop of `Positionals.__setitem__`, options.py:119-121: `item[i0]` raises `IndexError` if there are too few -/
def setTokens (ts : List Token) : List Nat → List Val → List Token × Option Err
  | [], _ => (ts, none)
  | _ :: _, [] => (ts, some .indexError)
  | k :: ks, v :: vs => setTokens (ts.modify k (fun t => { t with value := v.text })) ks vs

/-- `Positionals.__setitem__` with a slice, options.py:117-121 -/
def posSetSlice (o : Opts) (start stop step : Option Int) (vs : List Val) : Opts × Option Err :=
  match sliceTokens o start stop step with
  | .error e => (o, some e)
  | .ok ks => ({ o with tokens := (setTokens o.tokens ks vs).1 }, (setTokens o.tokens ks vs).2)

/-- `del tokens[index]`, options.py:135: `IndexError` if there is no such token -/
def delTokenE (ts : List Token) (index : Nat) : List Token × Option Err :=
  if index < ts.length then (delToken ts index, none)
  else
    -- `tokens[index - 1]` is looked at first (options.py:132), then a whitespace token may be deleted (133-134)
    match ts[index - 1]? with
    | none => (ts, some .indexError)
    | some t => if index = 0 then (ts, some .indexError)
        else if t.type = .whitespace then (ts.eraseIdx (index - 1), some .indexError)
        else (ts, some .indexError)

/-- the loop of `Positionals.__delitem__`, options.py:139-140 (`ks` already reversed) -/
def delTokens (ts : List Token) : List Nat → List Token × Option Err
  | [] => (ts, none)
  | k :: ks =>
    match delTokenE ts k with
    | (ts', some e) => (ts', some e)
    | (ts', none) => delTokens ts' ks

/-- `Positionals.__delitem__` with a slice, options.py:137-140 -/
def posDelSlice (o : Opts) (start stop step : Option Int) : Opts × Option Err :=
  match sliceTokens o start stop step with
  | .error e => (o, some e)
  | .ok ks => ({ o with tokens := (delTokens o.tokens ks.reverse).1 }, (delTokens o.tokens ks.reverse).2)

/-- `positional.append(value)`, inherited from `MutableSequence`; options.py:65 -/
def posAppend (o : Opts) (v : Val) : Opts × Option Err :=
  match posInsert o (positionalIdx o).length v with
  | .error e => (o, some e)
  | .ok p => (p, none)

/-- `positional.extend(values)` for other values than the positional arguments themselves, inherited from
`MutableSequence`; options.py:65 -/
def posExtend (o : Opts) : List Val → Opts × Option Err
  | [] => (o, none)
  | v :: vs =>
    match posAppend o v with
    | (p, some e) => (p, some e)
    | (p, none) => posExtend p vs

/-- `positional.pop(i)`, inherited from `MutableSequence`: the value is read, then deleted; options.py:65 -/
def posPop [Uni] (o : Opts) (i : Int) : Opts × Except Err Val :=
  match posGet o i with
  | .error e => (o, .error e)
  | .ok v => match posDel o i with
    | .error e => (o, .error e)
    | .ok p => (p, .ok v)

/-- the loop of `positional.clear()`, inherited from `MutableSequence`: `pop` until it raises `IndexError`; the fuel is
one more than the number of tokens; options.py:65 -/
def posClearLoop [Uni] : Nat → Opts → Opts × Option Err
  | 0, o => (o, some .outOfFuel)
  | n + 1, o =>
    match posPop o (-1) with
    | (p, .error .indexError) => (p, none)
    | (p, .error e) => (p, some e)
    | (p, .ok _) => posClearLoop n p

/-- `positional.clear()`, inherited from `MutableSequence`; options.py:65 -/
def posClear [Uni] (o : Opts) : Opts × Option Err := posClearLoop (o.tokens.length + 1) o

/-- what can be assigned to `options.positional`: values, or the positional arguments of the same options;
options.py:454-458 -/
inductive Assigned where
  | values (vs : List Val)
  | own

/-- the setter of `Options.positional`, options.py:454-458. The positional arguments of the same options are a view: they
are read after the others have been cleared. -/
def posAssign [Uni] (o : Opts) (a : Assigned) : Opts × Option Err :=
  match posClear o with
  | (p, some e) => (p, some e)
  | (p, none) =>
    match a with
    | .values vs => posExtend p vs
    | .own => match readTokens p.tokens (positionalIdx p) with
      | .error e => (p, some e)
      | .ok vs => posExtend p vs

/-- `options.positional += values`: `__iadd__`, inherited from `MutableSequence`, extends the positional arguments and
returns them, and the result is assigned; options.py:449-458 -/
def posIadd [Uni] (o : Opts) (vs : List Val) : Opts × Option Err :=
  match posExtend o vs with
  | (p, some e) => (p, some e)
  | (p, none) => posAssign p .own

end Specfile.Options
