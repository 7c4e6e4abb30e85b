import Verif.Model.Options
import Verif.Model.Utils
import Verif.Py.Int
import Verif.Py.Num
/-
Model of /repo/specfile/prep.py.
-/
namespace Specfile
open Py Regex

/-- the subclasses of `PrepMacro` in the order of their definition, prep.py:95-153 -/
inductive PrepKind where
  | setup | patch | autosetup | autopatch
  deriving DecidableEq, Repr

/-- `PrepMacro`, prep.py:21-61. The class is a field; copies made by the constructor are not
modelled, all members are values. -/
structure PrepMacro where
  kind : PrepKind
  name : Str
  options : Options.Opts
  delimiter : Str
  pfx : Str
  sfx : Str
  preceding : List Str
  deriving DecidableEq, Repr

/-- `PrepMacros`, prep.py:156-179. `Prep` (prep.py:257-266) has it as its only member, so it is
not modelled separately. -/
structure Prep where
  data : List PrepMacro
  remainder : List Str
  deriving DecidableEq, Repr

namespace Prep
open Options (Opts Val)

/-- `CANONICAL_NAME`, prep.py:98, 108, 140, 151 -/
def canonicalName : PrepKind → Str
  | .setup => s% "%setup"
  | .patch => s% "%patch"
  | .autosetup => s% "%autosetup"
  | .autopatch => s% "%autopatch"

/-- `OPTSTRING`, prep.py:99, 109, 141, 152 -/
def optstring : PrepKind → Str
  | .setup => s% "a:b:cDn:Tq"
  | .patch => s% "P:p:REb:z:F:d:o:Z"
  | .autosetup => s% "a:b:cDn:TvNS:p:"
  | .autopatch => s% "vp:m:M:"

/-- `DEFAULTS`, prep.py:100-102, 110, 142-145, 153 -/
def defaults : PrepKind → List (Char × Val)
  | .setup => [('n', .str (s% "%{name}-%{version}"))]
  | .patch => []
  | .autosetup => [('n', .str (s% "%{name}-%{version}")), ('S', .str (s% "patch"))]
  | .autopatch => []

/-- `PrepMacro.__subclasses__()`: order of definition; prep.py:387 -/
def kinds : List PrepKind := [.setup, .patch, .autosetup, .autopatch]

/-! ### printing -/

/-- the effect of `PrepMacro.get_raw_data` on the macro, prep.py:86-89 -/
def settle (m : PrepMacro) : PrepMacro :=
  if !(Options.tokensStr m.options.tokens).isEmpty && m.delimiter.isEmpty then
    { m with delimiter := [' '] }
  else m

/-- the line of a macro, prep.py:91 -/
def line (m : PrepMacro) : Str :=
  m.pfx ++ m.name ++ m.delimiter ++ Options.tokensStr m.options.tokens ++ m.sfx

/-- `PrepMacro.get_raw_data`, prep.py:85-92 -/
def macroRaw (m : PrepMacro) : List Str := m.preceding ++ [line (settle m)]

/-- `get_raw_data` and `get_raw_section_data`, prep.py:249-254, 406-413 -/
def raw (p : Prep) : List Str := (p.data.map macroRaw).flatten ++ p.remainder

/-- the effect of `get_raw_data` on the macros, prep.py:249-254 -/
def settleAll (p : Prep) : Prep := { p with data := p.data.map settle }

/-! ### number of a `%patch` macro -/

/-- `re.split(r"(\d+)$", name, maxsplit=1)`, prep.py:115, 126: text before and digits -/
def splitNumber [Uni] (name : Str) : Option (Str × Str) :=
  match search (.grp 1 (plus Uni.isDecimal) ⬝ .eos : Re Nat) name with
  | none => none
  | some f => some (f.before, (f.st.get 1).getD [])

/-- `int(value)` for an option value; the limit on the number of digits is not modelled;
prep.py:119 and 121 -/
def intOf [Uni] : Val → Except Err Int
  | .bool b => .ok (if b then 1 else 0)
  | .int n => .ok n
  | .str s => match parseInt s with
    | some n => .ok n
    | none => .error .valueError

/-- `number`, prep.py:112-122 -/
def number [Uni] (m : PrepMacro) : Except Err Int :=
  match splitNumber m.name with
  | some (_, d) => .ok (decVal d)
  | none =>
    match Options.get m.options 'P' with
    | .error e => .error e
    | .ok (some v) => intOf v
    | .ok none =>
      if (Options.positionalIdx m.options).isEmpty then .ok 0
      else match Options.posGet m.options 0 with
        | .error e => .error e
        | .ok v => intOf v

/-- the setter of `number`, prep.py:124-134 -/
def setNumber [Uni] (m : PrepMacro) (value : Int) : Except Err PrepMacro :=
  match splitNumber m.name with
  | some (a, _) => .ok { m with name := a ++ intStr value }
  | none =>
    match Options.get m.options 'P' with
    | .error e => .error e
    | .ok (some _) =>
      (Options.set m.options 'P' (some (.int value))).map (fun o => { m with options := o })
    | .ok none =>
      if (Options.positionalIdx m.options).isEmpty then
        .ok { m with name := canonicalName .patch ++ intStr value }
      else
        (Options.posSet m.options 0 (.int value)).map (fun o => { m with options := o })

/-! ### the list of macros -/

/-- `valid_prep_macro`, prep.py:17-18 -/
def validName (name : Str) : Bool :=
  [s% "setup", s% "autosetup", s% "autopatch"].contains name || startsWith name (s% "patch")

/-- `__contains__` with a class, prep.py:186-187 -/
def containsKind (p : Prep) (k : PrepKind) : Bool := p.data.any (fun m => m.kind == k)

/-- `__contains__` with a string, prep.py:188-191 -/
def containsName (p : Prep) (item : Str) : Bool :=
  p.data.any (fun m => if item == s% "%patch" then startsWith m.name item else m.name == item)

/-- `find`, prep.py:243-247; `none` is a `ValueError` -/
def find (p : Prep) (name : Str) : Option Nat := p.data.findIdx? (fun m => m.name == name)

/-- `__getattr__` for a valid name, prep.py:224-230 -/
def getAttr (p : Prep) (name : Str) : Except Err PrepMacro :=
  match p.find ('%' :: name) with
  | none => .error .attributeError
  | some i => match p.data[i]? with
    | none => .error .indexError
    | some m => .ok m

/-- outcome of a mutating operation: the state it leaves behind and the exception, if any;
prep.py:207-238 and 290-351 -/
abbrev Res := Prep × Option Err

/-- put lines in front of a macro, prep.py:212-214 -/
def prepend (ls : List Str) (m : PrepMacro) : PrepMacro := { m with preceding := ls ++ m.preceding }

/-- `delete` in `__delitem__`, prep.py:208-216 -/
def delItem (p : Prep) (i : Int) : Res :=
  match pyIndex p.data.length i with
  | none => (p, some .indexError)
  | some k =>
    let lines := ((p.data[k]?).map (·.preceding)).getD []
    let data := p.data.eraseIdx k
    if i < data.length then
      match pyIndex data.length i with
      | none => ({ p with data := data }, some .indexError)
      | some j => ({ p with data := data.modify j (prepend lines) }, none)
    else (⟨data, lines ++ p.remainder⟩, none)

/-- the loop over the indices of a slice, prep.py:219-220 -/
def delAll (p : Prep) : List Nat → Res
  | [] => (p, none)
  | i :: l =>
    match delItem p i with
    | (p', some e) => (p', some e)
    | (p', none) => delAll p' l

/-- `__delitem__` with a slice, prep.py:218-220 -/
def delSlice (p : Prep) (start stop step : Option Int) : Res :=
  match sliceIndices p.data.length start stop step with
  | .error e => (p, some e)
  | .ok l => delAll p l.reverse

/-- `__delattr__` for a valid name, prep.py:232-238 -/
def delAttr (p : Prep) (name : Str) : Res :=
  match p.find ('%' :: name) with
  | none => (p, some .attributeError)
  | some i => delItem p i

/-- `list.insert`, prep.py:333 -/
def insert (p : Prep) (i : Int) (m : PrepMacro) : Prep :=
  { p with data := p.data.insertIdx (insertPos p.data.length i) m }

/-! ### adding and removing `%patch` macros -/

/-- the loop over the keyword arguments, prep.py:320-321. Names are single characters; a name that
is not an option only sets an attribute of the object. -/
def setOptions (o : Opts) : List (Char × Option Val) → Except Err Opts
  | [] => .ok o
  | (k, v) :: l =>
    if Options.valid o.optstring k then
      match Options.set o k v with
      | .error e => .error e
      | .ok o' => setOptions o' l
    else setOptions o l

/-- the macro to be added, prep.py:313-322 -/
def newPatch (number : Option Int) (oldStyle : Bool) (kwargs : List (Char × Option Val)) :
    Except Err PrepMacro :=
  let o : Opts := ⟨[], optstring .patch, defaults .patch⟩
  let name := match number with
    | some n => if oldStyle then canonicalName .patch ++ intStr n else canonicalName .patch
    | none => canonicalName .patch
  let o' : Except Err Opts := match number with
    | some n =>
      if oldStyle then .ok o
      else Options.posInsert o (Options.positionalIdx o).length (.int n)
    | none => .ok o
  match o' with
  | .error e => .error e
  | .ok o =>
    match setOptions o kwargs with
    | .error e => .error e
    | .ok o => .ok ⟨.patch, name, o, [' '], [], [], []⟩

/-- positions and numbers of the `%patch` macros; `k` is the position of the head. The numbers
are read one after another; reading fails at the first macro without a number.
See prep.py:323-325. -/
def patchNumbers [Uni] : Nat → List PrepMacro → Except Err (List (Nat × Int))
  | _, [] => .ok []
  | k, m :: ms =>
    if m.kind = .patch then
      match number m with
      | .error e => .error e
      | .ok n => match patchNumbers (k + 1) ms with
        | .error e => .error e
        | .ok r => .ok ((k, n) :: r)
    else patchNumbers (k + 1) ms

/-- `min(…, key=lambda im: abs(im[1].number - macro.number))`: the first of the nearest;
prep.py:323-327 -/
def nearest (n : Int) : List (Nat × Int) → Option (Nat × Int)
  | [] => none
  | x :: xs =>
    match nearest n xs with
    | none => some x
    | some y => if (y.2 - n).natAbs < (x.2 - n).natAbs then some y else some x

/-- the position of a new macro with number `n`, prep.py:323-332 -/
def newIndex (count : Nat) (n : Int) (nums : List (Nat × Int)) : Nat :=
  match nearest n nums with
  | none => count
  | some (i, k) => if k ≤ n then i + 1 else i

/-- `add_patch_macro`, prep.py:290-333. The number of the new macro is read only if there is another
`%patch` macro. Simplified: `min` reads the number of one macro and then that of the new one, macro by macro; here all
macros come first, so that another exception may be raised if the numbers of two of them cannot be read. -/
def addPatchMacro [Uni] (p : Prep) (num : Option Int) (oldStyle : Bool)
    (kwargs : List (Char × Option Val)) : Res :=
  match newPatch num oldStyle kwargs with
  | .error e => (p, some e)
  | .ok m =>
    match patchNumbers 0 p.data with
    | .error e => (p, some e)
    | .ok [] => (insert p p.data.length m, none)
    | .ok nums =>
      match number m with
      | .error e => (p, some e)
      | .ok n => (insert p (newIndex p.data.length n nums) m, none)

/-- the position of the first `%patch` macro with the given number, prep.py:342-349 -/
def findNumber [Uni] (n : Int) : Nat → List PrepMacro → Except Err (Option Nat)
  | _, [] => .ok none
  | k, m :: ms =>
    if m.kind = .patch then
      match number m with
      | .error e => .error e
      | .ok n' => if n' = n then .ok (some k) else findNumber n (k + 1) ms
    else findNumber n (k + 1) ms

/-- `remove_patch_macro`, prep.py:335-351. `if index:` does not hold for index 0. -/
def removePatchMacro [Uni] (p : Prep) (n : Int) : Res :=
  match findNumber n 0 p.data with
  | .error e => (p, some e)
  | .ok none => (p, none)
  | .ok (some 0) => (p, none)
  | .ok (some k) => delItem p k

/-! ### parsing -/

/-- the expression of `parse`, prep.py:364-366; groups: 1 `m`, 2 `d`, 3 `o` -/
def macroRe [Uni] : Re Nat :=
  .grp 1 (ch '%' ⬝ (lit (s% "setup") ∣∣ (lit (s% "patch") ⬝ star Uni.isDecimal) ∣∣
    lit (s% "autopatch") ∣∣ lit (s% "autosetup"))) ⬝
  .grp 2 (star isSpace) ⬝ .grp 3 (starL dot) ⬝ .eos

/-- prep.py:384-391 -/
def kindOf (name : Str) : Option PrepKind := kinds.find? (fun k => startsWith name (canonicalName k))

/-- The macro on a line, prep.py:371-400: `none` if the line goes to the buffer. The line comes
without the conditional macro expansion around it (`split`). -/
def lineMacro [Uni] (split : Utils.Split) (buffer : List Str) : Except Err (Option PrepMacro) :=
  match search macroRe split.body with
  | none => .ok none
  | some f =>
    let name := (f.st.get 1).getD []
    let d := (f.st.get 2).getD []
    let o := (f.st.get 3).getD []
    if d.isEmpty && !o.isEmpty then .ok none
    else match kindOf name with
      | none => .ok none
      | some k =>
        match Options.tokenize o with
        | .error e => .error e
        | .ok ts => .ok (some ⟨k, name, ⟨ts, optstring k, defaults k⟩, d, split.pfx ++ f.before,
            f.st.rest ++ split.sfx, buffer⟩)

/-- the loop of `parse`, prep.py:369-404 -/
def parseLoop [Uni] (buffer : List Str) : List Str → Except Err Prep
  | [] => .ok ⟨[], buffer⟩
  | l :: ls =>
    match Utils.splitConditional l with
    | .error e => .error e
    | .ok split =>
      match lineMacro split buffer with
      | .error e => .error e
      | .ok none => parseLoop (buffer ++ [split.body]) ls
      | .ok (some m) =>
        match parseLoop [] ls with
        | .error e => .error e
        | .ok r => .ok { r with data := m :: r.data }

/-- `parse`, prep.py:353-404 -/
def parse [Uni] (lines : List Str) : Except Err Prep := parseLoop [] lines

end Prep
end Specfile
