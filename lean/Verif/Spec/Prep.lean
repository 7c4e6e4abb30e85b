import Verif.Spec.Options
import Verif.Spec.Sections
import Verif.Model.Prep
/-
Vocabulary for statements about %prep.
-/
namespace Specfile.Spec
open Py

/-- The text `name`, followed by `rest`, is the name of a macro of the given kind; the number is part
of the name of `%patch`. -/
inductive PrepNameAt [Uni] : PrepKind → Str → Str → Prop
  | setup {rest} : PrepNameAt .setup (s% "%setup") rest
  | autosetup {rest} : PrepNameAt .autosetup (s% "%autosetup") rest
  | autopatch {rest} : PrepNameAt .autopatch (s% "%autopatch") rest
  | patch {ds rest} : (∀ c ∈ ds, Uni.isDecimal c = true) → (∀ c ∈ rest.head?, Uni.isDecimal c = false) →
      PrepNameAt .patch (s% "%patch" ++ ds) rest

/-- no macro name in the text -/
def NoPrepName [Uni] (l : Str) : Prop :=
  ∀ a name rest k, l = a ++ name ++ rest → ¬ PrepNameAt k name rest

/-- the first macro name in the text -/
structure FirstPrepName [Uni] (l : Str) (k : PrepKind) (before name rest : Str) : Prop where
  text : l = before ++ name ++ rest
  name : PrepNameAt k name rest
  first : ∀ a b k' name' rest', l = a ++ b → a.length < before.length → b = name' ++ rest' →
    ¬ PrepNameAt k' name' rest'

/-- The text has a macro of kind `k`: the first macro name is followed by whitespace `d` and options
`o`, or by nothing. -/
structure PrepMacroIn [Uni] (l : Str) (k : PrepKind) (before name d o : Str) : Prop where
  first : FirstPrepName l k before name (d ++ o)
  blank : ∀ c ∈ d, isSpace c = true
  options : ∀ c ∈ o.head?, isSpace c = false
  apart : d = [] → o = []

/-- The text has no macro: no name, or something else than whitespace follows the first one. -/
def NoPrepMacro [Uni] (l : Str) : Prop :=
  NoPrepName l ∨ ∃ k before name c rest, FirstPrepName l k before name (c :: rest) ∧ isSpace c = false

/-- The line is a conditional macro expansion, `pfx` being `%{?name:` and `sfx` the closing bracket, or
it is anything else and `pfx` and `sfx` are empty. -/
inductive Wrapped [Uni] (l : Str) : Str → Str → Str → Prop
  | cond {p n b} : ValueParser.parse l = .ok [.cond p n b] →
      Wrapped l (s% "%{" ++ p ++ n ++ [':']) (Node.strs b) ['}']
  | plain {ns} : ValueParser.parse l = .ok ns → (∀ p n b, ns ≠ [.cond p n b]) → Wrapped l [] l []
  | broken : ValueParser.parse l = .error .unterminatedMacro → Wrapped l [] l []

/-- put a line above everything -/
def putAbove (l : Str) (p : Prep) : Prep :=
  match p.data with
  | [] => ⟨[], l :: p.remainder⟩
  | m :: ms => ⟨{ m with preceding := l :: m.preceding } :: ms, p.remainder⟩

/-- What a %prep section consists of. -/
inductive ReadsPrep [Uni] : List Str → Prep → Prop
  | nil : ReadsPrep [] ⟨[], []⟩
  | other {l ls pfx body sfx p} : Wrapped l pfx body sfx → NoPrepMacro body → ReadsPrep ls p →
      ReadsPrep (l :: ls) (putAbove body p)
  | found {l ls pfx body sfx k before name d o ts p} : Wrapped l pfx body sfx →
      PrepMacroIn body k before name d o → Options.tokenize o = .ok ts → ReadsPrep ls p →
      ReadsPrep (l :: ls) ⟨⟨k, name, ⟨ts, Prep.optstring k, Prep.defaults k⟩, d, pfx ++ before, sfx, []⟩ ::
        p.data, p.remainder⟩

/-- what becomes of a line when a %prep section is written back -/
inductive WrittenAs [Uni] : Str → Str → Prop
  | other {l pfx body sfx} : Wrapped l pfx body sfx → NoPrepMacro body → WrittenAs l body
  | found {l pfx body sfx k before name d o ts} : Wrapped l pfx body sfx →
      PrepMacroIn body k before name d o → Options.tokenize o = .ok ts →
      WrittenAs l (pfx ++ before ++ name ++ d ++ Options.tokensStr ts ++ sfx)

/-- a line that is reproduced: a macro with canonically written options, or a line without a macro that
is not a conditional macro expansion -/
inductive KeptLine [Uni] (l : Str) : Prop
  | other : (∀ p n b, ValueParser.parse l ≠ .ok [.cond p n b]) → (∃ pfx body sfx, Wrapped l pfx body sfx) →
      NoPrepMacro l → KeptLine l
  | found {pfx body sfx k before name d o} : Wrapped l pfx body sfx → SingleSpacedRefs l →
      PrepMacroIn body k before name d o → CanonicalText o → KeptLine l

/-! ### options of the macros -/

/-- options without an argument -/
def prepFlags : PrepKind → List Char
  | .setup => ['c', 'D', 'T', 'q']
  | .autosetup => ['c', 'D', 'T', 'v', 'N']
  | .patch => ['R', 'E', 'Z']
  | .autopatch => ['v']

/-- options with an argument -/
def prepArgs : PrepKind → List Char
  | .setup => ['a', 'b', 'n']
  | .autosetup => ['a', 'b', 'n', 'S', 'p']
  | .patch => ['P', 'p', 'b', 'z', 'F', 'd', 'o']
  | .autopatch => ['p', 'm', 'M']

/-! ### numbers of `%patch` macros -/

/-- the text does not end in a digit -/
def NotNumbered [Uni] (name : Str) : Prop := ∀ c ∈ name.getLast?, Uni.isDecimal c = false

/-- the number of a `%patch` macro: in its name, given by `-P`, the first argument, or 0 -/
inductive HasNumber [Uni] (m : PrepMacro) : Int → Prop
  | name {a ds} : m.name = a ++ ds → NotNumbered a → ds ≠ [] → (∀ c ∈ ds, Uni.isDecimal c = true) →
      HasNumber m (decVal ds)
  | option {ps v n} : NotNumbered m.name → Reads m.options ps → given 'P' ps = some v → v ≠ [] →
      parseInt v = some n → HasNumber m n
  | bareOption {ps} : NotNumbered m.name → Reads m.options ps → given 'P' ps = some [] → HasNumber m 1
  | argument {ps v vs n} : NotNumbered m.name → Reads m.options ps → given 'P' ps = none →
      posWords ps = v :: vs → parseInt v = some n → HasNumber m n
  | default {ps} : NotNumbered m.name → Reads m.options ps → given 'P' ps = none → posWords ps = [] →
      HasNumber m 0

/-- a `%patch` macro as `parse` and `add_patch_macro` make them -/
structure IsPatch (m : PrepMacro) : Prop where
  kind : m.kind = .patch
  optstring : m.options.optstring = s% "P:p:REb:z:F:d:o:Z"
  defaults : m.options.defaults = []

/-! ### the options of a new macro -/

/-- what a keyword argument adds to the options: nothing for `None` and `False`, `-c` for `True`, `-c1` for
a number and `-c value` for a text -/
def kwPieces : Char × Option Options.Val → List Piece
  | (_, none) => []
  | (_, some (.bool false)) => []
  | (c, some (.bool true)) => [.flag ⟨.default, ['-', c]⟩]
  | (c, some (.int n)) => [.flag ⟨.default, '-' :: c :: intStr n⟩]
  | (c, some (.str s)) => [.withArg ⟨.default, ['-', c]⟩ (some ⟨.whitespace, [' ']⟩)
      ⟨if s.any Options.isAsciiWs then .doubleQuoted else .default, s⟩]

/-- the same as words -/
def kwWords : Char × Option Options.Val → List Str
  | (_, none) => []
  | (_, some (.bool false)) => []
  | (c, some (.bool true)) => [['-', c]]
  | (c, some (.int n)) => ['-' :: c :: intStr n]
  | (c, some (.str s)) => [['-', c], s]

/-- one blank between pieces -/
def spaced : List Piece → List Piece
  | [] => []
  | [p] => [p]
  | p :: q :: ps => p :: .space ⟨.whitespace, [' ']⟩ :: spaced (q :: ps)

/-- a text given for an option does not look like an option -/
def KwOK : Char × Option Options.Val → Prop
  | (_, some (.str s)) => s.head? ≠ some '-'
  | _ => True

/-- a text given for an option needs no quotes -/
def KwPlain : Char × Option Options.Val → Prop
  | (_, some (.str s)) => s.head? ≠ some '-' ∧ ∀ c ∈ s, isSpace c = false ∧ c ≠ '"' ∧ c ≠ '\''
  | (_, some (.int n)) => 0 ≤ n
  | _ => True

/-- the number as an argument -/
def numberPieces : Option Int → Bool → List Piece
  | some n, false => [.word ⟨.default, intStr n⟩]
  | _, _ => []

/-- the name of the macro -/
def patchName : Option Int → Bool → Str
  | some n, true => s% "%patch" ++ intStr n
  | _, _ => s% "%patch"

/-- the keyword arguments that are options of `%patch` -/
def patchArgs (kw : List (Char × Option Options.Val)) : List (Char × Option Options.Val) :=
  kw.filter (fun x => decide (x.1 ∈ prepFlags .patch ++ prepArgs .patch))

/-! ### lines of macros -/

/-- the lines of the macro at position `k` and of what is above and below it -/
structure LineAt (p : Prep) (k : Nat) (above : List Str) (line : Str) (below : List Str) : Prop where
  lines : Prep.raw p = above ++ line :: below
  macro_ : ∃ m, p.data[k]? = some m ∧ (Prep.macroRaw m).getLast? = some line ∧
    above.length = (Prep.raw ⟨p.data.take k, m.preceding⟩).length

/-- the lines of macros, without those of the macros at the positions `js`; `k` is the position of the head -/
def prepLinesWithout (js : List Nat) : Nat → List PrepMacro → List Str
  | _, [] => []
  | k, m :: ms => m.preceding ++ (if k ∈ js then [] else [Prep.line (Prep.settle m)]) ++
      prepLinesWithout js (k + 1) ms

/-- the macros at other positions than `js` -/
def macrosWithout (js : List Nat) (ms : List PrepMacro) : List PrepMacro :=
  ms.zipIdx.filterMap (fun x => if x.2 ∈ js then none else some x.1)

/-- numbers of `%patch` macros increase -/
def NumbersIncrease [Uni] (ms : List PrepMacro) : Prop :=
  ∀ (i j : Nat) a b n k, i < j → ms[i]? = some a → ms[j]? = some b → a.kind = .patch → b.kind = .patch →
    HasNumber a n → HasNumber b k → n < k

/-- numbers of `%patch` macros do not decrease -/
def NumbersOrdered [Uni] (ms : List PrepMacro) : Prop :=
  ∀ (i j : Nat) a b n k, i < j → ms[i]? = some a → ms[j]? = some b → a.kind = .patch → b.kind = .patch →
    HasNumber a n → HasNumber b k → n ≤ k

/-- a `%patch` macro has the members of its class, its name is on one line and its options can be read -/
structure GoodMacro [Uni] (m : PrepMacro) : Prop where
  line : '\n' ∉ m.name
  reads : ∃ ps, Reads m.options ps
  patch : m.kind = .patch → IsPatch m

/-- an option of `%patch` has a value of the right kind -/
def KwTyped : Char × Option Options.Val → Prop
  | (_, none) => True
  | (c, some (.bool _)) => c ∉ prepArgs .patch
  | (c, some _) => c ∉ prepFlags .patch

/-- a macro without the lines above it -/
def withoutLines (m : PrepMacro) : PrepMacro := { m with preceding := [] }

end Specfile.Spec
