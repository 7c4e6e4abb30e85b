import Verif.Spec.Brackets
import Verif.Model.MacroDefinitions
/-
Macro definitions whose fields are what a reader of the written text would find.
-/
namespace Specfile.Spec
open Py

/-- the written lines of a definition, without the lines above it -/
def definitionLines (d : MacroDefinition) : List Str := d.raw.drop d.preceding.length

/-- the lines left when the definitions whose index is in `is` are removed; `i` is the first index -/
def linesWithout (is : List Nat) : Nat → List MacroDefinition → List Str
  | _, [] => []
  | i, d :: ds => d.preceding ++ (if i ∈ is then [] else definitionLines d) ++ linesWithout is (i + 1) ds

/-- the lines above the definition with index `k` -/
def linesAbove (m : MacroDefinitions) (k : Nat) : List Str := linesWithout [] 0 (m.data.take k)

/-- line `i` of the spec file belongs to a definition (and is not one of the lines above it) -/
def OwnLine (m : MacroDefinitions) (i : Nat) : Prop :=
  ∃ (k : Nat) (d : MacroDefinition), m.data[k]? = some d ∧
    (linesAbove m k).length + d.preceding.length ≤ i ∧
    i < (linesAbove m k).length + d.preceding.length + (definitionLines d).length

/-- no two definitions are equal, whether they are valid or not -/
def Distinct (m : MacroDefinitions) : Prop :=
  ∀ (j k : Nat) (x y : MacroDefinition), j < k → m.data[j]? = some x → m.data[k]? = some y →
    { x with valid := y.valid } ≠ y

/-- The spec files differ in the text of definitions only, not in its number of lines. -/
inductive SameLayout : List MacroDefinition → List MacroDefinition → Prop
  | done : SameLayout [] []
  | more {d d' ds ds'} : d.preceding = d'.preceding →
      (definitionLines d).length = (definitionLines d').length → SameLayout ds ds' →
      SameLayout (d :: ds) (d' :: ds')

/-- The definition has no newline before its body and none in the whitespace after it. -/
def OneLineHead (d : MacroDefinition) : Prop :=
  '\n' ∉ d.ws0 ∧ '\n' ∉ d.pfx ∧ '\n' ∉ d.ws1 ∧ '\n' ∉ d.name ∧ '\n' ∉ d.ws2 ∧ '\n' ∉ d.ws3

/-- a macro name: word characters, optionally followed by arguments in parentheses -/
def MacroName [Uni] (name : Str) : Prop :=
  ∃ w a, name = w ++ a ∧ w ≠ [] ∧ (∀ c ∈ w, isWord c = true) ∧
    (a = [] ∨ ∃ x, a = '(' :: (x ++ [')']) ∧ '\n' ∉ x ∧ ')' ∉ x)

/-- non-empty whitespace -/
def Blank (w : Str) : Prop := w ≠ [] ∧ ∀ c ∈ w, isSpace c = true

/-- The text continues on the next line: a macro bracket is open, or it ends with a backslash. -/
def Unfinished (t : Str) : Prop :=
  (∃ n, LeavesOpen '{' '}' (n + 1) t) ∨ (∃ n, LeavesOpen '(' ')' (n + 1) t) ∨
    t.getLast? = some '\\'

/-- how the definition is introduced -/
inductive Intro : MacroDefinition → Prop
  /-- `%global` -/
  | plain {d} : d.commentedOut = false → d.style = .dnl → d.pfx = [] → Intro d
  /-- `# … %global`: RPM expands macros in comments, so this is not commented out -/
  | inComment {d q} : d.commentedOut = false → d.style = .dnl → d.pfx = '#' :: q → '\n' ∉ q →
      '%' ∉ q → Intro d
  /-- `# … %%global` -/
  | escaped {d q} : d.commentedOut = true → d.style = .other → d.pfx = '#' :: (q ++ ['%']) →
      '\n' ∉ q → '%' ∉ q → Intro d
  /-- `#global` -/
  | hash {d} : d.commentedOut = true → d.style = .hash → d.pfx = [] →
      ¬ s% "%global" <:+: d.name ++ d.ws2 ++ d.body → ¬ s% "%define" <:+: d.name ++ d.ws2 ++ d.body →
      Intro d
  /-- `%dnl … %global` -/
  | dnl {d} : d.commentedOut = true → d.style = .dnl → '\n' ∉ d.pfx → '%' ∉ d.pfx → Intro d

/-- The fields of a definition describe its text: no field absorbs text that belongs to another. -/
structure Readable [Uni] (d : MacroDefinition) : Prop where
  intro : Intro d
  ws0 : ∀ c ∈ d.ws0, isSpace c = true
  ws1 : Blank d.ws1
  name : MacroName d.name
  ws2 : Blank d.ws2
  /-- the body starts right after the whitespace -/
  start : ∀ c ∈ (d.body ++ d.ws3).head?, isSpace c = false
  /-- the body does not end in whitespace -/
  stop : ∀ c ∈ d.body.getLast?, isSpace c = false
  ws3 : ∀ c ∈ d.ws3, isSpace c = true ∧ c ≠ '\n'
  /-- a commented-out definition has one line and does not end with a backslash -/
  single : d.commentedOut = true → '\n' ∉ d.body ∧ d.body.getLast? ≠ some '\\'
  /-- any other body is complete, -/
  finished : d.commentedOut = false → ¬ Unfinished d.body
  /-- but incomplete at the end of each of its lines but the last -/
  unfinished : ∀ x y, d.body = x ++ '\n' :: y → Unfinished x
  /-- its first line does not end in whitespace -/
  firstLine : ∀ x y, d.body = x ++ '\n' :: y → '\n' ∉ x → ∀ c ∈ x.getLast?, isSpace c = false
  valid : d.valid = true
  /-- the lines above are not definitions -/
  preceding : ∀ l ∈ d.preceding, ¬ s% "global" <:+: l ∧ ¬ s% "define" <:+: l

end Specfile.Spec
