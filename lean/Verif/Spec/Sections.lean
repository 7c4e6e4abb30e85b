import Verif.Spec.Options
import Verif.Spec.Tags
import Verif.Model.Sections
/-
Vocabulary for statements about sections.
-/
namespace Specfile.Spec
open Py

/-- text without whitespace -/
def Word (w : Str) : Prop := ∀ c ∈ w, isSpace c = false

/-- A line that starts a section: `%`, the name of a section in any case, and either nothing more or
whitespace and options; a line that ends in a backslash does not count. -/
def HeaderLine [Uni] (l : Str) : Prop :=
  ∃ n ∈ Constants.sectionNames, ∃ w r, l = '%' :: (w ++ r) ∧ SameLetters n w ∧
    (r = [] ∨ (∃ c ∈ r.head?, isSpace c = true) ∧ r.getLast? ≠ some '\\')

/-- the line with this index belongs to the body of a macro definition (see C13, C54) -/
def InDefinition [Uni] (lines : List Str) (i : Nat) : Prop :=
  Conditions.isExcluded (MacroDefinitions.parseLines lines).excluded i = true

/-- The parts of a header line: name, options with the whitespace before them, and a last word that
belongs to the content of the section, with the whitespace before it. -/
structure HeaderParts where
  name : Str
  options : Option (Str × Str)
  moved : Option (Str × Str)
  deriving DecidableEq

def pairText : Option (Str × Str) → Str
  | none => []
  | some (a, b) => a ++ b

/-- `m` expands to text that starts with a newline -/
def ExpandsToNewline (ex : Str → Except Err Str) (m : Str) : Prop := ∃ y, ex m = .ok ('\n' :: y)

/-- `m` expands to something else, or RPM reports an error -/
def ExpandsInline (ex : Str → Except Err Str) (m : Str) : Prop :=
  ex m = .error .rpmException ∨ ∃ y, ex m = .ok y ∧ y.head? ≠ some '\n'

/-- the line consists of these parts -/
structure HeaderText (ex : Str → Except Err Str) (l : Str) (p : HeaderParts) : Prop where
  text : l = '%' :: (p.name ++ pairText p.options ++ pairText p.moved)
  name : Word p.name
  options : ∀ d o, p.options = some (d, o) → d ≠ [] ∧ Spaces d ∧ ∀ c ∈ o.head?, isSpace c = false
  /-- a last word with a macro that expands to text on a new line belongs to the content -/
  moved : ∀ s m, p.moved = some (s, m) → s ≠ [] ∧ Spaces s ∧ Word m ∧ m.head? = some '%' ∧
    ExpandsToNewline ex m ∧ ∀ d o, p.options = some (d, o) → ∃ c ∈ o.getLast?, isSpace c = false
  kept : p.moved = none → ∀ a s m, l = a ++ s ++ m → s ≠ [] → Spaces s → Word m →
    m.head? = some '%' → ExpandsInline ex m

/-- the options that a section accepts -/
def acceptedOptions (name : Str) : Str :=
  if name ∈ Constants.scriptSections then s% "n:f:p:P:eq"
  else if name = s% "description" then s% "n:l:"
  else if name = s% "files" then s% "n:f:"
  else if name = s% "package" ∨ name = s% "sepolicy" then s% "n:"
  else []

/-- the section with this header and these lines -/
structure SectionFor [Uni] (p : HeaderParts) (data : List Str) (s : Section) : Prop where
  known : Uni.lower p.name ∈ Constants.sectionNames
  name : s.name = p.name
  optstring : s.options.optstring = acceptedOptions (Uni.lower p.name)
  defaults : s.options.defaults = []
  tokens : match p.options with
    | none => s.options.tokens = [] ∧ s.delimiter = []
    | some (d, o) => Options.tokenize o = .ok s.options.tokens ∧ s.delimiter = d
  content : match p.moved with
    | none => s.separator = ['\n'] ∧ s.data = data
    | some (w, m) => s.separator = w ∧ s.data = m :: data

/-- `SectionsOf ex inDef i lines data ss`: the lines, the first of which has index `i`, start with the
lines `data` that belong to the previous section, the sections `ss` follow. -/
inductive SectionsOf [Uni] (ex : Nat → Str → Except Err Str) (inDef : Nat → Prop) :
    Nat → List Str → List Str → List Section → Prop
  | nil {i} : SectionsOf ex inDef i [] [] []
  | line {i l ls data ss} : (inDef i ∨ ¬ HeaderLine l) → SectionsOf ex inDef (i + 1) ls data ss →
      SectionsOf ex inDef i (l :: ls) (l :: data) ss
  | header {i l ls data ss p s} : ¬ inDef i → HeaderLine l → HeaderText (ex i) l p →
      SectionFor p data s → SectionsOf ex inDef (i + 1) ls data ss →
      SectionsOf ex inDef i (l :: ls) [] (s :: ss)

/-- options that are printed as they were written (see C10) -/
def CanonicalText [Uni] (o : Str) : Prop :=
  SingleSpacedRefs o ∧ ∃ ns, ValueParser.parse o = .ok ns ∧ Canonical (Options.items ns)

/-- a header that is reproduced: its options are written canonically, and it is not `%package` without
options -/
structure CleanHeader [Uni] (p : HeaderParts) : Prop where
  options : ∀ d o, p.options = some (d, o) → CanonicalText o
  notPackage : p.options = none → Uni.lower p.name ≠ s% "package"

/-- no characters that `splitlines` would split at -/
def OneLine (l : Str) : Prop := ∀ c ∈ l, isLineBreak c = false

/-- lines, each with a newline -/
def unlines (ls : List Str) : Str := (ls.map (fun l => l ++ ['\n'])).flatten

/-! ### edits -/

/-- the header of a section as written, without the separator -/
def headerOf (s : Section) : Str :=
  '%' :: (s.name ++ s.delimiter ++ Options.tokensStr s.options.tokens)

/-- A section that is written the way it will be read. -/
structure GoodSection [Uni] (s : Section) : Prop where
  name : ∃ n ∈ Constants.sectionNames, SameLetters n s.name
  known : Uni.lower s.name ∈ Constants.sectionNames
  optstring : s.options.optstring = acceptedOptions (Uni.lower s.name)
  defaults : s.options.defaults = []
  /-- options are separated from the name -/
  options : (s.options.tokens = [] ∧ s.delimiter = []) ∨ (s.delimiter ≠ [] ∧ Spaces s.delimiter ∧
    GoodTokens s.options.tokens ∧ ∀ t ∈ s.options.tokens.head?, t.type ≠ .whitespace)
  separator : s.separator = ['\n']
  oneLine : OneLine (headerOf s)
  notPackage : s.delimiter = [] → Uni.lower s.name ≠ s% "package"
  data : ∀ l ∈ s.data, OneLine l ∧ ¬ HeaderLine l

/-- the lines before the first section, as a section -/
def preambleOf (data : List Str) : Section := ⟨s% "package", ⟨[], s% "n:", []⟩, [], ['\n'], data⟩

/-- The preamble followed by sections that are written the way they will be read. -/
def GoodSections [Uni] (ss : List Section) : Prop :=
  ∃ data rest, ss = preambleOf data :: rest ∧ (∀ l ∈ data, OneLine l ∧ ¬ HeaderLine l) ∧
    ∀ s ∈ rest, GoodSection s

/-- the lines of a section -/
def sectionLines (s : Section) : List Str := headerOf s :: s.data

/-- no header is inside of the body of a macro definition -/
def HeadersOutside [Uni] (lines : List Str) : Prop :=
  ∀ (i : Nat) l, lines[i]? = some l → HeaderLine l → ¬ InDefinition lines i

end Specfile.Spec
