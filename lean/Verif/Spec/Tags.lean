import Verif.Spec.Brackets
import Verif.Spec.Value
import Verif.Model.Tags
/-
Vocabulary for statements about comments and tags.
-/
namespace Specfile.Spec
open Py

/-- whitespace only -/
def Spaces (w : Str) : Prop := ∀ c ∈ w, isSpace c = true

/-- a comment line: a hash sign, possibly after whitespace -/
def CommentLine (l : Str) : Prop := ∃ w t, l = w ++ '#' :: t ∧ Spaces w

/-- the prefix of a comment is a hash sign with the whitespace around it, its text starts with something else -/
def CommentParts (c : Comment) : Prop :=
  (∃ a b, c.pfx = a ++ '#' :: b ∧ Spaces a ∧ Spaces b) ∧ ∀ x ∈ c.text.head?, isSpace x = false

/-- the same letters, regardless of case -/
def SameLetters [Uni] : Str → Str → Prop
  | [], [] => True
  | p :: ps, c :: cs => Uni.ieq p c = true ∧ SameLetters ps cs
  | _, _ => False

/-- an optional argument of a tag name: `(post)` and the like -/
def Argument (e : Str) : Prop :=
  e = [] ∨ ∃ a b x c, e = a ++ '(' :: (b ++ x ++ c ++ [')']) ∧ Spaces a ∧ Spaces b ∧ Spaces c ∧
    ∀ y ∈ x, isSpace y = false ∧ y ≠ ')'

/-- what may follow the tag name `t` -/
def NameExtension [Uni] (t e : Str) : Prop :=
  if t ∈ Constants.tagsWithArg then Argument e
  else if t = s% "source" ∨ t = s% "patch" then ∀ c ∈ e, Uni.isDecimal c = true
  else e = []

/-- a name of a tag: a known name in any case, `Source` and `Patch` optionally with a number, some
others optionally with an argument -/
def TagName [Uni] (name : Str) : Prop :=
  ∃ t ∈ Constants.tagNames, ∃ w e, name = w ++ e ∧ SameLetters t w ∧ NameExtension t e

/-- a colon, possibly surrounded by whitespace -/
def Separator (s : Str) : Prop := ∃ a b, s = a ++ ':' :: b ∧ Spaces a ∧ Spaces b

/-- the text is a tag: name, colon, value -/
def TagLine [Uni] (l : Str) : Prop :=
  ∃ n s v, l = n ++ s ++ v ∧ TagName n ∧ Separator s ∧ v ≠ []

/-- a macro bracket is open at the end of the text -/
def OpenBracket (t : Str) : Prop :=
  (∃ n, LeavesOpen '{' '}' (n + 1) t) ∨ (∃ n, LeavesOpen '(' ')' (n + 1) t)

/-- the text ends in whitespace other than a newline -/
def EndsInBlank (t : Str) : Prop := ∃ c ∈ t.getLast?, isSpace c = true ∧ c ≠ '\n'

/-- Lines of a section without the constructs that are not reproduced. -/
structure CleanTagLines (lines : List Str) : Prop where
  /-- a line contains no newline -/
  noNl : ∀ l ∈ lines, '\n' ∉ l
  /-- arguments in macro references are separated by single spaces -/
  singleSpaced : ∀ l ∈ lines, SingleSpacedRefs l
  /-- while a bracket is open, a line that ends in whitespace is not followed by one that does not -/
  noStale : ∀ pre b mid z post, lines = pre ++ b :: (mid ++ z :: post) → ':' ∈ b →
    OpenBracket (joinC '\n' (b :: mid)) → EndsInBlank (joinC '\n' (b :: mid)) → EndsInBlank z

/-- whitespace without newlines -/
def InlineSpaces (w : Str) : Prop := ∀ c ∈ w, isSpace c = true ∧ c ≠ '\n'

/-- `text` is either a conditional expansion `%{?x:body}` with `pfx` = `%{?x:` and `sfx` = `}`, or not a
conditional expansion, in which case `pfx` and `sfx` are empty (see C46) -/
def Unwraps [Uni] (text pfx body sfx : Str) : Prop :=
  Utils.splitConditional text = .ok ⟨body, pfx, sfx⟩ ∧ pfx ++ body ++ sfx = text

/-- the comments of a tag are the maximal run of comment lines directly above it -/
def CommentsOf (above : List Str) (c : Comments) : Prop :=
  above = c.preceding ++ c.data.map (·.str) ∧ (∀ x ∈ c.data, CommentParts x) ∧
    ∀ l ∈ c.preceding.getLast?, ¬ CommentLine l

/-- the lines of a tag, without the lines above it -/
def tagLines (t : Tag) : List Str := splitC '\n' (t.pfx ++ t.name ++ t.sep ++ t.value ++ t.sfx)

/-- name, separator and value are what a reader would take them for -/
structure TagFields [Uni] (t : Tag) : Prop where
  name : TagName t.name
  sep : Separator t.sep
  oneLine : '\n' ∉ t.name ++ t.sep
  value : t.value ≠ []
  start : ∀ c ∈ t.value.head?, isSpace c = false

/-- a tag that is not wrapped in a conditional expansion; its value may span lines -/
structure PlainTag [Uni] (t : Tag) : Prop extends TagFields t where
  pfx : t.pfx = []
  sfx : InlineSpaces t.sfx
  stop : ¬ EndsInBlank t.value
  /-- a macro bracket is open at the end of each line but the last -/
  lines : ∀ x y, t.value = x ++ '\n' :: y → OpenBracket x
  /-- the first line is no conditional expansion, and contains no reference to a macro without a name -/
  first : ∃ text w, (tagLines t).head? = some (text ++ w) ∧ InlineSpaces w ∧ ¬ EndsInBlank text ∧
    Unwraps text [] text []

/-- a tag in a conditional expansion, `%{?x:Name: value}` -/
structure WrappedTag [Uni] (t : Tag) : Prop extends TagFields t where
  oneLineValue : '\n' ∉ t.pfx ++ t.value
  wrapped : ∃ w, t.sfx = '}' :: w ∧ InlineSpaces w ∧
    Unwraps (t.pfx ++ (t.name ++ t.sep ++ t.value) ++ ['}']) t.pfx (t.name ++ t.sep ++ t.value) ['}']

/-- `ReadTags above lines tags`: what `lines`, which follow the lines `above`, none of which is a tag,
mean. The flag of a line tells whether it is valid. -/
inductive ReadTags [Uni] : List Str → List (Str × Bool) → Tags → Prop
  | done {above} : ReadTags above [] ⟨[], above⟩
  /-- a line that is no tag -/
  | other {above text w flag ls tags p b s} : InlineSpaces w → ¬ EndsInBlank text →
      Unwraps text p b s → ¬ TagLine b → ReadTags (above ++ [text ++ w]) ls tags →
      ReadTags above ((text ++ w, flag) :: ls) tags
  /-- a tag ends with the first line at the end of which no macro bracket is open -/
  | plain {above t first more rest tags} : PlainTag t → CommentsOf above t.comments →
      tagLines t = first :: more.map (·.1) → rest = [] ∨ ¬ OpenBracket t.value → ReadTags [] rest tags →
      ReadTags above ((first, t.valid) :: (more ++ rest)) ⟨t :: tags.data, tags.remainder⟩
  | wrapped {above t rest tags} : WrappedTag t → CommentsOf above t.comments →
      ReadTags [] rest tags →
      ReadTags above ((t.pfx ++ t.name ++ t.sep ++ t.value ++ t.sfx, t.valid) :: rest)
        ⟨t :: tags.data, tags.remainder⟩

/-- no line ends like `%{?x:Name: }`, a tag without a value in a conditional expansion -/
def NoBlankValue (lines : List Str) : Prop :=
  ∀ l ∈ lines, ∀ a w w', l = a ++ ':' :: (w ++ '}' :: w') → Spaces w → Spaces w' → w = []

/-- a line that is no tag -/
def OtherLine [Uni] (l : Str) : Prop := ∃ text w p b s, l = text ++ w ∧ InlineSpaces w ∧ ¬ EndsInBlank text ∧
  Unwraps text p b s ∧ ¬ TagLine b

/-- Tags whose fields describe their text. -/
structure ReadableTags [Uni] (m : Tags) : Prop where
  tag : ∀ t ∈ m.data, PlainTag t ∨ WrappedTag t
  above : ∀ t ∈ m.data, ∀ l ∈ t.comments.preceding ++ t.comments.data.map (·.str), OtherLine l
  comments : ∀ t ∈ m.data, (∀ x ∈ t.comments.data, CommentParts x) ∧
    ∀ l ∈ t.comments.preceding.getLast?, ¬ CommentLine l
  remainder : ∀ l ∈ m.remainder, OtherLine l
  /-- nothing follows a tag with an open macro bracket -/
  closed : ∀ k t, m.data[k]? = some t → PlainTag t → OpenBracket t.value →
    m.data.length = k + 1 ∧ m.remainder = []

/-- the same tags, possibly in other branches of conditions -/
def SameTags (a b : Tags) : Prop :=
  a.data.map (fun t => { t with valid := true }) = b.data.map (fun t => { t with valid := true }) ∧
    a.remainder = b.remainder

/-! ### edits -/

/-- the lines of a tag and its comments -/
def ownLines (t : Tag) : List Str := t.comments.data.map (·.str) ++ tagLines t

/-- a tag without the lines above its comments -/
def bare (t : Tag) : Tag := { t with comments := { t.comments with preceding := [] } }

/-- the lines left when the tags whose index is in `is` are removed together with their comments; `i` is
the first index -/
def tagLinesWithout (is : List Nat) : Nat → List Tag → List Str
  | _, [] => []
  | i, t :: ts => t.comments.preceding ++ (if i ∈ is then [] else ownLines t) ++ tagLinesWithout is (i + 1) ts

/-- lines that are not empty -/
def nonEmpty (ls : List Str) : List Str := ls.filter (fun l => !l.isEmpty)

/-- `out` joins the lines `above` and `below`; empty lines where they meet become a single one -/
def Seam (above below out : List Str) : Prop :=
  ∃ a m n b, above = a ++ List.replicate m [] ∧ below = List.replicate n [] ++ b ∧
    a.getLast? ≠ some [] ∧ b.head? ≠ some [] ∧ out = a ++ (if m + n = 0 then [] else [[]]) ++ b

/-- the lines between the comments of the tag with index `k` and the tag before it; those after the last
tag if there is no such tag -/
def linesAt (m : Tags) (k : Nat) : List Str :=
  match m.data[k]? with
  | some t => t.comments.preceding
  | none => m.remainder

/-- no two tags are equal apart from validity and the lines above their comments -/
def DistinctTags (m : Tags) : Prop :=
  ∀ (j k : Nat) (x y : Tag), j < k → m.data[j]? = some x → m.data[k]? = some y →
    { x with valid := y.valid, comments := { x.comments with preceding := y.comments.preceding } } ≠ y

end Specfile.Spec
