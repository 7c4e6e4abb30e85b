import Verif.Py.Int
import Verif.Py.Err
/-
Conditions of a spec file as nested blocks.
-/
namespace Specfile.Spec
open Py

/-- keywords that open a condition -/
def openers : List Str := [s% "%if", s% "%ifarch", s% "%ifnarch", s% "%ifos", s% "%ifnos"]

/-- keywords of further branches with a condition of their own -/
def elifs : List Str := [s% "%elif", s% "%elifarch", s% "%elifos"]

/-- negated `%elifarch`/`%elifos`, unknown to RPM but recognized by the code -/
def negElifs : List Str := [s% "%elifnarch", s% "%elifnos"]

/-- all words that make a line a condition line -/
def keywords : List Str := openers ++ elifs ++ negElifs ++ [s% "%else", s% "%endif"]

/-- `word` is the first word of the line, followed by `rest` -/
def FirstWord (line word rest : Str) : Prop :=
  ∃ w, line = w ++ word ++ rest ∧ (∀ c ∈ w, isSpace c = true) ∧ ∀ c ∈ rest.head?, isSpace c = true

/-- whitespace aside, the text is on one line -/
def OnOneLine (text : Str) : Prop :=
  ∃ w e w', text = w ++ e ++ w' ∧ (∀ c ∈ w, isSpace c = true) ∧ (∀ c ∈ w', isSpace c = true) ∧ '\n' ∉ e

/-- the line is a condition line with the given keyword, followed by `text` -/
def ConditionLine (l kw text : Str) : Prop := FirstWord l kw text ∧ OnOneLine text

/-- the line is no condition line -/
def NoCondition (l : Str) : Prop := ∀ kw ∈ keywords, ∀ text, ¬ ConditionLine l kw text

/-- `e` is the text without whitespace around it -/
def Trimmed (text e : Str) : Prop :=
  ∃ w w', text = w ++ e ++ w' ∧ (∀ c ∈ w, isSpace c = true) ∧ (∀ c ∈ w', isSpace c = true) ∧
    (∀ c ∈ e.head?, isSpace c = false) ∧ (∀ c ∈ e.getLast?, isSpace c = false)

/-- nothing but a backslash -/
def Lone (text : Str) : Prop :=
  ∃ w, (∀ c ∈ w, isSpace c = true) ∧ (text = w ++ ['\\'] ∨ text = w ++ ['\\', '\n'])

/-- the text a line is taken for: its expansion, or the line itself if RPM cannot expand it -/
def Expands (ex : Str → Except Err Str) (line l : Str) : Prop :=
  ex line = .ok l ∨ (ex line = .error .rpmException ∧ l = line)

/-- The text with the lines it continues on: as long as it ends in a backslash, the next line is put in the place of the
backslash. `res` is the whole text. -/
inductive Joined : Str → List Str → Str → Prop
  | done {text} : text.getLast? ≠ some '\\' → Joined text [] text
  | more {text l ls res} : Joined (text ++ l) ls res → Joined (text ++ ['\\']) (l :: ls) res

/-- The text of a condition: what follows the keyword, without surrounding whitespace, and the lines
it continues on. A condition without a text never holds; a backslash on its own is neither a text nor a continuation. -/
inductive ConditionText : Str → List Str → Str → Prop
  | lone {text} : Lone text → ConditionText text [] (s% "0")
  | text {text e cont res} : ¬ Lone text → Trimmed text e → Joined e cont res →
      ConditionText text cont (if res = [] then s% "0" else res)

/-- outcome of the expansion of an expression -/
inductive ExprValue [Uni] : Except Err Str → Bool → Prop
  /-- the expression is invalid -/
  | invalid : ExprValue (.error .rpmException) false
  /-- the expression was left alone -/
  | unexpanded {r} : s% "%{expr:" <+: r → ExprValue (.ok r) false
  | number {r i} : ¬ s% "%{expr:" <+: r → parseInt r = some i → ExprValue (.ok r) (decide (i ≠ 0))
  /-- a string -/
  | string {r} : ¬ s% "%{expr:" <+: r → parseInt r = none → ExprValue (.ok r) true

/-- `t` is the truth of the condition with the given keyword and text -/
inductive Holds [Uni] (ex : Str → Except Err Str) : Str → Str → Bool → Prop
  | expr {kw e t} : kw = s% "%if" ∨ kw = s% "%elif" → ExprValue (ex (s% "%{expr:" ++ e ++ s% "}")) t →
      Holds ex kw e t
  | arch {kw e cpu l} : kw = s% "%ifarch" ∨ kw = s% "%elifarch" → ex (s% "%{_target_cpu}") = .ok cpu →
      ex e = .ok l → Holds ex kw e (decide (cpu ∈ words l))
  | notArch {e cpu l} : ex (s% "%{_target_cpu}") = .ok cpu → ex e = .ok l →
      Holds ex (s% "%ifnarch") e (decide (cpu ∉ words l))
  | os {kw e os l} : kw = s% "%ifos" ∨ kw = s% "%elifos" → ex (s% "%{_target_os}") = .ok os →
      ex e = .ok l → Holds ex kw e (decide (os ∈ words l))
  | notOs {e os l} : ex (s% "%{_target_os}") = .ok os → ex e = .ok l →
      Holds ex (s% "%ifnos") e (decide (os ∉ words l))

/-- What a sequence of lines is: the lines inside of a branch, or the rest of a condition after one
of its branches. -/
inductive Mode
  | body
  /-- `taken`: the condition of an earlier branch holds; `late`: there has been a branch since -/
  | rest (taken late : Bool)

/-- `Blocks ex inBody lenient mode i enc lines flags`: the lines, the first of which has index `i`, form
complete conditions, and `flags` tells for each of them whether RPM would use it. `enc` tells whether the
surroundings are used. Lines for which `inBody` holds belong to macro definitions. If `lenient` is
false, only one branch may follow the one that is taken. -/
inductive Blocks [Uni] (ex : Nat → Str → Except Err Str) (inBody : Nat → Prop) (lenient : Bool) :
    Mode → Nat → Bool → List Str → List Bool → Prop
  | done {i enc} : Blocks ex inBody lenient .body i enc [] []
  /-- a line of a macro definition -/
  | inBody {i enc line ls fs} : inBody i → Blocks ex inBody lenient .body (i + 1) enc ls fs →
      Blocks ex inBody lenient .body i enc (line :: ls) (enc :: fs)
  /-- a line that is no condition -/
  | plain {i enc line l ls fs} : ¬ inBody i → Expands (ex i) line l → NoCondition l →
      Blocks ex inBody lenient .body (i + 1) enc ls fs →
      Blocks ex inBody lenient .body i enc (line :: ls) (enc :: fs)
  /-- `%if … %endif`, and what follows -/
  | cond {i enc line l kw text cont e t body fb rest fr ls fs} :
      ¬ inBody i → Expands (ex i) line l → kw ∈ openers → ConditionLine l kw text →
      ConditionText text cont e → (enc = true → Holds (ex i) kw e t) →
      Blocks ex inBody lenient .body (i + 1 + cont.length) (enc && t) body fb →
      Blocks ex inBody lenient (.rest t false) (i + 1 + cont.length + body.length) enc rest fr →
      Blocks ex inBody lenient .body (i + 1 + cont.length + body.length + rest.length) enc ls fs →
      Blocks ex inBody lenient .body i enc (line :: (cont ++ body ++ rest ++ ls))
        (enc :: (List.replicate cont.length enc ++ fb ++ fr ++ fs))
  | endif {i enc taken late line l text} : ¬ inBody i → Expands (ex i) line l →
      ConditionLine l (s% "%endif") text → Blocks ex inBody lenient (.rest taken late) i enc [line] [enc]
  | else_ {i enc taken late line l text body fb rest fr} :
      lenient = true ∨ enc = false ∨ late = false → ¬ inBody i → Expands (ex i) line l →
      ConditionLine l (s% "%else") text →
      Blocks ex inBody lenient .body (i + 1) (enc && !taken) body fb →
      Blocks ex inBody lenient (.rest true taken) (i + 1 + body.length) enc rest fr →
      Blocks ex inBody lenient (.rest taken late) i enc (line :: (body ++ rest)) (enc :: (fb ++ fr))
  /-- the lines a condition continues on are used if the condition is evaluated -/
  | elif {i enc taken late line l kw text cont e t body fb rest fr} :
      lenient = true ∨ enc = false ∨ late = false → ¬ inBody i → Expands (ex i) line l → kw ∈ elifs →
      ConditionLine l kw text → ConditionText text cont e →
      (enc = true → taken = false → Holds (ex i) kw e t) →
      Blocks ex inBody lenient .body (i + 1 + cont.length) (enc && !taken && t) body fb →
      Blocks ex inBody lenient (.rest (taken || t) taken) (i + 1 + cont.length + body.length) enc rest fr →
      Blocks ex inBody lenient (.rest taken late) i enc (line :: (cont ++ body ++ rest))
        (enc :: (List.replicate cont.length (enc && !taken) ++ fb ++ fr))

/-- The lists have the same length and the same lines, except for lines of macro definitions. The
first line has index `i`. -/
inductive SameOutside (inBody : Nat → Prop) : Nat → List Str → List Str → Prop
  | done {i} : SameOutside inBody i [] []
  | same {i l ls ls'} : SameOutside inBody (i + 1) ls ls' → SameOutside inBody i (l :: ls) (l :: ls')
  | inBody {i l l' ls ls'} : inBody i → SameOutside inBody (i + 1) ls ls' →
      SameOutside inBody i (l :: ls) (l' :: ls')

/-- the line ends in a backslash, trailing whitespace aside -/
def EndsInBackslash (l : Str) : Prop := ∃ a w, l = a ++ '\\' :: w ∧ ∀ c ∈ w, isSpace c = true

/-- the line ends in two backslashes, trailing whitespace aside -/
def EndsInTwoBackslashes (l : Str) : Prop :=
  ∃ a w, l = a ++ '\\' :: '\\' :: w ∧ ∀ c ∈ w, isSpace c = true

/-- No line outside of macro definitions is continued by a line of a macro definition. -/
def NotJoined (ex : Nat → Str → Except Err Str) (inBody : Nat → Prop) (i : Nat) (lines : List Str) : Prop :=
  ∀ k line, lines[k]? = some line → ¬ inBody (i + k) → ∀ l, l = line ∨ ex (i + k) line = .ok l →
    ¬ EndsInTwoBackslashes l ∧ (inBody (i + k + 1) → ¬ EndsInBackslash l)

end Specfile.Spec
