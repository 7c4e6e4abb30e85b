/-
Python `str` primitives used by the code, over `List Char`.

A Python string is modelled as the list of its code points.  Lone surrogates
(`surrogateescape`) are not representable, see DESIGN.md.
-/
namespace Py

/-- A Python `str`. -/
abbrev Str := List Char

open Lean in
/-- `s% "abc"` is the explicit list `['a', 'b', 'c']`; the kernel can compute with it. -/
macro "s%" s:str : term => do
  let lits : Array (TSyntax `term) :=
    (s.getString.toList.map fun c => (⟨(Syntax.mkCharLit c).raw⟩ : TSyntax `term)).toArray
  `(([$lits,*] : List Char))

/-- Whitespace as understood by `str.isspace`, `str.strip`, `str.split()` and `\s` in `re`
(all four agree on single code points: `Py_UNICODE_ISSPACE`). -/
def isSpace (c : Char) : Bool :=
  let n := c.toNat
  (9 ≤ n && n ≤ 0xD) || (0x1C ≤ n && n ≤ 0x20) || n == 0x85 || n == 0xA0 || n == 0x1680 ||
  (0x2000 ≤ n && n ≤ 0x200A) || n == 0x2028 || n == 0x2029 || n == 0x202F || n == 0x205F ||
  n == 0x3000

/-- Line boundary characters of `str.splitlines` (`Py_UNICODE_ISLINEBREAK`). -/
def isLineBreak (c : Char) : Bool :=
  let n := c.toNat
  (0xA ≤ n && n ≤ 0xD) || (0x1C ≤ n && n ≤ 0x1E) || n == 0x85 || n == 0x2028 || n == 0x2029

/-- ASCII decimal digit. -/
def isAsciiDigit (c : Char) : Bool := 48 ≤ c.toNat && c.toNat ≤ 57

def isAsciiUpper (c : Char) : Bool := 65 ≤ c.toNat && c.toNat ≤ 90
def isAsciiLower (c : Char) : Bool := 97 ≤ c.toNat && c.toNat ≤ 122
def isAsciiAlpha (c : Char) : Bool := isAsciiUpper c || isAsciiLower c
def isAsciiAlnum (c : Char) : Bool := isAsciiAlpha c || isAsciiDigit c
def isAscii (c : Char) : Bool := c.toNat < 128

def asciiLowerC (c : Char) : Char := if isAsciiUpper c then Char.ofNat (c.toNat + 32) else c

/-- Unicode tables that the code consults.  Everything outside ASCII is arbitrary up to the
laws, so theorems hold for every version of the Unicode database. -/
class Uni where
  /-- `str.isalnum` on one code point -/
  isAlnum : Char → Bool
  /-- `\d` in `re`, i.e. `str.isdecimal` -/
  isDecimal : Char → Bool
  /-- decimal value of a code point satisfying `isDecimal` -/
  decimalVal : Char → Nat
  /-- `str.isnumeric` on one code point -/
  isNumeric : Char → Bool
  /-- `str.lower` -/
  lower : Str → Str
  /-- `str.upper` -/
  upper : Str → Str
  /-- `str.capitalize` -/
  capitalize : Str → Str
  /-- pattern character vs. text character under `re.IGNORECASE` -/
  ieq : Char → Char → Bool
  alnum_ascii : ∀ c, isAscii c = true → isAlnum c = isAsciiAlnum c
  decimal_ascii : ∀ c, isAscii c = true → isDecimal c = isAsciiDigit c
  decimalVal_ascii : ∀ c, isAsciiDigit c = true → decimalVal c = c.toNat - 48
  decimalVal_lt : ∀ c, isDecimal c = true → decimalVal c < 10
  numeric_ascii : ∀ c, isAscii c = true → isNumeric c = isAsciiDigit c
  decimal_numeric : ∀ c, isDecimal c = true → isNumeric c = true
  numeric_alnum : ∀ c, isNumeric c = true → isAlnum c = true
  alnum_not_space : ∀ c, isAlnum c = true → isSpace c = false
  lower_ascii : ∀ s, s.all isAscii = true → lower s = s.map asciiLowerC
  upper_ascii : ∀ s, s.all isAscii = true →
    upper s = s.map (fun c => if isAsciiLower c then Char.ofNat (c.toNat - 32) else c)
  ieq_ascii : ∀ p c, isAscii p = true → isAscii c = true →
    ieq p c = (asciiLowerC p == asciiLowerC c)
  ieq_refl : ∀ c, ieq c c = true
  ieq_alnum : ∀ p c, isAsciiAlpha p = true → ieq p c = true → isAlnum c = true
  ieq_uncased : ∀ p c, isAscii p = true → isAsciiAlpha p = false → ieq p c = true → c = p
  capitalize_ascii : ∀ c s, isAscii c = true → s.all isAscii = true → capitalize (c :: s) =
    (if isAsciiLower c then Char.ofNat (c.toNat - 32) else c) :: s.map asciiLowerC
  lower_idem : ∀ s, lower (lower s) = lower s

/-- `\w` in `re`. -/
def isWord [Uni] (c : Char) : Bool := Uni.isAlnum c || c == '_'

/-- The laws of `Uni` are consistent: a table that knows ASCII only. -/
@[instance_reducible] def asciiUni : Uni where
  isAlnum := isAsciiAlnum
  isDecimal := isAsciiDigit
  decimalVal c := c.toNat - 48
  isNumeric := isAsciiDigit
  lower s := s.map asciiLowerC
  upper s := s.map (fun c => if isAsciiLower c then Char.ofNat (c.toNat - 32) else c)
  capitalize
    | [] => []
    | c :: s => (if isAsciiLower c then Char.ofNat (c.toNat - 32) else c) :: s.map asciiLowerC
  ieq p c := asciiLowerC p == asciiLowerC c
  alnum_ascii := by intros; rfl
  decimal_ascii := by intros; rfl
  decimalVal_ascii := by intros; rfl
  decimalVal_lt := by intro c h; simp [isAsciiDigit] at h; omega
  numeric_ascii := by intros; rfl
  decimal_numeric := by intros; assumption
  numeric_alnum := by intro c h; simp [isAsciiAlnum, h]
  alnum_not_space := by
    intro c h
    simp only [isAsciiAlnum, isAsciiAlpha, isAsciiUpper, isAsciiLower, isAsciiDigit,
      Bool.or_eq_true, Bool.and_eq_true, decide_eq_true_eq] at h
    simp only [isSpace, Bool.or_eq_false_iff, Bool.and_eq_false_iff, beq_eq_false_iff_ne,
      decide_eq_false_iff_not]
    omega
  lower_ascii := by intros; rfl
  upper_ascii := by intros; rfl
  ieq_ascii := by intros; rfl
  ieq_refl := by intro c; simp
  ieq_alnum := by
    intro p c hp h
    simp only [beq_iff_eq] at h
    have key : ∀ x : Char, isAsciiUpper x = true → (Char.ofNat (x.toNat + 32)).toNat = x.toNat + 32 := by
      intro x hx
      simp only [isAsciiUpper, Bool.and_eq_true, decide_eq_true_eq] at hx
      simp only [Char.ofNat]
      have hv : (x.toNat + 32).isValidChar := Or.inl (by omega)
      rw [dif_pos hv]; rfl
    have h' := congrArg Char.toNat h
    simp only [asciiLowerC] at h'
    have hp2 := hp
    simp only [isAsciiAlpha, isAsciiAlnum, isAsciiUpper, isAsciiLower, isAsciiDigit,
      Bool.or_eq_true, Bool.and_eq_true, decide_eq_true_eq] at hp2 ⊢
    split at h' <;> split at h' <;> rename_i a b
    all_goals first | rw [key p a] at h' | skip
    all_goals first | rw [key c b] at h' | skip
    all_goals simp only [isAsciiUpper, Bool.and_eq_true, decide_eq_true_eq] at a b
    all_goals omega
  ieq_uncased := by
    intro p c _ hp h
    simp only [beq_iff_eq, asciiLowerC] at h
    simp only [isAsciiAlpha, Bool.or_eq_false_iff] at hp
    rw [hp.1] at h
    simp only [Bool.false_eq_true, if_false] at h
    split at h
    · rename_i hc
      have hn : (Char.ofNat (c.toNat + 32)).toNat = c.toNat + 32 := by
        simp only [isAsciiUpper, Bool.and_eq_true, decide_eq_true_eq] at hc
        simp only [Char.ofNat]
        have hv : (c.toNat + 32).isValidChar := Or.inl (by omega)
        rw [dif_pos hv]; rfl
      have h2 := hp.2
      rw [h] at h2
      simp only [isAsciiUpper, Bool.and_eq_true, decide_eq_true_eq] at hc
      simp only [isAsciiLower, hn, Bool.and_eq_false_iff, decide_eq_false_iff_not] at h2
      omega
    · exact h.symm
  capitalize_ascii := by intros; rfl
  lower_idem := by
    intro s
    simp only [List.map_map]
    apply List.map_congr_left
    intro c _
    simp only [Function.comp, asciiLowerC]
    split
    · rename_i h
      have hn : (Char.ofNat (c.toNat + 32)).toNat = c.toNat + 32 := by
        simp only [isAsciiUpper, Bool.and_eq_true, decide_eq_true_eq] at h
        simp only [Char.ofNat]
        have hv : (c.toNat + 32).isValidChar := Or.inl (by omega)
        rw [dif_pos hv]; rfl
      rw [if_neg]
      simp only [isAsciiUpper, hn, Bool.and_eq_true, decide_eq_true_eq] at h ⊢
      omega
    · rename_i h; simp

/-- `s.startswith(p)` -/
def startsWith (s p : Str) : Bool := p.isPrefixOf s
/-- `s.endswith(p)` -/
def endsWith (s p : Str) : Bool := p.isSuffixOf s

/-- `s.lstrip()` -/
def lstrip (s : Str) : Str := s.dropWhile isSpace
/-- `s.rstrip()` -/
def rstrip (s : Str) : Str := (s.reverse.dropWhile isSpace).reverse
/-- `s.strip()` -/
def strip (s : Str) : Str := rstrip (lstrip s)

/-- `not s.strip()`: empty or all whitespace (also `s.isspace() or not s`). -/
def isBlank (s : Str) : Bool := s.all isSpace

/-- `sep.join(l)` for a one-character separator. -/
def joinC (sep : Char) : List Str → Str
  | [] => []
  | [a] => a
  | a :: b :: l => a ++ sep :: joinC sep (b :: l)

/-- split at every character of a class; never empty -/
def splitP (p : Char → Bool) : Str → List Str
  | [] => [[]]
  | c :: cs =>
    if p c then [] :: splitP p cs
    else match splitP p cs with
      | [] => [[c]]          -- unreachable, `splitP_ne_nil`
      | l :: ls => (c :: l) :: ls

/-- `s.split(sep)` for a one-character separator. Never empty. -/
def splitC (sep : Char) (s : Str) : List Str := splitP (· == sep) s

/-- `"".join(l)` -/
def concat (l : List Str) : Str := l.flatten

/-- `s.splitlines()`; `\r\n` counts as one boundary. -/
def splitlines : Str → List Str
  | [] => []
  | '\r' :: '\n' :: cs => [] :: splitlines cs
  | c :: cs =>
    if isLineBreak c then [] :: splitlines cs
    else match splitlines cs with
      | [] => [[c]]
      | l :: ls => (c :: l) :: ls

/-- `s.split()`: maximal runs of non-whitespace. -/
def words (s : Str) : List Str := (splitP isSpace s).filter (fun w => !w.isEmpty)

/-- the decimal digit `d < 10` -/
def digitChar (d : Nat) : Char := Char.ofNat (48 + d)

/-- decimal digits of `n`, prepended to `acc`; `fuel` bounds the number of digits -/
def natStrF : Nat → Nat → Str → Str
  | 0, _, acc => acc
  | fuel + 1, n, acc =>
    if n / 10 = 0 then digitChar (n % 10) :: acc
    else natStrF fuel (n / 10) (digitChar (n % 10) :: acc)

/-- `str(n)` for a non-negative `int` -/
def natStr (n : Nat) : Str := natStrF (n + 1) n []

/-- `str(i)` for an `int` -/
def intStr : Int → Str
  | .ofNat n => natStr n
  | .negSucc n => '-' :: natStr (n + 1)

/-- Value of a string of decimal digits, most significant first. -/
def decVal [Uni] (s : Str) : Nat := s.foldl (fun a c => 10 * a + Uni.decimalVal c) 0

end Py
