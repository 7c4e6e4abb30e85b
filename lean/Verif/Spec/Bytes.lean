import Verif.Model.Bytes
/-
UTF-8 as in RFC 3629, and what a file with other bytes means (C94).
-/
namespace Specfile.Spec
open Py Bytes

/-- a Unicode scalar value: a code point that is not a surrogate -/
def Scalar (c : Nat) : Prop := c < 0xD800 ∨ 0xE000 ≤ c ∧ c < 0x110000

/-- the bytes encode the code point: 6 bits in each byte after the first, in the shortest possible form -/
def Encodes (c : Nat) (s : List Byte) : Prop :=
  Scalar c ∧
  ((∃ b : Byte, s = [b] ∧ b.val = c ∧ c < 0x80) ∨
   (∃ (b1 b2 : Byte) (x y : Nat), s = [b1, b2] ∧ b1.val = 0xC0 + x ∧ b2.val = 0x80 + y ∧ x < 32 ∧ y < 64 ∧
      c = 64 * x + y ∧ 0x80 ≤ c) ∨
   (∃ (b1 b2 b3 : Byte) (x y z : Nat), s = [b1, b2, b3] ∧ b1.val = 0xE0 + x ∧ b2.val = 0x80 + y ∧ b3.val = 0x80 + z ∧
      x < 16 ∧ y < 64 ∧ z < 64 ∧ c = 4096 * x + 64 * y + z ∧ 0x800 ≤ c) ∨
   (∃ (b1 b2 b3 b4 : Byte) (x y z w : Nat), s = [b1, b2, b3, b4] ∧ b1.val = 0xF0 + x ∧ b2.val = 0x80 + y ∧
      b3.val = 0x80 + z ∧ b4.val = 0x80 + w ∧ x < 8 ∧ y < 64 ∧ z < 64 ∧ w < 64 ∧ c = 262144 * x + 4096 * y + 64 * z + w ∧
      0x10000 ≤ c))

/-- the bytes are UTF-8 of the text -/
inductive Utf8 : List Nat → List Byte → Prop where
  | nil : Utf8 [] []
  | cons {c s cs bs} : Encodes c s → Utf8 cs bs → Utf8 (c :: cs) (s ++ bs)

/-- what bytes are read as: code points where they are UTF-8, and a surrogate for every byte where they are not -/
inductive ReadAs : List Byte → List Nat → Prop where
  | nil : ReadAs [] []
  | point {c s bs cs} : Encodes c s → ReadAs bs cs → ReadAs (s ++ bs) (c :: cs)
  | escape {b bs cs} : (∀ c s r, Encodes c s → b :: bs ≠ s ++ r) → ReadAs bs cs → ReadAs (b :: bs) ((0xDC00 + b.val) :: cs)

/-- a text that some file is read as -/
def ReadableText (t : List Nat) : Prop := ∃ bs, ReadAs bs t

/-- no line of the text ends in anything but a line feed -/
def LineFeeds (t : List Nat) : Prop := ∀ c ∈ t, isBreak c = true → c = 10

end Specfile.Spec
