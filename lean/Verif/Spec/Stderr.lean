import Verif.Model.Stderr
/-
Vocabulary for statements about captured output. Only the record type of processes is used.
-/
namespace Specfile.Spec
open Py Stderr

/-- descriptors refer to files that exist -/
def Sane (p : Proc) : Prop := ∀ i f, p.fd i = some f → f < p.next

/-- Code that uses stderr, descriptor `n`, and possibly files and descriptors of its own that it closes: it adds to what
has been written to stderr, and touches no other file. -/
def Tame (n : Nat) (body : Proc → Proc × Option Err) : Prop :=
  ∀ p g, Sane p → p.fd n = some g →
    (body p).1.fd = p.fd ∧ p.next ≤ (body p).1.next ∧ (body p).1.limit = p.limit ∧
    p.file g <+: (body p).1.file g ∧ ∀ k, k < p.next → k ≠ g → (body p).1.file k = p.file k

/-- Code that prints `t` to stderr, descriptor `n`, and ends with `e`, provided that nothing was waiting to be written and
that `k` descriptors are left. -/
def Prints (n k : Nat) (body : Proc → Proc × Option Err) (t : Str) (e : Option Err) : Prop :=
  ∀ p g, Sane p → p.fd n = some g → p.pending = [] → k ≤ ((List.range p.limit).filter (fun i => (p.fd i).isNone)).length →
    (body p).1.file g ++ (body p).1.pending = p.file g ++ t ∧ (body p).2 = e

/-- `ls` are the lines of a text, with their ends; only the last one may lack it -/
inductive TextLines : Str → List Str → Prop
  | nil : TextLines [] []
  | last {l} : l ≠ [] → '\n' ∉ l → TextLines l [l]
  | line {l t ls} : '\n' ∉ l → TextLines t ls → TextLines (l ++ '\n' :: t) ((l ++ ['\n']) :: ls)

/-- a line, possibly followed by whitespace, that begins with `error:` -/
def ErrorLine (l : Str) : Prop := ∃ x w, l = x ++ w ∧ s% "error:" <+: x ∧ ∀ c ∈ w, isSpace c = true

end Specfile.Spec
