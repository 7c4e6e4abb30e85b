import Verif.Model.ValueParser
/-
What it means to rewrite a value so that it reads as requested, stated without regular expressions and templates.
-/
namespace Specfile.Spec
open Py

/-- a value seen from left to right: text that stays and is read as something, literal text that may be changed,
references whose entity may be changed -/
inductive Part where
  | constant (reading text : Str)
  | literal (s : Str)
  | reference (name text : Str)

/-- a plain reference to the value of `x`: `%x`, `%{x}`, `%{?x}`, `%{!!x}`, but no arguments and no negation -/
inductive RefersTo : Node → Str → Prop
  | plain {p x : Str} : p.count '!' % 2 = 0 → RefersTo (.sub p x) x
  | braced {p x : Str} : p.count '!' % 2 = 0 → RefersTo (.encl p x []) x

/-- text with a macro that is not a conditional -/
def IsMacro : Node → Prop
  | .lit _ => False
  | .cond _ _ _ => False
  | _ => True

/-- Does the test `%{p x:…}` succeed after the entities of `flips` have been enabled or disabled? -/
def Succeeds (ex : Str → Except Err Str) (flips : List Str) (p x : Str) : Prop :=
  ∃ d, ex (s% "%{?" ++ x ++ s% ":1}") = .ok d ∧ (((d ≠ []) ↔ x ∉ flips) ↔ p.count '!' % 2 = 0)

/-- `ps` are the parts of the nodes, when `entities` may be changed and `flips` are enabled or disabled. Conditionals on
entities are opened exactly if their test succeeds then; all other conditionals are taken as text that is read as
nothing. -/
inductive Parts (ex : Str → Except Err Str) (entities flips : List Str) : List Node → List Part → Prop
  | nil : Parts ex entities flips [] []
  | lit {s ns ps} : Parts ex entities flips ns ps → Parts ex entities flips (.lit s :: ns) (.literal s :: ps)
  | reference {n x ns ps} : RefersTo n x → x ∈ entities → Parts ex entities flips ns ps →
      Parts ex entities flips (n :: ns) (.reference x n.str :: ps)
  | constant {n c ns ps} : IsMacro n → (∀ x, RefersTo n x → x ∉ entities) → ex n.str = .ok c →
      Parts ex entities flips ns ps → Parts ex entities flips (n :: ns) (.constant c n.str :: ps)
  | closed {p x body ns ps} : (x ∈ entities → ¬ Succeeds ex flips p x) → Parts ex entities flips ns ps →
      Parts ex entities flips (.cond p x body :: ns) (.constant [] (Node.cond p x body).str :: ps)
  | opened {p x body ns ps qs} : x ∈ entities → Succeeds ex flips p x → Parts ex entities flips body qs →
      Parts ex entities flips ns ps →
      Parts ex entities flips (.cond p x body :: ns)
        (.constant [] (s% "%{" ++ p ++ x ++ [':']) :: (qs ++ .constant [] ['}'] :: ps))

/-- the conditionals on entities, as prefixes and names, that are not inside of closed ones, in their order -/
inductive Reached (ex : Str → Except Err Str) (entities flips : List Str) : List Node → List (Str × Str) → Prop
  | nil : Reached ex entities flips [] []
  | other {n ns rs} : (∀ p x b, n ≠ .cond p x b) → Reached ex entities flips ns rs → Reached ex entities flips (n :: ns) rs
  | unknown {p x b ns rs} : x ∉ entities → Reached ex entities flips ns rs →
      Reached ex entities flips (.cond p x b :: ns) rs
  | closed {p x b ns rs} : x ∈ entities → ¬ Succeeds ex flips p x → Reached ex entities flips ns rs →
      Reached ex entities flips (.cond p x b :: ns) ((p, x) :: rs)
  | opened {p x b ns rs qs} : x ∈ entities → Succeeds ex flips p x → Reached ex entities flips b qs →
      Reached ex entities flips ns rs → Reached ex entities flips (.cond p x b :: ns) ((p, x) :: (qs ++ rs))

/-- `flips` are those of the `switchable` entities for which the first conditional on them that is reached fails: enabling or
disabling them makes it succeed -/
def Chosen (ex : Str → Except Err Str) (entities : List Str) (switchable : Str → Prop) (nodes : List Node)
    (flips : List Str) : Prop :=
  ∃ rs, Reached ex entities flips nodes rs ∧
    ∀ x, x ∈ flips ↔ switchable x ∧ ∃ p, rs.find? (fun r => r.2 = x) = some (p, x) ∧ ¬ Succeeds ex [] p x

/-- is the first thing that can be read a reference to an entity? -/
def referenceFirst : List Part → Bool
  | [] => false
  | .constant r _ :: ps => r.isEmpty && referenceFirst ps
  | .literal _ :: _ => false
  | .reference _ _ :: _ => true

/-- `s`, possibly without its final newline, is `p`, `m`, `q`: next to a reference before it, `p` ends with the first
character that is no word character; next to a reference after it, `q` begins with the last such character -/
structure Cut [Uni] (before after : Bool) (s p m q : Str) : Prop where
  text : s = p ++ (m ++ q) ∨ s = p ++ (m ++ q) ++ ['\n']
  line : '\n' ∉ m
  first : if before then ∃ u c, p = u ++ [c] ∧ (∀ x ∈ u, isWord x = true) ∧ isWord c = false else p = []
  last : if after then ∃ c u, q = c :: u ∧ (∀ x ∈ u, isWord x = true) ∧ isWord c = false else q = []

/-- how literal text may be changed: delimiters next to references stay, and so does text that has no room for them -/
inductive Changed [Uni] (before after : Bool) (s : Str) : Str → Prop
  | kept : (∀ p m q, ¬ Cut before after s p m q) → Changed before after s s
  | delimiters {p q : Str} : Cut before after s p [] q → Changed before after s (p ++ q)
  | replaced {p m q w : Str} : Cut before after s p m q → m ≠ [] → w ≠ [] → '\n' ∉ w →
      Changed before after s (p ++ (w ++ q))

/-- `Rewritten d near ps text reading`: `text` differs from the parts `ps` only in literal text, and it is read as
`reading` if every entity `x` has the value `d x`. `near`: is there a reference just before? -/
inductive Rewritten [Uni] (d : Str → Option Str) : Bool → List Part → Str → Str → Prop
  | nil {near} : Rewritten d near [] [] []
  | constant {near c s ps t r} : Rewritten d (near && c.isEmpty) ps t r →
      Rewritten d near (.constant c s :: ps) (s ++ t) (c ++ r)
  | literal {near s w ps t r} : Changed near (referenceFirst ps) s w → Rewritten d false ps t r →
      Rewritten d near (.literal s :: ps) (w ++ t) (w ++ r)
  | reference {near x w s ps t r} : d x = some w → w ≠ [] → '\n' ∉ w → Rewritten d true ps t r →
      Rewritten d near (.reference x s :: ps) (s ++ t) (w ++ r)

/-- two references with nothing between them -/
def Unseparated (ps : List Part) : Prop :=
  ∃ a x s y t b, ps = a ++ .reference x s :: .reference y t :: b

end Specfile.Spec
