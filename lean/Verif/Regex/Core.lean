import Verif.Py.Str
/-
Backtracking regular expressions with the semantics of Python's `re`.

`run r s` lists all ways to match `r` from state `s` in the order in which the backtracking
matcher of CPython tries them, so a match is the head of that list.  Every repetition in the
modelled code is over a single-character class, so there is no general star; this keeps `run`
structurally recursive and total.
-/
namespace Regex
open Py

/-- Regular expressions; `κ` is the type of group names. -/
inductive Re (κ : Type) where
  /-- the empty pattern -/
  | eps
  /-- never matches -/
  | fail
  /-- one character of a class -/
  | cls (p : Char → Bool)
  /-- `p{min,}` (greedy) or `p{min,}?` (lazy) -/
  | rep (p : Char → Bool) (min : Nat) (greedy : Bool)
  | cat (a b : Re κ)
  /-- `a|b` -/
  | alt (a b : Re κ)
  /-- capturing group -/
  | grp (k : κ) (r : Re κ)
  /-- `(?(k)a|b)` -/
  | ifgrp (k : κ) (a b : Re κ)
  /-- `(?P=k)` -/
  | bref (k : κ)
  /-- `^` without `re.MULTILINE` -/
  | bos
  /-- `$` without `re.MULTILINE`: at the end or before a final newline -/
  | eos
  /-- `$` with `re.MULTILINE` -/
  | eol
  /-- `\Z`-like absolute end (used for `re.fullmatch`) -/
  | eot
  /-- `(?<!c)` -/
  | notAfter (p : Char → Bool)
  /-- `(?!…)` / `(?=…)` on a literal-free class: next character is not / is in the class -/
  | notBefore (p : Char → Bool)

infixr:67 " ⬝ " => Re.cat
infixr:65 " ∣∣ " => Re.alt

/-- Matcher state: consumed text (reversed), remaining text, captured groups (latest first). -/
structure St (κ : Type) where
  pre : Str
  rest : Str
  caps : List (κ × Str)

/-- all ways to split off a prefix in class `p`, longest first -/
def splits (p : Char → Bool) : Str → List (Str × Str)
  | [] => [([], [])]
  | c :: cs =>
    if p c then (splits p cs).map (fun x => (c :: x.1, x.2)) ++ [([], c :: cs)]
    else [([], c :: cs)]

/-- the text captured by group `k` -/
def St.get {κ : Type} [DecidableEq κ] (s : St κ) (k : κ) : Option Str :=
  (s.caps.find? (fun x => decide (x.1 = k))).map (·.2)

/-- consume `w`, leaving `r` -/
def St.adv {κ : Type} (s : St κ) (w r : Str) : St κ := ⟨w.reverse ++ s.pre, r, s.caps⟩

/-- all matches in priority order -/
def run {κ : Type} [DecidableEq κ] : Re κ → St κ → List (St κ)
  | .eps, s => [s]
  | .fail, _ => []
  | .cls p, s =>
    match s.rest with
    | [] => []
    | c :: cs => if p c then [⟨c :: s.pre, cs, s.caps⟩] else []
  | .rep p n g, s =>
    let l := ((splits p s.rest).filter (fun x => decide (n ≤ x.1.length))).map
      (fun x => s.adv x.1 x.2)
    if g then l else l.reverse
  | .cat a b, s => (run a s).flatMap (run b)
  | .alt a b, s => run a s ++ run b s
  | .grp k r, s =>
    (run r s).map (fun t => { t with caps := (k, s.rest.take (s.rest.length - t.rest.length)) :: t.caps })
  | .ifgrp k a b, s => if (s.get k).isSome then run a s else run b s
  | .bref k, s =>
    match s.get k with
    | none => []
    | some w => if w.isPrefixOf s.rest then [s.adv w (s.rest.drop w.length)] else []
  | .bos, s => if s.pre.isEmpty then [s] else []
  | .eos, s => if s.rest = [] ∨ s.rest = ['\n'] then [s] else []
  | .eol, s => if s.rest = [] ∨ s.rest.head? = some '\n' then [s] else []
  | .eot, s => if s.rest = [] then [s] else []
  | .notAfter p, s => match s.pre with
    | [] => [s]
    | c :: _ => if p c then [] else [s]
  | .notBefore p, s => match s.rest with
    | [] => [s]
    | c :: _ => if p c then [] else [s]

/-- initial state for `re.match` -/
def init {κ : Type} (v : Str) : St κ := ⟨[], v, []⟩

/-- `re.match(r, v)` -/
def rmatch {κ : Type} [DecidableEq κ] (r : Re κ) (v : Str) : Option (St κ) := (run r (init v)).head?

/-- A successful search: text before the match (not reversed), matched text, final state. -/
structure Found (κ : Type) where
  before : Str
  text : Str
  st : St κ

/-- `re.compile(r).search`, starting with the text `pre` (reversed) already passed. -/
def searchFrom {κ : Type} [DecidableEq κ] (r : Re κ) (pre : Str) (rest : Str) : Option (Found κ) :=
  match (run r ⟨pre, rest, []⟩).head? with
  | some t => some ⟨pre.reverse, rest.take (rest.length - t.rest.length), t⟩
  | none => match rest with
    | [] => none
    | c :: cs => searchFrom r (c :: pre) cs

/-- `re.search(r, v)` -/
def search {κ : Type} [DecidableEq κ] (r : Re κ) (v : Str) : Option (Found κ) := searchFrom r [] v

/-- a literal character -/
def ch {κ : Type} (c : Char) : Re κ := .cls (fun d => d == c)
/-- a literal string -/
def lit {κ : Type} : Str → Re κ
  | [] => .eps
  | [c] => ch c
  | c :: cs => ch c ⬝ lit cs
/-- `r?` -/
def opt {κ : Type} (r : Re κ) : Re κ := r ∣∣ .eps
/-- `r??` -/
def optLazy {κ : Type} (r : Re κ) : Re κ := .eps ∣∣ r
/-- `p*` -/
def star {κ : Type} (p : Char → Bool) : Re κ := .rep p 0 true
/-- `p+` -/
def plus {κ : Type} (p : Char → Bool) : Re κ := .rep p 1 true
/-- `p*?` -/
def starL {κ : Type} (p : Char → Bool) : Re κ := .rep p 0 false
/-- `p+?` -/
def plusL {κ : Type} (p : Char → Bool) : Re κ := .rep p 1 false
/-- `.` -/
def dot (c : Char) : Bool := c != '\n'
/-- `\S` -/
def nonSpace (c : Char) : Bool := !isSpace c
/-- any character (`re.DOTALL` dot) -/
def anyC (_ : Char) : Bool := true

/-! ### Inversion lemmas -/

section
variable {κ : Type}

theorem mem_splits {p : Char → Bool} {s : Str} {x : Str × Str} :
    x ∈ splits p s ↔ x.1 ++ x.2 = s ∧ x.1.all p = true := by
  induction s generalizing x with
  | nil =>
    simp only [splits, List.mem_singleton, List.append_eq_nil_iff]
    constructor
    · rintro rfl; simp
    · rintro ⟨⟨h1, h2⟩, _⟩; ext1 <;> assumption
  | cons c cs ih =>
    rcases x with ⟨w, r⟩
    simp only [splits]
    split
    · rename_i h
      simp only [List.mem_append, List.mem_map, List.mem_singleton, ih, Prod.mk.injEq]
      constructor
      · rintro (⟨y, ⟨h1, h2⟩, rfl, rfl⟩ | ⟨rfl, rfl⟩)
        · simp_all
        · simp
      · rintro ⟨h1, h2⟩
        cases w with
        | nil => simp at h1; right; simp [h1]
        | cons d ds =>
          simp only [List.cons_append, List.cons.injEq] at h1
          left; exact ⟨(ds, r), ⟨h1.2, by simp_all⟩, by simp [h1.1], rfl⟩
    · rename_i h
      simp only [List.mem_singleton, Prod.mk.injEq]
      constructor
      · rintro ⟨rfl, rfl⟩; simp
      · rintro ⟨h1, h2⟩
        cases w with
        | nil => simpa using h1
        | cons d ds =>
          simp only [List.cons_append, List.cons.injEq] at h1
          simp_all

variable [DecidableEq κ]

@[simp] theorem run_eps (s : St κ) : run .eps s = [s] := rfl
@[simp] theorem run_fail (s : St κ) : run .fail s = [] := rfl
@[simp] theorem run_cat (a b : Re κ) (s) : run (a ⬝ b) s = (run a s).flatMap (run b) := rfl
@[simp] theorem run_alt (a b : Re κ) (s) : run (a ∣∣ b) s = run a s ++ run b s := rfl

theorem mem_cat {a b : Re κ} {s t} : t ∈ run (a ⬝ b) s ↔ ∃ u, u ∈ run a s ∧ t ∈ run b u := by
  simp
theorem mem_alt {a b : Re κ} {s t} : t ∈ run (a ∣∣ b) s ↔ t ∈ run a s ∨ t ∈ run b s := by
  simp
theorem mem_eps {s t : St κ} : t ∈ run (.eps : Re κ) s ↔ t = s := by simp
theorem mem_cls {p} {s t : St κ} : t ∈ run (.cls p : Re κ) s ↔
    ∃ c cs, s.rest = c :: cs ∧ p c = true ∧ t = ⟨c :: s.pre, cs, s.caps⟩ := by
  simp only [run]
  split
  · simp_all
  · rename_i c cs h
    split
    · rename_i hp
      simp only [List.mem_singleton]
      constructor
      · rintro rfl; exact ⟨c, cs, h, hp, rfl⟩
      · rintro ⟨d, ds, h1, _, rfl⟩; rw [h] at h1; simp at h1; simp [h1]
    · simp_all

theorem mem_rep {p n g} {s t : St κ} : t ∈ run (.rep p n g : Re κ) s ↔
    ∃ w r, s.rest = w ++ r ∧ w.all p = true ∧ n ≤ w.length ∧ t = s.adv w r := by
  have key : t ∈ run (.rep p n g : Re κ) s ↔
      t ∈ ((splits p s.rest).filter (fun x => decide (n ≤ x.1.length))).map
        (fun x => s.adv x.1 x.2) := by
    simp only [run]; split <;> simp
  rw [key]
  simp only [List.mem_map, List.mem_filter, mem_splits, decide_eq_true_eq]
  constructor
  · rintro ⟨⟨w, r⟩, ⟨⟨h1, h2⟩, h3⟩, rfl⟩; exact ⟨w, r, h1.symm, h2, h3, rfl⟩
  · rintro ⟨w, r, h1, h2, h3, rfl⟩; exact ⟨(w, r), ⟨⟨h1.symm, h2⟩, h3⟩, rfl⟩

/-- every match consumes a prefix of the remaining text -/
theorem run_consumes {r : Re κ} {s t : St κ} (h : t ∈ run r s) :
    ∃ w, s.rest = w ++ t.rest ∧ t.pre = w.reverse ++ s.pre := by
  induction r generalizing s t with
  | eps => simp at h; subst h; exact ⟨[], rfl, rfl⟩
  | fail => simp at h
  | cls p => rw [mem_cls] at h; obtain ⟨c, cs, h1, h2, rfl⟩ := h; exact ⟨[c], h1, rfl⟩
  | rep p n g =>
    rw [mem_rep] at h; obtain ⟨w, r, h1, _, _, rfl⟩ := h; exact ⟨w, h1, rfl⟩
  | cat a b iha ihb =>
    rw [mem_cat] at h; obtain ⟨u, h1, h2⟩ := h
    obtain ⟨w1, e1, e2⟩ := iha h1; obtain ⟨w2, e3, e4⟩ := ihb h2
    exact ⟨w1 ++ w2, by simp [e1, e3], by simp [e2, e4]⟩
  | alt a b iha ihb => rw [mem_alt] at h; exact h.elim iha ihb
  | grp k r ih =>
    simp only [run, List.mem_map] at h
    obtain ⟨u, h1, rfl⟩ := h
    obtain ⟨w, e1, e2⟩ := ih h1
    exact ⟨w, e1, e2⟩
  | ifgrp k a b iha ihb =>
    simp only [run] at h; split at h
    · exact iha h
    · exact ihb h
  | bref k =>
    simp only [run] at h
    split at h
    · simp at h
    · rename_i w _
      split at h
      · rename_i hp
        simp at h; subst h
        refine ⟨w, ?_, rfl⟩
        rw [List.isPrefixOf_iff_prefix] at hp
        obtain ⟨u, hu⟩ := hp
        simp [St.adv, ← hu]
      · simp at h
  | bos => simp only [run] at h; split at h <;> simp at h; subst h; exact ⟨[], rfl, rfl⟩
  | eos => simp only [run] at h; split at h <;> simp at h; subst h; exact ⟨[], rfl, rfl⟩
  | eol => simp only [run] at h; split at h <;> simp at h; subst h; exact ⟨[], rfl, rfl⟩
  | eot => simp only [run] at h; split at h <;> simp at h; subst h; exact ⟨[], rfl, rfl⟩
  | notAfter p =>
    simp only [run] at h
    split at h
    · simp at h; subst h; exact ⟨[], rfl, rfl⟩
    · split at h <;> simp at h; subst h; exact ⟨[], rfl, rfl⟩
  | notBefore p =>
    simp only [run] at h
    split at h
    · simp at h; subst h; exact ⟨[], rfl, rfl⟩
    · split at h <;> simp at h; subst h; exact ⟨[], rfl, rfl⟩

theorem mem_grp {k : κ} {r : Re κ} {s t : St κ} : t ∈ run (.grp k r) s ↔
    ∃ u w, u ∈ run r s ∧ s.rest = w ++ u.rest ∧ t = ⟨u.pre, u.rest, (k, w) :: u.caps⟩ := by
  simp only [run, List.mem_map]
  constructor
  · rintro ⟨u, h, rfl⟩
    obtain ⟨w, hw, _⟩ := run_consumes h
    exact ⟨u, w, h, hw, by simp [hw]⟩
  · rintro ⟨u, w, h, hw, rfl⟩
    exact ⟨u, h, by simp [hw]⟩

theorem mem_eos {s t : St κ} : t ∈ run (.eos : Re κ) s ↔ t = s ∧ (s.rest = [] ∨ s.rest = ['\n']) := by
  simp only [run]; split <;> simp_all
theorem mem_eot {s t : St κ} : t ∈ run (.eot : Re κ) s ↔ t = s ∧ s.rest = [] := by
  simp only [run]; split <;> simp_all
theorem mem_bos {s t : St κ} : t ∈ run (.bos : Re κ) s ↔ t = s ∧ s.pre = [] := by
  simp only [run]; split <;> simp_all
theorem mem_ch {c : Char} {s t : St κ} : t ∈ run (ch c : Re κ) s ↔
    ∃ cs, s.rest = c :: cs ∧ t = ⟨c :: s.pre, cs, s.caps⟩ := by
  rw [ch, mem_cls]
  constructor
  · rintro ⟨d, cs, h1, h2, h3⟩; simp at h2; subst h2; exact ⟨cs, h1, h3⟩
  · rintro ⟨cs, h1, h2⟩; exact ⟨c, cs, h1, by simp, h2⟩
theorem mem_opt {r : Re κ} {s t : St κ} : t ∈ run (opt r) s ↔ t ∈ run r s ∨ t = s := by
  simp [opt]

theorem mem_of_rmatch {r : Re κ} {v : Str} {t : St κ} (h : rmatch r v = some t) :
    t ∈ run r (init v) := by
  unfold rmatch at h
  exact List.mem_of_head? h

theorem rmatch_none {r : Re κ} {v : Str} : rmatch r v = none ↔ ∀ t, t ∉ run r (init v) := by
  unfold rmatch
  rw [List.head?_eq_none_iff, List.eq_nil_iff_forall_not_mem]

theorem searchFrom_some {r : Re κ} {pre rest : Str} {f : Found κ}
    (h : searchFrom r pre rest = some f) :
    f.before ++ f.text ++ f.st.rest = pre.reverse ++ rest ∧
    ∃ w, rest = w ++ (f.text ++ f.st.rest) ∧ f.before = pre.reverse ++ w ∧
      f.st ∈ run r ⟨w.reverse ++ pre, f.text ++ f.st.rest, []⟩ := by
  induction rest generalizing pre with
  | nil =>
    unfold searchFrom at h
    split at h
    · rename_i t ht
      have hm := List.mem_of_head? ht
      obtain ⟨w, hw, _⟩ := run_consumes hm
      simp at h; subst h
      simp only [List.nil_eq, List.append_eq_nil_iff] at hw
      simp [hw.2, hm]
    · simp at h
  | cons c cs ih =>
    unfold searchFrom at h
    split at h
    · rename_i t ht
      have hm := List.mem_of_head? ht
      obtain ⟨w, hw, _⟩ := run_consumes hm
      simp at h; subst h
      simp only at hw
      have e : (c :: cs).take ((c :: cs).length - t.rest.length) = w := by
        rw [hw]; simp
      simp only [List.length_cons] at e
      simp only [e]
      exact ⟨by simp [hw], [], by simp [hw], by simp, by simpa [hw] using hm⟩
    · simp only at h
      obtain ⟨h1, w, h2, h3, h4⟩ := ih h
      refine ⟨by simpa using h1, c :: w, by simp [h2], by simp [h3], by simpa using h4⟩

end
end Regex
