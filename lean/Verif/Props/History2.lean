import Verif.Props.Options
/-
C101: sequences of assignments to options.
-/
namespace Specfile.Props
open Py Spec Options

section

/-- what reading a value gives that was set -/
def readsBackAs [Uni] : Val → Except Err (Option Val)
  | .int n => .ok (some (.int n))
  | v => (readValue v.text).map some

/-- the assignments one after the other; the first exception ends it -/
def assignOptions (o : Opts) : List (Char × Val) → Except Err Opts
  | [] => .ok o
  | (c, v) :: as =>
    match Options.set o c (some v) with
    | .error e => .error e
    | .ok o' => assignOptions o' as

/-- the options are written without blanks at the end, and blanks do not look like options -/
structure TidyOptions (o : Opts) : Prop where
  sane : ∀ t ∈ o.tokens, t.type = .whitespace → ¬ Dash t
  last : ∀ t, o.tokens.getLast? = some t → t.type ≠ .whitespace

theorem tidy_modify {o : Opts} (h : TidyOptions o) (j : Nat) (f : Token → Token)
    (hf : ∀ t, (f t).type = .whitespace → t.type = .whitespace ∧ (¬ Dash t → ¬ Dash (f t))) :
    TidyOptions { o with tokens := o.tokens.modify j f } := by
  have key : ∀ (i : Nat) t, (o.tokens.modify j f)[i]? = some t → ∃ u, o.tokens[i]? = some u ∧ (t = u ∨ t = f u) := by
    intro i t ht
    rw [List.getElem?_modify] at ht
    cases hu : o.tokens[i]? with
    | none => rw [hu] at ht; simp at ht
    | some u =>
      rw [hu] at ht
      refine ⟨u, rfl, ?_⟩
      by_cases hij : j = i <;> simp [hij] at ht
      · exact .inr ht.symm
      · exact .inl ht.symm
  constructor
  · intro t ht hw
    obtain ⟨i, hi⟩ := List.getElem?_of_mem ht
    obtain ⟨u, hu, rfl | rfl⟩ := key i t hi
    · exact h.sane _ (List.mem_of_getElem? hu) hw
    · exact (hf u hw).2 (h.sane _ (List.mem_of_getElem? hu) (hf u hw).1)
  · intro t ht hw
    simp only [List.getLast?_eq_getElem?, List.length_modify] at ht
    obtain ⟨u, hu, rfl | rfl⟩ := key _ t ht
    · exact h.last _ (by rw [List.getLast?_eq_getElem?]; exact hu) hw
    · exact h.last _ (by rw [List.getLast?_eq_getElem?]; exact hu) (hf u hw).1

theorem valueType_default (v : Val) : valueType v ≠ .whitespace := by
  unfold valueType
  split <;> simp

/-- `set` keeps this -/
theorem tidy_set {o o' : Opts} (h : TidyOptions o) {c : Char} {v : Val} (hv0 : v.text ≠ []) (hv1 : v.text.head? ≠ some '-')
    (hb : ∀ b, v ≠ .bool b) (hset : Options.set o c (some v) = .ok o') : TidyOptions o' ∧ o'.optstring = o.optstring := by
  have hw := set_ok hset
  subst hw
  have hdash : ∀ (x : Str) (ty ty' : TokenType), ¬ Dash ⟨ty, x⟩ → ¬ Dash ⟨ty', x.take 2 ++ v.text⟩ := by
    intro x ty ty' hx ⟨r, hr⟩
    cases x with
    | nil =>
      simp only [List.take_nil, List.nil_append] at hr
      rw [hr] at hv1
      simp at hv1
    | cons d x =>
      simp only [List.take_succ_cons, List.cons_append, List.cons.injEq] at hr
      exact hx ⟨x, by simp [hr.1]⟩
  have hdash2 : ∀ (x : Str) (ty ty' : TokenType), ¬ Dash ⟨ty, x⟩ → ¬ Dash ⟨ty', x.take 2⟩ := by
    intro x ty ty' hx ⟨r, hr⟩
    cases x with
    | nil => simp at hr
    | cons d x =>
      simp only [List.take_succ_cons, List.cons.injEq] at hr
      exact hx ⟨x, by simp [hr.1]⟩
  have hblank : ¬ Dash ⟨.whitespace, [' ']⟩ := by rintro ⟨r, hr⟩; simp at hr
  have app : ∀ r : List Token, (∀ t ∈ r, t.type = .whitespace → ¬ Dash t) → (∀ t, r.getLast? = some t → t.type ≠ .whitespace) →
      r ≠ [] → TidyOptions { o with tokens := o.tokens ++ (if o.tokens.isEmpty then [] else [⟨.whitespace, [' ']⟩]) ++ r } := by
    intro r h1 h2 h3
    constructor
    · intro t ht
      simp only [List.mem_append] at ht
      rcases ht with (ht | ht) | ht
      · exact h.sane t ht
      · intro _
        split at ht
        · simp at ht
        · simp at ht
          subst ht
          exact hblank
      · exact h1 t ht
    · intro t ht
      rw [List.getLast?_append] at ht
      cases hr : r.getLast? with
      | none => exact absurd (List.getLast?_eq_none_iff.1 hr) h3
      | some u =>
        simp only [hr, Option.some_or, Option.some.injEq] at ht
        subst ht
        exact h2 _ hr
  unfold write
  split
  · cases v with
    | bool b => exact absurd rfl (hb b)
    | int n => exact ⟨app [⟨.default, '-' :: c :: intStr n⟩] (by simp) (by simp) (by simp), rfl⟩
    | str s =>
      refine ⟨app [⟨.default, ['-', c]⟩, ⟨.whitespace, [' ']⟩, ⟨valueType (.str s), s⟩] ?_ ?_ (by simp), rfl⟩
      · intro t ht
        simp only [List.mem_cons, List.not_mem_nil, or_false] at ht
        rcases ht with rfl | rfl | rfl
        · simp
        · exact fun _ => hblank
        · exact fun hw => absurd hw (valueType_default _)
      · intro t ht
        simp at ht
        subst ht
        exact valueType_default _
  · rename_i i j _
    have core : ∀ sep : Option Nat, TidyOptions (match sep with
        | some j => { o with tokens := o.tokens.modify j (fun t => ⟨(if needsQuoting v then
              if t.type = .quoted ∨ t.type = .doubleQuoted then t.type else .doubleQuoted
            else .default), v.text⟩) }
        | none =>
          if needsQuoting v then
            let ts := o.tokens.modify i (fun t => { t with value := t.value.take 2 })
            { o with tokens := ts.take (i + 1) ++
              [⟨.whitespace, [' ']⟩, ⟨.doubleQuoted, v.text⟩] ++ ts.drop (i + 1) }
          else
            { o with tokens :=
              o.tokens.modify i (fun t => { t with value := t.value.take 2 ++ v.text }) }) := by
      intro sep
      cases sep with
      | some j =>
        refine tidy_modify h j _ ?_
        intro t ht
        simp only at ht
        split at ht
        · split at ht
          · rename_i hq
            rw [ht] at hq
            simp at hq
          · simp at ht
        · simp at ht
      | none =>
        simp only
        split
        · have hm := tidy_modify h i (fun t => { t with value := t.value.take 2 }) (fun t ht => ⟨ht, hdash2 t.value t.type t.type⟩)
          generalize o.tokens.modify i (fun t => { t with value := t.value.take 2 }) = ts at hm
          constructor
          · intro t ht
            simp only [List.mem_append, List.mem_cons, List.not_mem_nil, or_false] at ht
            rcases ht with (ht | rfl | rfl) | ht
            · exact hm.sane t (List.mem_of_mem_take ht)
            · exact fun _ => hblank
            · simp
            · exact hm.sane t (List.mem_of_mem_drop ht)
          · intro t ht
            rw [List.getLast?_append] at ht
            cases hd : (ts.drop (i + 1)).getLast? with
            | none =>
              rw [hd] at ht
              simp at ht
              subst ht
              simp
            | some u =>
              rw [hd] at ht
              simp at ht
              subst ht
              refine hm.last u ?_
              have := List.take_append_drop (i + 1) ts
              show ts.getLast? = some u
              rw [← this, List.getLast?_append, hd]
              rfl
        · exact tidy_modify h i _ (fun t ht => ⟨ht, hdash t.value t.type t.type⟩)
    cases v with
    | bool b => exact absurd rfl (hb b)
    | int n => exact ⟨core _, by simp only; split <;> (try split) <;> rfl⟩
    | str s => exact ⟨core _, by simp only; split <;> (try split) <;> rfl⟩

/-- C101: options with arguments are set one after the other: all assignments succeed, and each option reads as the value
assigned last, or as before if there is none. -/
theorem C101_options_partial [Uni] (as : List (Char × Val)) : ∀ {o : Opts}, TidyOptions o →
    (∀ a ∈ as, requiresArg o.optstring a.1 = true ∧ a.2.text ≠ [] ∧ a.2.text.head? ≠ some '-' ∧ ∀ b, a.2 ≠ .bool b) →
    ∃ o', assignOptions o as = .ok o' ∧ ∀ d, get o' d =
      match as.reverse.find? (fun a => a.1 == d) with
      | some a => readsBackAs a.2
      | none => get o d := by
  induction as with
  | nil => intro o _ _; exact ⟨o, rfl, fun _ => rfl⟩
  | cons a as ih =>
    obtain ⟨c, v⟩ := a
    intro o h ha
    obtain ⟨h1, h2, h3, h4⟩ := ha (c, v) (by simp)
    cases hs : Options.set o c (some v) with
    | error e =>
      rcases (C29_set_errors o c (some v)).1 ⟨e, hs⟩ with ⟨-, b, hb⟩ | ⟨hr, -⟩
      · simp at hb
        exact absurd hb (h4 b)
      · rw [h1] at hr
        cases hr
    | ok o1 =>
      obtain ⟨t1, t2⟩ := tidy_set h h2 h3 h4 hs
      obtain ⟨o', r1, r2⟩ := ih t1 (by
        intro a ha'
        rw [t2]
        exact ha a (by simp [ha']))
      refine ⟨o', by rw [assignOptions, hs]; exact r1, fun d => ?_⟩
      rw [r2, List.reverse_cons, List.find?_append]
      cases hf : as.reverse.find? (fun a => a.1 == d) with
      | some a => rfl
      | none =>
        simp only [Option.none_or, List.find?_cons, List.find?_nil]
        by_cases hcd : c = d
        · subst hcd
          simp only [beq_self_eq_true]
          rw [C29_set_get_partial h2 h3 hs h4]
          cases v <;> rfl
        · simp only [beq_eq_false_iff_ne.2 hcd]
          exact C29_set_others_partial (Ne.symm hcd) h.sane h.last h2 h3 hs h4

end

section
attribute [local instance] asciiUni

/-- the hypotheses of `C101_options_partial`, for `-n foo -q` -/
example : ∃ o', assignOptions ⟨[⟨.default, s% "-n"⟩, ⟨.whitespace, s% " "⟩, ⟨.default, s% "foo"⟩, ⟨.whitespace, s% " "⟩, ⟨.default, s% "-q"⟩],
      s% "n:qp:", []⟩ [('n', .str (s% "a")), ('p', .int 1), ('n', .str (s% "b c"))] = .ok o' ∧
    get o' 'n' = .ok (some (.str (s% "b c"))) ∧ get o' 'p' = .ok (some (.int 1)) ∧ get o' 'q' = .ok (some (.bool true)) ∧
    tokensStr o'.tokens = s% "-n \"b c\" -q -p1" := by
  obtain ⟨o', h1, h2⟩ := C101_options_partial [('n', .str (s% "a")), ('p', .int 1), ('n', .str (s% "b c"))]
    (o := ⟨[⟨.default, s% "-n"⟩, ⟨.whitespace, s% " "⟩, ⟨.default, s% "foo"⟩, ⟨.whitespace, s% " "⟩, ⟨.default, s% "-q"⟩],
      s% "n:qp:", []⟩)
    ⟨by
      intro t ht hw
      simp only [List.mem_cons, List.not_mem_nil, or_false] at ht
      rcases ht with rfl | rfl | rfl | rfl | rfl <;> simp_all [Dash], by simp⟩
    (by
      intro a ha
      simp only [List.mem_cons, List.not_mem_nil, or_false] at ha
      rcases ha with rfl | rfl | rfl <;> exact ⟨by decide +kernel, by decide +kernel, by decide +kernel, by simp⟩)
  refine ⟨o', h1, ?_, ?_, ?_, ?_⟩
  · rw [h2]; decide +kernel
  · rw [h2]; decide +kernel
  · rw [h2]; decide +kernel
  · cases h1
    decide +kernel

end
end Specfile.Props
