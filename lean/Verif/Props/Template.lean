import Verif.Proof.Template6
/-
C73: rewriting a value so that it reads as requested.
-/
namespace Specfile.Props
open Py Regex Spec Template

/-- what a successful construction is made of -/
theorem construct_cases [Uni] {isIdent : Str → Bool} {ex : Str → Except Err Str} {entities flippable : List Str}
    {value : Str} {B : Built} {flips : List Str} (h : construct isIdent ex entities flippable value = .ok (B, flips)) :
    ∃ nodes f ps ts, ValueParser.parse value = .ok nodes ∧ Good entities flippable f ∧
      Parts ex entities f.toFlip nodes ps ∧ Chosen ex entities (· ∈ flippable) nodes f.toFlip ∧ ps = ts.map part ∧
      ((squash ts = none ∧ B = ⟨.bos ⬝ .eos, escape value, []⟩ ∧ flips = []) ∨
        ∃ ts' b, squash ts = some ts' ∧ build isIdent [] [] 0 ts' = .ok b ∧ B = { b with re := .bos ⬝ b.re } ∧
          flips = f.toFlip) := by
  unfold construct at h
  split at h
  · cases h
  · rename_i nodes hn
    split at h
    · cases h
    · rename_i ps f ho
      split at h
      · cases h
      · rename_i ts ht
        obtain ⟨g1, g2, g3⟩ := openNodes_parts nodes (f := ⟨[], []⟩) ⟨by simp, by simp⟩ ho
        obtain ⟨rs, r1, r2⟩ := openNodes_reached nodes (f := ⟨[], []⟩) ⟨by simp, by simp⟩ ho
        refine ⟨nodes, f, ts.map part, ts, hn, g1, g3 f g1 (.refl f) ts ht, ⟨rs, r2 f g1 (.refl f), fun x => ?_⟩, rfl, ?_⟩
        · constructor
          · intro hx
            have hfl := (g1.allowed x hx).1
            exact ⟨hfl, by simpa using (r1 x hfl).2.1 hx⟩
          · rintro ⟨hfl, hx⟩
            exact (r1 x hfl).2.2 (.inr ⟨by simp, hx⟩)
        split at h
        · rename_i hs
          cases h
          exact .inl ⟨hs, rfl, rfl⟩
        · rename_i ts' hs
          split at h
          · cases h
          · rename_i b hb
            cases h
            exact .inr ⟨ts', b, hs, hb, rfl, rfl⟩

/-- C73 (full claim: whenever the expression matches a requested value, the template filled with the matched texts is a
value that differs from the original one in literal text only, and it reads as requested once the references have the
matched texts as their values). Missing: values in which two references follow each other directly, see
`C73_violation_unseparated`; conditionals on names that are no entities are taken to be read as nothing, see
`C73_violation_conditional`. -/
theorem C73_match_partial [Uni] {isIdent : Str → Bool} {ex : Str → Except Err Str} {entities flippable : List Str}
    {value requested : Str} {B : Built} {flips : List Str} {m : St Str}
    (h : construct isIdent ex entities flippable value = .ok (B, flips)) (hm : rmatch B.re requested = some m) :
    ∃ nodes, ValueParser.parse value = .ok nodes ∧ (∀ x ∈ flips, x ∈ flippable ∧ x ∈ entities) ∧
      ((∃ flips' ps, Parts ex entities flips' nodes ps ∧ Unseparated ps ∧ flips = [] ∧
          (requested = [] ∨ requested = ['\n']) ∧ substitute m.get B.template = .ok value) ∨
        ∃ ps text reading, Parts ex entities flips nodes ps ∧ ¬ Unseparated ps ∧
          Rewritten m.get false ps text reading ∧ substitute m.get B.template = .ok text ∧
          (requested = reading ∨ requested = reading ++ ['\n'])) := by
  obtain ⟨nodes, f, ps, ts, hn, hg, hp, -, rfl, hc⟩ := construct_cases h
  refine ⟨nodes, hn, ?_, ?_⟩
  · rcases hc with ⟨-, -, rfl⟩ | ⟨_, _, _, _, _, rfl⟩
    · simp
    · exact hg.allowed
  · rcases hc with ⟨hs, rfl, rfl⟩ | ⟨ts', b, hs, hb, rfl, rfl⟩
    · left
      refine ⟨f.toFlip, _, hp, squash_none hs, rfl, ?_, substitute_all_escaped value⟩
      have := mem_of_rmatch hm
      rw [mem_cat] at this
      obtain ⟨u, hu, ht⟩ := this
      rw [mem_bos] at hu
      rw [mem_eos] at ht
      rw [hu.1] at ht
      exact ht.2
    · right
      have ht := (parts_tidy (q := fun _ => True) hp (ValueParserTidy hn)).1
      obtain ⟨s1, -, -, -, s5⟩ := squash_some (d := m.get) hs ht
      have := mem_of_rmatch hm
      rw [mem_cat] at this
      obtain ⟨u, hu, ht⟩ := this
      rw [mem_bos] at hu
      obtain ⟨rfl, -⟩ := hu
      obtain ⟨r, txt, b1, b2, b3, b4, -⟩ := build_sound hb (s := init requested)
        ⟨by simp [init, St.get], by simp [init, St.get]⟩ ht
      refine ⟨_, txt, r, hp, s5, (s1 _ _ _).mpr b1, b4, ?_⟩
      simp only [init] at b2
      rcases b3 with b3 | b3
      · left; rw [b2, b3]; simp
      · right; rw [b2, b3]
where
  ValueParserTidy {value : Str} {nodes : List Node} (h : ValueParser.parse value = .ok nodes) :
      TidyNodes (fun _ => True) nodes := parseF_tidy _ (fun _ _ => trivial) h

/-- references are to entities -/
theorem parts_reference {ex : Str → Except Err Str} {entities flips : List Str} {ns : List Node} {ps : List Part}
    (hp : Parts ex entities flips ns ps) {n x : Str} (hmem : Part.reference n x ∈ ps) : n ∈ entities := by
  induction hp with
  | nil => simp at hmem
  | lit _ ih => exact ih (by simpa using hmem)
  | reference h1 h2 _ ih =>
    simp only [List.mem_cons, Part.reference.injEq] at hmem
    rcases hmem with ⟨rfl, _⟩ | hmem
    · exact h2
    · exact ih hmem
  | constant _ _ _ _ ih => exact ih (by simpa using hmem)
  | closed _ _ ih => exact ih (by simpa using hmem)
  | opened _ _ _ _ ihb ih =>
    simp only [List.mem_cons, List.mem_append, reduceCtorEq, false_or] at hmem
    exact hmem.elim ihb ih

/-- an expression built from parts recognises all their readings -/
theorem built_complete [Uni] {isIdent : Str → Bool} {ex : Str → Except Err Str} {entities flips : List Str}
    {value : Str} {nodes : List Node} {ts ts' : List Tok} {b : Built} (hv : '\n' ∉ value)
    (hs : ∀ x ∈ entities, ¬ s% "sub_" <+: x) (hn : ValueParser.parse value = .ok nodes)
    (hp : Parts ex entities flips nodes (ts.map part)) (hsq : squash ts = some ts') (hb : build isIdent [] [] 0 ts' = .ok b)
    {d : Str → Option Str} {text reading : Str} (hr : Rewritten d false (ts.map part) text reading) :
    ∃ m, rmatch (.bos ⬝ b.re) reading = some m := by
  have htn : TidyNodes (fun c => c ≠ '\n') nodes :=
    parseF_tidy _ (fun x hx => by rintro rfl; exact hv hx) hn
  obtain ⟨ht, hl, -⟩ := parts_tidy hp htn
  obtain ⟨s1, -, s3, s4, s5⟩ := squash_some (d := d) hsq ht
  have hlit : ∀ x, Tok.v x ∈ ts' → '\n' ∉ x := by
    intro x hx hh
    exact hl x (List.mem_map.mpr ⟨.v x, s3 x hx, rfl⟩) '\n' hh rfl
  have hgrp : ∀ n x, Tok.g n x ∈ ts' → ¬ IsSub n := by
    intro n x hx
    have hmem : Part.reference n x ∈ ts.map part := List.mem_map.mpr ⟨.g n x, s4 n x hx, rfl⟩
    exact hs n (parts_reference hp hmem)
  obtain ⟨t, ht⟩ := build_complete (s := init reading) (z := []) hb hlit hgrp (by simp) ((s1 _ _ _).mp hr)
    (by simp [init]) (.inl rfl)
  have hmem : t ∈ run (.bos ⬝ b.re) (init reading) := mem_cat.mpr ⟨init reading, mem_bos.mpr ⟨rfl, rfl⟩, ht⟩
  cases hh : rmatch (.bos ⬝ b.re) reading with
  | none => exact absurd hmem (rmatch_none.mp hh t)
  | some m => exact ⟨m, rfl⟩

/-- C73: conversely, a request that some change of literal text and of entities can meet is always recognised, where
macros are enabled and disabled so that the first conditional on each of them succeeds. For values of one line in which no entity has the name of a substitution group. -/
theorem C73_complete_partial [Uni] {isIdent : Str → Bool} {ex : Str → Except Err Str} {entities flippable : List Str}
    {value : Str} {B : Built} {flips : List Str} (hv : '\n' ∉ value) (hs : ∀ x ∈ entities, ¬ s% "sub_" <+: x)
    (h : construct isIdent ex entities flippable value = .ok (B, flips)) :
    ∃ nodes flips' ps, ValueParser.parse value = .ok nodes ∧ Parts ex entities flips' nodes ps ∧
      Chosen ex entities (· ∈ flippable) nodes flips' ∧ (Unseparated ps ∨ (flips' = flips ∧
        ∀ d text reading, Rewritten d false ps text reading → ∃ m, rmatch B.re reading = some m)) := by
  obtain ⟨nodes, f, ps, ts, hn, hg, hp, hch, rfl, hc⟩ := construct_cases h
  refine ⟨nodes, f.toFlip, _, hn, hp, hch, ?_⟩
  rcases hc with ⟨hs, rfl, rfl⟩ | ⟨ts', b, hsq, hb, rfl, rfl⟩
  · exact .inl (squash_none hs)
  · exact .inr ⟨rfl, fun d text reading hr => built_complete hv hs hn hp hsq hb hr⟩

/-- C73: an expression and a template are constructed for every value that can be parsed, if all macros can be expanded and
the names of entities can be names of groups. -/
theorem C73_constructs [Uni] {isIdent : Str → Bool} {ex : Str → Except Err Str} (hex : ∀ s, ∃ r, ex s = .ok r)
    {entities flippable : List Str} (hm : ∀ x ∈ entities, isIdent x = true ∧ ¬ s% "sub_" <+: x) {value : Str}
    {nodes : List Node} (hn : ValueParser.parse value = .ok nodes) :
    ∃ B flips, construct isIdent ex entities flippable value = .ok (B, flips) := construct_ok hex hm hn

section
attribute [local instance] asciiUni

/-- every name is accepted as the name of a group -/
def anyName (_ : Str) : Bool := true

/-- expansions of the examples: `fedora` and `pre` are defined, `%major` is `3` -/
def sampleExpand (s : Str) : Except Err Str :=
  if s = s% "%{?fedora:.f}" then .ok (s% ".f")
  else if s = s% "%{?pre:1}" then .ok (s% "1")
  else if s = s% "%major" then .ok (s% "3")
  else .ok []

/-- two macros and a conditional on an entity, and the request `2.7~rc2` -/
example : ∃ B flips m, construct anyName sampleExpand [s% "minor", s% "pre"] [s% "pre"]
      (s% "1.%{minor}%{?pre:~%{pre}}") = .ok (B, flips) ∧ rmatch B.re (s% "2.7~rc2") = some m ∧
    m.get (s% "minor") = some (s% "7") ∧ m.get (s% "pre") = some (s% "rc2") ∧
    substitute m.get B.template = .ok (s% "2.%{minor}%{?pre:~%{pre}}") ∧ flips = [] := by
  refine ⟨_, _, _, rfl, rfl, ?_, ?_, ?_, rfl⟩ <;> decide +kernel

/-- an entity that has to be enabled -/
example : ∃ B flips m, construct anyName sampleExpand [s% "beta"] [s% "beta"]
      (s% "1%{?beta:~b%{beta}}") = .ok (B, flips) ∧ rmatch B.re (s% "4~b5") = some m ∧
    substitute m.get B.template = .ok (s% "4%{?beta:~b%{beta}}") ∧ flips = [s% "beta"] := by
  refine ⟨_, _, _, rfl, rfl, ?_, rfl⟩; decide +kernel

/-- the hypotheses of `C73_constructs` hold for it -/
example : (∀ s, ∃ r, sampleExpand s = .ok r) ∧
    (∀ x ∈ [s% "minor", s% "pre"], anyName x = true ∧ ¬ s% "sub_" <+: x) ∧
    (ValueParser.parse (s% "1.%{minor}%{?pre:~%{pre}}")).isOk = true := by
  refine ⟨fun s => ?_, by decide, by decide +kernel⟩
  unfold sampleExpand
  repeat' split
  all_goals exact ⟨_, rfl⟩

/-- a value of one line without such names, for the converse -/
example : '\n' ∉ s% "1.%{minor}%{?pre:~%{pre}}" ∧ ∀ x ∈ [s% "minor", s% "pre"], ¬ s% "sub_" <+: x := by decide +kernel

/-- The full claim fails: for two references in a row an empty request is met by leaving everything as it is. -/
theorem C73_violation_unseparated : ∃ B flips m,
    construct anyName sampleExpand [s% "aa", s% "bb"] [] (s% "%{aa}%{bb}") = .ok (B, flips) ∧
    rmatch B.re [] = some m ∧ m.get (s% "aa") = none ∧ m.get (s% "bb") = none ∧
    substitute m.get B.template = .ok (s% "%{aa}%{bb}") := by
  refine ⟨_, _, _, rfl, rfl, ?_, ?_, ?_⟩ <;> decide +kernel

/-- The full claim fails: a conditional on a macro that is no entity is not read as nothing, but it is kept next to the
complete requested value. -/
theorem C73_violation_conditional : ∃ B flips m,
    construct anyName sampleExpand [] [] (s% "1%{?fedora:.f}") = .ok (B, flips) ∧
    rmatch B.re (s% "2") = some m ∧ substitute m.get B.template = .ok (s% "2" ++ s% "%{?fedora:.f}") ∧
    sampleExpand (s% "%{?fedora:.f}") = .ok (s% ".f") := by
  refine ⟨_, _, _, rfl, rfl, ?_, ?_⟩ <;> decide +kernel

/-- The full claim fails when the result is parsed again: a reference without braces swallows the new text after it. -/
theorem C73_violation_merge : ∃ B flips m,
    construct anyName sampleExpand [] [] (s% "%major.5") = .ok (B, flips) ∧
    rmatch B.re (s% "37") = some m ∧ substitute m.get B.template = .ok (s% "%major7") ∧
    ValueParser.parse (s% "%major7") = .ok [.sub [] (s% "major7")] := by
  refine ⟨_, _, _, rfl, rfl, ?_, ?_⟩
  · decide +kernel
  · rfl

end
end Specfile.Props
