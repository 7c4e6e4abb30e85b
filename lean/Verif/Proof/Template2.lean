import Verif.Proof.Template
/-
Helper lemmas for C73: the constructed expression matches exactly the readings of rewritten values.
-/
namespace Specfile.Template
open Py Regex Spec

/-- tokens as parts -/
def part : Tok → Part
  | .c r t => .constant r t
  | .v s => .literal s
  | .g n t => .reference n t

theorem groupNear_eq (ts : List Tok) : groupNear ts = referenceFirst (ts.map part) := by
  induction ts with
  | nil => rfl
  | cons t ts ih =>
    cases t with
    | c r s => simp only [groupNear, List.map_cons, part, referenceFirst, ih]; cases r <;> rfl
    | v s => rfl
    | g n s => rfl

theorem mem_bref {k : Str} {s t : St Str} : t ∈ run (.bref k) s ↔
    ∃ w r, s.get k = some w ∧ s.rest = w ++ r ∧ t = s.adv w r := by
  simp only [run]
  cases hg : s.get k with
  | none => simp
  | some w =>
    simp only [Option.some.injEq, exists_and_left, exists_eq_left']
    split
    · rename_i hp
      rw [List.isPrefixOf_iff_prefix] at hp
      obtain ⟨u, hu⟩ := hp
      simp only [List.mem_singleton]
      constructor
      · rintro rfl; exact ⟨u, hu.symm, by simp [← hu]⟩
      · rintro ⟨r, hr, rfl⟩; simp [hr]
    · rename_i hp
      simp only [List.not_mem_nil, false_iff, not_exists, not_and]
      intro r hr
      exact absurd (List.isPrefixOf_iff_prefix.mpr ⟨r, hr.symm⟩) hp

theorem mem_grp_dots {k : Str} {g : Bool} {s t : St Str} : t ∈ run (.grp k (.rep dot 1 g)) s ↔
    ∃ w r, s.rest = w ++ r ∧ w ≠ [] ∧ '\n' ∉ w ∧ t = ⟨w.reverse ++ s.pre, r, (k, w) :: s.caps⟩ := by
  rw [mem_grp]
  constructor
  · rintro ⟨u, w, hu, hw, rfl⟩
    rw [mem_rep] at hu
    obtain ⟨m, r, e1, hm, hl, rfl⟩ := hu
    have : w = m := by
      have := hw.symm.trans e1
      simp only [St.adv] at this
      exact List.append_cancel_right this
    subst this
    refine ⟨w, r, e1, by rintro rfl; simp at hl, fun hh => ?_, rfl⟩
    have := List.all_eq_true.mp hm _ hh
    simp [dot] at this
  · rintro ⟨w, r, e1, hne, hn, rfl⟩
    refine ⟨s.adv w r, w, ?_, e1, rfl⟩
    rw [mem_rep]
    refine ⟨w, r, e1, ?_, ?_, rfl⟩
    · rw [List.all_eq_true]
      intro x hx
      simp only [dot, bne_iff_ne]
      rintro rfl
      exact hn hx
    · cases w with
      | nil => exact absurd rfl hne
      | cons _ _ => simp

theorem adv_get (s : St Str) (w r : Str) (x : Str) : (s.adv w r).get x = s.get x := rfl

/-- the captured texts of a state -/
def Captures (s : St Str) (named : List Str) : Prop :=
  (∀ x, x ∈ named ↔ (s.get x).isSome = true) ∧ ∀ x w, s.get x = some w → w ≠ [] ∧ '\n' ∉ w

theorem Captures.adv {s : St Str} {named : List Str} (h : Captures s named) (w r : Str) :
    Captures (s.adv w r) named := h

theorem Captures.cons {s : St Str} {named : List Str} (h : Captures s named) {k w : Str} (hw : w ≠ [])
    (hn : '\n' ∉ w) (p r : Str) : Captures ⟨p, r, (k, w) :: s.caps⟩ (k :: named) := by
  constructor
  · intro x
    by_cases hx : x = k
    · subst hx; simp [get_cons]
    · rw [get_cons_ne (fun e => hx e.symm), List.mem_cons]
      simp only [hx, false_or]
      exact h.1 x
  · intro x v hv
    by_cases hx : x = k
    · subst hx
      rw [get_cons] at hv
      cases hv
      exact ⟨hw, hn⟩
    · rw [get_cons_ne (fun e => hx e.symm)] at hv
      exact h.2 x v hv

theorem build_sound [Uni] {isIdent : Str → Bool} : ∀ {ts before : List Tok} {named : List Str} {sub : Nat} {B : Built}
    {s t : St Str}, build isIdent before named sub ts = .ok B → Captures s named → t ∈ run B.re s →
    ∃ r txt, Rewritten t.get (groupNear before) (ts.map part) txt r ∧ s.rest = r ++ t.rest ∧
      (t.rest = [] ∨ t.rest = ['\n']) ∧ substitute t.get B.template = .ok txt ∧
      ∀ x v, s.get x = some v → t.get x = some v := by
  intro ts
  induction ts with
  | nil =>
    intro before named sub B s t hb hc ht
    simp only [build] at hb
    cases hb
    rw [mem_eos] at ht
    obtain ⟨rfl, h⟩ := ht
    exact ⟨[], [], .nil, rfl, h, rfl, fun _ _ h => h⟩
  | cons tok ts ih =>
    intro before named sub B s t hb hc ht
    cases tok with
    | c r x =>
      simp only [build] at hb
      split at hb
      · cases hb
      · rename_i b hb'
        cases hb
        rw [mem_cat] at ht
        obtain ⟨u, hu, ht⟩ := ht
        rw [mem_lit] at hu
        obtain ⟨r', er, rfl⟩ := hu
        obtain ⟨r2, txt, h1, h2, h3, h4, h5⟩ := ih hb' (hc.adv r r') ht
        refine ⟨r ++ r2, x ++ txt, ?_, ?_, h3, ?_, h5⟩
        · simp only [List.map_cons, part]
          refine .constant ?_
          simp only [groupNear] at h1
          cases r with
          | nil => simpa using h1
          | cons _ _ => simpa using h1
        · rw [er]; simp only [St.adv] at h2; rw [h2]; simp
        · simp only; rw [substitute_escape, h4]; rfl
    | g n x =>
      simp only [build] at hb
      split at hb
      · rename_i hn
        split at hb
        · cases hb
        · rename_i b hb'
          cases hb
          rw [mem_cat] at ht
          obtain ⟨u, hu, ht⟩ := ht
          rw [mem_bref] at hu
          obtain ⟨w, r', hw, er, rfl⟩ := hu
          obtain ⟨r2, txt, h1, h2, h3, h4, h5⟩ := ih hb' (hc.adv w r') ht
          refine ⟨w ++ r2, x ++ txt, ?_, ?_, h3, ?_, h5⟩
          · simp only [List.map_cons, part]
            have := hc.2 n w hw
            exact .reference (h5 n w hw) this.1 this.2 h1
          · rw [er]; simp only [St.adv] at h2; rw [h2]; simp
          · simp only; rw [substitute_escape, h4]; rfl
      · rename_i hn
        split at hb
        · split at hb
          · cases hb
          · rename_i b hb'
            cases hb
            rw [mem_cat] at ht
            obtain ⟨u, hu, ht⟩ := ht
            rw [plus, mem_grp_dots] at hu
            obtain ⟨w, r', er, hw1, hw2, rfl⟩ := hu
            obtain ⟨r2, txt, h1, h2, h3, h4, h5⟩ := ih hb' (hc.cons hw1 hw2 _ _) ht
            refine ⟨w ++ r2, x ++ txt, ?_, ?_, h3, ?_, ?_⟩
            · simp only [List.map_cons, part]
              exact .reference (h5 n w (get_cons ..)) hw1 hw2 h1
            · rw [er]; simp only at h2; rw [h2]; simp
            · simp only; rw [substitute_escape, h4]; rfl
            · intro y v hy
              refine h5 y v ?_
              have hyn : y ≠ n := by
                rintro rfl
                apply hn
                have := (hc.1 y).mpr (by simp [hy])
                simpa using this
              rw [get_cons_ne (fun e => hyn e.symm)]
              exact hy
        · cases hb
    | v x =>
      simp only [build] at hb
      split at hb
      · rename_i hm
        split at hb
        · cases hb
        · rename_i b hb'
          cases hb
          rw [mem_cat] at ht
          obtain ⟨u, hu, ht⟩ := ht
          rw [mem_lit] at hu
          obtain ⟨r', er, rfl⟩ := hu
          obtain ⟨r2, txt, h1, h2, h3, h4, h5⟩ := ih hb' (hc.adv x r') ht
          refine ⟨x ++ r2, x ++ txt, ?_, ?_, h3, ?_, h5⟩
          · simp only [List.map_cons, part]
            refine .literal (.kept ?_) h1
            intro p m q hcut
            rw [← groupNear_eq] at hcut
            obtain ⟨t', ht'⟩ := varRe_of_cut hcut
            exact rmatch_none.mp hm t' ht'
          · rw [er]; simp only [St.adv] at h2; rw [h2]; simp
          · simp only; rw [substitute_escape, h4]; rfl
      · rename_i m hm
        have hcut := mem_varRe (mem_of_rmatch hm)
        rw [groupNear_eq ts] at hcut
        split at hb
        · rename_i he
          have he : (m.get 2).getD [] = [] := by simpa using he
          split at hb
          · cases hb
          · rename_i b hb'
            cases hb
            rw [he] at hcut
            rw [mem_cat] at ht
            obtain ⟨u, hu, ht⟩ := ht
            rw [mem_cat] at ht
            obtain ⟨u2, hu2, ht⟩ := ht
            rw [mem_lit] at hu
            obtain ⟨r', er, rfl⟩ := hu
            rw [mem_lit] at hu2
            obtain ⟨r'', er2, rfl⟩ := hu2
            obtain ⟨r2, txt, h1, h2, h3, h4, h5⟩ := ih hb' ((hc.adv _ r').adv _ r'') ht
            refine ⟨((m.get 1).getD [] ++ (m.get 3).getD []) ++ r2, ((m.get 1).getD [] ++ (m.get 3).getD []) ++ txt,
              ?_, ?_, h3, ?_, h5⟩
            · simp only [List.map_cons, part]
              exact .literal (.delimiters hcut) h1
            · rw [er]
              simp only [St.adv] at h2 er2
              rw [er2, h2]; simp
            · simp only
              rw [substitute_escape, substitute_escape, h4]
              simp [Except.map]
        · rename_i he
          have he : (m.get 2).getD [] ≠ [] := by simpa using he
          split at hb
          · cases hb
          · rename_i hn
            split at hb
            · cases hb
            · rename_i b hb'
              cases hb
              rw [mem_cat] at ht
              obtain ⟨u, hu, ht⟩ := ht
              rw [mem_cat] at ht
              obtain ⟨u2, hu2, ht⟩ := ht
              rw [mem_cat] at ht
              obtain ⟨u3, hu3, ht⟩ := ht
              rw [mem_lit] at hu
              obtain ⟨r', er, rfl⟩ := hu
              rw [plusL, mem_grp_dots] at hu2
              obtain ⟨w, r1, er1, hw1, hw2, rfl⟩ := hu2
              rw [mem_lit] at hu3
              obtain ⟨r'', er2, rfl⟩ := hu3
              obtain ⟨r2, txt, h1, h2, h3, h4, h5⟩ := ih hb'
                ((Captures.cons (hc.adv _ r') hw1 hw2 _ _).adv _ r'') ht
              refine ⟨((m.get 1).getD [] ++ (w ++ (m.get 3).getD [])) ++ r2,
                ((m.get 1).getD [] ++ (w ++ (m.get 3).getD [])) ++ txt, ?_, ?_, h3, ?_, ?_⟩
              · simp only [List.map_cons, part]
                exact .literal (.replaced hcut he hw1 hw2) h1
              · rw [er]
                simp only [St.adv] at h2 er2 er1
                rw [er1, er2, h2]; simp
              · simp only
                rw [substitute_escape, substitute_sub (v := w) (h5 _ _ (get_cons ..)), substitute_escape, h4]
                simp [Except.map]
              · intro y v hy
                refine h5 y v ?_
                have hyn : y ≠ subName sub := by
                  rintro rfl
                  apply hn
                  have := (hc.1 _).mpr (by rw [hy]; rfl)
                  simpa using this
                rw [adv_get, get_cons_ne (fun e => hyn e.symm)]
                exact hy

/-- the prefix of the names of substitution groups -/
def IsSub (x : Str) : Prop := s% "sub_" <+: x

theorem isSub_subName (n : Nat) : IsSub (subName n) := ⟨_, rfl⟩

theorem build_complete [Uni] {isIdent : Str → Bool} {d : Str → Option Str} : ∀ {ts before : List Tok} {named : List Str}
    {sub : Nat} {B : Built} {s : St Str} {txt r z : Str}, build isIdent before named sub ts = .ok B →
    (∀ x, Tok.v x ∈ ts → '\n' ∉ x) → (∀ n x, Tok.g n x ∈ ts → ¬ IsSub n) →
    (∀ x ∈ named, IsSub x ∨ s.get x = d x) →
    Rewritten d (groupNear before) (ts.map part) txt r → s.rest = r ++ z → (z = [] ∨ z = ['\n']) →
    ∃ t, t ∈ run B.re s := by
  intro ts
  induction ts with
  | nil =>
    intro before named sub B s txt r z hb hl hg hn hr hs hz
    simp only [build] at hb
    cases hb
    simp only [List.map_nil] at hr
    cases hr
    exact ⟨s, mem_eos.mpr ⟨rfl, by simpa [hs] using hz⟩⟩
  | cons tok ts ih =>
    intro before named sub B s txt r z hb hl hg hn hr hs hz
    have hl' : ∀ x, Tok.v x ∈ ts → '\n' ∉ x := fun x hx => hl x (List.mem_cons_of_mem _ hx)
    have hg' : ∀ n x, Tok.g n x ∈ ts → ¬ IsSub n := fun n x hx => hg n x (List.mem_cons_of_mem _ hx)
    cases tok with
    | c r0 x =>
      simp only [build] at hb
      split at hb
      · cases hb
      · rename_i b hb'
        cases hb
        simp only [List.map_cons, part] at hr
        cases hr with
        | constant hr =>
          rename_i t1 r1
          have hr' : Rewritten d (groupNear (.c r0 x :: before)) (ts.map part) t1 r1 := by
            simp only [groupNear]
            cases r0 with
            | nil => simpa using hr
            | cons _ _ => simpa using hr
          obtain ⟨t, ht⟩ := ih (s := s.adv r0 (r1 ++ z)) hb' hl' hg' hn hr' rfl hz
          exact ⟨t, mem_cat.mpr ⟨_, mem_lit.mpr ⟨r1 ++ z, by rw [hs]; simp, rfl⟩, ht⟩⟩
    | g n x =>
      simp only [List.map_cons, part] at hr
      cases hr with
      | reference hd hw1 hw2 hr =>
        rename_i w t1 r1
        simp only [build] at hb
        split at hb
        · rename_i hmem
          split at hb
          · cases hb
          · rename_i b hb'
            cases hb
            have hget : s.get n = some w := by
              rcases hn n (by simpa using hmem) with h | h
              · exact absurd h (hg n x List.mem_cons_self)
              · rw [h, hd]
            obtain ⟨t, ht⟩ := ih (s := s.adv w (r1 ++ z)) hb' hl' hg' hn hr rfl hz
            exact ⟨t, mem_cat.mpr ⟨_, mem_bref.mpr ⟨w, r1 ++ z, hget, by rw [hs]; simp, rfl⟩, ht⟩⟩
        · split at hb
          · split at hb
            · cases hb
            · rename_i b hb'
              cases hb
              obtain ⟨t, ht⟩ := ih (s := ⟨w.reverse ++ s.pre, r1 ++ z, (n, w) :: s.caps⟩) hb' hl' hg'
                (by
                  intro y hy
                  by_cases hyn : y = n
                  · subst hyn; right; rw [get_cons, hd]
                  · rw [get_cons_ne (fun e => hyn e.symm)]
                    exact hn y (by simpa [hyn] using hy)) hr rfl hz
              exact ⟨t, mem_cat.mpr ⟨_, by rw [plus, mem_grp_dots]; exact ⟨w, r1 ++ z, by rw [hs]; simp, hw1, hw2, rfl⟩, ht⟩⟩
          · cases hb
    | v x =>
      simp only [List.map_cons, part] at hr
      cases hr with
      | literal hch hr =>
        rename_i w t1 r1
        rw [← groupNear_eq] at hch
        simp only [build] at hb
        split at hb
        · rename_i hm
          split at hb
          · cases hb
          · rename_i b hb'
            cases hb
            have hw : w = x := by
              have no : ∀ p m q, ¬ Cut (groupNear before) (groupNear ts) x p m q := by
                intro p m q hcut
                obtain ⟨t', ht'⟩ := varRe_of_cut hcut
                exact rmatch_none.mp hm t' ht'
              cases hch with
              | kept _ => rfl
              | delimiters h => exact absurd h (no _ _ _)
              | replaced h _ _ _ => exact absurd h (no _ _ _)
            subst hw
            obtain ⟨t, ht⟩ := ih (s := s.adv w (r1 ++ z)) hb' hl' hg' hn hr rfl hz
            exact ⟨t, mem_cat.mpr ⟨_, mem_lit.mpr ⟨r1 ++ z, by rw [hs]; simp, rfl⟩, ht⟩⟩
        · rename_i m hm
          have hcut := mem_varRe (mem_of_rmatch hm)
          have hx := hl x List.mem_cons_self
          split at hb
          · rename_i he
            have he : (m.get 2).getD [] = [] := by simpa using he
            split at hb
            · cases hb
            · rename_i b hb'
              cases hb
              have hw : w = (m.get 1).getD [] ++ (m.get 3).getD [] := by
                cases hch with
                | kept no => exact absurd hcut (no _ _ _)
                | delimiters h => have := cut_unique hx h hcut; rw [this.1, this.2.2]
                | replaced h hne _ _ => have := cut_unique hx h hcut; rw [he] at this; exact absurd this.2.1 hne
              subst hw
              obtain ⟨t, ht⟩ := ih (s := (s.adv ((m.get 1).getD []) ((m.get 3).getD [] ++ (r1 ++ z))).adv
                ((m.get 3).getD []) (r1 ++ z)) hb' hl' hg' hn hr rfl hz
              exact ⟨t, mem_cat.mpr ⟨_, mem_lit.mpr ⟨_, by rw [hs]; simp, rfl⟩,
                mem_cat.mpr ⟨_, mem_lit.mpr ⟨_, rfl, rfl⟩, ht⟩⟩⟩
          · rename_i he
            have he : (m.get 2).getD [] ≠ [] := by simpa using he
            split at hb
            · cases hb
            · split at hb
              · cases hb
              · rename_i b hb'
                cases hb
                obtain ⟨w', rfl, hw1, hw2⟩ : ∃ w', w = (m.get 1).getD [] ++ (w' ++ (m.get 3).getD []) ∧ w' ≠ [] ∧ '\n' ∉ w' := by
                  cases hch with
                  | kept no => exact absurd hcut (no _ _ _)
                  | delimiters h => have := cut_unique hx h hcut; exact absurd this.2.1.symm he
                  | replaced h _ h1 h2 =>
                    have := cut_unique hx h hcut
                    exact ⟨_, by rw [this.1, this.2.2], h1, h2⟩
                obtain ⟨t, ht⟩ := ih (s := (⟨w'.reverse ++ (((m.get 1).getD []).reverse ++ s.pre), (m.get 3).getD [] ++ (r1 ++ z),
                    (subName sub, w') :: s.caps⟩ : St Str).adv ((m.get 3).getD []) (r1 ++ z)) hb' hl' hg'
                  (by
                    intro y hy
                    by_cases hyn : y = subName sub
                    · subst hyn; left; exact isSub_subName sub
                    · rw [adv_get, get_cons_ne (fun e => hyn e.symm)]
                      exact hn y (by simpa [hyn] using hy)) hr rfl hz
                refine ⟨t, mem_cat.mpr ⟨s.adv ((m.get 1).getD []) (w' ++ ((m.get 3).getD [] ++ (r1 ++ z))),
                  mem_lit.mpr ⟨_, by rw [hs]; simp, rfl⟩, mem_cat.mpr ⟨_, ?_, mem_cat.mpr ⟨_, mem_lit.mpr ⟨_, rfl, rfl⟩, ht⟩⟩⟩⟩
                rw [plusL, mem_grp_dots]
                exact ⟨w', _, rfl, hw1, hw2, rfl⟩

end Specfile.Template
