import Verif.Proof.Heap3
/-
Objects with identity: whole containers.
-/
namespace Specfile.Heap
open Py Spec

/-- tags that have no object in common, all in a range of addresses -/
structure Block (n : Nat) (h : Heap) (as : List Nat) : Prop where
  tag : as.Nodup ∧ ∀ a ∈ as, n ≤ a ∧ a < h.next
  comments : (as.map (fun t => (h.tag t).comments)).Nodup ∧
    ∀ a ∈ as.map (fun t => (h.tag t).comments), n ≤ a ∧ a < h.next
  lines : (as.map (precedingOf h)).Nodup ∧ ∀ a ∈ as.map (precedingOf h), n ≤ a ∧ a < h.next
  texts : ((as.map (fun t => (h.tag t).comments)).flatMap (fun c => (h.comments c).data)).Nodup ∧
    ∀ a ∈ (as.map (fun t => (h.tag t).comments)).flatMap (fun c => (h.comments c).data), n ≤ a ∧ a < h.next

theorem cons_range {n m k : Nat} {x : Nat} {l : List Nat} (hx : n ≤ x ∧ x < m) (_hn : n ≤ m) (hm : m ≤ k)
    (hl : l.Nodup ∧ ∀ a ∈ l, m ≤ a ∧ a < k) : (x :: l).Nodup ∧ ∀ a ∈ x :: l, n ≤ a ∧ a < k := by
  refine ⟨List.nodup_cons.mpr ⟨fun h => by have := hl.2 _ h; omega, hl.1⟩, fun a ha => ?_⟩
  rcases List.mem_cons.mp ha with rfl | ha
  · omega
  · have := hl.2 a ha; omega

theorem append_range {n m k : Nat} {l' l : List Nat} (hx : l'.Nodup ∧ ∀ a ∈ l', n ≤ a ∧ a < m) (hn : n ≤ m) (hm : m ≤ k)
    (hl : l.Nodup ∧ ∀ a ∈ l, m ≤ a ∧ a < k) : (l' ++ l).Nodup ∧ ∀ a ∈ l' ++ l, n ≤ a ∧ a < k := by
  refine ⟨List.nodup_append.mpr ⟨hx.1, hl.1, fun a ha b hb e => ?_⟩, fun a ha => ?_⟩
  · have := hx.2 a ha; have := hl.2 b hb; omega
  · rcases List.mem_append.mp ha with ha | ha
    · have := hx.2 a ha; omega
    · have := hl.2 a ha; omega

theorem buildAll_ok (ts : List Tag) : ∀ h : Heap, Grows h (buildAll h ts).1 ∧
    Block h.next (buildAll h ts).1 (buildAll h ts).2 ∧
    (buildAll h ts).2.map (readTag (buildAll h ts).1) = ts := by
  induction ts with
  | nil => exact fun h => ⟨.refl h, ⟨⟨.nil, by simp [buildAll]⟩, ⟨.nil, by simp [buildAll]⟩, ⟨.nil, by simp [buildAll]⟩,
      ⟨.nil, by simp [buildAll]⟩⟩, rfl⟩
  | cons t ts ih =>
    intro h
    rw [show buildAll h (t :: ts) = ((buildAll (buildTag h t).1 ts).1,
      (buildTag h t).2 :: (buildAll (buildTag h t).1 ts).2) from rfl]
    have h1 := buildTag_ok h t
    revert h1
    generalize buildTag h t = x
    obtain ⟨h1, a⟩ := x
    rintro ⟨g, w, e⟩
    simp only at g w e
    have h2 := ih h1
    simp only
    revert h2
    generalize buildAll h1 ts = y
    obtain ⟨h2, as⟩ := y
    rintro ⟨g', b, e'⟩
    simp only at g' b e'
    obtain ⟨w', f1, f2, f3, f4⟩ := w.keep g'
    refine ⟨g.trans g', ⟨?_, ?_, ?_, ?_⟩, ?_⟩
    · exact cons_range w.tag g.grow g'.grow b.tag
    · rw [List.map_cons, f2]; exact cons_range w.comments g.grow g'.grow b.comments
    · rw [List.map_cons, f3]; exact cons_range w.lines g.grow g'.grow b.lines
    · rw [List.map_cons, List.flatMap_cons, f4]; exact append_range w.texts g.grow g'.grow b.texts
    · rw [List.map_cons, f1, e, e']

/-- parsing makes a container with new objects only -/
theorem build_own (h : Heap) (m : Tags) : Grows h (build h m).1 ∧
    readTags (build h m).1 (build h m).2 = m ∧ Own (build h m).1 (build h m).2 ∧
    ∀ r', Own h r' → Apart (build h m).1 (build h m).2 r' := by
  rw [show build h m = newTags (buildAll h m.data).1 (buildAll h m.data).2 m.remainder from rfl]
  have h1 := buildAll_ok m.data h
  revert h1
  generalize buildAll h m.data = x
  obtain ⟨h1, as⟩ := x
  rintro ⟨g, b, e⟩
  simp only at g b e ⊢
  have et : ((newTags h1 as m.remainder).1.tags (newTags h1 as m.remainder).2) = ⟨as, h1.next⟩ := by
    simp [newTags]
  have g1 : Grows h1 (newTags h1 as m.remainder).1 :=
    ⟨Nat.le_succ _, fun a ha => upd_ne _ _ (by omega), fun _ _ => rfl, fun _ _ => rfl,
     fun a ha => upd_ne _ _ (by omega), fun _ _ => rfl⟩
  have en : (newTags h1 as m.remainder).1.next = h1.next + 1 := rfl
  have er : (newTags h1 as m.remainder).2 = h1.next := rfl
  have eg : (newTags h1 as m.remainder).1.tag = h1.tag := rfl
  have ec : (newTags h1 as m.remainder).1.comments = h1.comments := rfl
  have ex : (newTags h1 as m.remainder).1.comment = h1.comment := rfl
  have el : (newTags h1 as m.remainder).1.lines h1.next = m.remainder := by simp [newTags]
  have k1 : commentsOf (newTags h1 as m.remainder).1 (newTags h1 as m.remainder).2 =
      as.map (fun t => (h1.tag t).comments) := by unfold commentsOf; rw [et, eg]
  have k2 : linesOf (newTags h1 as m.remainder).1 (newTags h1 as m.remainder).2 =
      h1.next :: as.map (precedingOf h1) := by rw [linesOf_eq, et]; rfl
  have k3 : textsOf (newTags h1 as m.remainder).1 (newTags h1 as m.remainder).2 =
      (as.map (fun t => (h1.tag t).comments)).flatMap (fun c => (h1.comments c).data) := by
    unfold textsOf; rw [k1, ec]
  have gg := g.trans g1
  have hg := g.grow
  refine ⟨gg, ?_, ⟨by omega, ?_, ?_, ?_, ?_⟩, fun r' o' => ⟨?_, ?_, ?_, ?_, ?_⟩⟩
  · unfold readTags
    rw [et]
    simp only [el]
    rw [map_congr' (g := readTag h1), e]
    intro t ht
    unfold readTag readComments
    rw [eg, ec, ex]
    congr 2
    refine g1.lines _ (b.lines.2 _ (List.mem_map.mpr ⟨t, ht, rfl⟩)).2
  · rw [et]; exact ⟨b.tag.1, fun a ha => by have := (b.tag.2 a ha).2; omega⟩
  · rw [k1]; exact ⟨b.comments.1, fun a ha => by have := (b.comments.2 a ha).2; omega⟩
  · rw [k2]
    refine ⟨List.nodup_cons.mpr ⟨fun hm => by have := (b.lines.2 _ hm).2; omega, b.lines.1⟩, fun a ha => ?_⟩
    rcases List.mem_cons.mp ha with rfl | ha
    · omega
    · have := (b.lines.2 a ha).2; omega
  · rw [k3]; exact ⟨b.texts.1, fun a ha => by have := (b.texts.2 a ha).2; omega⟩
  · have := o'.self; omega
  · rw [et, (gg.untouched o').tags]
    intro a ha hm
    have := (b.tag.2 a ha).1; have := o'.tag.2 a hm; omega
  · rw [k1, (gg.untouched o').commentsOf]
    intro a ha hm
    have := (b.comments.2 a ha).1; have := o'.comments.2 a hm; omega
  · rw [k2, (gg.untouched o').linesOf]
    intro a ha hm
    have h2 := o'.lines.2 a hm
    rcases List.mem_cons.mp ha with rfl | ha
    · omega
    · have := (b.lines.2 a ha).1; omega
  · rw [k3, (gg.untouched o').textsOf]
    intro a ha hm
    have := (b.texts.2 a ha).1; have := o'.texts.2 a hm; omega

/-- all containers of a program have their own objects -/
structure Sound (s : Heap × List Nat) : Prop where
  own : ∀ r ∈ s.2, Own s.1 r
  nodup : s.2.Nodup
  apart : ∀ r ∈ s.2, ∀ r' ∈ s.2, r ≠ r' → Apart s.1 r r'

theorem Sound.add {h h' : Heap} {rs : List Nat} {r : Nat} (s : Sound (h, rs)) (g : Grows h h') (o : Own h' r)
    (a : ∀ r', Own h r' → Apart h' r r') :
    Sound (h', rs ++ [r]) ∧ (rs ++ [r]).map (readTags h') = rs.map (readTags h) ++ [readTags h' r] := by
  have ho : ∀ x ∈ rs, Own h' x := fun x hx => (g.untouched (s.own x hx)).own g.grow (s.own x hx)
  refine ⟨⟨?_, ?_, ?_⟩, ?_⟩
  · intro x hx
    rcases List.mem_append.mp hx with hx | hx
    · exact ho x hx
    · rw [List.mem_singleton.mp hx]; exact o
  · refine List.nodup_append.mpr ⟨s.nodup, by simp, fun x hx y hy e => ?_⟩
    rw [List.mem_singleton.mp hy] at e
    exact (a x (s.own x hx)).self e.symm
  · intro x hx y hy e
    rcases List.mem_append.mp hx with hx | hx
    · rcases List.mem_append.mp hy with hy | hy
      · exact (s.apart x hx y hy e).keep (g.untouched (s.own x hx)) (g.untouched (s.own y hy))
      · rw [List.mem_singleton.mp hy]; exact (a x (s.own x hx)).symm
    · rw [List.mem_singleton.mp hx] at e ⊢
      rcases List.mem_append.mp hy with hy | hy
      · exact a y (s.own y hy)
      · exact absurd (List.mem_singleton.mp hy).symm e
  · rw [List.map_append]
    congr 1
    exact map_congr' fun x hx => (g.untouched (s.own x hx)).read

theorem execute_ok {s : Heap × List Nat} (hs : Sound s) (c : Command) :
    Sound (execute s c).1 ∧ (execute s c).1.2.map (readTags (execute s c).1.1) =
      (evaluate (s.2.map (readTags s.1)) c).1 ∧ (execute s c).2 = (evaluate (s.2.map (readTags s.1)) c).2 := by
  obtain ⟨h, rs⟩ := s
  cases c with
  | parse m =>
    obtain ⟨g, e, o, a⟩ := build_own h m
    have := hs.add g o a
    rw [e] at this
    exact ⟨this.1, this.2, rfl⟩
  | deepcopy x =>
    simp only [execute, evaluate, List.getElem?_map]
    cases hx : rs[x]? with
    | none => exact ⟨hs, rfl, rfl⟩
    | some r =>
      obtain ⟨e, o, a⟩ := deepcopy_ok (hs.own r (List.mem_of_getElem? hx))
      have := hs.add (deepcopy_grows h r) o a
      rw [e] at this
      exact ⟨this.1, this.2, rfl⟩
  | edit x op =>
    simp only [execute, evaluate, List.getElem?_map]
    cases hx : rs[x]? with
    | none => exact ⟨hs, rfl, rfl⟩
    | some r =>
      have hr := List.mem_of_getElem? hx
      have d := run_does (hs.own r hr) op
      have ho : ∀ y ∈ rs, Own (op.run h r).1 y := by
        intro y hy
        by_cases e : r = y
        · subst e; exact d.1.own
        · exact (run_others (hs.own r hr) (hs.own y hy) (hs.apart r hr y hy e) op).2.1
      refine ⟨⟨ho, hs.nodup, ?_⟩, ?_, d.2⟩
      · intro y hy z hz e
        by_cases e1 : r = y
        · subst e1
          exact (run_others (hs.own r hr) (hs.own z hz) (hs.apart r hr z hz e) op).2.2
        · by_cases e2 : r = z
          · subst e2
            exact (run_others (hs.own r hr) (hs.own y hy) (hs.apart r hr y hy e1) op).2.2.symm
          · exact (hs.apart y hy z hz e).keep (d.1.loc.untouched (hs.own y hy) (hs.apart r hr y hy e1))
              (d.1.loc.untouched (hs.own z hz) (hs.apart r hr z hz e2))
      · simp only [Option.map_some]
        have := set_eq_modify' (l := rs.map (readTags h)) (k := x) (x := readTags h r)
          (fun m => (effectOn m op).1) (by rw [List.getElem?_map, hx]; rfl)
        rw [this]
        refine map_eq_modify hx d.1.read ?_
        intro j y hj hne
        refine (run_others (hs.own r hr) (hs.own y (List.mem_of_getElem? hj)) (hs.apart r hr y
          (List.mem_of_getElem? hj) fun e => hne ?_) op).1
        exact (List.getElem?_inj (List.getElem?_eq_some_iff.mp hj).1 hs.nodup).mp (by rw [hj, hx, e])

theorem executeAll_ok (l : List Command) : ∀ {s : Heap × List Nat}, Sound s →
    Sound (executeAll s l).1 ∧ (executeAll s l).1.2.map (readTags (executeAll s l).1.1) =
      (evaluateAll (s.2.map (readTags s.1)) l).1 ∧
      (executeAll s l).2 = (evaluateAll (s.2.map (readTags s.1)) l).2 := by
  induction l with
  | nil => exact fun hs => ⟨hs, rfl, rfl⟩
  | cons c l ih =>
    intro s hs
    obtain ⟨h1, h2, h3⟩ := execute_ok hs c
    obtain ⟨h4, h5, h6⟩ := ih h1
    rw [h2] at h5 h6
    simp only [executeAll, evaluateAll]
    exact ⟨h4, h5, by rw [h3, h6]⟩

end Specfile.Heap
