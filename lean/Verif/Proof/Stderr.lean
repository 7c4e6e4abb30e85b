import Verif.Spec.Stderr
import Verif.Py.Lemmas
/-
Lemmas about captured output.
-/
namespace Specfile.Stderr
open Py Spec

theorem readlines_text (s : Str) : TextLines s (readlines s) := by
  induction s with
  | nil => exact .nil
  | cons c s ih =>
    unfold readlines
    split
    · rename_i h
      subst h
      exact .line (l := []) (by simp) ih
    · rename_i h
      split
      · rename_i hr
        have : s = [] := by
          rw [hr] at ih
          cases ih; rfl
        subst this
        exact .last (by simp) (by simpa using Ne.symm h)
      · rename_i l ls hr
        rw [hr] at ih
        cases ih with
        | last h1 h2 => exact .last (by simp) (by simp only [List.mem_cons, not_or]; exact ⟨Ne.symm h, h2⟩)
        | @line l t ls h1 h2 =>
          exact .line (l := c :: l) (by simp only [List.mem_cons, not_or]; exact ⟨Ne.symm h, h1⟩) h2

theorem flatten_lines {s : Str} {ls : List Str} (h : TextLines s ls) : ls.flatten = s := by
  induction h with
  | nil => rfl
  | last => simp
  | line _ _ ih => simp [ih]

theorem lines_nil {s : Str} {ls : List Str} (h : TextLines s ls) (hs : s = []) : ls = [] := by
  cases h with
  | nil => rfl
  | last h => exact absurd hs h
  | line => simp at hs

theorem free_spec {p : Proc} {t : Nat} (h : p.free = some t) : t < p.limit ∧ p.fd t = none := by
  unfold Proc.free at h
  have h1 := List.mem_of_find?_eq_some h
  have h2 := List.find?_some h
  exact ⟨List.mem_range.1 h1, by simpa using h2⟩

/-- the process in which the code runs -/
def started (p : Proc) (n t b g : Nat) : Proc where
  file := fun k => if k = p.next then [] else if k = g then p.file k ++ p.pending else p.file k
  fd := fun k => if k = n then some p.next else if k = b then some g else if k = t then some p.next else p.fd k
  next := p.next + 1
  pending := []
  limit := p.limit

theorem capture_cases (n : Nat) (body : Proc → Proc × Option Err) (p : Proc) (g : Nat) (hs : Sane p) (hg : p.fd n = some g) :
    (((List.range p.limit).filter (fun i => (p.fd i).isNone)).length < 2 ∧
      (capture n body p).proc.fd = p.fd ∧ (capture n body p).proc.limit = p.limit ∧
      p.next ≤ (capture n body p).proc.next ∧
      (∀ k, k < p.next → (capture n body p).proc.file k = p.file k) ∧ (capture n body p).proc.pending = p.pending ∧
      (capture n body p).data = [] ∧ (capture n body p).error = some .osError) ∨
    (∃ t b, t ≠ b ∧ p.fd t = none ∧ p.fd b = none ∧ t < p.limit ∧ b < p.limit ∧
      capture n body p = finish n t b p.next (body (started p n t b g)).1 (body (started p n t b g)).2) := by
  have hgn := hs n g hg
  unfold capture
  cases ht : p.free with
  | none =>
    left
    refine ⟨?_, rfl, rfl, Nat.le_refl _, fun _ _ => rfl, rfl, rfl, rfl⟩
    have : (List.range p.limit).filter (fun i => (p.fd i).isNone) = [] := by
      rw [List.filter_eq_nil_iff]
      intro a ha
      have := List.find?_eq_none.1 ht a ha
      simpa using this
    rw [this]; simp
  | some t =>
    obtain ⟨h1, h2⟩ := free_spec ht
    have hnt : n ≠ t := by rintro rfl; rw [hg] at h2; cases h2
    simp only
    generalize hp1 : ({ p.point t (some p.next) with
      file := fun k => if k = p.next then [] else p.file k, next := p.next + 1 } : Proc) = p1
    have e1 : p1.fd = fun k => if k = t then some p.next else p.fd k := by rw [← hp1]; rfl
    have e2 : p1.file = fun k => if k = p.next then [] else p.file k := by rw [← hp1]
    have e3 : p1.next = p.next + 1 := by rw [← hp1]
    have e4 : p1.limit = p.limit := by rw [← hp1]; rfl
    have e5 : p1.pending = p.pending := by rw [← hp1]; rfl
    have hf : p1.fd n = some g := by rw [e1]; simp [hnt, hg]
    rw [show (p.point t (some p.next)).fd n = some g by simp [Proc.point, hnt, hg]]
    cases hb : p1.free with
    | none =>
      left
      refine ⟨?_, ?_, e4, by rw [show (p1.point t none).next = p1.next from rfl, e3]; omega, ?_, e5, rfl, rfl⟩
      · have hall : ∀ i, i < p.limit → i ≠ t → p.fd i ≠ none := by
          intro i hi hne hn
          have := List.find?_eq_none.1 hb i (List.mem_range.2 (by rw [e4]; exact hi))
          rw [e1] at this
          simp [hne, hn] at this
        have hsub : (List.range p.limit).filter (fun i => (p.fd i).isNone) =
            (List.range p.limit).filter (fun i => i == t) := by
          apply List.filter_congr
          intro i hi
          by_cases h : i = t
          · subst h; simp [h2]
          · have := hall i (List.mem_range.1 hi) h
            cases hx : p.fd i with
            | none => exact absurd hx this
            | some _ => simp [h]
        rw [hsub, ← List.count_eq_length_filter]
        have := List.nodup_range (n := p.limit)
        have := List.nodup_iff_count.1 this t
        omega
      · funext k
        simp only [Proc.point, e1]
        split
        · rename_i h; rw [h, h2]
        · rfl
      · intro k hk
        simp only [Proc.point, e2]
        rw [if_neg (by omega)]
    | some b =>
      right
      obtain ⟨h3, h4⟩ := free_spec hb
      have hbt : b ≠ t := by rintro rfl; rw [e1] at h4; simp at h4
      have h4' : p.fd b = none := by rw [e1] at h4; simpa [hbt] using h4
      have hnb : n ≠ b := by rintro rfl; rw [hg] at h4'; cases h4'
      refine ⟨t, b, Ne.symm hbt, h2, h4', h1, by omega, ?_⟩
      have : (((p1.point b (some g)).flush n).point n (some p.next)) = started p n t b g := by
        have hfl : (p1.point b (some g)).fd n = some g := by simp [Proc.point, hnb, hf]
        unfold Proc.flush Proc.write
        rw [hfl]
        simp only [Proc.point, started, Proc.mk.injEq, e1, e2, e3, e4, e5, and_true]
        funext k
        by_cases hk : k = g
        · subst hk
          rw [if_pos rfl, if_neg (by omega), if_neg (by omega), if_pos rfl]
        · rw [if_neg hk, if_neg hk]
      simp only [this]

theorem started_sane {p : Proc} {n t b g : Nat} (hs : Sane p) (hg : p.fd n = some g) : Sane (started p n t b g) := by
  have hgn := hs n g hg
  intro i f h
  simp only [started] at h ⊢
  split at h
  · cases h; omega
  · split at h
    · cases h; omega
    · split at h
      · cases h; omega
      · have := hs i f h; omega

/-- what happens in the end, if the code leaves descriptors as they are -/
theorem finish_spec {p : Proc} {n t b g : Nat} (hs : Sane p) (hg : p.fd n = some g) (ht : p.fd t = none)
    (hb : p.fd b = none) {body : Proc → Proc × Option Err} (hbody : Tame n body) :
    let q := (body (started p n t b g)).1
    let o := finish n t b p.next q (body (started p n t b g)).2
    o.proc.fd = p.fd ∧ o.proc.limit = p.limit ∧ p.next ≤ o.proc.next ∧ o.proc.pending = [] ∧
    (∀ k, k < p.next → o.proc.file k = if k = g then p.file k ++ p.pending else p.file k) ∧
    o.data = readlines (q.file p.next ++ q.pending) ∧ o.error = (body (started p n t b g)).2 := by
  have hgn := hs n g hg
  have hnt : n ≠ t := by rintro rfl; rw [hg] at ht; cases ht
  have hnb : n ≠ b := by rintro rfl; rw [hg] at hb; cases hb
  obtain ⟨h1, h2, h3, h4, h5⟩ := hbody (started p n t b g) p.next (started_sane hs hg) (by simp [started])
  generalize (body (started p n t b g)).2 = e
  generalize (body (started p n t b g)).1 = q at *
  intro q' o
  have hqn : q.fd n = some p.next := by rw [h1]; simp [started]
  have hfl : (q.flush n) = { q with file := fun k => if k = p.next then q.file k ++ q.pending else q.file k, pending := [] } := by
    unfold Proc.flush Proc.write
    rw [hqn]
  have hqb : (q.flush n).fd b = some g := by
    rw [hfl]
    simp only [h1, started]
    rw [if_neg (Ne.symm hnb), if_pos trivial]
  refine ⟨?_, ?_, ?_, ?_, ?_, ?_, rfl⟩
  · funext k
    show (if k = t then none else if k = b then none else if k = n then (q.flush n).fd b else (q.flush n).fd k) = p.fd k
    rw [hqb, hfl]
    by_cases hkt : k = t
    · rw [if_pos hkt, hkt, ht]
    · rw [if_neg hkt]
      by_cases hkb : k = b
      · rw [if_pos hkb, hkb, hb]
      · rw [if_neg hkb]
        by_cases hkn : k = n
        · rw [if_pos hkn, hkn, hg]
        · rw [if_neg hkn]
          simp only [h1, started]
          rw [if_neg hkn, if_neg hkb, if_neg hkt]
  · show (q.flush n).limit = p.limit
    rw [hfl]; exact h3
  · show p.next ≤ (q.flush n).next
    rw [hfl]
    simp only [started] at h2
    show p.next ≤ q.next
    omega
  · show (q.flush n).pending = []
    rw [hfl]
  · intro k hk
    show (q.flush n).file k = _
    rw [hfl]
    simp only
    rw [if_neg (by omega)]
    have := h5 k (by simp [started]; omega) (by omega)
    rw [this]
    simp only [started]
    rw [if_neg (by omega)]
  · show readlines ((q.flush n).file p.next) = _
    rw [hfl]
    simp [q']

theorem nat_length_le_of_subset {a : List Nat} (h : a.Nodup) : ∀ {b : List Nat}, (∀ x ∈ a, x ∈ b) →
    a.length ≤ b.length := by
  induction a with
  | nil => simp
  | cons x a ih =>
    intro b hb
    have hx := hb x (by simp)
    have := ih (List.nodup_cons.1 h).2 (b := b.erase x) (by
      intro y hy
      have hne : y ≠ x := by rintro rfl; exact (List.nodup_cons.1 h).1 hy
      exact (List.mem_erase_of_ne hne).2 (hb y (by simp [hy])))
    rw [List.length_erase_of_mem hx] at this
    have : 0 < b.length := List.length_pos_of_mem hx
    simp; omega

/-! ### the message of an exception -/

theorem rstrip_append {x w : Str} (hw : ∀ c ∈ w, isSpace c = true) : rstrip (x ++ w) = rstrip x := by
  unfold rstrip
  rw [List.reverse_append, List.dropWhile_append_of_pos (fun a ha => hw a (by simpa using ha))]

theorem rstrip_self {x : Str} (h : ∀ c ∈ x.getLast?, isSpace c = false) : rstrip x = x := by
  unfold rstrip
  cases hx : x.reverse with
  | nil => rw [List.reverse_eq_nil_iff] at hx; subst hx; rfl
  | cons c cs =>
    have hl : x.getLast? = some c := by
      rw [← List.head?_reverse, hx]; rfl
    rw [List.dropWhile_cons_of_neg (by rw [h c hl]; decide), ← hx, List.reverse_reverse]

theorem rstrip_parts (x : Str) : ∃ w, x = rstrip x ++ w ∧ ∀ c ∈ w, isSpace c = true := by
  refine ⟨(x.reverse.takeWhile isSpace).reverse, ?_, ?_⟩
  · unfold rstrip
    rw [← List.reverse_append, List.takeWhile_append_dropWhile, List.reverse_reverse]
  · intro c hc
    rw [List.mem_reverse] at hc
    exact List.all_eq_true.1 List.all_takeWhile c hc

theorem errorLine_iff (l : Str) : startsWith (rstrip l) (s% "error:") = true ↔ ErrorLine l := by
  unfold startsWith
  rw [List.isPrefixOf_iff_prefix]
  constructor
  · intro h
    obtain ⟨w, e, hw⟩ := rstrip_parts l
    exact ⟨rstrip l, w, e, h, hw⟩
  · rintro ⟨x, w, rfl, ⟨y, rfl⟩, hw⟩
    rw [rstrip_append hw]
    obtain ⟨v, e, hv⟩ := rstrip_parts (s% "error:" ++ y)
    generalize rstrip (s% "error:" ++ y) = r at *
    rcases List.append_eq_append_iff.1 e with ⟨a, h1, -⟩ | ⟨a, h1, h2⟩
    · exact ⟨a, h1.symm⟩
    · by_cases ha : a = []
      · subst ha; simp at h1; rw [← h1]; exact List.prefix_refl _
      · exfalso
        have hc : isSpace (a.getLast ha) = true := hv _ (by rw [h2]; simp)
        have : (s% "error:").getLast? = some (a.getLast ha) := by
          rw [h1, List.getLast?_append, List.getLast?_eq_some_getLast ha]; rfl
        simp at this
        rw [← this] at hc
        revert hc; decide

theorem cut_none {sep s : Str} (hs : sep ≠ []) : splitSecond.cut sep s = none ↔ ¬ sep <:+: s := by
  induction s with
  | nil =>
    have : sep.isEmpty = false := by cases sep with | nil => exact absurd rfl hs | cons => rfl
    simp [splitSecond.cut, this, hs]
  | cons c s ih =>
    unfold splitSecond.cut
    rw [List.infix_cons_iff]
    split
    · rename_i h
      rw [List.isPrefixOf_iff_prefix] at h
      simp [h]
    · rename_i h
      rw [List.isPrefixOf_iff_prefix] at h
      rw [Option.map_eq_none_iff, ih]
      simp [h]

theorem cut_prefix {sep : Str} (hs : sep ≠ []) (s : Str) : splitSecond.cut sep (sep ++ s) = some ([], s) := by
  cases sep with
  | nil => exact absurd rfl hs
  | cons c cs =>
    rw [List.cons_append, splitSecond.cut, if_pos]
    · simp
    · rw [List.isPrefixOf_iff_prefix]; exact ⟨s, rfl⟩

theorem message_skip {stderr pre : List Str} (hp : ∀ x ∈ pre, ¬ ErrorLine x) (ls : List Str) :
    message stderr (pre ++ ls) = message stderr ls := by
  induction pre with
  | nil => rfl
  | cons x pre ih =>
    rw [List.cons_append, message]
    rw [if_neg (by rw [errorLine_iff]; exact hp x (by simp)), ih (fun y hy => hp y (by simp [hy]))]

end Specfile.Stderr
