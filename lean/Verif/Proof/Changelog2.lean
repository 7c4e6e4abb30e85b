import Verif.Proof.Changelog
import Verif.Regex.More
/-
The EVR in the header of a changelog entry.
-/
namespace Specfile.Changelog
open Py Spec Regex

/-- if all nonempty parts agree on the first result, so does the whole -/
theorem head_agree {α β γ : Type} {l : List α} {f : α → List β} {g : β → Option γ} {e : Option γ}
    (h : ∀ u ∈ l, f u = [] ∨ (f u).head?.bind g = e) (hne : ∃ u ∈ l, f u ≠ []) :
    (l.flatMap f).head?.bind g = e := by
  induction l with
  | nil => obtain ⟨u, hu, _⟩ := hne; cases hu
  | cons a l ih =>
    rw [List.flatMap_cons]
    cases hfa : f a with
    | nil =>
      rw [List.nil_append]
      apply ih (fun u hu => h u (by simp [hu]))
      obtain ⟨u, hu, hf⟩ := hne
      rcases List.mem_cons.1 hu with rfl | hu
      · exact absurd hfa hf
      · exact ⟨u, hu, hf⟩
    | cons b bs =>
      have := (h a (by simp)).resolve_left (by simp [hfa])
      rw [hfa] at this
      simpa using this

def Spaces (t : Str) : Prop := ∀ c ∈ t, isSpace c = true

/-- the end of the expression -/
def tailRe : Re Nat := opt (ch ':') ⬝ star isSpace ⬝ .eos

theorem mem_tail {u v : St Nat} (h : v ∈ run tailRe u) : v.caps = u.caps ∧
    ∃ k t, u.rest = k ++ t ∧ (k = [] ∨ k = [':']) ∧ Spaces t := by
  unfold tailRe at h
  rw [mem_cat] at h
  obtain ⟨u1, h1, h⟩ := h
  rw [mem_cat] at h
  obtain ⟨u2, h2, h⟩ := h
  rw [mem_eos] at h
  obtain ⟨rfl, h⟩ := h
  rw [star, mem_rep'] at h2
  obtain ⟨w, r, e, hw, _, rfl⟩ := h2
  have hs : Spaces (w ++ r) := by
    intro c hc
    rw [List.mem_append] at hc
    rcases hc with hc | hc
    · exact List.all_eq_true.1 hw c hc
    · rcases h with h | h
      · simp only at h; subst h; cases hc
      · simp only at h; subst h; simp at hc; subst hc; decide
  rw [mem_opt] at h1
  rcases h1 with h1 | rfl
  · rw [mem_ch] at h1
    obtain ⟨cs, e1, rfl⟩ := h1
    exact ⟨rfl, [':'], w ++ r, by simp [e1, ← e], .inr rfl, hs⟩
  · exact ⟨rfl, [], w ++ r, by simp [e], .inl rfl, hs⟩

theorem tail_ne {u : St Nat} {k t : Str} (e : u.rest = k ++ t) (hk : k = [] ∨ k = [':']) (ht : Spaces t) :
    run tailRe u ≠ [] := by
  have hs : ∀ u : St Nat, u.rest = t → ∃ v, v ∈ run (star isSpace ⬝ .eos) u := by
    intro u hu
    refine ⟨_, mem_cat.2 ⟨u.adv t [], mem_rep.2 ⟨t, [], by simp [hu], List.all_eq_true.2 ht, Nat.zero_le _, rfl⟩,
      mem_eos.2 ⟨rfl, .inl rfl⟩⟩⟩
  intro hn
  rw [run_eq_nil_iff] at hn
  rcases hk with rfl | rfl
  · obtain ⟨v, hv⟩ := hs u (by simpa using e)
    exact hn v (mem_cat.2 ⟨u, mem_opt.2 (.inr rfl), hv⟩)
  · obtain ⟨v, hv⟩ := hs ⟨':' :: u.pre, t, u.caps⟩ rfl
    exact hn v (mem_cat.2 ⟨_, mem_opt.2 (.inl (mem_ch.2 ⟨t, e, rfl⟩)), hv⟩)

/-- version, dash and release -/
def vrRe : Re Nat := plus nonSpace ⬝ ch '-' ⬝ plusL nonSpace

/-- the optional epoch -/
def epochRe [Uni] : Re Nat := opt (plus Uni.isDecimal ⬝ ch ':')

theorem mem_vr {s u : St Nat} : u ∈ run vrRe s ↔ ∃ a b, s.rest = (a ++ '-' :: b) ++ u.rest ∧
    a ≠ [] ∧ b ≠ [] ∧ (∀ c ∈ a ++ '-' :: b, isSpace c = false) ∧
    u = ⟨(a ++ '-' :: b).reverse ++ s.pre, u.rest, s.caps⟩ := by
  unfold vrRe
  simp only [mem_cat, plus, plusL, mem_rep', mem_ch]
  constructor
  · rintro ⟨u1, ⟨a, r, e1, h1, n1, rfl⟩, u2, ⟨r2, e2, rfl⟩, b, r3, e3, h3, n3, rfl⟩
    simp only at e2 e3
    refine ⟨a, b, by simp [e1, e2, e3], by rintro rfl; simp at n1, by rintro rfl; simp at n3, ?_, by simp⟩
    intro c hc
    simp only [List.mem_append, List.mem_cons] at hc
    rcases hc with hc | rfl | hc
    · simpa [nonSpace] using List.all_eq_true.1 h1 c hc
    · decide
    · simpa [nonSpace] using List.all_eq_true.1 h3 c hc
  · rintro ⟨a, b, e, ha, hb, hs, hu⟩
    refine ⟨_, ⟨a, '-' :: (b ++ u.rest), by simp [e], ?_, ?_, rfl⟩, _, ⟨b ++ u.rest, rfl, rfl⟩, b, u.rest, rfl, ?_, ?_, ?_⟩
    · rw [List.all_eq_true]; intro c hc; simp [nonSpace, hs c (by simp [hc])]
    · cases a with
      | nil => exact absurd rfl ha
      | cons => simp
    · rw [List.all_eq_true]; intro c hc; simp [nonSpace, hs c (by simp [hc])]
    · cases b with
      | nil => exact absurd rfl hb
      | cons => simp
    · rw [hu]; simp

/-- what the end of the expression accepts -/
def TailOk (r : Str) : Prop := ∃ k t, r = k ++ t ∧ (k = [] ∨ k = [':']) ∧ Spaces t

/-- the colon after an EVR -/
def colon (y : Str) : Str := if y.getLast? = some ':' ∧ y.dropLast.getLast? ≠ some '-' then [':'] else []

theorem word_unique {a b t u : Str} (ha : ∀ c ∈ a, isSpace c = false) (hb : ∀ c ∈ b, isSpace c = false)
    (ht : Spaces t) (hu : Spaces u) (h : a ++ t = b ++ u) : a = b ∧ t = u := by
  have key : ∀ (a t : Str), (∀ c ∈ a, isSpace c = false) → Spaces t →
      (a ++ t).takeWhile (fun c => !isSpace c) = a := by
    intro a t ha ht
    rw [List.takeWhile_append_of_pos (by intro c hc; simp [ha c hc])]
    cases t with
    | nil => simp
    | cons c cs => simp [ht c (by simp)]
  have h1 := key a t ha ht
  rw [h, key b u hb hu] at h1
  subst h1
  exact ⟨rfl, List.append_cancel_left h⟩

theorem last_dash {y : Str} (h : '-' ∈ y) : ∃ y1 y2, y = y1 ++ '-' :: y2 ∧ '-' ∉ y2 := by
  induction y with
  | nil => cases h
  | cons c cs ih =>
    by_cases hc : '-' ∈ cs
    · obtain ⟨y1, y2, e, hn⟩ := ih hc
      exact ⟨c :: y1, y2, by simp [e], hn⟩
    · rcases List.mem_cons.1 h with rfl | h
      · exact ⟨[], cs, rfl, hc⟩
      · exact absurd h hc

theorem last_of_append {α : Type} (a : List α) {b : List α} (h : b ≠ []) : (a ++ b).getLast? = b.getLast? := by
  rw [List.getLast?_append]
  cases hb : b.getLast? with
  | none => simp at hb; exact absurd hb h
  | some c => rfl

theorem eq_of_last {α : Type} {l : List α} {c : α} (h : l.getLast? = some c) : l = l.dropLast ++ [c] := by
  have hne : l ≠ [] := by rintro rfl; simp at h
  rw [List.getLast?_eq_some_getLast hne] at h
  simp at h
  rw [← h, List.dropLast_concat_getLast]

theorem vr_head {γ : Type} {β : Type} {f : St Nat → List β} {g : β → Option γ} {R : Str → γ} {s : St Nat} {y t : Str}
    (hf0 : ∀ u, f u ≠ [] → TailOk u.rest)
    (hf1 : ∀ u, u ∈ run vrRe s → TailOk u.rest → (f u).head?.bind g = some (R u.rest))
    (hs : s.rest = y ++ t) (hy : ∀ c ∈ y, isSpace c = false) (ht : Spaces t) (hd : DashOk y) :
    ((run vrRe s).flatMap f).head?.bind g = some (R (colon y ++ t)) := by
  obtain ⟨a, b, ey, ha, hb⟩ := hd
  obtain ⟨y1, y2, e, hn⟩ := last_dash (y := y) (by simp [ey])
  have hnil : ∀ u, ¬ TailOk u.rest → f u = [] := by
    intro u hu
    cases h : f u with
    | nil => rfl
    | cons => exact absurd (hf0 u (by simp [h])) hu
  by_cases hy2 : y2 = []
  · -- the last dash is the last character: there is no colon
    have hc : colon y = [] := by
      unfold colon
      rw [if_neg]
      rintro ⟨h, -⟩
      rw [e, hy2] at h
      simp at h
    rw [hc, List.nil_append]
    apply head_agree
    · intro u hu
      cases hfu : f u with
      | nil => exact .inl rfl
      | cons v vs =>
        right
        rw [← hfu]
        have hok := hf0 u (by simp [hfu])
        rw [hf1 u hu hok]
        congr 2
        rw [mem_vr] at hu
        obtain ⟨a', b', e', _, _, hsp, _⟩ := hu
        obtain ⟨k, t', er, hk, ht'⟩ := hok
        rw [hs, er] at e'
        have := word_unique (a := y) (b := (a' ++ '-' :: b') ++ k) (t := t) (u := t') hy (by
          intro c hc
          rcases List.mem_append.1 hc with hc | hc
          · exact hsp c hc
          · rcases hk with rfl | rfl
            · cases hc
            · simp at hc; subst hc; decide) ht ht' (by simpa using e')
        rcases hk with rfl | rfl
        · simp [er, this.2]
        · exfalso
          have h := congrArg List.getLast? this.1
          rw [e, hy2, last_of_append _ (by simp), last_of_append _ (by simp)] at h
          simp at h
    · have hm : (⟨y.reverse ++ s.pre, t, s.caps⟩ : St Nat) ∈ run vrRe s :=
        mem_vr.2 ⟨a, b, by simp [hs, ey], ha, hb, by rw [← ey]; exact hy, by rw [ey]⟩
      refine ⟨_, hm, ?_⟩
      intro h
      have := hf1 _ hm ⟨[], t, rfl, .inl rfl, ht⟩
      rw [h] at this
      simp at this
  · have hy1 : y1 ≠ [] := by
      rintro rfl
      rw [ey] at e
      cases a with
      | nil => exact ha rfl
      | cons c cs =>
        simp at e
        exact hn (by rw [← e.2]; simp)
    have hc2 : ∃ r, y2 = r ++ colon y ∧ r ≠ [] := by
      unfold colon
      split
      · rename_i h
        have hl : y.getLast? = y2.getLast? := by
          rw [e, show y1 ++ '-' :: y2 = (y1 ++ ['-']) ++ y2 by simp, last_of_append _ hy2]
        rw [hl] at h
        obtain ⟨h1, h2⟩ := h
        have e2 := eq_of_last h1
        refine ⟨y2.dropLast, e2, ?_⟩
        intro hnil
        rw [hnil] at e2
        apply h2
        rw [e, e2]
        simp
      · exact ⟨y2, by simp, hy2⟩
    obtain ⟨r, er, hr⟩ := hc2
    have hm : (⟨r.reverse ++ '-' :: (y1.reverse ++ s.pre), colon y ++ t, s.caps⟩ : St Nat) ∈ run vrRe s := by
      refine mem_vr.2 ⟨y1, r, ?_, hy1, hr, ?_, by simp⟩
      · rw [hs]
        conv => lhs; rw [e, er]
        simp
      · intro c hc
        apply hy
        rw [e, er]
        simp only [List.mem_append, List.mem_cons] at hc ⊢
        rcases hc with hc | hc | hc <;> simp [hc]
    have hok : TailOk (colon y ++ t) := by
      refine ⟨colon y, t, rfl, ?_, ht⟩
      unfold colon; split <;> simp
    have h1 := hf1 _ hm hok
    simp only at h1
    rw [Option.bind_eq_some_iff] at h1 ⊢
    obtain ⟨v, hv, hg⟩ := h1
    refine ⟨v, ?_, hg⟩
    have e3 : (run vrRe s).flatMap f = (run (plus nonSpace) s).flatMap
        (fun u => (run (ch '-' ⬝ plusL nonSpace) u).flatMap f) := by
      unfold vrRe; rw [run_cat, List.flatMap_assoc]
    rw [e3]
    have hsp : ∀ x : Str, (∀ c ∈ x, c ∈ y) → x.all nonSpace = true := by
      intro x hx
      rw [List.all_eq_true]; intro c hc; simp [nonSpace, hy c (hx c hc)]
    refine head_rep_greedy (w := y1) (r' := '-' :: (y2 ++ t)) (by rw [hs, e]; simp)
      (hsp y1 (by intro c hc; rw [e]; simp [hc])) ?_ ?_ ?_
    · cases y1 with
      | nil => exact absurd rfl hy1
      | cons => simp
    · rw [run_ch_cat '-' _ _ (y2 ++ t) rfl]
      refine head_rep_lazy (w := r) (r' := colon y ++ t) (by simp [er])
        (hsp r (by intro c hc; rw [e, er]; simp [hc])) ?_ hv ?_
      · cases r with
        | nil => exact absurd rfl hr
        | cons => simp
      · intro w' w'' ew hne hl
        apply hnil
        rintro ⟨k, t', h, hk, ht'⟩
        simp only [St.adv] at h
        have hw2 : ∀ c ∈ w'' ++ colon y, isSpace c = false := by
          intro c hc
          apply hy
          rw [e, er, ew]
          simp only [List.mem_append, List.mem_cons] at hc ⊢
          rcases hc with hc | hc <;> simp [hc]
        have hu := word_unique (a := w'' ++ colon y) (b := k) (t := t) (u := t') hw2 (by
          intro c hc
          rcases hk with rfl | rfl
          · cases hc
          · simp at hc; subst hc; decide) ht ht' (by simpa using h)
        rcases hk with rfl | rfl
        · simp at hu; exact hne hu.1.1
        · have hcl : colon y = [] := by
            cases w'' with
            | nil => exact absurd rfl hne
            | cons c cs => simp at hu; exact hu.1.2.2
          rw [hcl, List.append_nil] at hu er
          have hw1 : w' ≠ [] := by rintro rfl; simp at hl
          unfold colon at hcl
          rw [if_pos] at hcl
          · cases hcl
          · rw [e, er, ew, hu.1]
            rw [show y1 ++ '-' :: (w' ++ [':']) = (y1 ++ '-' :: w') ++ [':'] by simp, List.dropLast_concat]
            refine ⟨List.getLast?_concat .., ?_⟩
            cases hgl : w'.getLast? with
            | none => simp at hgl; exact absurd hgl hw1
            | some c =>
              have : c ∈ w' := List.mem_of_getLast? hgl
              intro hx
              rw [List.getLast?_append] at hx
              cases w' with
              | nil => exact hw1 rfl
              | cons d ds =>
                rw [List.getLast?_cons_cons, hgl] at hx
                simp at hx
                subst hx
                apply hn
                rw [er, ew]
                exact List.mem_append_left _ this
    · intro w'' r'' ew hne hall
      rw [run_ch_cat_nil]
      · rfl
      · intro hh
        -- a dash after the last one
        simp only [St.adv] at hh
        cases w'' with
        | nil => exact hne rfl
        | cons c cs =>
          simp only [List.cons_append, List.cons.injEq] at ew
          cases r'' with
          | nil => simp at hh
          | cons d ds =>
            simp at hh
            subst hh
            have : '-' ∈ y2 ++ t := by rw [ew.2]; simp
            rcases List.mem_append.1 this with h | h
            · exact hn h
            · exact absurd (ht _ h) (by decide)

end Specfile.Changelog
