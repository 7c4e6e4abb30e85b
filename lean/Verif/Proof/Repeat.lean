import Verif.Proof.Update5
import Verif.Spec.Repeat
import Verif.Props.ValueParser
/-
Lemmas for C97: a value that was rewritten once gives the same expression and the same template again.
-/
namespace Specfile.Template
open Py Regex Spec

/-- the same tokens, with literals changed as they are by a rewriting -/
inductive Refill [Uni] : Bool → List Tok → List Tok → Prop
  | nil {near} : Refill near [] []
  | c {near r t ts ts'} : Refill (near && r.isEmpty) ts ts' → Refill near (.c r t :: ts) (.c r t :: ts')
  | g {near n t ts ts'} : Refill true ts ts' → Refill near (.g n t :: ts) (.g n t :: ts')
  | v {near s w ts ts'} : Changed near (groupNear ts) s w → '\n' ∉ s → '\n' ∉ w → Refill false ts ts' →
      Refill near (.v s :: ts) (.v w :: ts')

theorem Refill.groupNear [Uni] {near : Bool} {ts ts' : List Tok} (h : Refill near ts ts') : groupNear ts' = groupNear ts := by
  induction h with
  | nil => rfl
  | c _ ih => simp only [Template.groupNear, ih]
  | g _ _ => rfl
  | v _ _ _ _ _ => rfl

theorem cut_line [Uni] {b a : Bool} {s p m q : Str} (h : Cut b a s p m q) (hs : '\n' ∉ s) : s = p ++ (m ++ q) := by
  rcases h.text with e | e
  · exact e
  · rw [e] at hs; simp at hs

theorem rmatch_cut [Uni] {b a : Bool} {s p m q : Str} (h : Cut b a s p m q) (hs : '\n' ∉ s) :
    ∃ t, rmatch (varRe b a) s = some t ∧ (t.get 1).getD [] = p ∧ (t.get 2).getD [] = m ∧ (t.get 3).getD [] = q := by
  obtain ⟨t, ht⟩ := varRe_of_cut h
  cases hr : rmatch (varRe b a) s with
  | none =>
    rw [rmatch, List.head?_eq_none_iff] at hr
    rw [hr] at ht; cases ht
  | some t' =>
    obtain ⟨e1, e2, e3⟩ := cut_unique hs (mem_varRe (mem_of_rmatch hr)) h
    exact ⟨t', rfl, e1, e2, e3⟩

theorem var_changed [Uni] {b a : Bool} {s w : Str} (h : Changed b a s w) (hs : '\n' ∉ s) (hw : '\n' ∉ w) :
    s = w ∨ ∃ t t', rmatch (varRe b a) s = some t ∧ rmatch (varRe b a) w = some t' ∧ (t.get 1).getD [] = (t'.get 1).getD [] ∧
      (t.get 3).getD [] = (t'.get 3).getD [] ∧ (t.get 2).getD [] ≠ [] ∧ (t'.get 2).getD [] ≠ [] := by
  cases h with
  | kept _ => exact .inl rfl
  | delimiters hc => exact .inl (by simpa using cut_line hc hs)
  | @replaced p m q w' hc h1 h2 h3 =>
    have hc' : Cut b a (p ++ (w' ++ q)) p w' q := ⟨.inl rfl, h3, hc.first, hc.last⟩
    obtain ⟨t, a1, a2, a3, a4⟩ := rmatch_cut hc hs
    obtain ⟨t', b1, b2, b3, b4⟩ := rmatch_cut hc' hw
    exact .inr ⟨t, t', a1, b1, by rw [a2, b2], by rw [a4, b4], by rw [a3]; exact h1, by rw [b3]; exact h2⟩

/-- the expression and the template do not change -/
theorem build_refill [Uni] {isIdent : Str → Bool} {near : Bool} {ts ts' : List Tok} (h : Refill near ts ts') :
    ∀ {before before' : List Tok} {named : List Str} {sub : Nat}, groupNear before = near → groupNear before' = near →
      build isIdent before' named sub ts' = build isIdent before named sub ts := by
  induction h with
  | nil => intros; rfl
  | @c near r t ts ts' _ ih =>
    intro before before' named sub h1 h2
    simp only [build]
    rw [ih (before := .c r t :: before) (before' := .c r t :: before')]
    · simp only [groupNear, h1]; cases r <;> simp
    · simp only [groupNear, h2]; cases r <;> simp
  | @g near n t ts ts' _ ih =>
    intro before before' named sub h1 h2
    simp only [build]
    rw [ih (before := .g n t :: before) (before' := .g n t :: before') rfl rfl,
      ih (before := .g n t :: before) (before' := .g n t :: before') rfl rfl]
  | @v near s w ts ts' hc hs hw hr ih =>
    intro before before' named sub h1 h2
    simp only [build, h1, h2, hr.groupNear]
    have ihs : ∀ named sub, build isIdent (.v w :: before') named sub ts' = build isIdent (.v s :: before) named sub ts :=
      fun named sub => ih rfl rfl
    rcases var_changed hc hs hw with rfl | ⟨t, t', e1, e2, e3, e4, e5, e6⟩
    · simp only [ihs]
    · rw [e1, e2]
      have n1 : ((t.get 2).getD []).isEmpty = false := by simpa using e5
      have n2 : ((t'.get 2).getD []).isEmpty = false := by simpa using e6
      simp only [ihs, n1, n2, e3, e4]

theorem squash_near [Uni] {ts r : List Tok} (h : squash ts = some r) (ha : Apart (ts.map part)) :
    groupNear r = groupNear ts := by
  rw [groupNear_eq, groupNear_eq, (squash_some (d := fun _ => none) h ha).2.1]

theorem squash_refill [Uni] {near : Bool} {ts ts' : List Tok} (h : Refill near ts ts') : ∀ {r : List Tok},
    squash ts = some r → Apart (ts.map part) → ∃ r', squash ts' = some r' ∧ Refill near r r' := by
  induction h with
  | nil => intro r h _; cases h; exact ⟨[], rfl, .nil⟩
  | @c near a t ts ts' hr ih =>
    intro r h ha
    simp only [squash] at h
    split at h
    · cases h
    · rename_i r0 h0
      obtain ⟨r0', k1, k2⟩ := ih h0 (apart_tail ha)
      cases k2 with
      | nil => simp only at h; cases h; exact ⟨_, by simp only [squash, k1], .c .nil⟩
      | @c _ a2 t2 x y k =>
        simp only at h; cases h
        refine ⟨.c (a ++ a2) (t ++ t2) :: y, by simp only [squash, k1], .c ?_⟩
        have : (near && (a ++ a2).isEmpty) = (near && a.isEmpty && a2.isEmpty) := by cases a <;> simp
        rw [this]; exact k
      | g k => simp only at h; cases h; exact ⟨_, by simp only [squash, k1], .c (.g k)⟩
      | v b1 b2 b3 k => simp only at h; cases h; exact ⟨_, by simp only [squash, k1], .c (.v b1 b2 b3 k)⟩
  | @g near n t ts ts' hr ih =>
    intro r h ha
    simp only [squash] at h
    split at h
    · cases h
    · rename_i r0 h0
      obtain ⟨r0', k1, k2⟩ := ih h0 (apart_tail ha)
      cases k2 with
      | nil => simp only at h; cases h; exact ⟨_, by simp only [squash, k1], .g .nil⟩
      | c k => simp only at h; cases h; exact ⟨_, by simp only [squash, k1], .g (.c k)⟩
      | g k => simp only at h; cases h
      | v b1 b2 b3 k => simp only at h; cases h; exact ⟨_, by simp only [squash, k1], .g (.v b1 b2 b3 k)⟩
  | @v near s w ts ts' hc hs hw hr ih =>
    intro r h ha
    simp only [squash] at h
    split at h
    · cases h
    · rename_i r0 h0
      obtain ⟨r0', k1, k2⟩ := ih h0 (apart_tail ha)
      have hn := squash_near h0 (apart_tail ha)
      rw [← hn] at hc
      cases k2 with
      | nil => simp only at h; cases h; exact ⟨_, by simp only [squash, k1], .v hc hs hw .nil⟩
      | c k => simp only at h; cases h; exact ⟨_, by simp only [squash, k1], .v hc hs hw (.c k)⟩
      | g k => simp only at h; cases h; exact ⟨_, by simp only [squash, k1], .v hc hs hw (.g k)⟩
      | v b1 b2 b3 k =>
        -- two literals in a row
        exfalso
        cases ts with
        | nil => cases h0
        | cons t ts =>
          obtain ⟨u, r', e, hh⟩ := squash_head h0
          cases e
          cases t with
          | v s' => simp [part, Apart] at ha
          | c _ _ => exact hh
          | g _ _ => exact hh

theorem openNodes_plain {ex : Str → Except Err Str} {modifiable flippable : List Str} : ∀ {ns : List Node} {f : Flips},
    (∀ n ∈ ns, Unconditional n) → openNodes ex modifiable flippable ns f = .ok (ns.map .node, f) := by
  intro ns
  induction ns with
  | nil => intros; unfold openNodes; rfl
  | cons n ns ih =>
    intro f h
    unfold openNodes
    have hn : openNode ex modifiable flippable n f = .ok ([.node n], f) := by
      have := h n (.head _)
      cases n <;> first | (unfold openNode; rfl) | exact this.elim
    rw [hn]
    simp only [ih (fun m hm => h m (.tail _ hm))]
    rfl

/-- a macro gives one token -/
theorem token_macro {ex : Str → Except Err Str} {modifiable : List Str} {n : Node} {a : List Tok}
    (hu : Unconditional n) (hl : ∀ s, n ≠ .lit s) (h : token ex modifiable (.node n) = .ok a) :
    (∃ r, a = [.c r n.str]) ∨ ∃ x, a = [.g x n.str] := by
  have hc : ∀ m, constant ex m = .ok a → (∃ r, a = [.c r m.str]) ∨ ∃ x, a = [.g x m.str] := by
    intro m h
    unfold constant at h
    split at h
    · cases h
    · cases h; exact .inl ⟨_, rfl⟩
  unfold token at h
  split at h
  · rename_i e; cases e
  · rename_i e; cases e; exact absurd rfl (hl _)
  · rename_i e; cases e; exact hc _ h
  · rename_i e; cases e; exact hc _ h
  · rename_i e; cases e; exact hc _ h
  · rename_i e; cases e
    split at h
    · cases h; exact .inr ⟨_, rfl⟩
    · exact hc _ h
  · rename_i e; cases e
    split at h
    · cases h; exact .inr ⟨_, rfl⟩
    · exact hc _ h
  · rename_i e; cases e; exact hu.elim

theorem macro_str {n : Node} (hu : Unconditional n) (hl : ∀ s, n ≠ .lit s) : ∃ t, n.str = '%' :: t := by
  cases n with
  | lit s => exact absurd rfl (hl s)
  | cond p x b => exact hu.elim
  | sub p x => exact hu.elim
  | shell b => exact ⟨_, by simp [Node.str]; rfl⟩
  | expr b => exact ⟨_, by simp [Node.str]; rfl⟩
  | encl p x a => exact ⟨_, by simp [Node.str]; rfl⟩
  | builtin x b => exact ⟨_, by simp [Node.str]; rfl⟩

theorem changed_clean [Uni] {b a : Bool} {s w : Str} (h : Changed b a s w) (hs : '\n' ∉ s) (hne : s ≠ []) : w ≠ [] := by
  cases h with
  | kept _ => exact hne
  | delimiters hc => have := cut_line hc hs; simp only [List.nil_append] at this; exact this ▸ hne
  | replaced _ _ h2 _ => simp [h2]

/-- the nodes of the rewritten value -/
theorem nodes_refill [Uni] {ex : Str → Except Err Str} {modifiable : List Str} {d : Str → Option Str} : ∀ {ns : List Node}
    {ts : List Tok} {near : Bool} {text reading : Str}, tokens ex modifiable (ns.map .node) = .ok ts → GoodNodes ns →
    (∀ n ∈ ns, Unconditional n) → Rewritten d near (ts.map part) text reading → '%' ∉ reading → '\n' ∉ reading →
    ∃ ns' ts', tokens ex modifiable (ns'.map .node) = .ok ts' ∧ Refill near ts ts' ∧ text = Node.strs ns' ∧ GoodNodes ns' ∧
      (∀ n ∈ ns', Unconditional n) ∧ ((∀ c ∈ (Node.strs ns).head?, c = '%') → ∀ c ∈ (Node.strs ns').head?, c = '%') ∧
      ∀ n ∈ ns', (∃ s, n = .lit s) ∨ n ∈ ns := by
  intro ns
  induction ns with
  | nil =>
    intro ts near text reading h _ _ hr _ _
    simp only [List.map_nil, tokens] at h
    cases h
    cases hr
    exact ⟨[], [], rfl, .nil, rfl, trivial, by simp, fun h => h, by simp⟩
  | cons n ns ih =>
    intro ts near text reading h hg hu hr hp hl
    simp only [List.map_cons, tokens] at h
    split at h
    · cases h
    · rename_i a ha
      split at h
      · cases h
      · rename_i ts0 h0
        cases h
        have hun := hu n (.head _)
        have hus : ∀ m ∈ ns, Unconditional m := fun m hm => hu m (.tail _ hm)
        unfold GoodNodes at hg
        obtain ⟨g1, g2, g3⟩ := hg
        by_cases hlit : ∃ s, n = .lit s
        · obtain ⟨s, rfl⟩ := hlit
          simp only [token] at ha
          cases ha
          simp only [List.cons_append, List.nil_append, List.map_cons, part] at hr
          cases hr with
          | @literal _ _ w _ t r hc hrest =>
            simp only [List.mem_append, not_or] at hp hl
            obtain ⟨ns', ts', k1, k2, k3, k4, k5, k6, k7⟩ := ih h0 g2 hus hrest hp.2 hl.2
            have hw := changed_clean hc hun (by unfold GoodNode at g1; exact g1.1)
            refine ⟨.lit w :: ns', .v w :: ts', ?_, ?_, ?_, ?_, ?_, ?_, ?_⟩
            · simp [tokens, token, k1]
            · refine .v ?_ hun hl.1 k2
              rw [groupNear_eq]; exact hc
            · simp [Node.strs, Node.str, k3]
            · unfold GoodNodes
              exact ⟨by unfold GoodNode; exact ⟨hw, hp.1⟩, k4, k6 g3⟩
            · intro m hm
              rcases List.mem_cons.mp hm with rfl | hm
              · exact hl.1
              · exact k5 m hm
            · intro hh
              unfold GoodNode at g1
              cases s with
              | nil => exact absurd rfl g1.1
              | cons c s =>
                have := hh c (by simp [Node.strs, Node.str])
                subst this
                exact absurd (List.mem_cons_self ..) g1.2
            · intro m hm
              rcases List.mem_cons.mp hm with rfl | hm
              · exact .inl ⟨w, rfl⟩
              · exact (k7 m hm).imp_right (.tail _)
        · have hlit' : ∀ s, n ≠ .lit s := fun s e => hlit ⟨s, e⟩
          obtain ⟨t0, ht0⟩ := macro_str hun hlit'
          have hfollow : ∀ t, Follows n t := by
            intro t
            cases n with
            | lit s => exact absurd rfl (hlit' s)
            | sub p x => exact hun.elim
            | _ => trivial
          have finish : ∀ {near' : Bool} {t r : Str} {tok : Tok}, a = [tok] → Rewritten d near' (ts0.map part) t r → '%' ∉ r →
              '\n' ∉ r → text = n.str ++ t → (∀ {x y}, Refill near' x y → Refill near (tok :: x) (tok :: y)) →
              ∃ ns' ts', tokens ex modifiable (ns'.map .node) = .ok ts' ∧ Refill near (a ++ ts0) ts' ∧ text = Node.strs ns' ∧
                GoodNodes ns' ∧ (∀ n ∈ ns', Unconditional n) ∧
                ((∀ c ∈ (Node.strs (n :: ns)).head?, c = '%') → ∀ c ∈ (Node.strs ns').head?, c = '%') ∧
                ∀ m ∈ ns', (∃ s, m = .lit s) ∨ m ∈ n :: ns := by
            intro near' t r tok ea hrest hp' hl' etext hre
            obtain ⟨ns', ts', k1, k2, k3, k4, k5, k6, k7⟩ := ih h0 g2 hus hrest hp' hl'
            refine ⟨n :: ns', tok :: ts', ?_, ?_, ?_, ?_, ?_, ?_, ?_⟩
            · simp only [List.map_cons, tokens, ha, k1, ea]; rfl
            · rw [ea]; exact hre k2
            · simp [Node.strs, etext, k3]
            · unfold GoodNodes; exact ⟨g1, k4, hfollow _⟩
            · intro m hm
              rcases List.mem_cons.mp hm with rfl | hm
              · exact hun
              · exact k5 m hm
            · intro _ c hc
              simp only [Node.strs, ht0, List.cons_append, List.head?_cons, Option.mem_def, Option.some.injEq] at hc
              exact hc.symm
            · intro m hm
              rcases List.mem_cons.mp hm with rfl | hm
              · exact .inr (.head _)
              · exact (k7 m hm).imp_right (.tail _)
          rcases token_macro hun hlit' ha with ⟨r0, rfl⟩ | ⟨x, rfl⟩
          · simp only [List.cons_append, List.nil_append, List.map_cons, part] at hr
            cases hr with
            | constant hrest =>
              simp only [List.mem_append, not_or] at hp hl
              exact finish rfl hrest hp.2 hl.2 rfl .c
          · simp only [List.cons_append, List.nil_append, List.map_cons, part] at hr
            cases hr with
            | reference _ _ _ hrest =>
              simp only [List.mem_append, not_or] at hp hl
              exact finish rfl hrest hp.2 hl.2 rfl .g

theorem tokens_apart [Uni] {ex : Str → Except Err Str} {modifiable : List Str} : ∀ {ns : List Node}
    {ts : List Tok}, tokens ex modifiable (ns.map .node) = .ok ts → GoodNodes ns → (∀ n ∈ ns, Unconditional n) →
    Apart (ts.map part) ∧ ((∀ c ∈ (Node.strs ns).head?, c = '%') → ∀ s r, ts ≠ .v s :: r) := by
  intro ns
  induction ns with
  | nil =>
    intro ts h _ _
    simp only [List.map_nil, tokens] at h
    cases h
    exact ⟨trivial, by simp⟩
  | cons n ns ih =>
    intro ts h hg hu
    simp only [List.map_cons, tokens] at h
    split at h
    · cases h
    · rename_i a ha
      split at h
      · cases h
      · rename_i ts0 h0
        cases h
        have hun := hu n (.head _)
        have hus : ∀ m ∈ ns, Unconditional m := fun m hm => hu m (.tail _ hm)
        unfold GoodNodes at hg
        obtain ⟨g1, g2, g3⟩ := hg
        obtain ⟨i1, i2⟩ := ih h0 g2 hus
        by_cases hlit : ∃ s, n = .lit s
        · obtain ⟨s, rfl⟩ := hlit
          simp only [token] at ha
          cases ha
          refine ⟨?_, ?_⟩
          · have := i2 g3
            cases ts0 with
            | nil => simp [part, Apart]
            | cons t ts0 =>
              cases t with
              | v s' => exact absurd rfl (this s' ts0)
              | c _ _ => simpa [part, Apart] using i1
              | g _ _ => simpa [part, Apart] using i1
          · intro hh
            unfold GoodNode at g1
            cases s with
            | nil => exact absurd rfl g1.1
            | cons c s =>
              have := hh c (by simp [Node.strs, Node.str])
              subst this
              exact absurd (List.mem_cons_self ..) g1.2
        · rcases token_macro hun (fun s e => hlit ⟨s, e⟩) ha with ⟨r0, rfl⟩ | ⟨x, rfl⟩
          · exact ⟨by simpa [part, Apart] using i1, by simp⟩
          · exact ⟨by simpa [part, Apart] using i1, by simp⟩

/-- tokens depend only on the expansions of what cannot be changed -/
theorem tokens_congr {ex ex' : Str → Except Err Str} {modifiable : List Str} : ∀ {ns : List Node},
    (∀ n ∈ ns, IsMacro n → (∀ x, RefersTo n x → x ∉ modifiable) → ex' n.str = ex n.str) →
    tokens ex' modifiable (ns.map .node) = tokens ex modifiable (ns.map .node) := by
  intro ns
  induction ns with
  | nil => intro _; rfl
  | cons n ns ih =>
    intro h
    have hc : ∀ m, m = n → IsMacro m → (∀ x, RefersTo m x → x ∉ modifiable) → constant ex' m = constant ex m := by
      rintro m rfl h1 h2
      unfold constant
      rw [h m (.head _) h1 h2]
    have hn : token ex' modifiable (.node n) = token ex modifiable (.node n) := by
      cases n with
      | lit s => rfl
      | cond p x b => rfl
      | shell b => exact hc _ rfl trivial (by rintro x ⟨⟩)
      | expr b => exact hc _ rfl trivial (by rintro x ⟨⟩)
      | builtin a b => exact hc _ rfl trivial (by rintro x ⟨⟩)
      | sub p x =>
        simp only [token]
        split
        · rfl
        · rename_i hh
          refine hc _ rfl trivial ?_
          rintro y ⟨h0⟩ hy
          exact hh ⟨h0, by simpa using hy⟩
      | encl p x args =>
        simp only [token]
        split
        · rfl
        · rename_i hh
          refine hc _ rfl trivial ?_
          rintro y h0 hy
          cases h0 with
          | braced h0 => exact hh ⟨h0, rfl, by simpa using hy⟩
    simp only [List.map_cons, tokens, hn, ih (fun m hm => h m (.tail _ hm))]

/-- If a request fits, then it fits the rewritten value in the same way. -/
theorem construct_repeat [Uni] {isIdent : Str → Bool} {ex : Str → Except Err Str} {entities flippable : List Str}
    {value requested : Str} {B : Built} {flips : List Str} {m : St Str} (hv : Simple value)
    (h : construct isIdent ex entities flippable value = .ok (B, flips)) (hm : rmatch B.re requested = some m)
    (hne : requested ≠ []) (hline : '\n' ∉ requested) (hpct : '%' ∉ requested) :
    ∃ v, substitute m.get B.template = .ok v ∧ Simple v ∧ flips = [] ∧
      ∀ (ex' : Str → Except Err Str) (flippable' : List Str), (∀ ns, ValueParser.parse value = .ok ns → ∀ n ∈ ns, IsMacro n →
        (∀ x, RefersTo n x → x ∉ entities) → ex' n.str = ex n.str) →
        construct isIdent ex' entities flippable' v = .ok (B, []) := by
  obtain ⟨ns, rfl, hg, hu⟩ := hv
  unfold construct at h
  rw [Props.C09_print_parse hg] at h
  simp only [openNodes_plain hu] at h
  split at h
  · cases h
  · rename_i ts ht
    split at h
    · cases h
      have := mem_of_rmatch hm
      rw [mem_cat] at this
      obtain ⟨u, hu, ht⟩ := this
      rw [mem_bos] at hu
      rw [mem_eos] at ht
      rw [hu.1] at ht
      rcases ht.2 with h | h
      · exact absurd h hne
      · exact absurd (by rw [show requested = _ from h]; simp) hline
    · rename_i r hs
      split at h
      · cases h
      · rename_i b hb
        cases h
        have hap := (tokens_apart ht hg hu).1
        obtain ⟨s1, -⟩ := squash_some (d := m.get) hs hap
        have := mem_of_rmatch hm
        rw [mem_cat] at this
        obtain ⟨u, hu', ht'⟩ := this
        rw [mem_bos] at hu'
        obtain ⟨rfl, -⟩ := hu'
        obtain ⟨r', txt, b1, b2, b3, b4, -⟩ := build_sound hb (s := init requested)
          ⟨by simp [init, St.get], by simp [init, St.get]⟩ ht'
        simp only [init] at b2
        have hr : requested = r' := by
          rcases b3 with b3 | b3
          · rw [b2, b3]; simp
          · exact absurd (by rw [b2, b3]; simp) hline
        subst hr
        obtain ⟨ns', ts', k1, k2, k3, k4, k5, -, k7⟩ := nodes_refill ht hg hu ((s1 _ _ _).mpr b1) hpct hline
        obtain ⟨r2, l1, l2⟩ := squash_refill k2 hs hap
        refine ⟨txt, b4, ⟨ns', k3, k4, k5⟩, rfl, fun ex' fl hex => ?_⟩
        have k1' : tokens ex' entities (ns'.map .node) = .ok ts' := by
          rw [← k1]
          refine tokens_congr fun n hn h1 h2 => ?_
          rcases k7 n hn with ⟨s, rfl⟩ | h
          · exact h1.elim
          · exact hex ns (Props.C09_print_parse hg) n h h1 h2
        unfold construct
        rw [k3, Props.C09_print_parse k4]
        simp only [openNodes_plain k5, k1', l1]
        rw [build_refill l2 (before := []) (before' := []) rfl rfl, hb]

end Specfile.Template
