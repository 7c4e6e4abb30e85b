import Verif.Proof.Stderr
/-
C85: capturing stderr. C86: the text of an exception raised by RPM.
-/
namespace Specfile.Props
open Py Spec Stderr

/-! ### C85 -/

/-- C85: whether or not an exception is raised, and also if the process runs out of descriptors, afterwards every
descriptor refers to what it referred to before, nothing that was printed before is lost, and no output of the code has
got into any file that existed before. -/
theorem C85_restored (n : Nat) (body : Proc → Proc × Option Err) (hb : Tame n body) (p : Proc) (g : Nat) (hs : Sane p)
    (hg : p.fd n = some g) :
    (capture n body p).proc.fd = p.fd ∧
    (capture n body p).proc.file g ++ (capture n body p).proc.pending = p.file g ++ p.pending ∧
    ∀ k, k < p.next → k ≠ g → (capture n body p).proc.file k = p.file k := by
  have hgn := hs n g hg
  rcases capture_cases n body p g hs hg with ⟨_, h1, h2, h3, h4, h5, -⟩ | ⟨t, b, _, h2, h3, _, _, h4⟩
  · exact ⟨h1, by rw [h4 g hgn, h5], fun k hk _ => h4 k hk⟩
  · obtain ⟨k1, k2, k3, k4, k5, -⟩ := finish_spec hs hg h2 h3 hb
    rw [h4]
    exact ⟨k1, by rw [k4, k5 g hgn]; simp, fun k hk hne => by rw [k5 k hk, if_neg hne]⟩

/-- C85: the captured lines are the lines of what the code printed, and its exception is passed on. If there are less than
two descriptors left, the code does not run. -/
theorem C85_captured (n d : Nat) (body : Proc → Proc × Option Err) (hb : Tame n body) (t : Str) (e : Option Err)
    (ht : Prints n d body t e) (p : Proc) (g : Nat) (hs : Sane p) (hg : p.fd n = some g)
    (hd : d + 2 ≤ ((List.range p.limit).filter (fun i => (p.fd i).isNone)).length) :
    TextLines t (capture n body p).data ∧ (capture n body p).error = e := by
  have hgn := hs n g hg
  rcases capture_cases n body p g hs hg with ⟨h, -⟩ | ⟨u, b, h1, h2, h3, h5, h6, h4⟩
  · omega
  · obtain ⟨-, -, -, -, -, k6, k7⟩ := finish_spec hs hg h2 h3 hb
    rw [h4]
    have hfree : d ≤ ((List.range (started p n u b g).limit).filter (fun i => ((started p n u b g).fd i).isNone)).length := by
      have hsub : (List.range p.limit).filter (fun i => (p.fd i).isNone) ⊆
          u :: b :: (List.range (started p n u b g).limit).filter (fun i => ((started p n u b g).fd i).isNone) := by
        intro i hi
        rw [List.mem_filter] at hi
        by_cases hu : i = u
        · simp [hu]
        · by_cases hb : i = b
          · simp [hb]
          · have hne : i ≠ n := by rintro rfl; rw [hg] at hi; simp at hi
            refine List.mem_cons_of_mem _ (List.mem_cons_of_mem _ (List.mem_filter.2 ⟨hi.1, ?_⟩))
            simp only [started]
            rw [if_neg hne, if_neg hb, if_neg hu]
            exact hi.2
      have hnd : ((List.range p.limit).filter (fun i => (p.fd i).isNone)).Nodup := List.nodup_range.filter _
      have := nat_length_le_of_subset hnd (fun x hx => hsub hx)
      simp only [List.length_cons] at this
      omega
    obtain ⟨q1, q2⟩ := ht (started p n u b g) p.next (started_sane hs hg) (by simp [started]) rfl hfree
    have e0 : (started p n u b g).file p.next = [] := by simp [started]
    rw [e0, List.nil_append] at q1
    rw [k6, k7, q2, q1]
    exact ⟨readlines_text t, rfl⟩

/-- C85: captures can be nested: code that captures the output of other code prints nothing itself. -/
theorem C85_nested (n d : Nat) (body : Proc → Proc × Option Err) (hb : Tame n body) (t : Str) (e : Option Err)
    (ht : Prints n d body t e) :
    Tame n (fun p => ((capture n body p).proc, (capture n body p).error)) ∧
    Prints n (d + 2) (fun p => ((capture n body p).proc, (capture n body p).error)) [] e := by
  constructor
  · intro p g hs hg
    have hgn := hs n g hg
    rcases capture_cases n body p g hs hg with ⟨_, h1, h2, h3, h4, -⟩ | ⟨u, b, _, h2, h3, _, _, h4⟩
    · exact ⟨h1, h3, h2, by rw [h4 g hgn]; exact List.prefix_refl _, fun k hk _ => h4 k hk⟩
    · obtain ⟨k1, k2, k3, k4, k5, -⟩ := finish_spec hs hg h2 h3 hb
      simp only
      rw [h4]
      exact ⟨k1, k3, k2, by rw [k5 g hgn, if_pos rfl]; exact List.prefix_append _ _,
        fun k hk hne => by rw [k5 k hk, if_neg hne]⟩
  · intro p g hs hg hp hd
    have h1 := C85_restored n body hb p g hs hg
    have h2 := C85_captured n d body hb t e ht p g hs hg hd
    refine ⟨?_, h2.2⟩
    rw [h1.2.1, hp]

/-! ### C86 -/

/-- C86: the text of the exception is the message on the first line with an error. What is missing: messages that contain
`error: ` and empty messages, see the violations. -/
theorem C86_first_error_partial (pre post : List Str) (hp : ∀ x ∈ pre, ¬ ErrorLine x) (m w : Str) (hm : m ≠ [])
    (hw : ∀ c ∈ w, isSpace c = true) (hl : ∀ c ∈ m.getLast?, isSpace c = false) (he : ¬ s% "error: " <:+: m) :
    RPMException.str (pre ++ (s% "error: " ++ m ++ w) :: post) = .ok m := by
  unfold RPMException.str
  have hlast : ∀ c ∈ (s% "error: " ++ m).getLast?, isSpace c = false := by
    intro c hc
    rw [List.getLast?_append] at hc
    cases hx : m.getLast? with
    | none => rw [List.getLast?_eq_none_iff] at hx; exact absurd hx hm
    | some d => rw [hx] at hc; exact hl c (by rw [hx]; exact hc)
  rw [message_skip hp]
  generalize pre ++ (s% "error: " ++ m ++ w) :: post = all
  rw [message]
  have hr : rstrip (s% "error: " ++ m ++ w) = s% "error: " ++ m := by
    rw [rstrip_append hw, rstrip_self hlast]
  rw [hr]
  rw [if_pos (by unfold startsWith; rw [List.isPrefixOf_iff_prefix]; exact ⟨' ' :: m, rfl⟩)]
  unfold splitSecond splitSecond.splitOn
  rw [cut_prefix (by decide)]
  simp only
  rw [(cut_none (by decide)).2 he]

/-- C86: if there is no line with an error, the text is everything that was printed. -/
theorem C86_no_error_line (stderr : List Str) (h : ∀ x ∈ stderr, ¬ ErrorLine x) :
    RPMException.str stderr = .ok ('\n' :: stderr.flatten) := by
  have := message_skip (stderr := stderr) h []
  rw [List.append_nil] at this
  unfold RPMException.str
  rw [this]; rfl

/-- C86: getting the text fails exactly if the first line with an error has nothing after `error:` that is separated by a
space. -/
theorem C86_raises (stderr : List Str) (e : Err) : RPMException.str stderr = .error e ↔
    e = .indexError ∧ ∃ pre x w post, stderr = pre ++ (x ++ w) :: post ∧ (∀ y ∈ pre, ¬ ErrorLine y) ∧
      s% "error:" <+: x ∧ (∀ c ∈ w, isSpace c = true) ∧ (∀ c ∈ x.getLast?, isSpace c = false) ∧ ¬ s% "error: " <:+: x := by
  have split : ∀ ls : List Str, (∀ y ∈ ls, ¬ ErrorLine y) ∨
      ∃ pre l post, ls = pre ++ l :: post ∧ (∀ y ∈ pre, ¬ ErrorLine y) ∧ ErrorLine l := by
    intro ls
    induction ls with
    | nil => simp
    | cons l ls ih =>
      by_cases h : ErrorLine l
      · exact .inr ⟨[], l, ls, rfl, by simp, h⟩
      · rcases ih with ih | ⟨pre, l', post, rfl, h1, h2⟩
        · left; intro y hy; rcases List.mem_cons.1 hy with rfl | hy
          · exact h
          · exact ih y hy
        · refine .inr ⟨l :: pre, l', post, rfl, ?_, h2⟩
          intro y hy; rcases List.mem_cons.1 hy with rfl | hy
          · exact h
          · exact h1 y hy
  have value : ∀ pre l post, (∀ y ∈ pre, ¬ ErrorLine y) → ErrorLine l →
      RPMException.str (pre ++ l :: post) = splitSecond (s% "error: ") (rstrip l) := by
    intro pre l post h1 h2
    unfold RPMException.str
    rw [message_skip h1]
    generalize pre ++ l :: post = all
    rw [message]
    rw [if_pos ((errorLine_iff l).2 h2)]
  have second : ∀ s : Str, splitSecond (s% "error: ") s = .error e ↔ e = .indexError ∧ ¬ s% "error: " <:+: s := by
    intro s
    rw [← cut_none (by decide)]
    unfold splitSecond splitSecond.splitOn
    cases hc : splitSecond.cut (s% "error: ") s with
    | none => simp [eq_comm]
    | some r =>
      obtain ⟨a, rest⟩ := r
      simp only
      cases splitSecond.cut (s% "error: ") rest with
      | none => simp
      | some r => simp
  constructor
  · intro h
    rcases split stderr with hs | ⟨pre, l, post, rfl, h1, h2⟩
    · rw [C86_no_error_line stderr hs] at h; cases h
    · rw [value pre l post h1 h2, second] at h
      obtain ⟨w, e1, hw⟩ := rstrip_parts l
      refine ⟨h.1, pre, rstrip l, w, post, by rw [← e1], h1, ?_, hw, ?_, h.2⟩
      · have := (errorLine_iff l).2 h2
        unfold startsWith at this
        rwa [List.isPrefixOf_iff_prefix] at this
      · intro c hc
        rw [show rstrip l = (l.reverse.dropWhile isSpace).reverse from rfl, List.getLast?_reverse] at hc
        have := List.head?_dropWhile_not isSpace l.reverse
        rw [hc] at this
        simpa using this
  · rintro ⟨rfl, pre, x, w, post, rfl, h1, h2, h3, h4, h5⟩
    rw [value pre (x ++ w) post h1 ⟨x, w, rfl, h2, h3⟩, second, rstrip_append h3, rstrip_self h4]
    exact ⟨rfl, h5⟩

/-- C86 fails for an error without a message: the text of the exception can not be obtained. -/
theorem C86_empty_violation : RPMException.str [s% "error: \n"] = .error .indexError := by decide

/-- C86 fails for a message that contains `error: `: the rest of it is lost. -/
theorem C86_cut_violation :
    RPMException.str [s% "error: line 3: script error: no such file\n"] = .ok (s% "line 3: script ") := by decide

example : RPMException.str [s% "warning: x\n", s% "error: line 3: bad\n", s% "error: y\n"] = .ok (s% "line 3: bad") :=
  C86_first_error_partial [s% "warning: x\n"] [s% "error: y\n"] (by
    intro x hx
    simp only [List.mem_singleton] at hx
    subst hx
    rw [← errorLine_iff]
    decide) (s% "line 3: bad") (s% "\n") (by decide) (by decide) (by decide) (by decide)

example : RPMException.str [s% "x\n", s% "y"] = .ok (s% "\nx\ny") :=
  C86_no_error_line _ (by
    intro x hx
    rw [← errorLine_iff]
    revert x
    decide)

/-! ### code that prints, for examples -/

/-- code that writes to the descriptor, and then fails -/
def failing (n : Nat) (s : Str) : Proc → Proc × Option Err := fun p => (p.write n s, some .rpmException)

theorem failing_tame (n : Nat) (s : Str) : Tame n (failing n s) := by
  intro p g _ hg
  simp only [failing, Proc.write, hg]
  exact ⟨trivial, Nat.le_refl _, trivial, by simp, fun k _ hk => by rw [if_neg hk]⟩

theorem failing_prints (n : Nat) (s : Str) : Prints n 0 (failing n s) s (some .rpmException) := by
  intro p g _ hg hp _
  simp [failing, Proc.write, hg, hp]

/-- a process with three descriptors in use, and something that has not been written yet -/
def shell : Proc := ⟨fun _ => s% "$ ", fun i => if i < 3 then some i else none, 3, s% "w", 16⟩

theorem shell_sane : Sane shell := by
  intro i f h
  simp only [shell] at h
  split at h
  · cases h; assumption
  · cases h

/-- a failing expansion inside of a capture inside of a capture -/
example : TextLines (s% "error: a\nb") (capture 2 (failing 2 (s% "error: a\nb")) shell).data ∧
    (capture 2 (fun p => ((capture 2 (failing 2 (s% "error: a\nb")) p).proc,
      (capture 2 (failing 2 (s% "error: a\nb")) p).error)) shell).data = [] ∧
    (capture 2 (failing 2 (s% "error: a\nb")) shell).proc.fd = shell.fd := by
  have h1 := C85_captured 2 0 _ (failing_tame 2 (s% "error: a\nb")) _ _ (failing_prints 2 _) shell 2 shell_sane rfl (by decide)
  have h2 := C85_nested 2 0 _ (failing_tame 2 (s% "error: a\nb")) _ _ (failing_prints 2 _)
  have h3 := C85_captured 2 2 _ h2.1 _ _ h2.2 shell 2 shell_sane rfl (by decide)
  have h4 := C85_restored 2 _ (failing_tame 2 (s% "error: a\nb")) shell 2 shell_sane rfl
  refine ⟨h1.1, ?_, h4.1⟩
  exact lines_nil h3.1 rfl

end Specfile.Props
