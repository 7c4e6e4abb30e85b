import Verif.Spec.Bytes
/-
Lemmas about decoding and encoding (C94).
-/
namespace Specfile.Proof.BytesLemmas
open Py Bytes Spec

/-! ### one code point -/

theorem bounds (b : Byte) :
    (b.val = 0xE0 ∧ least b = 0xA0 ∨ b.val = 0xF0 ∧ least b = 0x90 ∨ b.val ≠ 0xE0 ∧ b.val ≠ 0xF0 ∧ least b = 0x80) ∧
    (b.val = 0xED ∧ greatest b = 0x9F ∨ b.val = 0xF4 ∧ greatest b = 0x8F ∨
      b.val ≠ 0xED ∧ b.val ≠ 0xF4 ∧ greatest b = 0xBF) := by
  unfold least greatest
  constructor <;> (repeat' split) <;> omega

theorem sequence_sound {b : Byte} {r : List Byte} {c n : Nat} (h : sequence b r = some (c, n)) :
    ∃ s t, r = s ++ t ∧ s.length = n ∧ Encodes c (b :: s) := by
  unfold sequence at h
  have hb := b.isLt
  split at h
  · cases h
    exact ⟨[], r, rfl, rfl, Or.inl (by omega), Or.inl ⟨b, rfl, rfl, by assumption⟩⟩
  split at h
  · cases h
  split at h
  · split at h
    · rename_i d t
      split at h
      · rename_i hc
        simp only [cont, Bool.and_eq_true, decide_eq_true_eq] at hc
        simp only [Option.some.injEq, Prod.mk.injEq] at h
        obtain ⟨rfl, rfl⟩ := h
        refine ⟨[d], t, rfl, rfl, ?_, Or.inr (Or.inl ⟨b, d, b.val - 0xC0, d.val - 0x80, rfl, ?_⟩)⟩
        · unfold Scalar; omega
        · omega
      · cases h
    · cases h
  split at h
  · split at h
    · rename_i d e t
      split at h
      · rename_i hc
        simp only [cont, Bool.and_eq_true, decide_eq_true_eq] at hc
        simp only [Option.some.injEq, Prod.mk.injEq] at h
        obtain ⟨rfl, rfl⟩ := h
        refine ⟨[d, e], t, rfl, rfl, ?_, Or.inr (Or.inr (Or.inl ⟨b, d, e, b.val - 0xE0, d.val - 0x80, e.val - 0x80, rfl, ?_⟩))⟩
        · unfold Scalar; have := bounds b; omega
        · have := bounds b; omega
      · cases h
    · cases h
  split at h
  · split at h
    · rename_i d e f t
      split at h
      · rename_i hc
        simp only [cont, Bool.and_eq_true, decide_eq_true_eq] at hc
        simp only [Option.some.injEq, Prod.mk.injEq] at h
        obtain ⟨rfl, rfl⟩ := h
        refine ⟨[d, e, f], t, rfl, rfl, ?_, Or.inr (Or.inr (Or.inr ⟨b, d, e, f, b.val - 0xF0, d.val - 0x80, e.val - 0x80,
          f.val - 0x80, rfl, ?_⟩))⟩
        · unfold Scalar; have := bounds b; omega
        · have := bounds b; omega
      · cases h
    · cases h
  · cases h

theorem sequence_complete {b : Byte} {s r : List Byte} {c : Nat} (h : Encodes c (b :: s)) :
    sequence b (s ++ r) = some (c, s.length) := by
  obtain ⟨hs, h⟩ := h
  unfold Scalar at hs
  rcases h with ⟨b', e, h⟩ | ⟨b1, b2, x, y, e, h⟩ | ⟨b1, b2, b3, x, y, z, e, h⟩ | ⟨b1, b2, b3, b4, x, y, z, w, e, h⟩
  · cases e
    have : b.val < 0x80 := by omega
    simp [sequence, this]
    omega
  · cases e
    have h1 : ¬ b.val < 0x80 := by omega
    have h2 : ¬ b.val < 0xC2 := by omega
    have h3 : b.val < 0xE0 := by omega
    simp [sequence, h1, h2, h3, cont]
    omega
  · cases e
    have h1 : ¬ b.val < 0x80 := by omega
    have h2 : ¬ b.val < 0xC2 := by omega
    have h3 : ¬ b.val < 0xE0 := by omega
    have h4 : b.val < 0xF0 := by omega
    simp [sequence, h1, h2, h3, h4, cont]
    have := bounds b
    omega
  · cases e
    have h1 : ¬ b.val < 0x80 := by omega
    have h2 : ¬ b.val < 0xC2 := by omega
    have h3 : ¬ b.val < 0xE0 := by omega
    have h4 : ¬ b.val < 0xF0 := by omega
    have h5 : b.val < 0xF5 := by omega
    simp [sequence, h1, h2, h3, h4, h5, cont]
    have := bounds b
    omega

theorem not_encodes_nil {c : Nat} : ¬ Encodes c [] := by
  rintro ⟨_, h⟩
  rcases h with ⟨_, e, _⟩ | ⟨_, _, _, _, e, _⟩ | ⟨_, _, _, _, _, _, e, _⟩ | ⟨_, _, _, _, _, _, _, _, e, _⟩ <;> cases e

theorem sequence_none {b : Byte} {r : List Byte} :
    sequence b r = none ↔ ∀ c s t, Encodes c s → b :: r ≠ s ++ t := by
  constructor
  · intro h c s t hs e
    cases s with
    | nil => exact not_encodes_nil hs
    | cons b' s =>
      simp at e
      obtain ⟨rfl, rfl⟩ := e
      rw [sequence_complete hs] at h
      cases h
  · intro h
    cases hq : sequence b r with
    | none => rfl
    | some x =>
      obtain ⟨c, n⟩ := x
      obtain ⟨s, t, rfl, -, he⟩ := sequence_sound hq
      exact absurd rfl (h c (b :: s) t he)

theorem byte_val {n : Nat} {b : Byte} (h : b.val = n) : byte n = b := by
  apply Fin.ext
  have := b.isLt
  simp [byte, Fin.ofNat]
  omega

theorem encodePoint_complete {c : Nat} {s : List Byte} (x : Bool) (h : Encodes c s) : encodePoint x c = .ok s := by
  obtain ⟨hs, h⟩ := h
  unfold Scalar at hs
  unfold encodePoint
  rcases h with ⟨b', rfl, h⟩ | ⟨b1, b2, x, y, rfl, h⟩ | ⟨b1, b2, b3, x, y, z, rfl, h⟩ | ⟨b1, b2, b3, b4, x, y, z, w, rfl, h⟩
  · rw [if_pos (by omega), byte_val h.1]
  · rw [if_neg (by omega), if_pos (by omega), byte_val (b := b1) (by omega), byte_val (b := b2) (by omega)]
  · rw [if_neg (by omega), if_neg (by omega), if_neg (by omega), if_pos (by omega), byte_val (b := b1) (by omega),
      byte_val (b := b2) (by omega), byte_val (b := b3) (by omega)]
  · rw [if_neg (by omega), if_neg (by omega), if_neg (by omega), if_neg (by omega), if_pos (by omega),
      byte_val (b := b1) (by omega), byte_val (b := b2) (by omega), byte_val (b := b3) (by omega),
      byte_val (b := b4) (by omega)]

theorem byte_of {n : Nat} (h : n < 256) : (byte n).val = n := by
  simp [byte, Fin.ofNat]; omega

theorem encodes_exists {c : Nat} (hs : Scalar c) : ∃ s, Encodes c s := by
  have hs' := hs
  unfold Scalar at hs'
  by_cases h1 : c < 0x80
  · exact ⟨[byte c], hs, Or.inl ⟨_, rfl, byte_of (by omega), h1⟩⟩
  by_cases h2 : c < 0x800
  · exact ⟨[byte (0xC0 + c / 64), byte (0x80 + c % 64)], hs, Or.inr (Or.inl ⟨_, _, c / 64, c % 64, rfl,
      byte_of (by omega), byte_of (by omega), by omega, by omega, by omega, by omega⟩)⟩
  by_cases h3 : c < 0x10000
  · exact ⟨[byte (0xE0 + c / 4096), byte (0x80 + c / 64 % 64), byte (0x80 + c % 64)], hs, Or.inr (Or.inr (Or.inl
      ⟨_, _, _, c / 4096, c / 64 % 64, c % 64, rfl, byte_of (by omega), byte_of (by omega), byte_of (by omega),
        by omega, by omega, by omega, by omega, by omega⟩))⟩
  · exact ⟨[byte (0xF0 + c / 262144), byte (0x80 + c / 4096 % 64), byte (0x80 + c / 64 % 64), byte (0x80 + c % 64)], hs,
      Or.inr (Or.inr (Or.inr ⟨_, _, _, _, c / 262144, c / 4096 % 64, c / 64 % 64, c % 64, rfl, byte_of (by omega),
        byte_of (by omega), byte_of (by omega), byte_of (by omega), by omega, by omega, by omega, by omega, by omega,
        by omega⟩))⟩

theorem encodes_unique {c : Nat} {s t : List Byte} (h : Encodes c s) (h' : Encodes c t) : s = t := by
  have a := encodePoint_complete true h
  rw [encodePoint_complete true h'] at a
  cases a
  rfl

theorem encodePoint_surrogate {c : Nat} (x : Bool) (h : 0xD800 ≤ c ∧ c < 0xE000) :
    encodePoint x c = if x = true ∧ 0xDC80 ≤ c ∧ c < 0xDD00 then .ok [byte (c - 0xDC00)] else .error .unicodeError := by
  unfold encodePoint
  rw [if_neg (by omega), if_neg (by omega), if_pos h]

/-! ### texts -/

theorem decodeLoop_skip (s r : List Byte) : decodeLoop s.length (s ++ r) = decodeLoop 0 r := by
  induction s with
  | nil => rfl
  | cons b s ih => simpa [decodeLoop] using ih

theorem decode_point {c : Nat} {s r : List Byte} (h : Encodes c s) : decode (s ++ r) = c :: decode r := by
  cases s with
  | nil => exact absurd h not_encodes_nil
  | cons b s =>
    simp only [decode, List.cons_append, decodeLoop, sequence_complete h]
    rw [decodeLoop_skip]

theorem decode_escape {b : Byte} {r : List Byte} (h : ∀ c s t, Encodes c s → b :: r ≠ s ++ t) :
    decode (b :: r) = (0xDC00 + b.val) :: decode r := by
  simp only [decode, decodeLoop, sequence_none.2 h]

/-- the two ways in which a file can go on -/
theorem step (b : Byte) (r : List Byte) :
    (∃ c s t, Encodes c s ∧ b :: r = s ++ t) ∨
    ((∀ c s t, Encodes c s → b :: r ≠ s ++ t) ∧ 0x80 ≤ b.val) := by
  cases hq : sequence b r with
  | some x =>
    obtain ⟨c, n⟩ := x
    obtain ⟨s, t, rfl, -, he⟩ := sequence_sound hq
    exact Or.inl ⟨c, b :: s, t, he, rfl⟩
  | none =>
    refine Or.inr ⟨sequence_none.1 hq, ?_⟩
    unfold sequence at hq
    split at hq
    · cases hq
    · omega

theorem encodes_pos {c : Nat} {s : List Byte} (h : Encodes c s) : 0 < s.length := by
  cases s with
  | nil => exact absurd h not_encodes_nil
  | cons _ _ => simp

theorem reads_decode (bs : List Byte) : ReadAs bs (decode bs) := by
  cases bs with
  | nil => exact ReadAs.nil
  | cons b r =>
    rcases step b r with ⟨c, s, t, he, e⟩ | ⟨hn, -⟩
    · have hlen : t.length < (b :: r).length := by
        rw [e]; have := encodes_pos he; simp; omega
      rw [e, decode_point he]
      exact ReadAs.point he (reads_decode t)
    · rw [decode_escape hn]
      exact ReadAs.escape hn (reads_decode r)
termination_by bs.length

theorem decode_reads {bs : List Byte} {cs : List Nat} (h : ReadAs bs cs) : decode bs = cs := by
  induction h with
  | nil => rfl
  | point he _ ih => rw [decode_point he, ih]
  | escape hn _ ih => rw [decode_escape hn, ih]

theorem encode_append (x : Bool) (a b : List Nat) : encode x (a ++ b) =
    match encode x a with
    | .error e => .error e
    | .ok p => match encode x b with
      | .error e => .error e
      | .ok q => .ok (p ++ q) := by
  induction a with
  | nil => simp only [List.nil_append, encode]; cases encode x b <;> rfl
  | cons c a ih =>
    simp only [List.cons_append, encode]
    cases encodePoint x c with
    | error e => rfl
    | ok p =>
      dsimp only
      rw [ih]
      cases encode x a with
      | error e => rfl
      | ok q =>
        dsimp only
        cases encode x b <;> simp

theorem encode_append_ok {x : Bool} {a b : List Nat} {p q : List Byte} (ha : encode x a = .ok p) (hb : encode x b = .ok q) :
    encode x (a ++ b) = .ok (p ++ q) := by
  rw [encode_append, ha, hb]

theorem encode_decode (bs : List Byte) : encode true (decode bs) = .ok bs := by
  have h := reads_decode bs
  generalize decode bs = cs at h
  induction h with
  | nil => rfl
  | point he _ ih => simp only [encode, encodePoint_complete true he, ih]
  | @escape b bs cs hn _ ih =>
    have hb : 0x80 ≤ b.val := by
      rcases step b bs with ⟨c, s, t, he, e⟩ | ⟨-, h⟩
      · exact absurd e (hn c s t he)
      · exact h
    have := b.isLt
    simp only [encode, encodePoint_surrogate true (c := 0xDC00 + b.val) (by omega), ih]
    rw [if_pos ⟨trivial, by omega, by omega⟩, byte_val (b := b) (by omega)]
    rfl

theorem utf8_decode {cs : List Nat} {bs : List Byte} (h : Utf8 cs bs) : decode bs = cs := by
  induction h with
  | nil => rfl
  | cons he _ ih => rw [decode_point he, ih]

theorem utf8_encode (x : Bool) {cs : List Nat} {bs : List Byte} (h : Utf8 cs bs) : encode x cs = .ok bs := by
  induction h with
  | nil => rfl
  | cons he _ ih => simp only [encode, encodePoint_complete x he, ih]

theorem utf8_exists {cs : List Nat} (h : ∀ c ∈ cs, Scalar c) : ∃ bs, Utf8 cs bs := by
  induction cs with
  | nil => exact ⟨[], Utf8.nil⟩
  | cons c cs ih =>
    obtain ⟨s, hs⟩ := encodes_exists (h c (by simp))
    obtain ⟨bs, hb⟩ := ih (fun c hc => h c (by simp [hc]))
    exact ⟨s ++ bs, Utf8.cons hs hb⟩

theorem utf8_scalar {cs : List Nat} {bs : List Byte} (h : Utf8 cs bs) : ∀ c ∈ cs, Scalar c := by
  induction h with
  | nil => simp
  | cons he _ ih =>
    intro c hc
    rcases List.mem_cons.1 hc with rfl | hc
    · exact he.1
    · exact ih c hc

theorem encodePoint_strict {c : Nat} {s : List Byte} (h : encodePoint false c = .ok s) : Scalar c := by
  unfold Scalar
  by_cases hs : 0xD800 ≤ c ∧ c < 0xE000
  · rw [encodePoint_surrogate false hs, if_neg (by simp)] at h
    cases h
  · by_cases hb : c < 0x110000
    · omega
    · unfold encodePoint at h
      rw [if_neg (by omega), if_neg (by omega), if_neg (by omega), if_neg (by omega), if_neg (by omega)] at h
      cases h

theorem encode_strict {cs : List Nat} {bs : List Byte} (h : encode false cs = .ok bs) : Utf8 cs bs := by
  induction cs generalizing bs with
  | nil => cases h; exact Utf8.nil
  | cons c cs ih =>
    simp only [encode] at h
    split at h
    · cases h
    · rename_i s hs
      split at h
      · cases h
      · rename_i r hr
        cases h
        obtain ⟨s', he⟩ := encodes_exists (encodePoint_strict hs)
        rw [encodePoint_complete false he] at hs
        cases hs
        exact Utf8.cons he (ih hr)

/-! ### line feeds -/

theorem encodes_low {c : Nat} {s : List Byte} (h : Encodes c s) {b : Byte} (hb : b ∈ s) (hl : b.val < 0x80) :
    s = [b] ∧ c = b.val := by
  obtain ⟨-, h⟩ := h
  rcases h with ⟨b', rfl, h⟩ | ⟨b1, b2, x, y, rfl, h⟩ | ⟨b1, b2, b3, x, y, z, rfl, h⟩ | ⟨b1, b2, b3, b4, x, y, z, w, rfl, h⟩
  · simp at hb; subst hb; exact ⟨rfl, h.1.symm⟩
  · simp at hb
    rcases hb with rfl | rfl <;> omega
  · simp at hb
    rcases hb with rfl | rfl | rfl <;> omega
  · simp at hb
    rcases hb with rfl | rfl | rfl | rfl <;> omega

/-- the byte of a line feed -/
abbrev lf : Byte := 10

theorem encodes_lf : Encodes 10 [lf] := ⟨Or.inl (by omega), Or.inl ⟨lf, rfl, rfl, by omega⟩⟩

/-- an encoded code point at the start of a text with a line feed is before it, or is it -/
theorem point_before {c : Nat} {s t a r : List Byte} (h : Encodes c s) (e : a ++ lf :: r = s ++ t) :
    (a = [] ∧ s = [lf]) ∨ ∃ a', a = s ++ a' ∧ t = a' ++ lf :: r := by
  rcases List.append_eq_append_iff.1 e with ⟨a', rfl, h2⟩ | ⟨a', rfl, h2⟩
  · cases a' with
    | nil => exact Or.inr ⟨[], by simp, by simpa using h2.symm⟩
    | cons x a' =>
      simp at h2
      obtain ⟨rfl, -⟩ := h2
      have := encodes_low h (b := lf) (by simp) (by decide)
      have h1 := this.1
      cases a with
      | nil => exact Or.inl ⟨rfl, h1⟩
      | cons y a => simp at h1
  · exact Or.inr ⟨a', rfl, h2⟩

theorem decode_lf (a r : List Byte) : decode (a ++ lf :: r) = decode a ++ 10 :: decode r := by
  cases a with
  | nil => exact decode_point (s := [lf]) encodes_lf
  | cons b a =>
    rcases step b a with ⟨c, s, t, he, e⟩ | ⟨hn, -⟩
    · have hlen : t.length < (b :: a).length := by
        rw [e]; have := encodes_pos he; simp; omega
      rw [e, List.append_assoc, decode_point he, decode_point he, decode_lf t r]
      rfl
    · rw [decode_escape hn, List.cons_append, decode_escape (b := b), decode_lf a r]
      · rfl
      · intro c s t he e
        rcases point_before (a := b :: a) he e with ⟨h, -⟩ | ⟨a', h, -⟩
        · cases h
        · exact hn c s a' he h
termination_by a.length

/-- decoding of a text that ends with a line feed, or of nothing, and a further text -/
theorem decode_after {a : List Byte} (ha : a = [] ∨ ∃ a', a = a' ++ [lf]) (r : List Byte) :
    decode (a ++ r) = decode a ++ decode r := by
  rcases ha with rfl | ⟨a', rfl⟩
  · rfl
  · rw [List.append_assoc, List.singleton_append, decode_lf, decode_lf]
    simp [decode, decodeLoop]

theorem decode_before {r : List Byte} (hr : r = [] ∨ ∃ r', r = lf :: r') (a : List Byte) :
    decode (a ++ r) = decode a ++ decode r := by
  rcases hr with rfl | ⟨r', rfl⟩
  · simp [decode, decodeLoop]
  · rw [decode_lf, show decode (lf :: r') = 10 :: decode r' from decode_lf [] r']

/-! ### lines -/

theorem universal_id {t : List Nat} (h : LineFeeds t) : universal t = t := by
  fun_induction universal t with
  | case1 => rfl
  | case2 c =>
    by_cases hc : c = 13
    · exact absurd (h c (by simp) (by subst hc; decide)) (by omega)
    · simp [hc]
  | case3 cs ih =>
    exact absurd (h 13 (by simp) (by decide)) (by omega)
  | case4 d cs hd ih => exact absurd (h 13 (by simp) (by decide)) (by omega)
  | case5 c d cs hc ih => rw [ih (fun x hx => h x (List.mem_cons_of_mem _ hx))]

theorem join_splitlines {t : List Nat} (h : LineFeeds t) :
    text (splitlines t) (t.getLast? == some 10) = t := by
  induction t with
  | nil => rfl
  | cons c cs ih =>
    have ih := ih (fun x hx => h x (List.mem_cons_of_mem _ hx))
    unfold splitlines
    by_cases hc : isBreak c = true
    · have := h c (by simp) hc
      subst this
      rw [if_pos hc]
      cases cs with
      | nil => rfl
      | cons d ds =>
        rw [List.getLast?_cons_cons]
        have hne : splitlines (d :: ds) ≠ [] := by
          unfold splitlines
          split
          · simp
          · split <;> simp
        cases hs : splitlines (d :: ds) with
        | nil => exact absurd hs hne
        | cons l ls =>
          rw [hs] at ih
          simp only [text, join, List.nil_append, List.cons_append] at ih ⊢
          rw [ih]
    · rw [if_neg hc]
      cases cs with
      | nil =>
        have : c ≠ 10 := by rintro rfl; exact hc (by decide)
        simp [splitlines, text, join, this]
      | cons d ds =>
        rw [List.getLast?_cons_cons]
        have hne : splitlines (d :: ds) ≠ [] := by
          unfold splitlines
          split
          · simp
          · split <;> simp
        cases hs : splitlines (d :: ds) with
        | nil => exact absurd hs hne
        | cons l ls =>
          rw [hs] at ih
          simp only [text] at ih ⊢
          cases ls with
          | nil => simp only [join, List.cons_append] at ih ⊢; rw [ih]
          | cons m ls => simp only [join, List.cons_append] at ih ⊢; rw [ih]

theorem splitlines_break (l r : List Nat) {d : Nat} (hl : ∀ c ∈ l, isBreak c = false) (hd : isBreak d = true) :
    splitlines (l ++ d :: r) = l :: splitlines r := by
  induction l with
  | nil => simp [splitlines, hd]
  | cons c l ih =>
    have := hl c (by simp)
    simp only [List.cons_append, splitlines, this]
    rw [ih (fun x hx => hl x (List.mem_cons_of_mem _ hx))]
    rfl

theorem splitlines_line (l r : List Nat) (hl : ∀ c ∈ l, isBreak c = false) :
    splitlines (l ++ 10 :: r) = l :: splitlines r := splitlines_break l r hl (by decide)

theorem splitlines_last (l : List Nat) (hl : ∀ c ∈ l, isBreak c = false) (hne : l ≠ []) : splitlines l = [l] := by
  induction l with
  | nil => exact absurd rfl hne
  | cons c l ih =>
    have := hl c (by simp)
    simp only [splitlines, this]
    cases l with
    | nil => rfl
    | cons d l => rw [ih (fun x hx => hl x (List.mem_cons_of_mem _ hx)) (by simp)]; rfl

theorem join_cons (l : List Nat) {ls : List (List Nat)} (h : ls ≠ []) : join (l :: ls) = l ++ 10 :: join ls := by
  cases ls with
  | nil => exact absurd rfl h
  | cons m ls => rfl

theorem decode_count (bs : List Byte) : (decode bs).count 10 = bs.count lf := by
  have h := reads_decode bs
  generalize decode bs = cs at h
  induction h with
  | nil => rfl
  | @point c s bs cs he _ ih =>
    rw [List.count_append, List.count_cons, ih]
    by_cases hm : lf ∈ s
    · obtain ⟨rfl, e⟩ := encodes_low he hm (by decide)
      have : c = 10 := e
      subst this
      rw [show List.count lf [lf] = 1 from by decide]
      simp
      omega
    · rw [List.count_eq_zero_of_not_mem hm]
      have : c ≠ 10 := by
        rintro rfl
        rw [encodes_unique he encodes_lf] at hm
        simp at hm
      simp [this]
  | @escape b bs cs hn _ ih =>
    have h1 : (0xDC00 + b.val == 10) = false := by simp; omega
    have h2 : (b == lf) = false := by
      rw [beq_eq_false_iff_ne]
      rintro rfl
      exact hn 10 [lf] bs encodes_lf rfl
    rw [List.count_cons, List.count_cons, ih, h1, h2]

theorem text_cons (l : List Nat) {ls : List (List Nat)} (h : ls ≠ []) (x : Bool) : text (l :: ls) x = l ++ 10 :: text ls x := by
  simp [text, join_cons l h]

theorem splitlines_ne {t : List Nat} (h : t ≠ []) : splitlines t ≠ [] := by
  cases t with
  | nil => exact absurd rfl h
  | cons d ds =>
    unfold splitlines
    split
    · simp
    · split <;> simp

/-- the lines before a position that follows a line feed -/
theorem lines_before (A : List Nat) (w : List Nat) (hw : ∀ c ∈ w, isBreak c = false) (hA : LineFeeds A)
    (h1 : A ≠ [] → A.getLast? = some 10) (h2 : A = [] → w = []) :
    ∃ P : List (List Nat), P.length = A.count 10 ∧ (∀ T, splitlines (w ++ A ++ T) = P ++ splitlines T) ∧
      ∀ ls x, ls ≠ [] → text (P ++ ls) x = w ++ A ++ text ls x := by
  induction A generalizing w with
  | nil =>
    rw [h2 rfl]
    exact ⟨[], rfl, fun _ => rfl, fun _ _ _ => rfl⟩
  | cons c A ih =>
    have hA' : LineFeeds A := fun x hx => hA x (List.mem_cons_of_mem _ hx)
    have h1' : A ≠ [] → A.getLast? = some 10 := by
      intro h
      cases A with
      | nil => exact absurd rfl h
      | cons d A => rw [← h1 (by simp), List.getLast?_cons_cons]
    by_cases hc : isBreak c = true
    · have := hA c (by simp) hc
      subst this
      obtain ⟨P, p1, p2, p3⟩ := ih [] (by simp) hA' h1' (fun _ => rfl)
      refine ⟨w :: P, by simp [p1], fun T => ?_, fun ls x hl => ?_⟩
      · have := p2 T
        rw [List.nil_append] at this
        rw [List.append_assoc, List.cons_append, splitlines_break _ _ hw hc, this]
        rfl
      · have := p3 ls x hl
        rw [List.cons_append, text_cons _ (by simp [hl]), this]
        simp
    · have hne : A ≠ [] := by
        rintro rfl
        have := h1 (by simp)
        simp at this
        subst this
        exact hc (by decide)
      obtain ⟨P, p1, p2, p3⟩ := ih (w ++ [c]) (by
        intro x hx
        rcases List.mem_append.1 hx with hx | hx
        · exact hw x hx
        · simp at hx; subst hx; simpa using hc) hA' h1' (fun h => absurd h hne)
      have hc10 : c ≠ 10 := by rintro rfl; exact hc (by decide)
      refine ⟨P, by rw [p1, List.count_cons]; simp [hc10], fun T => ?_, fun ls x hl => ?_⟩
      · have := p2 T; simpa using this
      · have := p3 ls x hl; simpa using this

/-- the line at a position, and what its replacement does -/
theorem line_at {L B : List Nat} (hL : ∀ c ∈ L, isBreak c = false) (hB : B = [] ∨ ∃ B', B = 10 :: B') (hF : LineFeeds B)
    (hne : L ≠ [] ∨ B ≠ []) :
    ∃ rest, splitlines (L ++ B) = L :: rest ∧
      ∀ new, text (new :: rest) ((L ++ B).getLast? == some 10) = new ++ B := by
  rcases hB with rfl | ⟨B', rfl⟩
  · have hL' : L ≠ [] := by simpa using hne
    refine ⟨[], by rw [List.append_nil]; exact splitlines_last _ hL hL', fun new => ?_⟩
    have : (L.getLast? == some 10) = false := by
      rw [beq_eq_false_iff_ne]
      intro h
      have := hL 10 (List.mem_of_getLast? h)
      cases this
    rw [List.append_nil, this]
    simp [text, join]
  · refine ⟨splitlines B', splitlines_line L B' hL, fun new => ?_⟩
    rw [List.getLast?_append]
    cases B' with
    | nil => simp [splitlines, text, join]
    | cons d B' =>
      rw [text_cons _ (splitlines_ne (by simp)), List.getLast?_cons_cons]
      have h := join_splitlines (t := d :: B') (fun x hx => hF x (List.mem_cons_of_mem _ hx))
      have : ((d :: B').getLast?.or L.getLast?) = (d :: B').getLast? := by
        rw [List.getLast?_eq_some_getLast (by simp)]
        rfl
      rw [this, h]

/-! ### parts of what is read -/

theorem reads_split {bs : List Byte} {x y : List Nat} (h : ReadAs bs (x ++ y)) :
    ∃ p q, bs = p ++ q ∧ ReadAs p x ∧ ReadAs q y := by
  induction x generalizing bs with
  | nil => exact ⟨[], bs, rfl, ReadAs.nil, h⟩
  | cons c x ih =>
    cases h with
    | point he hr =>
      obtain ⟨p, q, rfl, hp, hq⟩ := ih hr
      exact ⟨_ ++ p, q, by rw [List.append_assoc], ReadAs.point he hp, hq⟩
    | @escape b bs _ hn hr =>
      obtain ⟨p, q, rfl, hp, hq⟩ := ih hr
      refine ⟨b :: p, q, rfl, ReadAs.escape ?_ hp, hq⟩
      intro c s r he e
      exact hn c s (r ++ q) he (by rw [← List.append_assoc, ← e]; rfl)

theorem reads_lf {p q : List Byte} {x y : List Nat} (hp : ReadAs p x) (hq : ReadAs q y) : ReadAs (p ++ lf :: q) (x ++ 10 :: y) := by
  rw [← decode_reads hp, ← decode_reads hq, ← decode_lf]
  exact reads_decode _

theorem readable_split {x y : List Nat} (h : ReadableText (x ++ y)) : ReadableText x ∧ ReadableText y := by
  obtain ⟨bs, h⟩ := h
  obtain ⟨p, q, rfl, hp, hq⟩ := reads_split h
  exact ⟨⟨p, hp⟩, ⟨q, hq⟩⟩

theorem readable_cons_lf {y : List Nat} (h : ReadableText y) : ReadableText (10 :: y) := by
  obtain ⟨q, hq⟩ := h
  exact ⟨_, reads_lf (x := []) ReadAs.nil hq⟩

theorem readable_join {ls : List (List Nat)} (h : ∀ l ∈ ls, ReadableText l) (x : Bool) : ReadableText (text ls x) := by
  have key : ReadableText (join ls) := by
    induction ls with
    | nil => exact ⟨[], ReadAs.nil⟩
    | cons l ls ih =>
      have ih := ih (fun m hm => h m (List.mem_cons_of_mem _ hm))
      cases ls with
      | nil => exact h l (by simp)
      | cons m ls =>
        obtain ⟨p, hp⟩ := h l (by simp)
        obtain ⟨q, hq⟩ := ih
        exact ⟨_, reads_lf hp hq⟩
  unfold text
  cases x with
  | false => simpa using key
  | true =>
    obtain ⟨p, hp⟩ := key
    exact ⟨_, reads_lf hp ReadAs.nil⟩

theorem readable_encode {t : List Nat} (h : ReadableText t) : ∃ bs, encode true t = .ok bs ∧ decode bs = t := by
  obtain ⟨bs, h⟩ := h
  have := decode_reads h
  subst this
  exact ⟨bs, encode_decode bs, rfl⟩

theorem readable_universal {t : List Nat} (h : ReadableText t) : ReadableText (universal t) := by
  have key : ∀ w, ReadableText (w ++ t) → ReadableText (w ++ universal t) := by
    clear h
    fun_induction universal t with
    | case1 => exact fun w h => h
    | case2 c =>
      intro w h
      split
      · obtain ⟨p, hp⟩ := (readable_split h).1
        exact ⟨_, reads_lf hp ReadAs.nil⟩
      · exact h
    | case3 cs ih =>
      intro w h
      have h2 := (readable_split h).1
      have h3 := (readable_split (x := [13]) (readable_split h).2).2
      have h4 := ih [] h3
      have h5 : ReadableText (universal (10 :: cs)) := h4
      have e : ∃ v, universal (10 :: cs) = 10 :: v := by
        cases cs with
        | nil => exact ⟨[], rfl⟩
        | cons d ds => exact ⟨universal (d :: ds), by simp [universal]⟩
      obtain ⟨v, e⟩ := e
      rw [e] at h5 ⊢
      obtain ⟨p, hp⟩ := h2
      obtain ⟨q, hq⟩ := (readable_split (x := [10]) h5).2
      exact ⟨_, reads_lf hp hq⟩
    | case4 d cs hd ih =>
      intro w h
      have h2 := (readable_split h).1
      have h3 := (readable_split (x := [13]) (readable_split h).2).2
      obtain ⟨p, hp⟩ := h2
      obtain ⟨q, hq⟩ := ih [] h3
      exact ⟨_, reads_lf hp hq⟩
    | case5 c d cs hc ih =>
      intro w h
      have := ih (w ++ [c]) (by simpa using h)
      simpa using this
  exact key [] h

theorem readable_splitlines {t : List Nat} (h : ReadableText t) : ∀ l ∈ splitlines t, ReadableText l := by
  suffices H : ∀ w, (∀ c ∈ w, isBreak c = false) → ReadableText (w ++ t) → ∀ l ∈ splitlines (w ++ t), ReadableText l from
    H [] (by simp) h
  clear h
  induction t with
  | nil =>
    intro w hw h l hl
    cases w with
    | nil => simp [splitlines] at hl
    | cons c w =>
      rw [List.append_nil] at hl h
      rw [splitlines_last _ hw (by simp)] at hl
      simp at hl
      subst hl
      exact h
  | cons c t ih =>
    intro w hw h l hl
    by_cases hc : isBreak c = true
    · rw [splitlines_break w t hw hc] at hl
      rcases List.mem_cons.1 hl with rfl | hl
      · exact (readable_split h).1
      · exact ih [] (by simp) ((readable_split (x := [c]) (readable_split h).2).2) l hl
    · have := ih (w ++ [c]) (by
        intro x hx
        rcases List.mem_append.1 hx with hx | hx
        · exact hw x hx
        · simp at hx; subst hx; simpa using hc) (by simpa using h) l
      exact this (by simpa using hl)

/-! ### what is in the lines -/

theorem lineFeeds_text {ls : List (List Nat)} (h : ∀ l ∈ ls, ∀ c ∈ l, isBreak c = false) (x : Bool) : LineFeeds (text ls x) := by
  have key : LineFeeds (join ls) := by
    induction ls with
    | nil => intro c hc; simp [join] at hc
    | cons l ls ih =>
      have ih := ih (fun m hm => h m (List.mem_cons_of_mem _ hm))
      cases ls with
      | nil => intro c hc hb; rw [h l (by simp) c hc] at hb; cases hb
      | cons m ls =>
        intro c hc hb
        simp only [join, List.mem_append, List.mem_cons] at hc
        rcases hc with hc | hc | hc
        · rw [h l (by simp) c hc] at hb; cases hb
        · exact hc
        · exact ih c hc hb
  intro c hc hb
  simp only [text, List.mem_append] at hc
  rcases hc with hc | hc
  · exact key c hc hb
  · cases x <;> simp at hc
    exact hc

theorem splitlines_clean (t : List Nat) : ∀ l ∈ splitlines t, ∀ c ∈ l, isBreak c = false := by
  induction t with
  | nil => simp [splitlines]
  | cons c t ih =>
    intro l hl d hd
    unfold splitlines at hl
    split at hl
    · rcases List.mem_cons.1 hl with rfl | hl
      · simp at hd
      · exact ih l hl d hd
    · rename_i hc
      split at hl
      · simp at hl
        subst hl
        simp at hd
        subst hd
        simpa using hc
      · rename_i m ms hm
        rw [hm] at ih
        rcases List.mem_cons.1 hl with rfl | hl
        · rcases List.mem_cons.1 hd with rfl | hd
          · simpa using hc
          · exact ih m (by simp) d hd
        · exact ih l (by simp [hl]) d hd

theorem mem_universal {t : List Nat} {c : Nat} (h : c ∈ t) (hc : isBreak c = false) : c ∈ universal t := by
  have h13 : c ≠ 13 := by rintro rfl; cases hc
  fun_induction universal t with
  | case1 => exact h
  | case2 d =>
    simp at h
    subst h
    simp [h13]
  | case3 cs ih => exact ih (by simpa [h13] using h)
  | case4 d cs hd ih => exact List.mem_cons_of_mem _ (ih (by simpa [h13] using h))
  | case5 d e cs hd ih =>
    rcases List.mem_cons.1 h with rfl | h
    · simp
    · exact List.mem_cons_of_mem _ (ih h)

theorem mem_splitlines {t : List Nat} {c : Nat} (h : c ∈ t) (hc : isBreak c = false) : ∃ l ∈ splitlines t, c ∈ l := by
  induction t with
  | nil => simp at h
  | cons d t ih =>
    unfold splitlines
    rcases List.mem_cons.1 h with rfl | h
    · simp only [hc]
      cases splitlines t <;> simp
    · obtain ⟨l, hl, hm⟩ := ih h
      split
      · exact ⟨l, by simp [hl], hm⟩
      · cases hs : splitlines t with
        | nil => rw [hs] at hl; simp at hl
        | cons m ms =>
          rw [hs] at hl
          rcases List.mem_cons.1 hl with rfl | hl
          · exact ⟨d :: l, by simp, by simp [hm]⟩
          · exact ⟨l, by simp [hl], hm⟩

theorem mem_text {ls : List (List Nat)} {l : List Nat} (hl : l ∈ ls) {c : Nat} (hc : c ∈ l) (x : Bool) : c ∈ text ls x := by
  unfold text
  apply List.mem_append_left
  induction ls with
  | nil => simp at hl
  | cons m ls ih =>
    cases ls with
    | nil => simp at hl; subst hl; exact hc
    | cons n ls =>
      simp only [join, List.mem_append, List.mem_cons]
      rcases List.mem_cons.1 hl with rfl | hl
      · exact Or.inl hc
      · exact Or.inr (Or.inr (ih hl))

theorem encode_error {x : Bool} {t : List Nat} (h : ∀ c ∈ t, c < 0x110000) {e : Err} (he : encode x t = .error e) :
    e = .unicodeError := by
  induction t with
  | nil => cases he
  | cons c t ih =>
    simp only [encode] at he
    split at he
    · rename_i e' hq
      cases he
      have := h c (by simp)
      unfold encodePoint at hq
      split at hq
      · cases hq
      split at hq
      · cases hq
      split at hq
      · split at hq <;> cases hq
        rfl
      split at hq
      · cases hq
      · cases hq
    · split at he
      · rename_i hq
        cases he
        exact ih (fun c hc => h c (by simp [hc])) hq
      · cases he

theorem reads_bound {bs : List Byte} {cs : List Nat} (h : ReadAs bs cs) : ∀ c ∈ cs, c < 0x110000 := by
  induction h with
  | nil => simp
  | point he _ ih =>
    intro c hc
    rcases List.mem_cons.1 hc with rfl | hc
    · have := he.1; unfold Scalar at this; omega
    · exact ih c hc
  | @escape b _ _ _ _ ih =>
    intro c hc
    rcases List.mem_cons.1 hc with rfl | hc
    · have := b.isLt; omega
    · exact ih c hc

theorem scalar_utf8 {bs : List Byte} {cs : List Nat} (h : ReadAs bs cs) (hs : ∀ c ∈ cs, Scalar c) : Utf8 cs bs := by
  induction h with
  | nil => exact Utf8.nil
  | point he _ ih => exact Utf8.cons he (ih (fun c hc => hs c (by simp [hc])))
  | @escape b bs _ hn _ _ =>
    have h1 := hs (0xDC00 + b.val) (by simp)
    unfold Scalar at h1
    have := b.isLt
    omega

end Specfile.Proof.BytesLemmas
