import Verif.Proof.Bytes
/-
C94: bytes of a file that are not UTF-8.
-/
namespace Specfile.Props
open Py Bytes Spec Proof.BytesLemmas

/-- **C94** A file is read as the text that its UTF-8 sequences stand for, with one lone surrogate for every byte that
belongs to none; there is only one such text. -/
theorem C94_reading (bs : List Byte) (t : List Nat) : decode bs = t ↔ ReadAs bs t :=
  ⟨fun h => h ▸ reads_decode bs, decode_reads⟩

/-- **C94** Whatever the bytes of a file are, writing the text it is read as gives the same bytes. -/
theorem C94_bytes_kept (bs : List Byte) : encode true (decode bs) = .ok bs := encode_decode bs

theorem decode_nil {bs : List Byte} (h : decode bs = []) : bs = [] := by
  have := encode_decode bs
  rw [h] at this
  cases this
  rfl

theorem readLines_ok {bs : List Byte} (hb : bs ≠ []) : ∃ c, (universal (decode bs)).getLast? = some c ∧
    readLines bs = .ok (splitlines (universal (decode bs)), c == 10) := by
  have h1 : decode bs ≠ [] := fun h => hb (decode_nil h)
  have h2 : universal (decode bs) ≠ [] := by
    generalize decode bs = t at h1
    fun_induction universal t with
    | case1 => exact h1
    | case2 => simp
    | case3 cs ih => exact ih (by simp)
    | case4 => simp
    | case5 => simp
  unfold readLines
  cases hl : (universal (decode bs)).getLast? with
  | none => exact absurd (List.getLast?_eq_none_iff.1 hl) h2
  | some c => exact ⟨c, rfl, rfl⟩

/-- **C94** Lines that are free of line separators and that could have been read from a file can be saved. What is read
from the file afterwards is the same text, so that a byte that is not UTF-8 is still there. -/
theorem C94_saved_text (ls : List (List Nat)) (x : Bool) (hr : ∀ l ∈ ls, ReadableText l)
    (hb : ∀ l ∈ ls, ∀ c ∈ l, isBreak c = false) :
    ∃ bs, save ls x = (bs, none) ∧ universal (decode bs) = text ls x := by
  obtain ⟨bs, h1, h2⟩ := readable_encode (readable_join hr x)
  exact ⟨bs, by simp only [save, h1], by rw [h2, universal_id (lineFeeds_text hb x)]⟩

/-- **C94** Any file that is not empty can be read and saved; it keeps its bytes exactly if no line ends in anything but a
line feed. -/
theorem C94_unchanged_iff (bs : List Byte) (hb : bs ≠ []) :
    ∃ ls x bs', readLines bs = .ok (ls, x) ∧ save ls x = (bs', none) ∧ (bs' = bs ↔ LineFeeds (decode bs)) := by
  obtain ⟨c, hc, hl⟩ := readLines_ok hb
  have hr := readable_splitlines (readable_universal ⟨bs, reads_decode bs⟩)
  have hs := splitlines_clean (universal (decode bs))
  have hf := lineFeeds_text hs (c == 10)
  obtain ⟨bs', h1, h2⟩ := readable_encode (readable_join hr (c == 10))
  refine ⟨_, _, bs', hl, by simp only [save, h1], ?_, ?_⟩
  · rintro rfl
    rw [h2]
    exact hf
  · intro h
    have e := join_splitlines h
    rw [universal_id h] at h1 hc
    rw [hc] at e
    have : (some c == some 10) = (c == 10) := rfl
    rw [this] at e
    rw [e, encode_decode] at h1
    cases h1
    rfl

/-- **C94** Whenever a line of a file is replaced, the bytes of all other lines stay as they are, whether or not they are
UTF-8. -/
theorem C94_edit_partial (before line after : List Byte) (new : List Nat) (nb : List Byte)
    (ha : before = [] ∨ ∃ a, before = a ++ [lf]) (hr : after = [] ∨ ∃ r, after = lf :: r) (hl : ∀ b ∈ line, b ≠ lf)
    (hne : line ≠ [] ∨ after ≠ []) (hf : LineFeeds (decode (before ++ line ++ after))) (hn : encode true new = .ok nb) :
    ∃ ls x, readLines (before ++ line ++ after) = .ok (ls, x) ∧
      save (ls.set (before.count lf) new) x = (before ++ nb ++ after, none) := by
  have hd : decode (before ++ line ++ after) = decode before ++ (decode line ++ decode after) := by
    rw [List.append_assoc, decode_after ha, decode_before hr]
  have hb : before ++ line ++ after ≠ [] := by
    intro h
    simp at h
    rcases hne with h' | h' <;> simp_all
  obtain ⟨c, hc, hlines⟩ := readLines_ok hb
  rw [universal_id hf, hd] at hc hlines
  rw [hd] at hf
  refine ⟨_, _, hlines, ?_⟩
  suffices key : text ((splitlines (decode before ++ (decode line ++ decode after))).set (before.count lf) new) (c == 10) =
      decode before ++ (new ++ decode after) by
    simp only [save, key]
    rw [encode_append_ok (encode_decode before) (encode_append_ok hn (encode_decode after)), List.append_assoc]
  have hA : LineFeeds (decode before) := fun x hx => hf x (List.mem_append_left _ hx)
  have hB : LineFeeds (decode after) := fun x hx => hf x (List.mem_append_right _ (List.mem_append_right _ hx))
  have hL : ∀ x ∈ decode line, isBreak x = false := by
    intro x hx
    cases hq : isBreak x with
    | false => rfl
    | true =>
      have := hf x (List.mem_append_right _ (List.mem_append_left _ hx)) hq
      subst this
      have h1 := List.count_pos_iff.2 hx
      rw [decode_count] at h1
      exact absurd rfl (hl lf (List.count_pos_iff.1 h1))
  have hAl : decode before ≠ [] → (decode before).getLast? = some 10 := by
    rcases ha with rfl | ⟨a, rfl⟩
    · exact fun h => absurd rfl h
    · intro _; rw [decode_lf]; simp [decode, decodeLoop]
  have hBl : decode after = [] ∨ ∃ B', decode after = 10 :: B' := by
    rcases hr with rfl | ⟨r, rfl⟩
    · exact Or.inl rfl
    · exact Or.inr ⟨_, decode_lf [] r⟩
  have hne' : decode line ≠ [] ∨ decode after ≠ [] := by
    rcases hne with h | h
    · left; intro h'; exact h (decode_nil h')
    · right; intro h'; exact h (decode_nil h')
  obtain ⟨P, p1, p2, p3⟩ := lines_before (decode before) [] (by simp) hA hAl (fun _ => rfl)
  obtain ⟨rest, r1, r2⟩ := line_at hL hBl hB hne'
  have hx : (c == 10) = ((decode line ++ decode after).getLast? == some 10) := by
    have e : (decode line ++ decode after).getLast? = some c := by
      rw [List.getLast?_append] at hc
      cases hq : (decode line ++ decode after).getLast? with
      | none => rw [List.getLast?_eq_none_iff] at hq; simp at hq; rcases hne' with h | h <;> simp_all
      | some y => rw [hq] at hc; exact hc
    rw [e]; rfl
  have e := p2 (decode line ++ decode after)
  rw [List.nil_append] at e
  rw [e, r1, ← decode_count, ← p1, List.set_append_right _ _ (Nat.le_refl _), Nat.sub_self, List.set_cons_zero,
    p3 _ _ (by simp), hx, r2]
  rfl

/-- **C94** A text can be saved exactly if it has no surrogate other than those that stand for a byte. -/
theorem C94_saves_iff (ls : List (List Nat)) (x : Bool) (h : ∀ c ∈ text ls x, c < 0x110000) :
    (save ls x).2 = none ↔ ∀ c ∈ text ls x, Scalar c ∨ 0xDC80 ≤ c ∧ c < 0xDD00 := by
  have key : ∀ t : List Nat, (∀ c ∈ t, c < 0x110000) →
      ((∃ bs, encode true t = .ok bs) ↔ ∀ c ∈ t, Scalar c ∨ 0xDC80 ≤ c ∧ c < 0xDD00) := by
    intro t ht
    induction t with
    | nil => exact ⟨fun _ => by simp, fun _ => ⟨[], rfl⟩⟩
    | cons c t ih =>
      have ih := ih (fun d hd => ht d (by simp [hd]))
      have hc := ht c (by simp)
      constructor
      · rintro ⟨bs, he⟩
        simp only [encode] at he
        split at he
        · cases he
        · rename_i s hs
          split at he
          · cases he
          · rename_i r hr
            intro d hd
            rcases List.mem_cons.1 hd with rfl | hd
            · by_cases hq : 0xD800 ≤ d ∧ d < 0xE000
              · rw [encodePoint_surrogate true hq] at hs
                split at hs
                · rename_i hw; exact Or.inr hw.2
                · cases hs
              · left; unfold Scalar; omega
            · exact ih.1 ⟨r, hr⟩ d hd
      · intro hall
        obtain ⟨r, hr⟩ := ih.2 (fun d hd => hall d (by simp [hd]))
        rcases hall c (by simp) with hs | hs
        · obtain ⟨s, hs⟩ := encodes_exists hs
          exact ⟨s ++ r, by simp only [encode, encodePoint_complete true hs, hr]⟩
        · refine ⟨byte (c - 0xDC00) :: r, ?_⟩
          simp only [encode, encodePoint_surrogate true (c := c) (by omega), hr]
          rw [if_pos ⟨trivial, hs⟩]
          rfl
  rw [← key _ h]
  unfold save
  constructor
  · intro hn
    cases he : encode true (text ls x) with
    | ok bs => exact ⟨bs, rfl⟩
    | error e => rw [he] at hn; cases hn
  · rintro ⟨bs, he⟩
    rw [he]

/-- **C94** What is wrong: saving a text that cannot be encoded raises `UnicodeEncodeError` and leaves the file empty. -/
theorem C94_save_violation (ls : List (List Nat)) (x : Bool) (h : ∀ c ∈ text ls x, c < 0x110000)
    (hs : ∃ c ∈ text ls x, 0xD800 ≤ c ∧ c < 0xE000 ∧ ¬ (0xDC80 ≤ c ∧ c < 0xDD00)) :
    save ls x = ([], some .unicodeError) := by
  obtain ⟨c, hc, h1, h2, h3⟩ := hs
  have hn : ¬ (save ls x).2 = none := by
    rw [C94_saves_iff ls x h]
    intro hall
    rcases hall c hc with hs | hs
    · unfold Scalar at hs; omega
    · exact h3 hs
  unfold save at hn ⊢
  cases he : encode true (text ls x) with
  | ok bs => rw [he] at hn; exact absurd rfl hn
  | error e => rw [encode_error h he]

/-- **C94** What is wrong: if a program puts the surrogates of several bytes next to each other that together are UTF-8,
then another text is read from the saved file. -/
theorem C94_escapes_violation (c : Nat) (s : List Byte) (h : Encodes c s) (h2 : 2 ≤ s.length) :
    ∃ t : List Nat, t = s.map (fun b => 0xDC00 + b.val) ∧ encode true t = .ok s ∧ decode s = [c] ∧ t ≠ [c] := by
  refine ⟨_, rfl, ?_, ?_, ?_⟩
  · have hh : ∀ b ∈ s, 0x80 ≤ b.val := by
      intro b hb
      by_cases hq : b.val < 0x80
      · have := (encodes_low h hb hq).1
        rw [this] at h2
        simp at h2
      · omega
    clear h h2
    induction s with
    | nil => rfl
    | cons b s ih =>
      have h1 := hh b (by simp)
      have := b.isLt
      simp only [List.map_cons, encode, encodePoint_surrogate true (c := 0xDC00 + b.val) (by omega),
        ih (fun x hx => hh x (by simp [hx]))]
      rw [if_pos ⟨trivial, by omega, by omega⟩, byte_val (b := b) (by omega)]
      rfl
  · have := decode_point (r := []) h
    rwa [List.append_nil] at this
  · intro e
    have := congrArg List.length e
    simp at this
    omega

/-- **C94** A file in UTF-8 whose lines end in line feeds is what RPM gets to read, byte for byte. -/
theorem C94_rpm_partial (t : List Nat) (bs : List Byte) (h : Utf8 t bs) (hb : bs ≠ []) (hf : LineFeeds t) :
    ∃ ls x, readLines bs = .ok (ls, x) ∧ forRpm ls x = .ok bs := by
  obtain ⟨c, hc, hl⟩ := readLines_ok hb
  refine ⟨_, _, hl, ?_⟩
  rw [utf8_decode h, universal_id hf] at hc ⊢
  have e := join_splitlines hf
  rw [hc] at e
  have : (some c == some 10) = (c == 10) := rfl
  rw [this] at e
  unfold forRpm
  rw [e, utf8_encode false h]

/-- **C94** What is wrong: a file that is not UTF-8 cannot be opened at all; the constructor raises `UnicodeEncodeError`,
whatever RPM would say. -/
theorem C94_open_violation (rpm : List Byte → Option Err) (bs : List Byte) (hb : bs ≠ []) (h : ¬ ∃ t, Utf8 t bs) :
    construct rpm bs = .error .unicodeError := by
  obtain ⟨c, hc, hl⟩ := readLines_ok hb
  unfold construct
  rw [hl]
  dsimp only
  have hr : ReadableText (text (splitlines (universal (decode bs))) (c == 10)) :=
    readable_join (readable_splitlines (readable_universal ⟨bs, reads_decode bs⟩)) _
  cases hq : forRpm (splitlines (universal (decode bs))) (c == 10) with
  | error e =>
    obtain ⟨p, hp⟩ := hr
    rw [encode_error (reads_bound hp) hq]
  | ok out =>
    exfalso
    have hu := utf8_scalar (encode_strict hq)
    apply h
    refine ⟨decode bs, scalar_utf8 (reads_decode bs) ?_⟩
    intro d hd
    cases hk : isBreak d with
    | true =>
      simp [isBreak] at hk
      unfold Scalar
      omega
    | false =>
      obtain ⟨l, hl, hm⟩ := mem_splitlines (mem_universal hd hk) hk
      exact hu d (mem_text hl hm _)

/-- **C94** A file can be opened only if it is UTF-8, and then only what RPM says decides. -/
theorem C94_open (rpm : List Byte → Option Err) (t : List Nat) (bs : List Byte) (h : Utf8 t bs) (hb : bs ≠ [])
    (hf : LineFeeds t) :
    construct rpm bs = match rpm bs with
      | some e => .error e
      | none => readLines bs := by
  obtain ⟨ls, x, h1, h2⟩ := C94_rpm_partial t bs h hb hf
  unfold construct
  rw [h1]
  simp only [h2]
  cases rpm bs <;> rfl

/-! ### examples -/

/-- `Name: é` in Latin-1 and in UTF-8 -/
example : decode [0x4E, 0x3A, 0xE9, 0x0A] = [0x4E, 0x3A, 0xDCE9, 10] ∧ decode [0x4E, 0x3A, 0xC3, 0xA9, 0x0A] = [0x4E, 0x3A, 0xE9, 10] := by
  decide +kernel

/-- an overlong form, a surrogate, an incomplete sequence and a character of four bytes -/
example : decode [0xC0, 0x80] = [0xDCC0, 0xDC80] ∧ decode [0xED, 0xA0, 0x80] = [0xDCED, 0xDCA0, 0xDC80] ∧
    decode [0xE2, 0x82, 0x41] = [0xDCE2, 0xDC82, 0x41] ∧ decode [0xF0, 0x9F, 0x98, 0x80] = [0x1F600] := by decide +kernel

/-- a file that is not UTF-8 and has only line feeds, for `C94_unchanged_iff` and `C94_edit_partial` -/
example : LineFeeds (decode ([0x41, 0xE9, 0x0A] ++ [0x42, 0xFF] ++ [0x0A, 0x43, 0xC3, 0x0A])) ∧
    readLines ([0x41, 0xE9, 0x0A] ++ [0x42, 0xFF] ++ [0x0A, 0x43, 0xC3, 0x0A]) =
      .ok ([[0x41, 0xDCE9], [0x42, 0xDCFF], [0x43, 0xDCC3]], true) ∧
    save [[0x41, 0xDCE9], [0x20AC], [0x43, 0xDCC3]] true =
      ([0x41, 0xE9, 0x0A] ++ [0xE2, 0x82, 0xAC] ++ [0x0A, 0x43, 0xC3, 0x0A], none) := by
  refine ⟨?_, by decide +kernel, by decide +kernel⟩
  unfold LineFeeds
  decide +kernel

/-- a carriage return is not kept -/
example : readLines [0x41, 0x0D, 0x0A] = .ok ([[0x41]], true) ∧ save [[0x41]] true = ([0x41, 0x0A], none) := by decide +kernel

/-- such a file cannot be opened -/
example : construct (fun _ => none) [0x41, 0xE9, 0x0A] = .error .unicodeError ∧
    construct (fun _ => none) [0x41, 0xC3, 0xA9, 0x0A] = .ok ([[0x41, 0xE9]], true) := by decide +kernel

/-- a lone surrogate that stands for no byte: the file is lost -/
example : save [[0x41], [0xD800]] true = ([], some .unicodeError) := by decide +kernel

/-- the escapes of the two bytes of `é` -/
example : Encodes 0xE9 [0xC3, 0xA9] ∧ encode true [0xDCC3, 0xDCA9] = .ok [0xC3, 0xA9] := by
  refine ⟨⟨Or.inl (by decide), Or.inr (Or.inl ⟨0xC3, 0xA9, 3, 41, rfl, by decide, by decide, ?_⟩)⟩, by decide +kernel⟩
  decide

end Specfile.Props
