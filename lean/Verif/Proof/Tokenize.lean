import Verif.Proof.ValueParserInv
import Verif.Spec.Options
/-
Lemmas about the option tokenizer.
-/
namespace Specfile
open Py Spec
namespace Options

theorem escape_append (p : Char → Bool) (a b : Str) : escape p (a ++ b) = escape p a ++ escape p b := by
  induction a with
  | nil => rfl
  | cons c cs ih => simp only [List.cons_append, escape]; split <;> simp [ih]

theorem escape_none {p : Char → Bool} {a : Str} (h : ∀ c ∈ a, p c = false) : escape p a = a := by
  induction a with
  | nil => rfl
  | cons c cs ih =>
    simp only [escape]
    rw [if_neg (by simp [h c (by simp)]), ih (fun d hd => h d (by simp [hd]))]

/-- text of the remaining input -/
def itemsStr (l : List Item) : Str := (l.map Item.str).flatten

@[simp] theorem itemsStr_nil : itemsStr [] = [] := rfl
@[simp] theorem itemsStr_cons (i : Item) (l : List Item) : itemsStr (i :: l) = i.str ++ itemsStr l := rfl
@[simp] theorem itemsStr_append (a b : List Item) : itemsStr (a ++ b) = itemsStr a ++ itemsStr b := by
  simp [itemsStr]

theorem itemsStr_map_chr (v : Str) : itemsStr (v.map Item.chr) = v := by
  induction v with
  | nil => rfl
  | cons c cs ih => simp [Item.str, ih]

theorem itemsStr_items (ns : List Node) : itemsStr (items ns) = Node.strs ns := by
  induction ns with
  | nil => rfl
  | cons n ns ih =>
    cases n <;> simp [items, Node.strs, ih, itemsStr_map_chr, Node.str, Item.str]

theorem mac_items {ns : List Node} {s : Str} (h : Item.mac s ∈ items ns) : s ≠ [] := by
  induction ns with
  | nil => simp [items] at h
  | cons n ns ih =>
    cases n <;> simp [items] at h <;> first
      | exact ih h
      | (rcases h with rfl | h
         · simp [Node.str]
         · exact ih h)

@[simp] theorem tokensStr_nil : tokensStr [] = [] := rfl
@[simp] theorem tokensStr_cons (t : Token) (ts : List Token) :
    tokensStr (t :: ts) = tokenStr t ++ tokensStr ts := rfl

theorem tok_close (q : Char) (token : Str) (l : List Item) : tok (some q) token (.chr q :: l) =
    (do let r ← tok none [] l; .ok (emit (quoteType q) token r)) := by
  rw [tok.eq_def]; simp

theorem tok_qchr {q c : Char} (h1 : c ≠ q) (h2 : c ≠ '\\') (token : Str) (l : List Item) :
    tok (some q) token (.chr c :: l) = tok (some q) (token ++ [c]) l := by
  rw [tok.eq_def]; simp [h1, h2]

theorem tok_qesc {q : Char} (h1 : '\\' ≠ q) (token : Str) (d : Item) (l : List Item) :
    tok (some q) token (.chr '\\' :: d :: l) =
      tok (some q) (token ++ (if d = .chr q then [] else ['\\']) ++ d.str) l := by
  rw [tok.eq_def]; simp [h1]

theorem tok_space {c : Char} (h : isSpace c = true) (token : Str) (l : List Item) :
    tok none token (.chr c :: l) =
      (do let r ← tok none [] l; .ok (emit .default token (consWs c (spaceNext l) r))) := by
  rw [tok.eq_def]; simp [h]

theorem tok_open {q : Char} (h : q = '"' ∨ q = '\'') (token : Str) (l : List Item) :
    tok none token (.chr q :: l) =
      (do let r ← tok (some q) [] l; .ok (emit .default token r)) := by
  have : isSpace q = false := by rcases h with rfl | rfl <;> decide
  rw [tok.eq_def]; simp [this, h]

theorem tok_esc (token : Str) (d : Item) (l : List Item) :
    tok none token (.chr '\\' :: d :: l) = tok none (token ++ d.str) l := by
  have : isSpace '\\' = false := by decide
  rw [tok.eq_def]; simp [this]

theorem tok_plain {c : Char} (h : Plain c) (token : Str) (l : List Item) :
    tok none token (.chr c :: l) = tok none (token ++ [c]) l := by
  obtain ⟨h1, h2, h3, h4⟩ := h
  rw [tok.eq_def]; simp [h1, h2, h3, h4]

theorem tok_mac (quote : Option Char) (token s : Str) (l : List Item) :
    tok quote token (.mac s :: l) = tok quote (token ++ s) l := by
  cases quote <;> rw [tok.eq_def]

theorem tokensStr_consWs (c : Char) (b : Bool) (r : List Token) :
    tokensStr (consWs c b r) = c :: tokensStr r := by
  unfold consWs
  split <;> simp [tokenStr]

theorem tokensStr_emit_default (token : Str) (r : List Token) :
    tokensStr (emit .default token r) = escape isSpecial token ++ tokensStr r := by
  unfold emit
  cases token <;> simp [tokenStr, escape]

theorem tokensStr_emit_quoted {q : Char} (hq : q = '"' ∨ q = '\'') {token : Str} (h : token ≠ [])
    (r : List Token) :
    tokensStr (emit (quoteType q) token r) = q :: (escape (· == q) token ++ q :: tokensStr r) := by
  unfold emit
  cases token with
  | nil => exact absurd rfl h
  | cons c cs => rcases hq with rfl | rfl <;> simp [tokenStr, quoteType]

theorem quote_not_space {q : Char} (hq : q = '"' ∨ q = '\'') : isSpace q = false := by
  rcases hq with rfl | rfl <;> decide

/-- reading a quotation to its end -/
theorem tok_quoted {q : Char} (hq : q = '"' ∨ q = '\'') {b : List Item} (hb : QuotedBody q b)
    (token : Str) (l : List Item) : ∃ w, tok (some q) token (b ++ .chr q :: l) =
      (do let r ← tok none [] l; .ok (emit (quoteType q) (token ++ w) r)) ∧
      escape (· == q) w = itemsStr b ∧ (b ≠ [] → (∀ s, Item.mac s ∈ b → s ≠ []) → w ≠ []) := by
  have hqb : q ≠ '\\' := by rcases hq with rfl | rfl <;> decide
  induction hb generalizing token with
  | nil => exact ⟨[], by simp [tok_close], by simp [escape], by simp⟩
  | @chr c l' h1 h2 _ ih =>
    obtain ⟨w, e1, e2, e3⟩ := ih (token ++ [c])
    refine ⟨c :: w, ?_, by simp [escape, h1, e2, Item.str], by simp⟩
    rw [List.cons_append, tok_qchr h1 h2, e1]; simp
  | @esc c l' _ ih =>
    by_cases hc : c = q
    · subst hc
      obtain ⟨w, e1, e2, e3⟩ := ih (token ++ [c])
      refine ⟨c :: w, ?_, by simp [escape, e2, Item.str], by simp⟩
      rw [List.cons_append, List.cons_append, tok_qesc hqb.symm]
      simp only [if_true, List.append_nil, Item.str]
      rw [e1]; simp
    · obtain ⟨w, e1, e2, e3⟩ := ih (token ++ ['\\', c])
      refine ⟨'\\' :: c :: w, ?_, by simp [escape, e2, Item.str, hc, hqb.symm], by simp⟩
      rw [List.cons_append, List.cons_append, tok_qesc hqb.symm, if_neg (by simpa using hc),
        List.append_assoc]
      exact e1.trans (by simp)
  | @escMac s l' h _ ih =>
    obtain ⟨w, e1, e2, e3⟩ := ih (token ++ '\\' :: s)
    refine ⟨'\\' :: (s ++ w), ?_, ?_, by simp⟩
    · rw [List.cons_append, List.cons_append, tok_qesc hqb.symm, if_neg (by simp),
        List.append_assoc]
      exact e1.trans (by simp)
    · rw [escape, if_neg (by simp [hqb.symm]), escape_append, e2,
        escape_none (by intro c hc; simp; rintro rfl; exact h hc)]
      simp [Item.str]
  | @mac s l' h _ ih =>
    obtain ⟨w, e1, e2, e3⟩ := ih (token ++ s)
    refine ⟨s ++ w, ?_, ?_, ?_⟩
    · rw [List.cons_append, tok_mac, e1]; simp
    · rw [escape_append, e2,
        escape_none (by intro c hc; simp; rintro rfl; exact h hc)]
      simp [Item.str]
    · intro _ hm
      have := hm s (by simp)
      simp [this]

/-- tokenizing canonical input and printing it gives the input -/
theorem tok_canonical {l : List Item} (h : Canonical l) (hm : ∀ s, Item.mac s ∈ l → s ≠ [])
    (token : Str) :
    ∃ ts, tok none token l = .ok ts ∧ tokensStr ts = escape isSpecial token ++ itemsStr l := by
  induction h generalizing token with
  | nil => exact ⟨_, rfl, by simp [tokensStr_emit_default]⟩
  | @space c l hc _ ih =>
    obtain ⟨ts, e1, e2⟩ := ih (fun s hs => hm s (by simp [hs])) []
    refine ⟨_, by rw [tok_space hc, e1]; rfl, ?_⟩
    rw [tokensStr_emit_default, tokensStr_consWs, e2]
    simp [escape, Item.str]
  | @plain c l hc _ ih =>
    obtain ⟨h1, h2, h3, h4⟩ := hc
    obtain ⟨ts, e1, e2⟩ := ih (fun s hs => hm s (by simp [hs])) (token ++ [c])
    refine ⟨ts, by rw [tok_plain ⟨h1, h2, h3, h4⟩, e1], ?_⟩
    · rw [e2, escape_append]
      simp [escape, isSpecial, h1, h2, h3, Item.str]
  | @escaped c l hc _ ih =>
    obtain ⟨ts, e1, e2⟩ := ih (fun s hs => hm s (by simp [hs])) (token ++ [c])
    refine ⟨ts, by rw [tok_esc]; exact e1, ?_⟩
    · rw [e2, escape_append]
      have : isSpecial c = true := by
        simp only [isSpecial, Bool.or_eq_true, beq_iff_eq]
        rcases hc with h | rfl | rfl <;> simp [*]
      simp [escape, this, Item.str]
  | @mac s l hs _ ih =>
    obtain ⟨ts, e1, e2⟩ := ih (fun s hs => hm s (by simp [hs])) (token ++ s)
    refine ⟨ts, by rw [tok_mac, e1], ?_⟩
    rw [e2, escape_append, escape_none (a := s)]
    · simp [Item.str]
    · intro c hc
      obtain ⟨h1, h2, h3⟩ := hs c hc
      simp [isSpecial, h1, h2, h3]
  | @quoted q b l hq hb hb0 _ ih =>
    obtain ⟨ts, e1, e2⟩ := ih (fun s hs => hm s (by simp [hs])) []
    obtain ⟨w, f1, f2, f3⟩ := tok_quoted hq hb [] l
    have hw := f3 hb0 (fun s hs => hm s (by simp [hs]))
    refine ⟨emit .default token (emit (quoteType q) w ts), ?_, ?_⟩
    · rw [tok_open hq, f1, e1]; rfl
    · rw [tokensStr_emit_default, tokensStr_emit_quoted hq hw, e2, f2]
      simp [escape, Item.str]

/-! ### what is never lost -/

/-- everything but quotes and backslashes -/
def bare (s : Str) : Str := s.filter (fun c => !(c == '"' || c == '\'' || c == '\\'))

theorem bare_append (a b : Str) : bare (a ++ b) = bare a ++ bare b := by simp [bare]

theorem bare_cons (c : Char) (s : Str) : bare (c :: s) = bare [c] ++ bare s := bare_append [c] s

theorem bare_escape {p : Char → Bool} (s : Str) : bare (escape p s) = bare s := by
  induction s with
  | nil => rfl
  | cons c cs ih =>
    simp only [escape]
    split
    · have : bare ('\\' :: c :: escape p cs) = bare (c :: escape p cs) := by simp [bare]
      rw [this, bare_cons, ih, ← bare_cons]
    · rw [bare_cons, ih, ← bare_cons]

theorem bare_cons_quote {q : Char} (hq : q = '"' ∨ q = '\'' ∨ q = '\\') (s : Str) : bare (q :: s) = bare s := by
  rcases hq with rfl | rfl | rfl <;> simp [bare]

theorem bare_tokenStr (t : Token) : bare (tokenStr t) = bare t.value := by
  unfold tokenStr
  split
  · rfl
  · rw [bare_cons_quote (by simp), bare_append, bare_escape]; simp [bare]
  · rw [bare_cons_quote (by simp), bare_append, bare_escape]; simp [bare]
  · exact bare_escape _

theorem bare_emit (ty : TokenType) (token : Str) (r : List Token) :
    bare (tokensStr (emit ty token r)) = bare token ++ bare (tokensStr r) := by
  unfold emit
  cases token with
  | nil => rfl
  | cons c cs => simp [bare_append, bare_tokenStr]

theorem tok_bare {quote : Option Char} (hq : ∀ q, quote = some q → q = '"' ∨ q = '\'') {token : Str}
    {l : List Item} {ts : List Token} (h : tok quote token l = .ok ts) :
    bare (tokensStr ts) = bare token ++ bare (itemsStr l) := by
  fun_induction tok quote token l generalizing ts with
  | case1 token => simp at h; subst h; simp [bare_emit]
  | case2 => simp at h
  | case3 token q s inp ih => rw [ih hq h]; simp [Item.str, bare_append]
  | case4 token q c inp hc ih =>
    simp only [beq_iff_eq] at hc
    subst hc
    cases hr : tok none [] inp with
    | error e => rw [hr] at h; simp [bind, Except.bind] at h
    | ok r =>
      rw [hr] at h
      simp only [bind, Except.bind, Except.ok.injEq] at h
      subst h
      rw [bare_emit, ih (by simp) hr, itemsStr_cons, bare_append]
      have : bare (Item.chr c).str = [] := by
        rcases hq c rfl with rfl | rfl <;> rfl
      rw [this]; simp [bare]
  | case5 => simp at h
  | case6 token q c hcq hcb d inp ih =>
    rw [ih hq h]
    simp only [beq_iff_eq] at hcb
    subst hcb
    have hbs : ∀ x : Bool, bare (if x then [] else ['\\']) = [] := by intro x; cases x <;> rfl
    simp only [bare_append, itemsStr_cons, Item.str]
    split <;> simp [bare]
  | case7 token q c inp hcq hcb ih => rw [ih hq h]; simp [Item.str, bare_append, bare_cons c (itemsStr _)]
  | case8 token s inp ih => rw [ih hq h]; simp [Item.str, bare_append]
  | case9 token c inp hc ih =>
    cases hr : tok none [] inp with
    | error e => rw [hr] at h; simp [bind, Except.bind] at h
    | ok r =>
      rw [hr] at h
      simp only [bind, Except.bind, Except.ok.injEq] at h
      subst h
      rw [bare_emit, tokensStr_consWs]
      rw [show ∀ s, c :: s = [c] ++ s from fun _ => rfl, bare_append, ih (by simp) hr, itemsStr_cons,
        bare_append]
      simp [bare, Item.str]
  | case10 token c inp hs hc ih =>
    cases hr : tok (some c) [] inp with
    | error e => rw [hr] at h; simp [bind, Except.bind] at h
    | ok r =>
      rw [hr] at h
      simp only [bind, Except.bind, Except.ok.injEq] at h
      subst h
      simp only [Bool.or_eq_true, beq_iff_eq] at hc
      rw [bare_emit, ih (by rintro q ⟨⟩; exact hc) hr, itemsStr_cons, bare_append]
      have : bare (Item.chr c).str = [] := by
        rcases hc with rfl | rfl <;> rfl
      rw [this]; simp [bare]
  | case11 => simp at h
  | case12 token c hs hc hb d inp ih =>
    rw [ih hq h]
    simp only [beq_iff_eq] at hb
    subst hb
    simp [Item.str, bare]
  | case13 token c inp hs hc hb ih => rw [ih hq h]; simp [Item.str, bare_append, bare_cons c (itemsStr _)]

/-! ### printed tokens are read back -/

/-- text as input elements -/
def chrs (s : Str) : List Item := s.map .chr

@[simp] theorem chrs_nil : chrs [] = [] := rfl
theorem chrs_cons (c : Char) (s : Str) : chrs (c :: s) = .chr c :: chrs s := rfl
theorem chrs_append (a b : Str) : chrs (a ++ b) = chrs a ++ chrs b := List.map_append

theorem tok_default {v : Str} (h : '\\' ∉ v) (token : Str) (l : List Item) :
    tok none token (chrs (escape isSpecial v) ++ l) = tok none (token ++ v) l := by
  induction v generalizing token with
  | nil => simp [escape]
  | cons c v ih =>
    simp only [List.mem_cons, not_or] at h
    rw [escape]
    split
    · next hc =>
      rw [chrs_cons, chrs_cons, List.cons_append, List.cons_append, tok_esc, ih h.2]
      simp [Item.str]
    · next hc =>
      simp only [isSpecial, Bool.or_eq_true, beq_iff_eq, not_or, Bool.not_eq_true] at hc
      rw [chrs_cons, List.cons_append, tok_plain ⟨hc.2, hc.1.2, hc.1.1, Ne.symm h.1⟩, ih h.2]
      simp

theorem tok_qvalue {q : Char} (hq : q = '"' ∨ q = '\'') {v : Str} (h : QuotedValue q v)
    (token : Str) (l : List Item) :
    tok (some q) token (chrs (escape (· == q) v) ++ .chr q :: l) =
      (do let r ← tok none [] l; .ok (emit (quoteType q) (token ++ v) r)) := by
  have hqb : '\\' ≠ q := by rcases hq with rfl | rfl <;> decide
  induction h generalizing token with
  | nil => simp [escape, tok_close]
  | @chr c v hc _ ih =>
    rw [escape]
    split
    · next he =>
      simp only [beq_iff_eq] at he
      subst he
      rw [chrs_cons, chrs_cons, List.cons_append, List.cons_append, tok_qesc hqb,
        if_pos rfl, ih]
      simp [Item.str]
    · next he =>
      simp only [beq_iff_eq] at he
      rw [chrs_cons, List.cons_append, tok_qchr he hc, ih]
      simp
  | @esc c v hc _ ih =>
    rw [escape, if_neg (by simpa using hqb), escape, if_neg (by simpa using hc)]
    rw [chrs_cons, chrs_cons, List.cons_append, List.cons_append, tok_qesc hqb,
      if_neg (by simpa using hc), ih]
    simp [Item.str]

theorem tok_ws {w : Str} (hw : ∀ c ∈ w, isSpace c = true) (h0 : w ≠ []) {l : List Item}
    (hl : spaceNext l = false) : tok none [] (chrs w ++ l) =
      (do let r ← tok none [] l; .ok (⟨.whitespace, w⟩ :: r)) := by
  induction w with
  | nil => exact absurd rfl h0
  | cons c w ih =>
    rw [chrs_cons, List.cons_append, tok_space (hw c (by simp))]
    cases w with
    | nil => simp [hl, emit, consWs]
    | cons d w =>
      rw [ih (fun c hc => hw c (by simp [hc])) (by simp)]
      have : spaceNext (chrs (d :: w) ++ l) = true := by simp [spaceNext, chrs_cons, hw d]
      rw [this]
      cases tok none [] l <;> simp [bind, Except.bind, emit, consWs]

/-- what can directly follow a bare token -/
def Stops (l : List Item) : Prop :=
  match l with
  | [] => True
  | .chr c :: _ => isSpace c = true ∨ c = '"' ∨ c = '\''
  | _ => False

theorem tok_flush {token : Str} {l : List Item} (h : Stops l) : tok none token l =
    (do let r ← tok none [] l; .ok (emit .default token r)) := by
  cases l with
  | nil => simp [tok, emit, bind, Except.bind]
  | cons i l =>
    cases i with
    | mac s => exact absurd h (by simp [Stops])
    | chr c =>
      by_cases hs : isSpace c = true
      · rw [tok_space hs, tok_space hs]
        cases tok none [] l <;> simp [bind, Except.bind, emit]
      · have hq : c = '"' ∨ c = '\'' := by
          rcases h with h | h
          · exact absurd h hs
          · exact h
        rw [tok_open hq, tok_open hq]
        cases tok (some c) [] l <;> simp [bind, Except.bind, emit]

/-- first input element of printed tokens -/
theorem head_printed {u : Token} {ts : List Token} (hu : GoodToken u) :
    (u.type ≠ .default → Stops (chrs (tokensStr (u :: ts)))) ∧
    (u.type ≠ .whitespace → spaceNext (chrs (tokensStr (u :: ts))) = false) := by
  obtain ⟨ty, v⟩ := u
  obtain ⟨h0, _, h2⟩ := hu
  cases v with
  | nil => exact absurd rfl h0
  | cons c v =>
    cases ty with
    | whitespace =>
      refine ⟨fun _ => ?_, fun h => absurd rfl h⟩
      exact Or.inl (h2 c (by simp))
    | quoted => exact ⟨fun _ => Or.inr (Or.inr rfl), fun _ => (by decide : isSpace '\'' = false)⟩
    | doubleQuoted => exact ⟨fun _ => Or.inr (Or.inl rfl), fun _ => (by decide : isSpace '"' = false)⟩
    | default =>
      refine ⟨fun h => absurd rfl h, fun _ => ?_⟩
      rw [tokensStr_cons]
      simp only [tokenStr, escape]
      split
      · exact (by decide : isSpace '\\' = false)
      · next hc =>
        simp only [isSpecial, Bool.or_eq_true, not_or, Bool.not_eq_true] at hc
        simp [spaceNext, chrs_cons, hc.2]

theorem _root_.Specfile.Spec.GoodTokens.tail {t : Token} {ts : List Token} (h : GoodTokens (t :: ts)) : GoodTokens ts := by
  cases ts with
  | nil => trivial
  | cons u ts => exact h.2.2

theorem _root_.Specfile.Spec.GoodTokens.head {t : Token} {ts : List Token} (h : GoodTokens (t :: ts)) : GoodToken t := by
  cases ts with
  | nil => exact h
  | cons u ts => exact h.1

theorem tok_printed {ts : List Token} (h : GoodTokens ts) : tok none [] (chrs (tokensStr ts)) = .ok ts := by
  induction ts with
  | nil => rfl
  | cons t ts ih =>
    have ih := ih h.tail
    have hsep : ∀ u r, ts = u :: r → GoodToken u ∧
        (t.type = u.type → t.type = .quoted ∨ t.type = .doubleQuoted) := by
      rintro u r rfl
      exact ⟨GoodTokens.head (GoodTokens.tail h), h.2.1⟩
    obtain ⟨g0, _, g2⟩ := h.head
    obtain ⟨ty, v⟩ := t
    simp only at g0 g2 hsep
    rw [tokensStr_cons, chrs_append]
    cases ty with
    | whitespace =>
      simp only [tokenStr]
      rw [tok_ws g2 g0, ih]; rfl
      cases ts with
      | nil => rfl
      | cons u r =>
        obtain ⟨hu, hd⟩ := hsep u r rfl
        exact (head_printed hu).2 (fun e => by simp [e] at hd)
    | default =>
      simp only [tokenStr]
      rw [tok_default g2, tok_flush, ih]
      · simp [bind, Except.bind, emit, g0]
      · cases ts with
        | nil => trivial
        | cons u r =>
          obtain ⟨hu, hd⟩ := hsep u r rfl
          exact (head_printed hu).1 (fun e => by simp [e] at hd)
    | quoted =>
      simp only [tokenStr, chrs_cons, chrs_append, List.cons_append, List.append_assoc,
        chrs_nil, List.nil_append]
      rw [tok_open (Or.inr rfl), tok_qvalue (Or.inr rfl) g2, ih]
      simp [bind, Except.bind, emit, g0, quoteType]
    | doubleQuoted =>
      simp only [tokenStr, chrs_cons, chrs_append, List.cons_append, List.append_assoc,
        chrs_nil, List.nil_append]
      rw [tok_open (Or.inl rfl), tok_qvalue (Or.inl rfl) g2, ih]
      simp [bind, Except.bind, emit, g0, quoteType]

theorem escape_mem {p : Char → Bool} {v : Str} {c : Char} (h : c ∈ escape p v) : c = '\\' ∨ c ∈ v := by
  induction v with
  | nil => simp [escape] at h
  | cons d v ih =>
    rw [escape] at h
    split at h <;> simp at h ⊢ <;> grind

theorem percent_printed {ts : List Token} (h : ∀ t ∈ ts, '%' ∉ t.value) : '%' ∉ tokensStr ts := by
  induction ts with
  | nil => simp
  | cons t ts ih =>
    rw [tokensStr_cons, List.mem_append, not_or]
    refine ⟨?_, ih (fun u hu => h u (by simp [hu]))⟩
    have ht := h t (by simp)
    unfold tokenStr
    split
    · exact ht
    all_goals
      intro hc
      try simp at hc
      rcases escape_mem hc with hc | hc
      · exact absurd hc (by decide)
      · exact ht hc

theorem parse_plain [Uni] {v : Str} (h : '%' ∉ v) :
    ValueParser.parse v = .ok (if v = [] then [] else [.lit v]) := by
  split
  · next h0 => subst h0; exact ValueParser.parseF_good _ 0 [] (by simp [GoodNodes]) (by simp [Node.strs])
  · next h0 =>
    have := ValueParser.parseF_good (v.length + 1) 0 [.lit v]
      (by simp [GoodNodes, GoodNode, Follows, h, h0, Node.strs]) (by simp [Node.strs, Node.str])
    simpa [Node.strs, Node.str, ValueParser.parse] using this

theorem tokenize_plain [Uni] {v : Str} (h : '%' ∉ v) : tokenize v = tok none [] (chrs v) := by
  unfold tokenize
  rw [parse_plain h]
  split
  · next h0 => subst h0; rfl
  · simp [bind, Except.bind, items, chrs]

theorem _root_.Specfile.Spec.GoodTokens.mem {ts : List Token} (h : GoodTokens ts) : ∀ t ∈ ts, GoodToken t := by
  induction ts with
  | nil => simp
  | cons t ts ih =>
    intro u hu
    rcases List.mem_cons.1 hu with rfl | hu
    · exact h.head
    · exact ih h.tail u hu

end Options
end Specfile
