import Verif.Proof.Prep6
import Verif.Props.Options
import Verif.Props.Utils
import Verif.Py.Seq2
/-
Properties of %prep (C07, C50, C65 - C67).
-/
namespace Specfile.Props
open Py Spec Prep
open Options (Opts Val)

/-! ### C65: reading -/

/-- The macros found in lines are those written there, with the lines between them. -/
theorem C65_parse [Uni] {ls : List Str} (hn : ∀ l ∈ ls, '\n' ∉ l) {p : Prep} :
    Prep.parse ls = .ok p ↔ ReadsPrep ls p := by
  unfold Prep.parse
  rw [parseLoop_iff hn]
  constructor
  · rintro ⟨q, h, rfl⟩; exact h
  · intro h; exact ⟨p, h, rfl⟩

/-- every line has a macro or none -/
theorem C65_macro_or_none [Uni] (l : Str) : NoPrepMacro l ∨ ∃ k before name d o, PrepMacroIn l k before name d o :=
  macro_or_none l

/-- errors are those of a line or of the options on a line -/
theorem C65_errors [Uni] {ls : List Str} (hn : ∀ l ∈ ls, '\n' ∉ l) {e : Err} (h : Prep.parse ls = .error e) :
    ∃ l ∈ ls, (ValueParser.parse l = .error e ∧ e ≠ .unterminatedMacro) ∨
      ∃ pfx body sfx k before name d o, Wrapped l pfx body sfx ∧ PrepMacroIn body k before name d o ∧
        Options.tokenize o = .error e := by
  unfold Prep.parse at h
  generalize ([] : List Str) = buffer at h
  induction ls generalizing buffer with
  | nil => simp [parseLoop] at h
  | cons l ls ih =>
    simp only [parseLoop] at h
    have hls := fun b hb => (ih (fun l hl => hn l (by simp [hl])) b hb)
    cases hs : Utils.splitConditional l with
    | error e' =>
      rw [hs] at h
      simp at h; subst h
      unfold Utils.splitConditional at hs
      refine ⟨l, by simp, .inl ?_⟩
      split at hs
      · simp at hs
      · rename_i e'' hne hp
        simp at hs; subst hs
        refine ⟨hp, ?_⟩
        rintro rfl
        exact hne rfl
      · simp at hs
      · simp at hs
    | ok sp =>
      rw [hs] at h
      simp only at h
      have hw := splitConditional_iff.mp hs
      have hnb := wrapped_newline hw (hn l (by simp))
      rcases macro_or_none sp.body with hN | ⟨k, before, name, d, o, hm⟩
      · rw [lineMacro_none hnb hN] at h
        simp only at h
        obtain ⟨l', h1, h2⟩ := hls _ h
        exact ⟨l', by simp [h1], h2⟩
      · rw [lineMacro_some hnb hm] at h
        cases ht : Options.tokenize o with
        | error e' =>
          rw [ht] at h
          simp [Except.map] at h; subst h
          exact ⟨l, by simp, .inr ⟨_, _, _, _, _, _, _, _, hw, hm, ht⟩⟩
        | ok ts =>
          rw [ht] at h
          simp only [Except.map] at h
          cases hr : parseLoop [] ls with
          | error e' =>
            rw [hr] at h
            simp at h; subst h
            obtain ⟨l', h1, h2⟩ := hls _ hr
            exact ⟨l', by simp [h1], h2⟩
          | ok r => rw [hr] at h; simp at h

/-- which options the macros have, and which of these take an argument -/
theorem C65_options (k : PrepKind) (c : Char) :
    (Options.valid (optstring k) c = true ↔ c ∈ prepFlags k ++ prepArgs k) ∧
    (c ∈ prepFlags k ++ prepArgs k → (Options.requiresArg (optstring k) c = true ↔ c ∈ prepArgs k)) := by
  constructor
  · have key : ∀ l : List Char, (optstring k).filter (· != ':') = l →
        (Options.valid (optstring k) c = true ↔ c ∈ l) := by
      rintro l rfl
      unfold Options.valid
      simp only [List.contains_eq_mem, decide_eq_true_eq]
    cases k
    · rw [key ['a', 'b', 'c', 'D', 'n', 'T', 'q'] (by decide)]
      simp only [prepFlags, prepArgs, List.mem_append, List.mem_cons, List.not_mem_nil, or_false]; grind
    · rw [key ['P', 'p', 'R', 'E', 'b', 'z', 'F', 'd', 'o', 'Z'] (by decide)]
      simp only [prepFlags, prepArgs, List.mem_append, List.mem_cons, List.not_mem_nil, or_false]; grind
    · rw [key ['a', 'b', 'c', 'D', 'n', 'T', 'v', 'N', 'S', 'p'] (by decide)]
      simp only [prepFlags, prepArgs, List.mem_append, List.mem_cons, List.not_mem_nil, or_false]; grind
    · rw [key ['v', 'p', 'm', 'M'] (by decide)]
      simp only [prepFlags, prepArgs, List.mem_append, List.mem_cons, List.not_mem_nil, or_false]
  · intro hc
    have key : ∀ x ∈ prepFlags k ++ prepArgs k,
        (Options.requiresArg (optstring k) x = true ↔ x ∈ prepArgs k) := by
      cases k <;> decide
    exact key c hc

/-- the only default values: the directory of `%setup` and `%autosetup` and the backend of the latter -/
theorem C65_defaults (k : PrepKind) (c : Char) (v : Val) : (c, v) ∈ Prep.defaults k ↔
    (c = 'n' ∧ v = .str (s% "%{name}-%{version}") ∧ (k = .setup ∨ k = .autosetup)) ∨
    (c = 'S' ∧ v = .str (s% "patch") ∧ k = .autosetup) := by
  cases k <;> simp [Prep.defaults]

/-- macros are of the class of their name and have the members of the class -/
theorem C65_classes [Uni] {ls : List Str} (hn : ∀ l ∈ ls, '\n' ∉ l) {p : Prep} (h : Prep.parse ls = .ok p) :
    ∀ m ∈ p.data, (∃ rest, PrepNameAt m.kind m.name rest) ∧ m.options.optstring = optstring m.kind ∧
      m.options.defaults = Prep.defaults m.kind ∧ '\n' ∉ m.name ∧ (m.kind = .patch → IsPatch m) := by
  rw [C65_parse hn] at h
  induction h with
  | nil => simp
  | @other l ls pfx body sfx p _ _ _ ih =>
    intro m hm
    unfold putAbove at hm
    split at hm
    · simp at hm
    · rename_i m' ms e
      rcases List.mem_cons.mp hm with rfl | hm
      · obtain ⟨i1, i2, i3, i4, i5⟩ := ih (fun l hl => hn l (by simp [hl])) m' (by rw [e]; simp)
        exact ⟨i1, i2, i3, i4, fun hk => ⟨hk, (i5 hk).optstring, (i5 hk).defaults⟩⟩
      · exact ih (fun l hl => hn l (by simp [hl])) m (by rw [e]; simp [hm])
  | @found l ls pfx body sfx k before name d o ts p hw hm' ht _ ih =>
    intro m hm
    rcases List.mem_cons.mp hm with rfl | hm
    · refine ⟨⟨_, hm'.first.name⟩, rfl, rfl, ?_, ?_⟩
      · intro hnm
        have := hm'.first.text
        exact wrapped_newline hw (hn l (by simp)) (by rw [this]; simp [hnm])
      · intro hk
        simp only at hk
        subst hk
        exact ⟨rfl, rfl, rfl⟩
    · exact ih (fun l hl => hn l (by simp [hl])) m hm

/-! ### C07: writing back -/

/-- As many lines are written as were read, each of them is written as itself, up to the way options are quoted, or
without a conditional macro expansion around it. -/
theorem C07_lines [Uni] {ls : List Str} (hn : ∀ l ∈ ls, '\n' ∉ l) {p : Prep} (h : Prep.parse ls = .ok p) :
    (Prep.raw p).length = ls.length ∧
      ∀ (i : Nat) l l', ls[i]? = some l → (Prep.raw p)[i]? = some l' → WrittenAs l l' := by
  rw [C65_parse hn] at h
  obtain ⟨ls', rfl, h1, h2⟩ := written h
  exact ⟨h1, h2⟩

theorem keptLine_written [Uni] {l l' : Str} (hk : KeptLine l) (hw : WrittenAs l l') (hn : '\n' ∉ l) : l' = l := by
  have uniq : ∀ {pfx body sfx pfx' body' sfx'}, Wrapped l pfx body sfx → Wrapped l pfx' body' sfx' →
      pfx = pfx' ∧ body = body' ∧ sfx = sfx' := by
    intro pfx body sfx pfx' body' sfx' h1 h2
    have e1 := splitConditional_iff (sp := ⟨body, pfx, sfx⟩) |>.mpr h1
    have e2 := splitConditional_iff (sp := ⟨body', pfx', sfx'⟩) |>.mpr h2
    rw [e1] at e2
    simp at e2
    exact ⟨e2.2.1, e2.1, e2.2.2⟩
  have excl : ∀ {b k before name d o}, '\n' ∉ b → NoPrepMacro b → PrepMacroIn b k before name d o → False := by
    intro b k before name d o hb h1 h2
    have e1 := lineMacro_none (sp := ⟨b, [], []⟩) (buffer := []) hb h1
    have e2 := lineMacro_some (sp := ⟨b, [], []⟩) (buffer := []) hb h2
    rw [e1] at e2
    cases ht : Options.tokenize o with
    | error e => rw [ht] at e2; simp [Except.map] at e2
    | ok ts => rw [ht] at e2; simp [Except.map] at e2
  cases hk with
  | other h1 h2 h3 =>
    have hpl : ∀ {pfx body sfx}, Wrapped l pfx body sfx → pfx = [] ∧ body = l ∧ sfx = [] := by
      intro pfx body sfx hw
      cases hw with
      | cond h => exact absurd h (h1 _ _ _)
      | plain => exact ⟨rfl, rfl, rfl⟩
      | broken => exact ⟨rfl, rfl, rfl⟩
    cases hw with
    | other h4 h5 => exact (hpl h4).2.1
    | found h4 h5 h6 =>
      obtain ⟨_, rfl, _⟩ := hpl h4
      exact absurd h5 (fun h5 => excl hn h3 h5)
  | @found pfx body sfx k before name d o h1 h2 h3 h4 =>
    cases hw with
    | other h5 h6 =>
      obtain ⟨_, rfl, _⟩ := uniq h1 h5
      exact absurd h3 (fun h3 => excl (wrapped_newline h5 hn) h6 h3)
    | @found pfx' body' sfx' k' before' name' d' o' ts h5 h6 h7 =>
      obtain ⟨rfl, rfl, rfl⟩ := uniq h1 h5
      have hb := wrapped_newline h5 hn
      obtain ⟨hs, ns, hp, hc⟩ := h4
      obtain ⟨ts', e1, e2⟩ := C10_tokenize_print_partial hs hp hc
      have e3 := lineMacro_some (sp := ⟨body, [], []⟩) (buffer := []) hb h3
      have e4 := lineMacro_some (sp := ⟨body, [], []⟩) (buffer := []) hb h6
      rw [e3, e1, h7] at e4
      simp [Except.map] at e4
      obtain ⟨rfl, rfl, ⟨rfl, _⟩, rfl, rfl⟩ := e4
      rw [e2]
      have := C46_split_conditional_partial h2 (splitConditional_iff (sp := ⟨body, pfx, sfx⟩) |>.mpr h1)
      simp only at this
      rw [← this, h3.first.text]
      simp

/-- Lines are written as they were read if the options of macros are written in the way options are printed and lines
without macros are not conditional macro expansions. Missing: other lines, see the counterexamples. -/
theorem C07_roundtrip_partial [Uni] {ls : List Str} (hn : ∀ l ∈ ls, '\n' ∉ l) (hk : ∀ l ∈ ls, KeptLine l) :
    ∃ p, Prep.parse ls = .ok p ∧ Prep.raw p = ls := by
  have hex : ∃ p, ReadsPrep ls p := by
    clear hn
    induction ls with
    | nil => exact ⟨_, .nil⟩
    | cons l ls ih =>
      obtain ⟨p, hp⟩ := ih (fun l hl => hk l (by simp [hl]))
      cases hk l (by simp) with
      | other h1 h2 h3 =>
        obtain ⟨pfx, body, sfx, hw⟩ := h2
        refine ⟨_, .other hw ?_ hp⟩
        cases hw with
        | cond h => exact absurd h (h1 _ _ _)
        | plain => exact h3
        | broken => exact h3
      | found h1 h2 h3 h4 =>
        obtain ⟨hs, ns, hp', hc⟩ := h4
        obtain ⟨ts, e1, _⟩ := C10_tokenize_print_partial hs hp' hc
        exact ⟨_, .found h1 h3 e1 hp⟩
  obtain ⟨p, hp⟩ := hex
  refine ⟨p, (C65_parse hn).mpr hp, ?_⟩
  obtain ⟨h1, h2⟩ := C07_lines hn ((C65_parse hn).mpr hp)
  apply List.ext_getElem? 
  intro i
  rcases Nat.lt_or_ge i ls.length with hi | hi
  · have e1 : ls[i]? = some ls[i] := List.getElem?_eq_getElem hi
    have e2 : (Prep.raw p)[i]? = some ((Prep.raw p)[i]'(by omega)) := List.getElem?_eq_getElem (by omega)
    rw [e2, e1]
    have hm : ls[i] ∈ ls := List.getElem_mem hi
    rw [keptLine_written (hk _ hm) (h2 i _ _ e1 e2) (hn _ hm)]
  · rw [List.getElem?_eq_none (by omega), List.getElem?_eq_none hi]

/-- Characters other than quotes, backslashes and whitespace are never lost in a line with a macro. -/
theorem C07_macro_lines [Uni] {l pfx body sfx before name d o l' : Str} {k : PrepKind} (hn : '\n' ∉ l)
    (h1 : Wrapped l pfx body sfx) (h2 : PrepMacroIn body k before name d o) (h : WrittenAs l l') :
    l'.filter (fun c => !(c == '"' || c == '\'' || c == '\\') && !isSpace c) =
      l.filter (fun c => !(c == '"' || c == '\'' || c == '\\') && !isSpace c) := by
  have hb := wrapped_newline h1 hn
  have hsp := splitConditional_iff (sp := ⟨body, pfx, sfx⟩) |>.mpr h1
  have hmod := C46_split_conditional_mod_whitespace hsp
  simp only at hmod
  have hfil : ∀ {a b : Str}, a.filter (fun c => !isSpace c) = b.filter (fun c => !isSpace c) →
      a.filter (fun c => !(c == '"' || c == '\'' || c == '\\') && !isSpace c) =
      b.filter (fun c => !(c == '"' || c == '\'' || c == '\\') && !isSpace c) := by
    intro a b hab
    rw [← List.filter_filter, ← List.filter_filter, hab]
  have e3 := lineMacro_some (sp := ⟨body, [], []⟩) (buffer := []) hb h2
  cases h with
  | @other pfx' body' sfx' h5 h6 =>
    have e := splitConditional_iff (sp := ⟨l', pfx', sfx'⟩) |>.mpr h5
    rw [hsp] at e
    simp at e
    obtain ⟨rfl, rfl, rfl⟩ := e
    have e4 := lineMacro_none (sp := ⟨body, [], []⟩) (buffer := []) hb h6
    rw [e3] at e4
    cases ht : Options.tokenize o with
    | error e => rw [ht] at e4; simp [Except.map] at e4
    | ok ts => rw [ht] at e4; simp [Except.map] at e4
  | @found pfx' body' sfx' k' before' name' d' o' ts h5 h6 h7 =>
    have e := splitConditional_iff (sp := ⟨body', pfx', sfx'⟩) |>.mpr h5
    rw [hsp] at e
    simp at e
    obtain ⟨rfl, rfl, rfl⟩ := e
    rw [← hfil hmod]
    rw [h6.first.text]
    simp only [List.filter_append, List.append_assoc]
    rw [C10_nothing_else_lost h7]

section
attribute [local instance] asciiUni

/-- a wrapped line that is not a macro loses its wrapper -/
theorem C07_violation_wrapper : ∃ p, Prep.parse [s% "%{?x:rm foo}"] = .ok p ∧ Prep.raw p = [s% "rm foo"] :=
  ⟨⟨[], [s% "rm foo"]⟩, rfl, rfl⟩

/-- an empty argument is lost -/
theorem C07_violation_options : ∃ p, Prep.parse [s% "%setup -n \"\""] = .ok p ∧ Prep.raw p = [s% "%setup -n "] :=
  ⟨_, rfl, by decide +kernel⟩

def exPrep : List Str := [s% "%setup -q -n foo", s% "rm x", s% "", s% "%{?with_a:%patch1 -p1}", s% "%patch -P 5",
  s% "%patch7", s% "make"]

def exPrepRead : Prep := match Prep.parse exPrep with
  | .ok p => p
  | .error _ => ⟨[], []⟩

/-- four macros are found and all lines written back -/
example : Prep.parse exPrep = .ok exPrepRead ∧ Prep.raw exPrepRead = exPrep ∧
    exPrepRead.data.map (·.name) = [s% "%setup", s% "%patch1", s% "%patch", s% "%patch7"] ∧
    exPrepRead.data.map (fun m => m.preceding) = [[], [s% "rm x", s% ""], [], []] ∧
    exPrepRead.remainder = [s% "make"] := by decide +kernel

example : Prep.parse [s% "%setupfoo", s% "%patches"] = .ok ⟨[], [s% "%setupfoo", s% "%patches"]⟩ := by decide +kernel

example : Prep.parse [s% "%setup -n \"a"] = .error .optionsException ∧ Prep.parse [s% "%{}"] = .error .valueError := by
  decide +kernel

end

/-! ### C66: numbers -/

/-- The number of a `%patch` macro is the one in its name, else the one given with `-P`, else the first argument,
else 0. -/
theorem C66_number [Uni] {m : PrepMacro} (hm : IsPatch m) (hn : '\n' ∉ m.name) {ps : List Piece}
    (hr : Reads m.options ps) (n : Int) : number m = .ok n ↔ HasNumber m n :=
  number_iff hm hn hr

/-- a number that was set is read again; nothing else than name or options changes -/
theorem C66_set_number_partial [Uni] {m m' : PrepMacro} {v : Int} (hm : IsPatch m) (hn : '\n' ∉ m.name) (hv : 0 ≤ v)
    {ps : List Piece} (hr : Reads m.options ps) (h : setNumber m v = .ok m') :
    number m' = .ok v ∧ m'.kind = m.kind ∧ m'.delimiter = m.delimiter ∧ m'.pfx = m.pfx ∧ m'.sfx = m.sfx ∧
      m'.preceding = m.preceding ∧ (m'.name = m.name ∨ m'.options = m.options) :=
  ⟨set_number hm hn hv hr h, set_number_rest h⟩

/-- where the number was given it is replaced -/
theorem C66_set_name [Uni] {m : PrepMacro} {a ds : Str} (hn : '\n' ∉ a) (e : m.name = a ++ ds) (ha : NotNumbered a)
    (hd0 : ds ≠ []) (hd : ∀ c ∈ ds, Uni.isDecimal c = true) (v : Int) :
    setNumber m v = .ok { m with name := a ++ intStr v } := by
  unfold setNumber
  rw [e, splitNumber_some ha hn hd0 hd]

/-- a macro without any number gets it as part of its name -/
theorem C66_set_unnumbered [Uni] {m : PrepMacro} (hm : IsPatch m) (hn : '\n' ∉ m.name) (hN : NotNumbered m.name)
    {ps : List Piece} (hr : Reads m.options ps) (hg : given 'P' ps = none) (hp : posWords ps = []) (v : Int) :
    setNumber m v = .ok { m with name := s% "%patch" ++ intStr v } := by
  unfold setNumber
  rw [splitNumber_none hN hn]
  have h2 : Options.get m.options 'P' = .ok none := by
    rw [C29_get hr (valid_P hm.optstring), hg]
    simp [requires_P hm.optstring, hm.defaults]
  have h3 : (Options.positionalIdx m.options).isEmpty = true := by
    rw [positionalIdx_isEmpty, C32_values hr, hp]; rfl
  simp only [h2, h3, if_true]
  rfl

section
attribute [local instance] asciiUni

def exPatch (name : Str) (ts : List Token) : PrepMacro :=
  ⟨.patch, name, ⟨ts, optstring .patch, []⟩, [' '], [], [], []⟩

/-- a negative number is not read back -/
theorem C66_negative_violation : ∃ m', setNumber (exPatch (s% "%patch3") []) (-1) = .ok m' ∧ number m' = .ok 1 :=
  ⟨exPatch (s% "%patch-1") [], by decide +kernel, by decide +kernel⟩

example : number (exPatch (s% "%patch3") []) = .ok 3 ∧ number (exPatch (s% "%patch") [⟨.default, s% "-P4"⟩]) = .ok 4 ∧
    number (exPatch (s% "%patch") [⟨.default, s% "-P"⟩, ⟨.whitespace, s% " "⟩, ⟨.default, s% "5"⟩]) = .ok 5 ∧
    number (exPatch (s% "%patch") [⟨.default, s% "-p1"⟩, ⟨.whitespace, s% " "⟩, ⟨.default, s% "6"⟩]) = .ok 6 ∧
    number (exPatch (s% "%patch") [⟨.default, s% "-p1"⟩]) = .ok 0 := by decide +kernel

example : (setNumber (exPatch (s% "%patch") [⟨.default, s% "-p1"⟩, ⟨.whitespace, s% " "⟩, ⟨.default, s% "6"⟩]) 12).map
    Prep.line = .ok (s% "%patch -p1 12") := by decide +kernel

example : (setNumber (exPatch (s% "%patch") [⟨.default, s% "-p1"⟩]) 12).map Prep.line = .ok (s% "%patch12 -p1") := by
  decide +kernel

example : Reads (exPatch (s% "%patch") [⟨.default, s% "-P"⟩, ⟨.whitespace, s% " "⟩, ⟨.default, s% "5"⟩]).options
    [.withArg ⟨.default, s% "-P"⟩ (some ⟨.whitespace, s% " "⟩) ⟨.default, s% "5"⟩] := by
  refine ⟨rfl, ?_⟩
  intro p hp
  simp only [List.mem_singleton] at hp
  subst hp
  refine ⟨by decide, ⟨'P', ⟨by decide, [], s% "p:REb:z:F:d:o:Z", rfl, by simp⟩, rfl⟩, ?_, by decide, ?_⟩
  · intro w hw
    simp only [Option.mem_def, Option.some.injEq] at hw
    subst hw
    exact ⟨rfl, by rintro ⟨v, h⟩; simp at h⟩
  · rintro ⟨v, h⟩; simp at h

end

/-! ### C67: looking up and deleting macros -/

/-- A macro found by its name is the first one of that name. -/
theorem C67_getattr (p : Prep) (name : Str) (m : PrepMacro) : getAttr p name = .ok m ↔
    ∃ k : Nat, p.data[k]? = some m ∧ m.name = '%' :: name ∧
      ∀ (i : Nat) m', i < k → p.data[i]? = some m' → m'.name ≠ '%' :: name := by
  unfold getAttr Prep.find
  cases h : p.data.findIdx? (fun m => m.name == '%' :: name) with
  | none =>
    simp only [reduceCtorEq, false_iff, not_exists, not_and]
    intro k hk hm
    rw [List.findIdx?_eq_none_iff] at h
    have := h m (List.mem_of_getElem? hk)
    simp [hm] at this
  | some k =>
    rw [List.findIdx?_eq_some_iff_getElem] at h
    obtain ⟨hk, h1, h2⟩ := h
    simp only [beq_iff_eq] at h1 h2
    simp only [List.getElem?_eq_getElem hk, Except.ok.injEq]
    constructor
    · rintro rfl
      refine ⟨k, List.getElem?_eq_getElem hk, h1, ?_⟩
      intro i m' hi e hn
      obtain ⟨hl, rfl⟩ := List.getElem?_eq_some_iff.mp e
      exact h2 i hi hn
    · rintro ⟨j, hj, h3, h4⟩
      rcases Nat.lt_trichotomy j k with h | rfl | h
      · obtain ⟨hl, rfl⟩ := List.getElem?_eq_some_iff.mp hj
        exact absurd h3 (h2 j h)
      · rw [List.getElem?_eq_getElem hk] at hj; simpa using hj
      · exact absurd h1 (h4 k _ h (List.getElem?_eq_getElem hk))

/-- there is no such attribute exactly if no macro has the name -/
theorem C67_getattr_error (p : Prep) (name : Str) (e : Err) : getAttr p name = .error e ↔
    e = .attributeError ∧ ∀ m ∈ p.data, m.name ≠ '%' :: name := by
  unfold getAttr Prep.find
  cases h : p.data.findIdx? (fun m => m.name == '%' :: name) with
  | none =>
    rw [List.findIdx?_eq_none_iff] at h
    simp only [Except.error.injEq, beq_eq_false_iff_ne] at h ⊢
    constructor
    · rintro rfl; exact ⟨rfl, h⟩
    · rintro ⟨rfl, _⟩; rfl
  | some k =>
    rw [List.findIdx?_eq_some_iff_getElem] at h
    obtain ⟨hk, h1, h2⟩ := h
    simp only [beq_iff_eq] at h1
    simp only [List.getElem?_eq_getElem hk, reduceCtorEq, false_iff, not_and]
    intro _ h
    exact h _ (List.getElem_mem hk) h1

/-- Membership of a name and of a class; `%patch` stands for all names starting like this. -/
theorem C67_contains (p : Prep) :
    (∀ k, containsKind p k = true ↔ ∃ m ∈ p.data, m.kind = k) ∧
    (∀ name, name ≠ s% "%patch" → (containsName p name = true ↔ ∃ m ∈ p.data, m.name = name)) ∧
    (containsName p (s% "%patch") = true ↔ ∃ m ∈ p.data, ∃ r, m.name = s% "%patch" ++ r) := by
  refine ⟨?_, ?_, ?_⟩
  · intro k; simp [containsKind]
  · intro name hn; simp [containsName, hn]
  · simp only [containsName, beq_self_eq_true, if_true, List.any_eq_true, startsWith, List.isPrefixOf_iff_prefix]
    constructor
    · rintro ⟨m, hm, r, e⟩; exact ⟨m, hm, r, e.symm⟩
    · rintro ⟨m, hm, r, e⟩; exact ⟨m, hm, r, e.symm⟩

/-- Deleting a macro removes its line and no other, and the other macros stay as they are. -/
theorem C67_delete_partial {p : Prep} {k : Nat} {m : PrepMacro} (h : p.data[k]? = some m) :
    ∃ p' above below, delItem p k = (p', none) ∧ LineAt p k above (line (settle m)) below ∧
      Prep.raw p' = above ++ below ∧ p'.data.map withoutLines = (p.data.map withoutLines).eraseIdx k := by
  obtain ⟨p', h1, h2, h3⟩ := delItem_spec h
  exact ⟨p', _, _, h1, lineAt h, h2, h3⟩

/-- an index out of range changes nothing -/
theorem C67_delete_out {p : Prep} {i : Int} (h : p.data.length ≤ i ∨ i < -(p.data.length : Int)) :
    delItem p i = (p, some .indexError) := delItem_out h

/-- Deleting a slice removes the lines of its macros and no other. -/
theorem C67_delete_slice_partial (p : Prep) {start stop step : Option Int} (hs : 0 < step.getD 1) {ks : List Nat}
    (h : sliceIndices p.data.length start stop step = .ok ks) :
    ∃ p', delSlice p start stop step = (p', none) ∧
      Prep.raw p' = prepLinesWithout ks 0 p.data ++ p.remainder ∧
      p'.data.map withoutLines = (macrosWithout ks p.data).map withoutLines := by
  obtain ⟨hp, hb⟩ := increasing_pairwise' (sliceIndices_increasing hs h)
  obtain ⟨p', h1, h2, h3⟩ := delAll_spec ks.reverse (p := p)
    (by rw [List.pairwise_reverse]; exact hp) (by simpa using hb)
  refine ⟨p', ?_, ?_, ?_⟩
  · unfold delSlice; rw [h]; exact h1
  · rw [h2, Prep.without_congr (js' := ks) (by simp)]
  · rw [h3]
    unfold macrosWithout
    rw [zip_congr (js' := ks) (by simp)]

/-- Deleting by name removes the line of the first macro of the name. -/
theorem C67_delattr {p : Prep} {name : Str} {m : PrepMacro} (h : getAttr p name = .ok m) :
    ∃ k p' above below, p.data[k]? = some m ∧ (∀ (i : Nat) m', i < k → p.data[i]? = some m' → m'.name ≠ '%' :: name) ∧
      delAttr p name = (p', none) ∧ LineAt p k above (line (settle m)) below ∧
      Prep.raw p' = above ++ below ∧ p'.data.map withoutLines = (p.data.map withoutLines).eraseIdx k := by
  obtain ⟨k, h1, h2, h3⟩ := (C67_getattr p name m).mp h
  obtain ⟨p', a, b, g1, g2, g3, g4⟩ := C67_delete_partial h1
  refine ⟨k, p', a, b, h1, h3, ?_, g2, g3, g4⟩
  have hf : Prep.find p ('%' :: name) = some k := by
    unfold Prep.find
    rw [List.findIdx?_eq_some_iff_getElem]
    obtain ⟨hk, e⟩ := List.getElem?_eq_some_iff.mp h1
    refine ⟨hk, by rw [e]; simp [h2], ?_⟩
    intro i hi
    simp only [beq_iff_eq]
    exact h3 i _ hi (List.getElem?_eq_getElem (by omega))
  unfold delAttr
  rw [hf]
  exact g1

/-- nothing is deleted if there is no macro of the name -/
theorem C67_delattr_error {p : Prep} {name : Str} (h : ∀ m ∈ p.data, m.name ≠ '%' :: name) :
    delAttr p name = (p, some .attributeError) := by
  have : Prep.find p ('%' :: name) = none := by
    unfold Prep.find
    rw [List.findIdx?_eq_none_iff]
    intro m hm
    simp [h m hm]
  unfold delAttr
  rw [this]

section
attribute [local instance] asciiUni

/-- With a negative index the lines above the deleted macro go to a wrong place, or the macro is
deleted, the lines above it are lost and an exception is raised. -/
theorem C67_negative_violation :
    (∃ p', delItem exPrepRead (-3) = (p', none) ∧ Prep.raw p' =
      [s% "rm x", s% "", s% "%setup -q -n foo", s% "%patch -P 5", s% "%patch7", s% "make"]) ∧
    (∃ p p', Prep.parse [s% "a", s% "%patch1", s% "b", s% "%patch2"] = .ok p ∧
      delItem p (-2) = (p', some .indexError) ∧ Prep.raw p' = [s% "b", s% "%patch2"]) :=
  ⟨⟨_, rfl, by decide +kernel⟩, ⟨_, _, rfl, rfl, by decide +kernel⟩⟩

/-- a slice with a negative step deletes others than those it has -/
theorem C67_slice_violation : sliceIndices exPrepRead.data.length none none (some (-2)) = .ok [3, 1] ∧
    (∃ p', delSlice exPrepRead none none (some (-2)) = (p', some .indexError) ∧ Prep.raw p' =
      [s% "%setup -q -n foo", s% "rm x", s% "", s% "%patch -P 5", s% "%patch7", s% "make"]) :=
  ⟨rfl, _, rfl, by decide +kernel⟩

example : ∃ p', delItem exPrepRead 1 = (p', none) ∧ Prep.raw p' =
    [s% "%setup -q -n foo", s% "rm x", s% "", s% "%patch -P 5", s% "%patch7", s% "make"] := ⟨_, rfl, by decide +kernel⟩

example : ∃ p', delSlice exPrepRead (some 1) (some 3) none = (p', none) ∧ Prep.raw p' =
    [s% "%setup -q -n foo", s% "rm x", s% "", s% "%patch7", s% "make"] := ⟨_, rfl, by decide +kernel⟩

example : (delAttr exPrepRead (s% "patch1")).2 = none ∧ (getAttr exPrepRead (s% "patch")).map (fun m => m.name) = .ok (s% "%patch") ∧
    (getAttr exPrepRead (s% "autosetup")) = .error .attributeError := by decide +kernel

end

/-! ### C50: adding and removing `%patch` macros -/

/-- The added macro is the one asked for: name, number and options as given, with a blank between them. It goes on a line
of its own and all other lines stay. -/
theorem C50_add [Uni] {p p' : Prep} {num : Option Int} {old : Bool} {kw : List (Char × Option Val)}
    (hnum : ∀ n ∈ num, 0 ≤ n) (hd : (kw.map (·.1)).Nodup) (hk : ∀ x ∈ kw, KwOK x)
    (h : addPatchMacro p num old kw = (p', none)) : ∃ m k above below, k ≤ p.data.length ∧
      p'.data = p.data.take k ++ m :: p.data.drop k ∧ p'.remainder = p.remainder ∧
      Prep.raw p = above ++ below ∧ Prep.raw p' = above ++ line (settle m) :: below ∧
      m.name = patchName num old ∧ m.delimiter = [' '] ∧ m.pfx = [] ∧ m.sfx = [] ∧ m.preceding = [] ∧ IsPatch m ∧
      Reads m.options (spaced (numberPieces num old ++ (patchArgs kw).flatMap kwPieces)) := by
  obtain ⟨m, k, h1, h2, rfl, _, _⟩ := addPatch_ok h
  have hs := newPatch_spec hnum hd hk h1
  obtain ⟨_, g2, g3, g4⟩ := insert_lines p k h2 m hs.2.2.2.2.1
  exact ⟨m, k, _, _, h2, insert_data h2 m, g2, g3, g4, hs⟩

/-- the line of the added macro -/
theorem C50_line [Uni] {p p' : Prep} {num : Option Int} {old : Bool} {kw : List (Char × Option Val)}
    (hnum : ∀ n ∈ num, 0 ≤ n) (hd : (kw.map (·.1)).Nodup) (hk : ∀ x ∈ kw, KwPlain x)
    (h : addPatchMacro p num old kw = (p', none)) : ∃ above below, Prep.raw p = above ++ below ∧
      Prep.raw p' = above ++ (patchName num old ++ ' ' :: joinC ' ' (posWords (numberPieces num old) ++
        (patchArgs kw).flatMap kwWords)) :: below := by
  obtain ⟨m, k, h1, h2, rfl, _, _⟩ := addPatch_ok h
  have hk' : ∀ x ∈ kw, KwOK x := by
    rintro ⟨c, v⟩ hx
    have := hk _ hx
    match v with
    | none => trivial
    | some (.bool _) => trivial
    | some (.int _) => trivial
    | some (.str s) => exact this.1
  have hs := newPatch_spec hnum hd hk' h1
  obtain ⟨_, g2, g3, g4⟩ := insert_lines p k h2 m hs.2.2.2.2.1
  rw [newPatch_line hnum hd hk h1] at g4
  exact ⟨_, _, g3, g4⟩

/-- The added macro comes after the macro with the nearest number (the first of these), or before it if that number is
greater; it comes last if there is no other `%patch` macro. -/
theorem C50_place [Uni] {p p' : Prep} {num : Option Int} {old : Bool} {kw : List (Char × Option Val)}
    (hnum : ∀ n ∈ num, 0 ≤ n) (hd : (kw.map (·.1)).Nodup) (hk : ∀ x ∈ kw, KwOK x)
    (hg : ∀ x ∈ p.data, GoodMacro x) (hP : 'P' ∉ kw.map (·.1))
    (h : addPatchMacro p num old kw = (p', none)) : ∃ m k, HasNumber m (num.getD 0) ∧
      p'.data = p.data.take k ++ m :: p.data.drop k ∧
      (((∀ x ∈ p.data, x.kind ≠ .patch) ∧ k = p.data.length) ∨
        ∃ j x y, p.data[j]? = some x ∧ x.kind = .patch ∧ HasNumber x y ∧
          (∀ (i : Nat) z w, p.data[i]? = some z → z.kind = .patch → HasNumber z w →
            (y - num.getD 0).natAbs ≤ (w - num.getD 0).natAbs ∧
            ((y - num.getD 0).natAbs = (w - num.getD 0).natAbs → j ≤ i)) ∧
          k = if y ≤ num.getD 0 then j + 1 else j) := by
  obtain ⟨m, k, h1, h2, rfl, _, h3⟩ := addPatch_ok h
  have hs := newPatch_spec hnum hd hk h1
  have hmn := newPatch_number hnum hd hk h1 (.inl hP)
  refine ⟨m, k, ?_, insert_data h2 m, ?_⟩
  · exact (number_iff hs.2.2.2.2.2.1 (by rw [hs.1]; exact notMem_patchName hnum) hs.2.2.2.2.2.2).mp hmn
  · rcases h3 with h3 | ⟨n, j, x, y, g1, g2, g3, g4, g5, g6⟩
    · exact .inl h3
    · rw [hmn] at g1
      simp only [Except.ok.injEq] at g1
      subst g1
      refine .inr ⟨j, x, y, g2, g3, (good_number (hg x (List.mem_of_getElem? g2)) g3).mp g4, ?_, g6⟩
      intro i z w hz hzk hzw
      exact g5 i z w hz hzk ((good_number (hg z (List.mem_of_getElem? hz)) hzk).mpr hzw)

/-- If numbers increase they are in order after adding a macro, and increase if the number is new. Missing: numbers in
order but not all different, see `C50_order_violation`. -/
theorem C50_order_partial [Uni] {p p' : Prep} {num : Option Int} {old : Bool} {kw : List (Char × Option Val)}
    (hnum : ∀ n ∈ num, 0 ≤ n) (hd : (kw.map (·.1)).Nodup) (hk : ∀ x ∈ kw, KwOK x)
    (hg : ∀ x ∈ p.data, GoodMacro x) (hP : 'P' ∉ kw.map (·.1)) (hinc : NumbersIncrease p.data)
    (h : addPatchMacro p num old kw = (p', none)) : NumbersOrdered p'.data ∧
      ((∀ x ∈ p.data, x.kind = .patch → ¬ HasNumber x (num.getD 0)) → NumbersIncrease p'.data) := by
  obtain ⟨m, k, h1, h2, rfl, _, h3⟩ := addPatch_ok h
  have hs := newPatch_spec hnum hd hk h1
  have hmn := newPatch_number hnum hd hk h1 (.inl hP)
  have hmg : GoodMacro m := ⟨by rw [hs.1]; exact notMem_patchName hnum, ⟨_, hs.2.2.2.2.2.2⟩, fun _ => hs.2.2.2.2.2.1⟩
  have hg' : ∀ x ∈ (insert p k m).data, GoodMacro x := by
    intro x hx
    rw [insert_data h2, List.mem_append, List.mem_cons] at hx
    rcases hx with hx | rfl | hx
    · exact hg x (List.mem_of_mem_take hx)
    · exact hmg
    · exact hg x (List.mem_of_mem_drop hx)
  have hinc' : ∀ (i j : Nat) a b v w, i < j → p.data[i]? = some a → p.data[j]? = some b → a.kind = .patch →
      b.kind = .patch → number a = .ok v → number b = .ok w → v < w := by
    intro i j a b v w hij ha hb hka hkb hv hw
    exact hinc i j a b v w hij ha hb hka hkb ((good_number (hg a (List.mem_of_getElem? ha)) hka).mp hv)
      ((good_number (hg b (List.mem_of_getElem? hb)) hkb).mp hw)
  have h3' : ((∀ x ∈ p.data, x.kind ≠ .patch) ∧ k = p.data.length) ∨
        ∃ j x y, p.data[j]? = some x ∧ x.kind = .patch ∧ number x = .ok y ∧
          (∀ (i : Nat) z w, p.data[i]? = some z → z.kind = .patch → number z = .ok w →
            (y - num.getD 0).natAbs ≤ (w - num.getD 0).natAbs ∧
            ((y - num.getD 0).natAbs = (w - num.getD 0).natAbs → j ≤ i)) ∧
          k = if y ≤ num.getD 0 then j + 1 else j := by
    rcases h3 with h3 | ⟨n, j, x, y, g1, g⟩
    · exact .inl h3
    · rw [hmn] at g1
      simp only [Except.ok.injEq] at g1
      subst g1
      exact .inr ⟨j, x, y, g⟩
  have key := fun (i j : Nat) a b (v w : Int) (hij : i < j) (ha : (insert p k m).data[i]? = some a)
      (hb : (insert p k m).data[j]? = some b) (hka : a.kind = .patch) (hkb : b.kind = .patch)
      (hv : HasNumber a v) (hw : HasNumber b w) =>
    place_sorted h2 hmn hinc' h3' hij ha hb hka hkb ((good_number (hg' a (List.mem_of_getElem? ha)) hka).mpr hv)
      ((good_number (hg' b (List.mem_of_getElem? hb)) hkb).mpr hw)
  constructor
  · intro i j a b v w hij ha hb hka hkb hv hw
    exact (key i j a b v w hij ha hb hka hkb hv hw).1
  · intro hnew i j a b v w hij ha hb hka hkb hv hw
    refine (key i j a b v w hij ha hb hka hkb hv hw).2 ?_
    intro x hx hkx hn
    exact hnew x hx hkx ((good_number (hg x hx) hkx).mp hn)

/-- Adding succeeds if all options have a value of the right kind and every `%patch` macro has a number; a wrong kind of
value is rejected. -/
theorem C50_add_succeeds [Uni] {p : Prep} {num : Option Int} {old : Bool} {kw : List (Char × Option Val)}
    (hnum : ∀ n ∈ num, 0 ≤ n) (hd : (kw.map (·.1)).Nodup) (hk : ∀ x ∈ kw, KwOK x) (hP : 'P' ∉ kw.map (·.1))
    (hg : ∀ x ∈ p.data, GoodMacro x) (hn : ∀ x ∈ p.data, x.kind = .patch → ∃ n, HasNumber x n) :
    ((∀ x ∈ patchArgs kw, KwTyped x) → ∃ p', addPatchMacro p num old kw = (p', none)) ∧
    (¬ (∀ x ∈ patchArgs kw, KwTyped x) → addPatchMacro p num old kw = (p, some .optionsException)) := by
  constructor
  · intro ht
    obtain ⟨m, hm⟩ := (newPatch_typed num old kw).1 ht
    refine addPatch_exists hm ?_ (.inr ⟨_, newPatch_number hnum hd hk hm (.inl hP)⟩)
    intro x hx hkx
    obtain ⟨n, hn⟩ := hn x hx hkx
    exact ⟨n, (good_number (hg x hx) hkx).mpr hn⟩
  · intro ht
    unfold addPatchMacro
    rw [(newPatch_typed num old kw).2 ht]

/-- if adding fails nothing changes -/
theorem C50_add_error [Uni] {p p' : Prep} {num : Option Int} {old : Bool} {kw : List (Char × Option Val)} {e : Err}
    (h : addPatchMacro p num old kw = (p', some e)) : p' = p := addPatch_error h

/-- Removing a number deletes the line of the first macro with this number, and no other. Missing: the macro is the first
of all macros, see `C50_remove_violation`. -/
theorem C50_remove_partial [Uni] {p : Prep} {n : Int} {k : Nat} {m : PrepMacro} (hg : ∀ x ∈ p.data, GoodMacro x)
    (h0 : 0 < k) (hm : p.data[k]? = some m) (hk : m.kind = .patch) (hn : HasNumber m n)
    (hf : ∀ (i : Nat) m', i < k → p.data[i]? = some m' → m'.kind = .patch → ∃ n', HasNumber m' n' ∧ n' ≠ n) :
    ∃ p' above below, removePatchMacro p n = (p', none) ∧ LineAt p k above (line (settle m)) below ∧
      Prep.raw p' = above ++ below ∧ p'.data.map withoutLines = (p.data.map withoutLines).eraseIdx k := by
  obtain ⟨p', a, b, g1, g2, g3, g4⟩ := C67_delete_partial hm
  refine ⟨p', a, b, ?_, g2, g3, g4⟩
  have hmn := (good_number (hg m (List.mem_of_getElem? hm)) hk).mpr hn
  have hff : ∀ (i : Nat) m', i < k → p.data[i]? = some m' → m'.kind = .patch → ∃ n', number m' = .ok n' ∧ n' ≠ n := by
    intro i m' hi he hkm
    obtain ⟨n', e1, e2⟩ := hf i m' hi he hkm
    exact ⟨n', (good_number (hg m' (List.mem_of_getElem? he)) hkm).mpr e1, e2⟩
  have : findNumber n 0 p.data = .ok (some k) := by
    rcases findNumber_spec (n := n) (ms := p.data) (k := 0) with ⟨_, h⟩ | ⟨j, x, h1, h2, h3, h4, h5⟩ | ⟨j, x, e, h1, h2, h3, h4, h5⟩
    · obtain ⟨n', e1, e2⟩ := h m (List.mem_of_getElem? hm) hk
      rw [hmn] at e1; simp at e1; exact absurd e1.symm e2
    · rcases Nat.lt_trichotomy j k with h | rfl | h
      · obtain ⟨n', e1, e2⟩ := hff j x h h2 h3
        rw [h4] at e1; simp at e1; exact absurd e1.symm e2
      · rw [h1, Nat.zero_add]
      · obtain ⟨n', e1, e2⟩ := h5 k m h hm hk
        rw [hmn] at e1; simp at e1; exact absurd e1.symm e2
    · rcases Nat.lt_trichotomy j k with h | rfl | h
      · obtain ⟨n', e1, e2⟩ := hff j x h h2 h3
        rw [h4] at e1; simp at e1
      · rw [hm] at h2; simp at h2; subst h2
        rw [hmn] at h4; simp at h4
      · obtain ⟨n', e1, e2⟩ := h5 k m h hm hk
        rw [hmn] at e1; simp at e1; exact absurd e1.symm e2
  unfold removePatchMacro
  rw [this]
  obtain ⟨k', rfl⟩ : ∃ k', k = k' + 1 := ⟨k - 1, by omega⟩
  exact g1

/-- nothing is removed if no macro has the number -/
theorem C50_remove_absent [Uni] {p : Prep} {n : Int} (hg : ∀ x ∈ p.data, GoodMacro x)
    (h : ∀ m ∈ p.data, m.kind = .patch → ∃ n', HasNumber m n' ∧ n' ≠ n) : removePatchMacro p n = (p, none) := by
  have hh : ∀ m ∈ p.data, m.kind = .patch → ∃ n', number m = .ok n' ∧ n' ≠ n := by
    intro m hm hk
    obtain ⟨n', e1, e2⟩ := h m hm hk
    exact ⟨n', (good_number (hg m hm) hk).mpr e1, e2⟩
  unfold removePatchMacro
  rcases findNumber_spec (n := n) (ms := p.data) (k := 0) with ⟨h1, _⟩ | ⟨j, x, h1, h2, h3, h4, h5⟩ | ⟨j, x, e, h1, h2, h3, h4, h5⟩
  · rw [h1]
  · obtain ⟨n', e1, e2⟩ := hh x (List.mem_of_getElem? h2) h3
    rw [h4] at e1; simp at e1; exact absurd e1.symm e2
  · obtain ⟨n', e1, e2⟩ := hh x (List.mem_of_getElem? h2) h3
    rw [h4] at e1; simp at e1

section
attribute [local instance] asciiUni

def exThree (a b c : Str) : Prep := ⟨[exPatch a [], exPatch b [], exPatch c []], []⟩

/-- with a number that is there twice the order may be lost -/
theorem C50_order_violation : ∃ p', addPatchMacro (exThree (s% "%patch1") (s% "%patch1") (s% "%patch5")) (some 2) true [] =
    (p', none) ∧ p'.data.map number = [.ok 1, .ok 2, .ok 1, .ok 5] :=
  ⟨_, rfl, by decide +kernel⟩

/-- the macro at the beginning is never removed -/
theorem C50_remove_violation : number (exPatch (s% "%patch1") []) = .ok 1 ∧
    removePatchMacro (exThree (s% "%patch1") (s% "%patch2") (s% "%patch3")) 1 =
      (exThree (s% "%patch1") (s% "%patch2") (s% "%patch3"), none) := by decide +kernel

/-- number and options of a new macro -/
example : ∃ p', addPatchMacro exPrepRead (some 6) false [('p', some (.int 1)), ('R', some (.bool true)), ('b', some (.str (s% ".x")))] =
    (p', none) ∧ Prep.raw p' = [s% "%setup -q -n foo", s% "rm x", s% "", s% "%{?with_a:%patch1 -p1}", s% "%patch -P 5",
      s% "%patch 6 -p1 -R -b .x", s% "%patch7", s% "make"] := ⟨_, rfl, by decide +kernel⟩

example : ∃ p', addPatchMacro exPrepRead (some 0) true [('p', some (.int 1))] =
    (p', none) ∧ Prep.raw p' = [s% "%setup -q -n foo", s% "%patch0 -p1", s% "rm x", s% "", s% "%{?with_a:%patch1 -p1}", s% "%patch -P 5",
      s% "%patch7", s% "make"] := ⟨_, rfl, by decide +kernel⟩

example : ∃ p', removePatchMacro exPrepRead 5 = (p', none) ∧ Prep.raw p' =
    [s% "%setup -q -n foo", s% "rm x", s% "", s% "%{?with_a:%patch1 -p1}", s% "%patch7", s% "make"] :=
  ⟨_, rfl, by decide +kernel⟩

example : addPatchMacro exPrepRead (some 6) false [('p', some (.bool true))] = (exPrepRead, some .optionsException) := by
  decide +kernel

/-- the macros of an example are good ones, with increasing numbers -/
example : (∀ x ∈ (exThree (s% "%patch1") (s% "%patch2") (s% "%patch3")).data, GoodMacro x) ∧
    NumbersIncrease (exThree (s% "%patch1") (s% "%patch2") (s% "%patch3")).data := by
  have hg : ∀ x ∈ (exThree (s% "%patch1") (s% "%patch2") (s% "%patch3")).data, GoodMacro x := by
    intro x hx
    simp only [exThree, List.mem_cons, List.not_mem_nil, or_false] at hx
    rcases hx with rfl | rfl | rfl <;>
      exact ⟨by decide, ⟨[], rfl, by simp⟩, fun _ => ⟨rfl, rfl, rfl⟩⟩
  refine ⟨hg, ?_⟩
  intro i j a b n k hij ha hb hka hkb hn hk
  rw [← good_number (hg a (List.mem_of_getElem? ha)) hka] at hn
  rw [← good_number (hg b (List.mem_of_getElem? hb)) hkb] at hk
  have e1 : number (exPatch (s% "%patch1") []) = .ok 1 := by decide +kernel
  have e2 : number (exPatch (s% "%patch2") []) = .ok 2 := by decide +kernel
  have e3 : number (exPatch (s% "%patch3") []) = .ok 3 := by decide +kernel
  match i, j with
  | 0, 1 => simp [exThree] at ha hb; subst ha hb; rw [e1] at hn; rw [e2] at hk; simp at hn hk; omega
  | 0, 2 => simp [exThree] at ha hb; subst ha hb; rw [e1] at hn; rw [e3] at hk; simp at hn hk; omega
  | 1, 2 => simp [exThree] at ha hb; subst ha hb; rw [e2] at hn; rw [e3] at hk; simp at hn hk; omega
  | _ + 1, 1 => omega
  | _ + 2, 2 => omega
  | _, j + 3 => simp [exThree] at hb

end

end Specfile.Props
