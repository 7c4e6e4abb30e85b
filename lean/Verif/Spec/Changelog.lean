import Verif.Spec.Sections
import Verif.Model.Changelog
/-
Vocabulary for statements about changelogs.
-/
namespace Specfile.Spec
open Py

/-- a line with whitespace only -/
def BlankLine (l : Str) : Prop := ∀ c ∈ l, isSpace c = true

/-- a line that starts with an asterisk -/
def StarLine (l : Str) : Prop := l.head? = some '*'

/-- An entry as it can be read: a line with an asterisk, the content, and blank lines. Lines of the content
can start with an asterisk only as long as nothing but blank lines came before. -/
structure GoodLogEntry (e : ChangelogEntry) : Prop where
  header : StarLine e.header
  content : ∀ a l b, e.content = a ++ l :: b → StarLine l → ∀ x ∈ a, BlankLine x
  contentLast : ∀ l ∈ e.content.getLast?, ¬ BlankLine l
  following : ∀ l ∈ e.following, BlankLine l

/-- A changelog as it can be read: lines without an asterisk, then the entries, the newest one first; only
the oldest one can be without content. -/
structure GoodChangelog (c : Changelog) : Prop where
  predecessor : ∀ l ∈ c.predecessor, ¬ StarLine l
  entries : ∀ e ∈ c.data, GoodLogEntry e
  content : ∀ e ∈ c.data.tail, e.content ≠ []

/-- the lines of an entry -/
def logLines (e : ChangelogEntry) : List Str := e.header :: (e.content ++ e.following)

/-- the lines of a changelog, the newest entry first -/
def changelogLines (c : Changelog) : List Str := c.predecessor ++ (c.data.reverse.map logLines).flatten

/-- text with a dash that has something on both sides -/
def DashOk (e : Str) : Prop := ∃ a b, e = a ++ '-' :: b ∧ a ≠ [] ∧ b ≠ []

/-- a word without whitespace -/
def WordText (w : Str) : Prop := w ≠ [] ∧ ∀ c ∈ w, isSpace c = false

/-- the word is the EVR in brackets, with an optional colon -/
def Bracketed (w e : Str) : Prop :=
  DashOk e ∧ (w = '[' :: (e ++ [']']) ∨ w = '[' :: (e ++ [']', ':']) ∨
    w = '(' :: (e ++ [')']) ∨ w = '(' :: (e ++ [')', ':']))

/-- the word is the EVR with an optional colon; a colon after a dash belongs to the EVR -/
def Unbracketed (w e : Str) : Prop :=
  DashOk e ∧ ((w = e ++ [':'] ∧ e.getLast? ≠ some '-') ∨
    (w = e ∧ ¬ ∃ q, w = q ++ [':'] ∧ q.getLast? ≠ some '-'))

/-- the EVR in a word; an EVR in brackets is preferred -/
def EvrOfWord (w e : Str) : Prop :=
  Bracketed w e ∨ ((∀ e', ¬ Bracketed w e') ∧ Unbracketed w e)

/-- the EVR in a header: in the last word, which is not the first one -/
def EvrOf (header e : Str) : Prop :=
  ∃ a s w t, header = a ++ s :: (w ++ t) ∧ isSpace s = true ∧ WordText w ∧
    (∀ c ∈ t, isSpace c = true) ∧ EvrOfWord w e

/-! ### filtering -/

/-- how the text of an EVR is understood: text that is not an EVR counts as version 0 -/
def ReadsAs [Uni] (s : Str) (v : EVR) : Prop :=
  Utils.evrFromString s = .ok v ∨ ((∀ x, Utils.evrFromString s ≠ .ok x) ∧ v = ⟨0, s% "0", []⟩)

/-- the EVR of an entry -/
def EntryEvr [Uni] (e : ChangelogEntry) (v : EVR) : Prop := ∃ s, EvrOf e.header s ∧ ReadsAs s v

/-- The entry at a position is kept if it or an older one passes the lower bound, and it or a newer one passes
the upper bound. -/
def keptAt (lo hi : ChangelogEntry → Bool) (l : List ChangelogEntry) (p : Nat) : Bool :=
  (l.take (p + 1)).any lo && (l.drop p).any hi

/-- the kept entries in their order -/
def keptEntries (lo hi : ChangelogEntry → Bool) (l : List ChangelogEntry) : List ChangelogEntry :=
  ((List.range l.length).filter (keptAt lo hi l)).filterMap (fun p => l[p]?)

/-! ### timestamps -/

def stampWeekdays : List Str := [s% "Mon", s% "Tue", s% "Wed", s% "Thu", s% "Fri", s% "Sat", s% "Sun"]

def stampMonths : List Str := [s% "Jan", s% "Feb", s% "Mar", s% "Apr", s% "May", s% "Jun", s% "Jul", s% "Aug",
  s% "Sep", s% "Oct", s% "Nov", s% "Dec"]

/-- a day of month without zero in front -/
def DayText [Uni] (d : Str) : Prop :=
  (∃ c, d = [c] ∧ Uni.isDecimal c = true) ∨
  (∃ a c, d = [a, c] ∧ (a = '1' ∨ a = '2') ∧ Uni.isDecimal c = true) ∨ d = s% "30" ∨ d = s% "31"

def HourText [Uni] (h : Str) : Prop :=
  (∃ a c, h = [a, c] ∧ (a = '0' ∨ a = '1') ∧ Uni.isDecimal c = true) ∨
  h = s% "20" ∨ h = s% "21" ∨ h = s% "22" ∨ h = s% "23"

/-- minutes or seconds -/
def MinuteText [Uni] (m : Str) : Prop :=
  ∃ a c, m = [a, c] ∧ (a = '0' ∨ a = '1' ∨ a = '2' ∨ a = '3' ∨ a = '4' ∨ a = '5') ∧ Uni.isDecimal c = true

/-- `Www Mmm D hh:mm:ss zone yyyy` -/
def ExtendedStamp [Uni] (x : Str) : Prop :=
  ∃ wd mo sp day hh mm ss tz yy, wd ∈ stampWeekdays ∧ mo ∈ stampMonths ∧ sp ≠ [] ∧ (∀ c ∈ sp, c = ' ') ∧
    DayText day ∧ HourText hh ∧ MinuteText mm ∧ MinuteText ss ∧ WordText tz ∧
    yy.length = 4 ∧ (∀ c ∈ yy, Uni.isDecimal c = true) ∧
    x = wd ++ (' ' :: (mo ++ (sp ++ (day ++ (' ' :: (hh ++ (':' :: (mm ++ (':' :: (ss ++ (' ' :: (tz ++
      (' ' :: yy)))))))))))))

/-- text that starts with `Www Mmm ` and a day of month padded with `p` -/
def PaddedAt [Uni] (x p : Str) : Prop :=
  ∃ wd mo sp d r, wd ∈ stampWeekdays ∧ mo ∈ stampMonths ∧ (∀ c ∈ sp, c = ' ') ∧ Uni.isDecimal d = true ∧
    x = wd ++ (' ' :: (mo ++ (' ' :: (sp ++ d :: r)))) ∧
    ((p = sp ++ ['0'] ∧ d = '0' ∧ ∃ c, r.head? = some c ∧ Uni.isDecimal c = true) ∨
     (p = sp ∧ ¬ (d = '0' ∧ ∃ c, r.head? = some c ∧ Uni.isDecimal c = true)))

/-- the padding of the first date in a header -/
def PaddingOf [Uni] (h p : Str) : Prop :=
  (∃ a x, h = a ++ x ∧ PaddedAt x p ∧ ∀ a' x', h = a' ++ x' → a'.length < a.length → ∀ q, ¬ PaddedAt x' q) ∨
  (p = [] ∧ ∀ a x, h = a ++ x → ∀ q, ¬ PaddedAt x q)

/-- a date that exists as far as the header is concerned -/
structure GoodStamp (t : Changelog.Timestamp) : Prop where
  weekday : t.weekday < 7
  month : t.month < 12
  day : 1 ≤ t.day ∧ t.day ≤ 31
  year : 1000 ≤ t.year ∧ t.year ≤ 9999
  time : ∀ h m s z, t.time = some (h, m, s, z) → h < 24 ∧ m < 60 ∧ s < 60 ∧ WordText z

/-- a number below 100 with two digits -/
def twoDigits (n : Nat) : Str := [digitChar (n / 10), digitChar (n % 10)]

/-- the text of the header of an entry: `* weekday month day [hour:minute:second zone] year author [- evr]` -/
def HeaderOf (t : Changelog.Timestamp) (author : Str) (evr : Option Str) (pad h : Str) : Prop :=
  ∃ wd mon day time e, stampWeekdays[t.weekday]? = some wd ∧ stampMonths[t.month]? = some mon ∧
    ((∀ sp, pad = sp ++ ['0'] → day = sp ++ twoDigits t.day) ∧ (pad.getLast? ≠ some '0' → day = pad ++ natStr t.day)) ∧
    ((t.time = none ∧ time = []) ∨ ∃ hh mm ss z, t.time = some (hh, mm, ss, z) ∧
      time = s% " " ++ twoDigits hh ++ s% ":" ++ twoDigits mm ++ s% ":" ++ twoDigits ss ++ s% " " ++ z) ∧
    ((evr = none ∧ e = []) ∨ ∃ v, evr = some v ∧ e = s% " - " ++ v) ∧
    h = s% "* " ++ wd ++ s% " " ++ mon ++ s% " " ++ day ++ time ++ s% " " ++ natStr t.year ++ s% " " ++ author ++ e

end Specfile.Spec
