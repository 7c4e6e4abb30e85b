import Verif.Py.Seq
import Verif.Py.Num
import Verif.Model.Utils
/-
Model of /repo/specfile/changelog.py, `guess_packager` is in Model/Packager.
-/
namespace Specfile
open Py Regex

/-- `ChangelogEntry`, changelog.py:38-67 -/
structure ChangelogEntry where
  header : Str
  content : List Str
  following : List Str
  deriving DecidableEq, Repr

/-- `Changelog`, changelog.py:198-224; `data` starts with the oldest entry -/
structure Changelog where
  data : List ChangelogEntry
  predecessor : List Str
  deriving DecidableEq, Repr

namespace Changelog

/-- `WEEKDAYS`, changelog.py:21 -/
def weekdays : List Str := [s% "Mon", s% "Tue", s% "Wed", s% "Thu", s% "Fri", s% "Sat", s% "Sun"]

/-- `MONTHS`, changelog.py:22-35 -/
def months : List Str := [s% "Jan", s% "Feb", s% "Mar", s% "Apr", s% "May", s% "Jun", s% "Jul", s% "Aug",
  s% "Sep", s% "Oct", s% "Nov", s% "Dec"]

/-- `a|b|…`, changelog.py:109-110 -/
def alts (l : List Str) : Re Nat := l.foldr (fun a r => lit a ∣∣ r) .fail

/-! ### entries -/

/-- the expression of `evr`, changelog.py:88-101; groups: 1 `sb`, 2 `rb`, 3 `evr` -/
def evrRe [Uni] : Re Nat :=
  .bos ⬝ star dot ⬝ plus isSpace ⬝ opt (.grp 1 (ch '[') ∣∣ .grp 2 (ch '(')) ⬝
    .grp 3 ((opt (plus Uni.isDecimal ⬝ ch ':') ⬝ plus nonSpace ⬝ ch '-') ⬝ plusL nonSpace) ⬝
    .ifgrp 1 (ch ']') (.ifgrp 2 (ch ')') .eps) ⬝ opt (ch ':') ⬝ star isSpace ⬝ .eos

/-- `evr`, changelog.py:85-104 -/
def evr [Uni] (header : Str) : Option Str :=
  match rmatch evrRe header with
  | none => none
  | some t => t.get 3

/-- `\d`, changelog.py:117-127 -/
def digit [Uni] : Re Nat := .cls Uni.isDecimal

/-- one of the given characters, changelog.py:117-123 -/
def oneOf (l : List Char) : Re Nat := .cls (fun c => l.contains c)

/-- the expression of `extended_timestamp`, changelog.py:111-131; no group is used -/
def extendedRe [Uni] : Re Nat :=
  alts weekdays ⬝ ch ' ' ⬝ alts months ⬝ plus (· == ' ') ⬝
    ((opt (oneOf ['1', '2']) ⬝ digit) ∣∣ (ch '3' ⬝ oneOf ['0', '1'])) ⬝ ch ' ' ⬝
    ((oneOf ['0', '1'] ⬝ digit) ∣∣ (ch '2' ⬝ oneOf ['0', '1', '2', '3'])) ⬝ ch ':' ⬝
    oneOf ['0', '1', '2', '3', '4', '5'] ⬝ digit ⬝ ch ':' ⬝
    oneOf ['0', '1', '2', '3', '4', '5'] ⬝ digit ⬝ ch ' ' ⬝ plus nonSpace ⬝ ch ' ' ⬝
    digit ⬝ digit ⬝ digit ⬝ digit

/-- `extended_timestamp`, changelog.py:106-132 -/
def extended [Uni] (header : Str) : Bool := (search extendedRe header).isSome

/-- the expression of `day_of_month_padding`, changelog.py:139-150; groups: 1 `wsp`, 2 `zp` -/
def paddingRe [Uni] : Re Nat :=
  alts weekdays ⬝ ch ' ' ⬝ alts months ⬝ ch ' ' ⬝ .grp 1 (star (· == ' ')) ⬝
    ((opt (.grp 2 (ch '0')) ⬝ digit) ∣∣ (oneOf ['1', '2'] ⬝ digit) ∣∣ (ch '3' ⬝ oneOf ['0', '1']))

/-- `day_of_month_padding`, changelog.py:134-153 -/
def padding [Uni] (header : Str) : Str :=
  match search paddingRe header with
  | none => []
  | some f => (f.st.get 1).getD [] ++ (f.st.get 2).getD []

/-- A `datetime.date`, or a `datetime.datetime` with the time of day and the name of the time zone
(`%Z`; naive objects are given UTC, changelog.py:189-191). Weekday and month are counted from 0. -/
structure Timestamp where
  weekday : Nat
  month : Nat
  day : Nat
  year : Nat
  time : Option (Nat × Nat × Nat × Str)
  deriving DecidableEq, Repr

/-- `:02` and `%H`, `%M`, `%S`; changelog.py:184 and 191 -/
def two (n : Nat) : Str := if n < 10 then '0' :: natStr n else natStr n

/-- the date part of the header, changelog.py:180-186 -/
def dateStr (t : Timestamp) (padding : Str) : Str :=
  s% "* " ++ weekdays.getD t.weekday [] ++ ' ' :: months.getD t.month [] ++
    if endsWith padding ['0'] then ' ' :: padding.dropLast ++ two t.day
    else ' ' :: padding ++ natStr t.day

/-- the time part of the header, changelog.py:187-192 -/
def timeStr : Option (Nat × Nat × Nat × Str) → Str
  | none => []
  | some (h, m, s, tz) => ' ' :: two h ++ ':' :: two m ++ ':' :: two s ++ ' ' :: tz

/-- `assemble`, changelog.py:155-195; an index out of range (not a date) is not modelled; `%Y` is taken
as the decimal number, which holds for glibc -/
def assemble (t : Timestamp) (author : Str) (content : List Str) (evr : Option Str) (padding : Str)
    (appendNewline : Bool) : ChangelogEntry :=
  ⟨dateStr t padding ++ timeStr t.time ++ ' ' :: natStr t.year ++ ' ' :: author ++
      (match evr with
       | none => []
       | some e => s% " - " ++ e),
    content, if appendNewline then [[]] else []⟩

/-! ### changelog -/

/-- `delete` in `__delitem__`, changelog.py:248-254 -/
def delete (c : Changelog) (i : Int) : Changelog × Option Err :=
  match pyIndex c.data.length i with
  | none => (c, some .indexError)
  | some k =>
    let following := ((c.data[k]?.map (·.following)).getD []).drop 1
    let data := c.data.eraseIdx k
    if i < data.length then
      match pyIndex data.length i with
      | none => (⟨data, c.predecessor⟩, some .indexError)
      | some j => (⟨data.modify j (fun e => { e with following := e.following ++ following }), c.predecessor⟩, none)
    else (⟨data, c.predecessor ++ following⟩, none)

/-- the loop over indices in `__delitem__`; the first exception ends it; changelog.py:257-258 -/
def deleteAll : List Nat → Changelog → Changelog × Option Err
  | [], c => (c, none)
  | k :: ks, c =>
    match delete c k with
    | (c', some e) => (c', some e)
    | (c', none) => deleteAll ks c'

/-- `__delitem__` with a slice, changelog.py:256-258 -/
def deleteSlice (c : Changelog) (start stop step : Option Int) : Changelog × Option Err :=
  match sliceIndices c.data.length start stop step with
  | .error e => (c, some e)
  | .ok ks => deleteAll ks.reverse c

/-- `parse_evr`, changelog.py:281-285; a missing EVR is `None`, which makes `re.match` raise -/
def parseEvr [Uni] (s : Option Str) : Except Err EVR :=
  match s with
  | none => .error .typeError
  | some s =>
    match Utils.evrFromString s with
    | .ok e => .ok e
    | .error .specfileException => .ok ⟨0, s% "0", []⟩
    | .error e => .error e

/-- `next((i for i, e in enumerate(l, k) if test(e)), None)`, where `test` can raise;
changelog.py:290-297 and 301-308 -/
def nextIdx (test : ChangelogEntry → Except Err Bool) : Nat → List ChangelogEntry → Except Err (Option Nat)
  | _, [] => .ok none
  | k, e :: es =>
    match test e with
    | .error x => .error x
    | .ok true => .ok (some k)
    | .ok false => nextIdx test (k + 1) es

/-- `parse_evr(e.evr) <op> parse_evr(bound)`, changelog.py:294 and 305 -/
def testEvr [Uni] (op : EVR → EVR → Bool) (bound : Str) (e : ChangelogEntry) : Except Err Bool :=
  match parseEvr (evr e.header) with
  | .error x => .error x
  | .ok a => match parseEvr (some bound) with
    | .error x => .error x
    | .ok b => .ok (op a b)

/-- `start_index`, changelog.py:287-297 -/
def startIndex [Uni] (lc : Utils.Label → Utils.Label → Int) (c : Changelog) (since : Option Str) : Except Err Nat :=
  match since with
  | none => .ok 0
  | some s => match nextIdx (testEvr (Utils.EVR.ge lc) s) 0 c.data with
    | .error e => .error e
    | .ok none => .ok (c.data.length + 1)
    | .ok (some i) => .ok i

/-- `end_index`, changelog.py:298-308; the entries are visited from the newest one -/
def endIndex [Uni] (lc : Utils.Label → Utils.Label → Int) (c : Changelog) (until_ : Option Str) : Except Err Nat :=
  match until_ with
  | none => .ok (c.data.length + 1)
  | some u => match nextIdx (testEvr (Utils.EVR.le lc) u) 0 c.data.reverse with
    | .error e => .error e
    | .ok none => .ok 0
    | .ok (some j) => .ok (c.data.length - 1 - j + 1)

/-- `filter`, changelog.py:265-309; `lc` is `rpm.labelCompare` -/
def filter [Uni] (lc : Utils.Label → Utils.Label → Int) (c : Changelog) (since until_ : Option Str) :
    Except Err Changelog :=
  match startIndex lc c since with
  | .error e => .error e
  | .ok i => match endIndex lc c until_ with
    | .error e => .error e
    | .ok j => .ok ⟨(c.data.take j).drop i, c.predecessor⟩

/-- the entry with trailing blank lines split off (`extract_following_lines`), changelog.py:323-327 -/
def mkEntry (header : Str) (content : List Str) : ChangelogEntry :=
  ⟨header, (content.reverse.dropWhile isBlank).reverse, (content.reverse.takeWhile isBlank).reverse⟩

/-- the loop of `parse`, changelog.py:333-350; `cur` is the header with the content so far -/
def parseLoop (cur : Option (Str × List Str)) (data : List ChangelogEntry) (predecessor : List Str) :
    List Str → Changelog
  | [] => match cur with
    | none => ⟨data, predecessor⟩
    | some (h, c) => ⟨mkEntry h c :: data, predecessor⟩
  | l :: ls =>
    if startsWith l ['*'] then
      match cur with
      | none => parseLoop (some (l, [])) data predecessor ls
      | some (h, c) =>
        if !isBlank c.flatten then parseLoop (some (l, [])) (mkEntry h c :: data) predecessor ls
        else parseLoop (some (h, c ++ [l])) data predecessor ls
    else
      match cur with
      | some (h, c) => parseLoop (some (h, c ++ [l])) data predecessor ls
      | none => parseLoop none data (predecessor ++ [l]) ls

/-- `parse`, changelog.py:311-350 -/
def parse (lines : List Str) : Changelog := parseLoop none [] [] lines

/-- the lines of an entry, changelog.py:361-363 -/
def entryLines (e : ChangelogEntry) : List Str := e.header :: (e.content ++ e.following)

/-- `get_raw_section_data`, changelog.py:352-364 -/
def raw (c : Changelog) : List Str := c.predecessor ++ (c.data.reverse.map entryLines).flatten

/-! ### adding an entry -/

/-- `max(…, key=len)` with `a` as the longest one so far; specfile.py:536-539 -/
def longestFrom (a : Str) : List Str → Str
  | [] => a
  | b :: l => longestFrom (if b.length > a.length then b else a) l

/-- `max(…, key=len)`: the first one of the longest; specfile.py:536-539 -/
def longest : List Str → Str
  | [] => []
  | a :: l => longestFrom a l

/-- the padding of the day of month in a new entry, specfile.py:534-541 -/
def newPadding [Uni] (c : Changelog) : Str :=
  if c.data.isEmpty then ['0'] else longest (c.data.reverse.map (fun e => padding e.header))

/-- the timestamp of a new entry, specfile.py:520-527; `local_` and `utc` are the current local time and the
current UTC date. `timestamp` is assigned in the first changelog section and kept for the others. -/
def newTimestamp [Uni] (c : Changelog) (given : Option Timestamp) (local_ utc : Timestamp) : Timestamp :=
  match given with
  | some t => t
  | none => match c.data.getLast? with
    | some e => if extended e.header then local_ else utc
    | none => utc

/-- the entry that `add_changelog_entry` appends to one changelog, specfile.py:534-550 -/
def newEntry [Uni] (c : Changelog) (t : Timestamp) (author : Str) (content : List Str) (evr : Str) : ChangelogEntry :=
  assemble t author content (some evr) (newPadding c) (!c.data.isEmpty)

/-- the effect of `add_changelog_entry` on one changelog, specfile.py:542-551 -/
def add [Uni] (c : Changelog) (t : Timestamp) (author : Str) (content : List Str) (evr : Str) : Changelog :=
  ⟨c.data ++ [newEntry c t author content evr], c.predecessor⟩

end Changelog
end Specfile
