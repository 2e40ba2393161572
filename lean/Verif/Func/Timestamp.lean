import Verif.Func.Interval
/-!
# Timestamps: runtime/lib/timestamp.c

A timestamp is the number of microseconds since 1970-01-01 UTC. gmtime_r and mktime are functions of the C library; the process runs
with TZ=UTC (runtime.c:75). They are modelled by the calendar, see `gmtime` and `mktime`.
-/
set_option linter.unusedVariables false
namespace Verif.Func
open Verif Verif.Json.Text

/-- TIMESTAMP_MIN, TIMESTAMP_MAX, timestamp.h:16-20 -/
def tsMin : Int := 0
def tsMax : Int := 253402300799999999

/-- the day of a day number (1970-01-01 is 2440588), for every number: what gmtime_r computes from the days -/
def civil (j : Int) : Int × Int × Int :=
  let a := j + 32044
  let b := (4 * a + 3) / 146097
  let c := a - (b * 146097) / 4
  let d := (4 * c + 3) / 1461
  let e := c - (d * 1461) / 4
  let f := (5 * e + 2) / 153
  let g := f / 10
  (b * 100 + d - 4800 + g, f + 3 - 12 * g, e + 1 - (153 * f + 2) / 5)

/-- the number of the first day of a month -/
def monthStart (year month : Int) : Int :=
  let a := (14 - month) / 12
  let y := year + 4800 - a
  let m := month + 12 * a - 3
  1 + (153 * m + 2) / 5 + (y * 365 + y / 4 - y / 100 + y / 400 - 32045)

/-- struct Timestamp, timestamp.h:22-28. The fields of struct tm: year (since 1900), month (from 0), day, hour, minute, second -/
structure Tm where
  year : Int
  mon : Int
  mday : Int
  hour : Int
  min : Int
  sec : Int
deriving DecidableEq, Repr

structure Ts where
  tm : Tm
  us : Int
  zone : Option Int
deriving DecidableEq, Repr

/-- gmtime_r: the fields of a time in seconds -/
def gmtime (t : Int) : Tm :=
  let day := civil (t / 86400 + 2440588)
  ⟨day.1 - 1900, day.2.1 - 1, day.2.2, t % 86400 / 3600, t % 3600 / 60, t % 60⟩

/-- mktime with TZ=UTC: fields out of their range carry over into the next ones -/
def mktime (tm : Tm) : Int :=
  (monthStart (tm.year + 1900 + tm.mon / 12) (tm.mon % 12 + 1) + (tm.mday - 1) - 2440588) * 86400 + tm.hour * 3600 + tm.min * 60 + tm.sec

/-- timestamp_validate_overflow, timestamp.c:215-220 -/
def tsValidate (v : Int) : Res Unit := if v < tsMin ∨ v > tsMax then .error .err else .ok ()

/-- timestamp_set_unixtime, timestamp.c:250-260 -/
def tsSetUnix (v : Int) : Res Ts := do
  tsValidate v
  .ok ⟨gmtime (v / 1000000), v % 1000000, none⟩

/-- timestamp_set_date, timestamp.c:222-234 -/
def tsSetDate (j : Int) : Res Ts := do
  let (y, m, d) ← dateGetGregorian j
  .ok ⟨⟨y - 1900, m - 1, d, 0, 0, 0⟩, 0, none⟩

/-- timestamp_get_unixtime, timestamp.c:262-301. `tz`: the offset the time zone gives for a time, `none` without a time zone -/
def tsGetUnix (ts : Ts) (tz : Option (Int → Int)) : Res Int :=
  let time := mktime ts.tm
  if time = -1 then .error .err
  else
    let time := match tz with
      | none => time
      | some off => match ts.zone with
        | none => time - off time
        | some z => time - z
    if time < 0 then .error .err
    else do
      tsValidate (time * 1000000 + ts.us)
      .ok (time * 1000000 + ts.us)

/-- timestamp_add, timestamp.c:359-406; an int that overflows is `ub`, the hours are cut to an int -/
def tsAdd (ts : Ts) (iv : Iv) : Res Ts :=
  let y := cdiv iv.m 12
  let year := if iv.m ≠ 0 ∧ y ≠ 0 then ts.tm.year + y else ts.tm.year
  let m := if y ≠ 0 then crem iv.m 12 else iv.m
  let mon := if iv.m ≠ 0 ∧ m ≠ 0 then ts.tm.mon + m else ts.tm.mon
  let mday := if iv.d ≠ 0 then ts.tm.mday + iv.d else ts.tm.mday
  if ¬ (fits32 year ∧ fits32 mon ∧ fits32 mday) then .error .ub
  else
    let us := iv.us
    let h := cdiv us (60 * 60 * 1000 * 1000)
    let hour := if h ≠ 0 then wrap32 (ts.tm.hour + h) else ts.tm.hour
    let us := if h ≠ 0 then crem us (60 * 60 * 1000 * 1000) else us
    let n := cdiv us (60 * 1000 * 1000)
    let min := if n ≠ 0 then wrap32 (ts.tm.min + n) else ts.tm.min
    let us := if n ≠ 0 then crem us (60 * 1000 * 1000) else us
    let s := cdiv us (1000 * 1000)
    let sec := if s ≠ 0 then wrap32 (ts.tm.sec + s) else ts.tm.sec
    let us := if s ≠ 0 then crem us (1000 * 1000) else us
    .ok ⟨⟨year, mon, mday, hour, min, sec⟩, wrap32 (ts.us + us), ts.zone⟩

/-- timestamp_sub, timestamp.c:408-455 -/
def tsSub (ts : Ts) (iv : Iv) : Res Ts :=
  let y := cdiv iv.m 12
  let year := if iv.m ≠ 0 ∧ y ≠ 0 then ts.tm.year - y else ts.tm.year
  let m := if y ≠ 0 then crem iv.m 12 else iv.m
  let mon := if iv.m ≠ 0 ∧ m ≠ 0 then ts.tm.mon - m else ts.tm.mon
  let mday := if iv.d ≠ 0 then ts.tm.mday - iv.d else ts.tm.mday
  if ¬ (fits32 year ∧ fits32 mon ∧ fits32 mday) then .error .ub
  else
    let us := iv.us
    let h := cdiv us (60 * 60 * 1000 * 1000)
    let hour := if h ≠ 0 then wrap32 (ts.tm.hour - h) else ts.tm.hour
    let us := if h ≠ 0 then crem us (60 * 60 * 1000 * 1000) else us
    let n := cdiv us (60 * 1000 * 1000)
    let min := if n ≠ 0 then wrap32 (ts.tm.min - n) else ts.tm.min
    let us := if n ≠ 0 then crem us (60 * 1000 * 1000) else us
    let s := cdiv us (1000 * 1000)
    let sec := if s ≠ 0 then wrap32 (ts.tm.sec - s) else ts.tm.sec
    let us := if s ≠ 0 then crem us (1000 * 1000) else us
    .ok ⟨⟨year, mon, mday, hour, min, sec⟩, wrap32 (ts.us - us), ts.zone⟩

/-- timestamp + interval, caddtl, vm.c:1052-1061 -/
def plusInterval (v : Int) (iv : Iv) : Res Int := do tsGetUnix (← tsAdd (← tsSetUnix v) iv) none
/-- timestamp - interval, csubtl, vm.c:1163-1172 -/
def minusInterval (v : Int) (iv : Iv) : Res Int := do tsGetUnix (← tsSub (← tsSetUnix v) iv) none
/-- timestamp - timestamp, csubtt, vm.c:1174-1181 -/
def minusTs (a b : Int) : Iv := ⟨0, 0, a - b⟩
/-- date + interval, cadddl, vm.c:1091-1100 -/
def datePlusInterval (j : Int) (iv : Iv) : Res Int := do tsGetUnix (← tsAdd (← tsSetDate j) iv) none
/-- cast of a date to a timestamp, fn_cast.c:334-340 -/
def dateToTs (j : Int) : Res Int := do tsGetUnix (← tsSetDate j) none
/-- timestamp_date, timestamp.c:636-645 -/
def tsDate (v : Int) : Res Int := do
  let ts ← tsSetUnix v
  dateSetGregorian (ts.tm.year + 1900) (ts.tm.mon + 1) ts.tm.mday

/-! ## Text -/

/-- `*(pos + i)`: reading at or after the end of the string -/
def charAt (s : Bytes) (i : Nat) : Res Nat := if h : i < s.length then .ok s[i] else .error .ub

/-- timestamp_parse_part, timestamp.c:29-42, for the `n` characters at `pos` -/
def tsPart (s : Bytes) (n : Nat) : Res Int := if s.length < n then .error .ub else parsePart 0 (s.take n)

/-- a field of `n` digits and the separator after it, e.g. timestamp.c:62-66 -/
def tsField (s : Bytes) (n : Nat) (sep : List Nat) : Res (Int × Bytes) := do
  let c ← charAt s n
  if c ∉ sep then .error .err
  else do
    let v ← tsPart s n
    .ok (v, s.drop (n + 1))

/-- the digits after the point, timestamp.c:98-108; the number of digits -/
def usDigits : Int → Nat → Bytes → Res (Int × Nat × Bytes)
  | v, n, [] => .ok (v, n, [])
  | v, n, c :: t =>
    if isDigit c then
      (if v * 10 + ((c : Int) - 48) > 2147483647 then .error .err else usDigits (v * 10 + ((c : Int) - 48)) (n + 1) t)
    else .ok (v, n, c :: t)

/-- timestamp.c:96-130 -/
def tsFraction (s : Bytes) : Res (Int × Bytes) :=
  match s with
  | 46 :: t => do
    let (v, n, r) ← usDigits 0 0 t
    match n with
    | 1 => .ok (v * 100000, r)
    | 2 => .ok (v * 10000, r)
    | 3 => .ok (v * 1000, r)
    | 4 => .ok (v * 100, r)
    | 5 => .ok (v * 10, r)
    | 6 => .ok (v, r)
    | _ => .error .err
  | s => .ok (0, s)

/-- the time zone, timestamp.c:132-183: Z or a sign and hh[[:]mm] -/
def tsZone (s : Bytes) : Res (Option Int) :=
  match s with
  | [] => .ok none
  | c :: t =>
    if c = 90 then (if t ≠ [] then .error .err else .ok (some 0))
    else if t.length < 2 then .error .err
    else if c ≠ 45 ∧ c ≠ 43 then .error .err
    else do
      let hh ← parsePart 0 (t.take 2)
      let r := t.drop 2
      let mm ← (if r = [] then .ok 0
        else
          let r := if r.headD 0 = 58 then r.drop 1 else r
          if r.length ≠ 2 then .error .err else parsePart 0 r)
      .ok (some (if c = 45 then -(hh * 60 * 60 + mm * 60) else hh * 60 * 60 + mm * 60))

/-- timestamp_parse, timestamp.c:44-187 -/
def tsParse (s : Bytes) : Res Ts :=
  if s.length < 19 then .error .err
  else
    let s := s.dropWhile isSpace
    if s = [] then .error .err
    else do
      let (year, s) ← tsField s 4 [45]
      let (mon, s) ← tsField s 2 [45]
      let (mday, s) ← tsField s 2 [32, 84]
      let (hour, s) ← tsField s 2 [58]
      let (min, s) ← tsField s 2 [58]
      let sec ← tsPart s 2
      let (us, s) ← tsFraction (s.drop 2)
      let zone ← tsZone s
      .ok ⟨⟨year, mon, mday, hour, min, sec⟩, us, zone⟩

/-- timestamp_validate, timestamp.c:189-213, and the corrections of timestamp_set, timestamp.c:236-248 -/
def tsSet (s : Bytes) : Res Ts := do
  let ts ← tsParse s
  if ¬ (1970 ≤ ts.tm.year ∧ ts.tm.year ≤ 9999) then .error .err
  else if ¬ (1 ≤ ts.tm.mon ∧ ts.tm.mon ≤ 12) then .error .err
  else if ¬ (1 ≤ ts.tm.mday ∧ ts.tm.mday ≤ 31) then .error .err
  else if (∃ z, ts.zone = some z ∧ (z > 86400 ∨ z < -86400)) then .error .err
  else .ok { ts with tm := { ts.tm with year := ts.tm.year - 1900, mon := ts.tm.mon - 1 } }

/-- timestamp_get, timestamp.c:303-357; `off`: the offset of the time zone at this time, `none` without time zone -/
def tsGet (v : Int) (off : Option Int) : Res Bytes := do
  tsValidate v
  let time := v / 1000000
  let time := match off with
    | some o => time + o
    | none => time
  let tm := gmtime time
  let us := v % 1000000
  let zone : Bytes := match off with
    | none => []
    | some o =>
      let offset := if o ≥ 0 then o else -o
      let hr := cdiv offset 3600
      let min := cdiv (offset - 3600 * hr) 60
      let sign := if o ≥ 0 then 43 else 45
      if min ≠ 0 then sign :: (pad 2 hr.toNat ++ [58] ++ pad 2 min.toNat) else sign :: pad 2 hr.toNat
  let fraction : Bytes :=
    if us = 0 then [] else if crem us 1000 = 0 then 46 :: pad 3 (cdiv us 1000).toNat else 46 :: pad 6 us.toNat
  .ok (pad 4 (tm.year + 1900).toNat ++ [45] ++ pad 2 (tm.mon + 1).toNat ++ [45] ++ pad 2 tm.mday.toNat ++ [32] ++ pad 2 tm.hour.toNat ++
    [58] ++ pad 2 tm.min.toNat ++ [58] ++ pad 2 tm.sec.toNat ++ fraction ++ zone)

/-! ## date_trunc, date_bin, extract -/

/-- timestamp_trunc, timestamp.c:516-556 -/
def tsTrunc (ts : Ts) (f : IvField) : Ts :=
  let tm := ts.tm
  match f with
  | .year => { ts with tm := ⟨tm.year, 0, 1, 0, 0, 0⟩, us := 0 }
  | .month => { ts with tm := ⟨tm.year, tm.mon, 1, 0, 0, 0⟩, us := 0 }
  | .day => { ts with tm := ⟨tm.year, tm.mon, tm.mday, 0, 0, 0⟩, us := 0 }
  | .hour => { ts with tm := ⟨tm.year, tm.mon, tm.mday, tm.hour, 0, 0⟩, us := 0 }
  | .minute => { ts with tm := ⟨tm.year, tm.mon, tm.mday, tm.hour, tm.min, 0⟩, us := 0 }
  | .second => { ts with us := 0 }
  | .millisecond => { ts with us := cdiv ts.us 1000 * 1000 }
  | .microsecond => ts

/-- fn_date_trunc, fn_time.c:116-168, with the time zone of the session or the argument -/
def dateTrunc (v : Int) (f : IvField) (tz : Int → Int) : Res Int := do
  tsGetUnix (tsTrunc (← tsSetUnix v) f) (some tz)

/-- fn_date_bin, fn_time.c:58-114 -/
def dateBin (iv : Iv) (v origin : Int) : Res Int :=
  if iv.m ≠ 0 then .error .err
  else
    let span := toSigned 64 ((toUnsigned 64 iv.d * 86400000000 + toUnsigned 64 iv.us) % 2 ^ 64)
    if span ≤ 0 then .error .err
    else if origin > v then .error .err
    else .ok (origin + ((v - origin) - (v - origin) % span))

/-- timestamp_extract, timestamp.c:558-634 -/
def tsExtract (v : Int) (off : Int) : IvField → Int
  | .year => (gmtime (v / 1000000 + off)).year + 1900
  | .month => (gmtime (v / 1000000 + off)).mon + 1
  | .day => (gmtime (v / 1000000 + off)).mday
  | .hour => (gmtime (v / 1000000 + off)).hour
  | .minute => (gmtime (v / 1000000 + off)).min
  | .second => (gmtime (v / 1000000 + off)).sec
  | .millisecond => cdiv (v % 1000000) 1000
  | .microsecond => v % 1000000

end Verif.Func
