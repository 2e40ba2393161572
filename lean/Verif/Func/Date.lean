import Verif.Common
import Verif.Json.TextModel
/-!
# Dates: runtime/lib/date.c
-/
set_option linter.unusedVariables false
namespace Verif.Func
open Verif

/-- C division of int -/
abbrev cdiv (a b : Int) : Int := Int.tdiv a b
/-- C remainder of int -/
abbrev crem (a b : Int) : Int := Int.tmod a b

/-- DATE_MIN, DATE_MAX, date.h:14-18 -/
def dateMin : Int := 1721426
def dateMax : Int := 5373484

/-- date_validate, date.c:23-28 -/
def dateValidate (j : Int) : Res Unit := if j < dateMin ∨ j > dateMax then .error .err else .ok ()

/-- the digit loop of date_parse_part (date.c:30-43), timestamp_parse_part (timestamp.c:29-42): digits up to the end, int32
overflow is an error -/
def parsePart : Int → Bytes → Res Int
  | v, [] => .ok v
  | v, c :: t =>
    if Json.Text.isDigit c then
      (if v * 10 + ((c : Int) - 48) > 2147483647 then .error .err else parsePart (v * 10 + ((c : Int) - 48)) t)
    else .error .err

/-- date_set_gregorian, date.c:107-118 (year, month, day have at most four and two digits here: no int overflow) -/
def dateSetGregorian (year month day : Int) : Res Int := do
  let a := cdiv (14 - month) 12
  let y := year + 4800 - a
  let m := month + 12 * a - 3
  let j := day + cdiv (153 * m + 2) 5
  let j := j + (y * 365 + cdiv y 4 - cdiv y 100 + cdiv y 400 - 32045)
  dateValidate j
  .ok j

/-- date_get_gregorian, date.c:120-133 -/
def dateGetGregorian (j : Int) : Res (Int × Int × Int) := do
  dateValidate j
  let a := j + 32044
  let b := cdiv (4 * a + 3) 146097
  let c := a - cdiv (b * 146097) 4
  let d := cdiv (4 * c + 3) 1461
  let e := c - cdiv (d * 1461) 4
  let f := cdiv (5 * e + 2) 153
  let g := cdiv f 10
  .ok (b * 100 + d - 4800 + g, f + 3 - 12 * g, e + 1 - cdiv (153 * f + 2) 5)

/-- date_set, date.c:45-81: yyyy-mm-dd -/
def dateSet (s : Bytes) : Res Int :=
  if s.length ≠ 10 then .error .err
  else if s.getD 4 0 ≠ 45 then .error .err
  else do
    let year ← parsePart 0 (s.take 4)
    if s.getD 7 0 ≠ 45 then .error .err
    else do
      let month ← parsePart 0 ((s.drop 5).take 2)
      let day ← parsePart 0 ((s.drop 8).take 2)
      dateSetGregorian year month day

/-- printf("%0<w>d") of a number that is not negative -/
def pad (w n : Nat) : Bytes := List.replicate (w - (Json.Text.decDigits n).length) 48 ++ Json.Text.decDigits n

/-- date_get, date.c:90-99: "%04d-%02d-%02d" -/
def dateGet (j : Int) : Res Bytes := do
  let (y, m, d) ← dateGetGregorian j
  .ok (pad 4 y.toNat ++ [45] ++ pad 2 m.toNat ++ [45] ++ pad 2 d.toNat)

/-- date_add, date.c:135-142; the days come from a 64-bit integer and become an int (vm.c:1081-1088) -/
def dateAdd (j days : Int) : Res Int := do
  dateValidate j
  dateValidate (j + toSigned 32 (toUnsigned 32 days))
  .ok (j + toSigned 32 (toUnsigned 32 days))

/-- date_sub, date.c:144-151; vm.c:1186-1189 -/
def dateSub (j days : Int) : Res Int := do
  dateValidate j
  dateValidate (j - toSigned 32 (toUnsigned 32 days))
  .ok (j - toSigned 32 (toUnsigned 32 days))

/-- date_extract, date.c:153-176: the fields year, month, day -/
inductive DateField where
  | year | month | day
deriving DecidableEq

def dateExtract (j : Int) (f : DateField) : Res Int := do
  let (y, m, d) ← dateGetGregorian j
  match f with
  | .year => .ok y
  | .month => .ok m
  | .day => .ok d

end Verif.Func
