import Verif.Func.Date
/-!
# Intervals: runtime/lib/interval.c

Signed 64-bit overflow is undefined in C: `Fail.ub`.
-/
set_option linter.unusedVariables false
namespace Verif.Func
open Verif Verif.Json.Text

/-- struct Interval, interval.h:16-21: int32 months, int32 days, int64 microseconds -/
structure Iv where
  m : Int
  d : Int
  us : Int
deriving DecidableEq, Repr

inductive IvPart where
  | m | d | us
deriving DecidableEq

/-- the names of interval_read_type, interval.c:34-144, what they change and by how much -/
def ivUnit (t : Bytes) : Option (IvPart × Int) :=
  if t = [109,105,110,115] ∨ t = [109,105,110] ∨ t = [109,105,110,117,116,101,115] ∨ t = [109,105,110,117,116,101] then
    some (.us, 60 * 1000 * 1000)                                            -- mins min minutes minute
  else if t = [109,111,110,116,104,115] ∨ t = [109,111,110,116,104] then some (.m, 1)   -- months month
  else if t = [109,115] ∨ t = [109,105,108,108,105,115,101,99,111,110,100,115] ∨
      t = [109,105,108,108,105,115,101,99,111,110,100] then some (.us, 1000)  -- ms milliseconds millisecond
  else if t = [109,105,99,114,111,115,101,99,111,110,100,115] ∨ t = [109,105,99,114,111,115,101,99,111,110,100] then
    some (.us, 1)                                                             -- microseconds microsecond
  else if t = [117,115] then some (.us, 1)                                    -- us
  else if t = [115,101,99,115] ∨ t = [115,101,99] ∨ t = [115,101,99,111,110,100,115] ∨ t = [115,101,99,111,110,100] then
    some (.us, 1000 * 1000)                                                   -- secs sec seconds second
  else if t = [104,114,115] ∨ t = [104,114] ∨ t = [104,111,117,114,115] ∨ t = [104,111,117,114] then
    some (.us, 60 * 60 * 1000 * 1000)                                         -- hrs hr hours hour
  else if t = [100,97,121,115] ∨ t = [100,97,121] then some (.d, 1)           -- days day
  else if t = [119,101,101,107,115] ∨ t = [119,101,101,107] then some (.d, 7) -- weeks week
  else if t = [121,101,97,114,115] ∨ t = [121,101,97,114] then some (.m, 12)  -- years year
  else none

def fits64 (i : Int) : Prop := -2 ^ 63 ≤ i ∧ i < 2 ^ 63
instance (i : Int) : Decidable (fits64 i) := by unfold fits64; infer_instance

/-- conversion to int32 -/
def wrap32 (i : Int) : Int := toSigned 32 (toUnsigned 32 i)

/-- `self->us += value * n`, `self->m += value * n` -/
def ivAdd (iv : Iv) (p : IvPart) (n value : Int) : Res Iv :=
  if ¬ fits64 (value * n) then .error .ub
  else match p with
    | .m => .ok { iv with m := wrap32 (iv.m + value * n) }
    | .d => .ok { iv with d := wrap32 (iv.d + value * n) }
    | .us => if fits64 (iv.us + value * n) then .ok { iv with us := iv.us + value * n } else .error .ub

/-- the digits of the cardinal, interval.c:169-177 -/
def ivDigits : Int → Bytes → Res (Int × Bytes)
  | v, [] => .ok (v, [])
  | v, c :: t =>
    if isDigit c then (if ¬ fits64 (v * 10 + ((c : Int) - 48)) then .error .err else ivDigits (v * 10 + ((c : Int) - 48)) t)
    else .ok (v, c :: t)

/-- isalpha in the C locale -/
def isAlpha (c : Nat) : Bool := (65 ≤ c ∧ c ≤ 90) ∨ (97 ≤ c ∧ c ≤ 122)

/-- interval_set, interval.c:146-205 -/
def ivSetLoop : Nat → Iv → Bytes → Res Iv
  | 0, _, _ => .error .ub
  | f + 1, iv, s =>
    let s := s.dropWhile isSpace
    if s = [] then .ok iv
    else do
      let neg := s.headD 0 = 45
      let (v, r) ← ivDigits 0 (if neg then s.drop 1 else s)
      if r = [] ∨ isSpace (r.headD 0) = false then .error .err
      else do
        let r := (r.drop 1).dropWhile isSpace
        if r = [] then .error .err
        else
          match ivUnit (r.takeWhile isAlpha) with
          | none => .error .err
          | some (p, n) => do
            let iv ← ivAdd iv p n (if neg then -v else v)
            ivSetLoop f iv (r.dropWhile isAlpha)

def ivSet (s : Bytes) : Res Iv := ivSetLoop (s.length + 1) ⟨0, 0, 0⟩ s

/-- sfmt("%d %s "): a number, the name for one and the name for more -/
def ivPiece (n : Int) (one many : Bytes) : Bytes := intText n ++ [32] ++ (if n = 1 ∨ n = -1 then one else many) ++ [32]

/-- interval_get, interval.c:207-281 -/
def ivGet (iv : Iv) : Bytes :=
  let s : Bytes := []
  -- years/months
  let y := cdiv iv.m 12
  let s := if iv.m ≠ 0 ∧ y ≠ 0 then s ++ ivPiece y [121,101,97,114] [121,101,97,114,115] else s
  let m := if y ≠ 0 then crem iv.m 12 else iv.m
  let s := if iv.m ≠ 0 ∧ m ≠ 0 then s ++ ivPiece m [109,111,110,116,104] [109,111,110,116,104,115] else s
  -- days
  let s := if iv.d ≠ 0 then s ++ ivPiece iv.d [100,97,121] [100,97,121,115] else s
  -- hours
  let us := iv.us
  let h := cdiv us (60 * 60 * 1000 * 1000)
  let s := if h ≠ 0 then s ++ ivPiece h [104,111,117,114] [104,111,117,114,115] else s
  let us := if h ≠ 0 then crem us (60 * 60 * 1000 * 1000) else us
  -- minutes
  let n := cdiv us (60 * 1000 * 1000)
  let s := if n ≠ 0 then s ++ ivPiece n [109,105,110,117,116,101] [109,105,110,117,116,101,115] else s
  let us := if n ≠ 0 then crem us (60 * 1000 * 1000) else us
  -- seconds
  let sec := cdiv us (1000 * 1000)
  let s := if sec ≠ 0 then s ++ ivPiece sec [115,101,99,111,110,100] [115,101,99,111,110,100,115] else s
  let us := if sec ≠ 0 then crem us (1000 * 1000) else us
  -- milliseconds
  let ms := cdiv us 1000
  let s := if ms ≠ 0 then s ++ ivPiece ms [109,115] [109,115] else s
  let us := if ms ≠ 0 then crem us 1000 else us
  -- microseconds
  let s := if us ≠ 0 then s ++ ivPiece us [117,115] [117,115] else s
  -- remove last space
  s.dropLast

/-- the fields of interval_read_field, interval.c:318-389 -/
inductive IvField where
  | year | month | day | hour | minute | second | millisecond | microsecond
deriving DecidableEq

/-- `(self->us / n) * n` and `self->us / n` with an unsigned long long n: us becomes unsigned -/
def uTrunc (us : Int) (n : Nat) : Int := toSigned 64 (toUnsigned 64 us / n * n % 2 ^ 64)

/-- interval_trunc, interval.c:391-443 -/
def ivTrunc (iv : Iv) : IvField → Iv
  | .year => ⟨cdiv iv.m 12 * 12, 0, 0⟩
  | .month => ⟨iv.m, 0, 0⟩
  | .day => ⟨iv.m, iv.d, uTrunc iv.us (24 * 60 * 60 * 1000 * 1000)⟩
  | .hour => ⟨iv.m, iv.d, uTrunc iv.us (60 * 60 * 1000 * 1000)⟩
  | .minute => ⟨iv.m, iv.d, uTrunc iv.us (60 * 1000 * 1000)⟩
  | .second => ⟨iv.m, iv.d, uTrunc iv.us (1000 * 1000)⟩
  | .millisecond => ⟨iv.m, iv.d, uTrunc iv.us 1000⟩
  | .microsecond => iv

/-- interval_extract, interval.c:445-488: uint64_t, stored as int64 -/
def ivExtract (iv : Iv) : IvField → Int
  | .year => cdiv iv.m 12
  | .month => crem iv.m 12
  | .day => iv.d
  | .hour => toSigned 64 (toUnsigned 64 iv.us / (60 * 60 * 1000 * 1000))
  | .minute => toSigned 64 (toUnsigned 64 iv.us % (60 * 60 * 1000 * 1000) / (60 * 1000 * 1000))
  | .second => toSigned 64 (toUnsigned 64 iv.us % (60 * 1000 * 1000) / (1000 * 1000))
  | .millisecond => toSigned 64 (toUnsigned 64 iv.us % (1000 * 1000) / 1000)
  | .microsecond => crem iv.us 1000

/-- interval_add, interval_sub, interval_neg, interval.c:295-316: int and int64 arithmetic -/
def fits32 (i : Int) : Prop := -2 ^ 31 ≤ i ∧ i < 2 ^ 31
instance (i : Int) : Decidable (fits32 i) := by unfold fits32; infer_instance

def ivCheck (m d us : Int) : Res Iv := if fits32 m ∧ fits32 d ∧ fits64 us then .ok ⟨m, d, us⟩ else .error .ub
def ivPlus (a b : Iv) : Res Iv := ivCheck (a.m + b.m) (a.d + b.d) (a.us + b.us)
def ivMinus (a b : Iv) : Res Iv := ivCheck (a.m - b.m) (a.d - b.d) (a.us - b.us)
def ivNeg (a : Iv) : Res Iv := ivCheck (-a.m) (-a.d) (-a.us)

/-- interval_compare, interval.c:283-293 -/
def ivCompare (a b : Iv) : Int :=
  let c := fun (x y : Int) => if x < y then (-1 : Int) else if x = y then 0 else 1
  if c a.m b.m ≠ 0 then c a.m b.m else if c a.d b.d ≠ 0 then c a.d b.d else c a.us b.us

end Verif.Func
