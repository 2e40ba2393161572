import Verif.Common
/-!
# String functions

runtime/lib/utf8.h, vm/value/like.c, vm/func/fn_string.c. Strings are byte lists; a pointer into a string is the rest of the
string from there on. Reading at or after the end is `Fail.ub`.
-/
set_option linter.unusedVariables false
namespace Verif.Func
open Verif

/-- utf8_sizeof, utf8.h:14-26 -/
def utf8Size (b : Nat) : Int :=
  if b < 128 then 1
  else if 192 ≤ b ∧ b < 224 then 2
  else if 224 ≤ b ∧ b < 240 then 3
  else if 240 ≤ b ∧ b < 248 then 4
  else -1

/-- the character at a pointer and the pointer after it: `pos_size = utf8_sizeof(*pos); … pos += pos_size`; utf8_forward,
utf8.h:80-84 -/
def nextChr : Bytes → Res (Bytes × Bytes)
  | [] => .error .ub
  | b :: t => if utf8Size b < 0 then .error .ub else readN (utf8Size b).toNat (b :: t)

/-- the loop over the string after %, like.c:62-71: up to and including the first character equal to `c`; `none`: no such
character -/
def likeFind (c : Bytes) : Nat → Bytes → Res (Option Bytes)
  | 0, _ => .error .ub
  | f + 1, s =>
    if s = [] then .ok none
    else do
      let (d, r) ← nextChr s
      if d = c then .ok (some r) else likeFind c f r

/-- value_like, like.c:18-96: the loop over the pattern -/
def likeLoop : Nat → Bytes → Bytes → Res Bool
  | 0, _, _ => .error .ub
  | f + 1, s, pat =>
    if pat = [] then .ok (decide (s = []))
    else if pat.headD 0 = 95 then
      (if s = [] then .ok false
       else do
        let (_, r) ← nextChr s
        likeLoop f r (pat.drop 1))
    else if pat.headD 0 = 37 then
      (if pat.dropWhile (fun c => decide (c = 37 ∨ c = 95)) = [] then .ok true
       else do
        let p := pat.dropWhile (fun c => decide (c = 37 ∨ c = 95))
        let p := if p.headD 0 = 92 then p.drop 1 else p
        if p = [] then .ok false
        else do
          let (c, p) ← nextChr p
          match ← likeFind c (s.length + 1) s with
          | none => .ok false
          | some r => likeLoop f r p)
    else
      let p := if pat.headD 0 = 92 then pat.drop 1 else pat
      if s = [] then .ok false
      else do
        let (d, r) ← nextChr s
        let (c, p) ← nextChr p
        if d = c then likeLoop f r p else .ok false

def like (s pat : Bytes) : Res Bool := likeLoop (pat.length + 1) s pat

/-- utf8_strlen, utf8.h:94-103 -/
def utf8Len (s : Bytes) : Nat := (s.filter fun b => decide (¬ (128 ≤ b ∧ b < 192))).length

/-- utf8_at, utf8.h:105-111; also `while (count-- > 0) utf8_forward(&end)`: the pointer after `n` characters -/
def utf8At : Nat → Bytes → Res Bytes
  | 0, s => .ok s
  | n + 1, s => do let (_, r) ← nextChr s; utf8At n r

/-- a C `int` made from an int64_t -/
def cInt (i : Int) : Int := toSigned 32 (toUnsigned 32 i)

/-- fn_substr, fn_string.c:173-221; `count = none` without the third argument -/
def substr (s : Bytes) (pos : Int) (count : Option Int) : Res Bytes :=
  if pos = 0 then .error .err
  else if (utf8Len s : Int) ≤ pos - 1 then .error .err
  else
    match count with
    | none => do
      let from_ ← utf8At (cInt (pos - 1)).toNat s
      let end_ ← utf8At (cInt (utf8Len s - (pos - 1))).toNat from_
      .ok (from_.take (from_.length - end_.length))
    | some n =>
      if (utf8Len s : Int) < pos - 1 + cInt n then .error .err
      else do
        let from_ ← utf8At (cInt (pos - 1)).toNat s
        let end_ ← utf8At (cInt n).toNat from_
        .ok (from_.take (from_.length - end_.length))

/-- the loop of fn_strpos, fn_string.c:245-263 -/
def strposLoop (sub : Bytes) : Nat → Nat → Bytes → Res Nat
  | 0, _, _ => .error .ub
  | f + 1, n, s =>
    if s = [] ∨ s.length < sub.length then .ok 0
    else if s.take sub.length = sub then .ok n
    else do let (_, r) ← nextChr s; strposLoop sub f (n + 1) r

/-- fn_strpos, fn_string.c:223-266 -/
def strpos (s sub : Bytes) : Res Nat := if sub = [] then .ok 0 else strposLoop sub (s.length + 1) 1 s

/-- the loop of fn_replace, fn_string.c:293-320 -/
def replaceLoop (src to : Bytes) : Nat → Bytes → Res Bytes
  | 0, _ => .error .ub
  | f + 1, s =>
    if s = [] then .ok []
    else if s.length < src.length then .ok s
    else if s.take src.length = src then do
      let out ← replaceLoop src to f (s.drop src.length)
      .ok (to ++ out)
    else do
      let (c, r) ← nextChr s
      let out ← replaceLoop src to f r
      .ok (c ++ out)

/-- fn_replace, fn_string.c:268-325 -/
def replace (s src to : Bytes) : Res Bytes := if src = [] then .error .err else replaceLoop src to (s.length + 1) s

/-- the inner loop of str_ltrim and str_rtrim, fn_string.c:336-346: is the character in the filter? -/
def inFilter (c : Bytes) : Nat → Bytes → Res Bool
  | 0, _ => .error .ub
  | f + 1, flt =>
    if flt = [] then .ok false
    else do
      let (d, r) ← nextChr flt
      if d = c then .ok true else inFilter c f r

/-- str_ltrim, fn_string.c:327-351 -/
def ltrimLoop (flt : Bytes) : Nat → Bytes → Res Bytes
  | 0, _ => .error .ub
  | f + 1, s =>
    if s = [] then .ok []
    else do
      let (c, r) ← nextChr s
      if ← inFilter c (flt.length + 1) flt then ltrimLoop flt f r else .ok s

def ltrim (s flt : Bytes) : Res Bytes := ltrimLoop flt (s.length + 1) s

/-- utf8_backward, utf8.h:86-92, from the last byte: the string before its last character, and that character. It moves back
while it sees a continuation byte; before the beginning of the string is `ub`. -/
def lastChr (s : Bytes) : Res (Bytes × Bytes) :=
  let tail := s.reverse.takeWhile fun b => decide (128 ≤ b ∧ b < 192)
  if s.length ≤ tail.length then .error .ub
  else .ok (s.take (s.length - tail.length - 1), s.drop (s.length - tail.length - 1))

/-- str_rtrim, fn_string.c:353-381; the character found has utf8_sizeof bytes -/
def rtrimLoop (flt : Bytes) : Nat → Bytes → Res Bytes
  | 0, _ => .error .ub
  | f + 1, s =>
    if s = [] then .ok []
    else do
      let (r, c) ← lastChr s
      let (c, _) ← nextChr c
      if ← inFilter c (flt.length + 1) flt then rtrimLoop flt f (s.take (s.length - c.length)) else .ok s

def rtrim (s flt : Bytes) : Res Bytes := rtrimLoop flt (s.length + 1) s

/-- trim, fn_string.c:383-420 -/
def trim (s flt : Bytes) : Res Bytes := do rtrim (← ltrim s flt) flt

/-- tolower and toupper of the C locale -/
def toLower (b : Nat) : Nat := if 65 ≤ b ∧ b ≤ 90 then b + 32 else b
def toUpper (b : Nat) : Nat := if 97 ≤ b ∧ b ≤ 122 then b - 32 else b

/-- the loop of fn_lower and fn_upper, fn_string.c:127-140, 160-173 -/
def mapChrs (g : Nat → Nat) : Nat → Bytes → Res Bytes
  | 0, _ => .error .ub
  | f + 1, s =>
    if s = [] then .ok []
    else do
      let (c, r) ← nextChr s
      let out ← mapChrs g f r
      .ok ((if c.length = 1 then c.map g else c) ++ out)

def lower (s : Bytes) : Res Bytes := mapChrs toLower (s.length + 1) s
def upper (s : Bytes) : Res Bytes := mapChrs toUpper (s.length + 1) s

end Verif.Func
