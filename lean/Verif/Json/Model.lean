import Verif.Common
/-!
# Binary JSON documents (runtime/json)

Buffers are byte lists; a `uint8_t** pos` argument becomes the remaining suffix of the buffer.
Doubles are modelled by their IEEE-754 bit patterns.
-/
namespace Verif.Json
open Verif

/-- A JSON value as a user sees it. `real` carries the IEEE-754 binary64 bit pattern. -/
inductive J where
  | null
  | bool (b : Bool)
  | int  (i : Int)
  | real (bits : Nat)
  | str  (s : Bytes)
  | arr  (l : List J)
  | obj  (l : List (Bytes × J))

/-! ## tags: runtime/json/json.h:14-40 -/
scoped notation "tNULL" => (0 : Nat)
scoped notation "tTRUE" => (1 : Nat)
scoped notation "tFALSE" => (2 : Nat)
scoped notation "tREAL32" => (3 : Nat)
scoped notation "tREAL64" => (4 : Nat)
scoped notation "tINTV0" => (5 : Nat)
scoped notation "tINTV31" => (37 : Nat)
scoped notation "tINT8" => (38 : Nat)
scoped notation "tINT16" => (39 : Nat)
scoped notation "tINT32" => (40 : Nat)
scoped notation "tINT64" => (41 : Nat)
scoped notation "tSTRINGV0" => (42 : Nat)
scoped notation "tSTRINGV31" => (74 : Nat)
scoped notation "tSTRING8" => (75 : Nat)
scoped notation "tSTRING16" => (76 : Nat)
scoped notation "tSTRING32" => (77 : Nat)
scoped notation "tOBJ" => (78 : Nat)
scoped notation "tOBJ_END" => (79 : Nat)
scoped notation "tARRAY" => (80 : Nat)
scoped notation "tARRAY_END" => (81 : Nat)

/-- The case groups used by every switch over tags:
json_op.h:20-63 (json_skip), json_compare.h:52-150 (json_compare), json_export.c:20-120. -/
inductive Cls where
  | null | bool | real | int | str | obj | objEnd | arr | arrEnd | bad
deriving DecidableEq, Repr

/-- switch (**pos), json_op.h:20-63 -/
def clsOf (t : Nat) : Cls :=
  if t = tNULL then .null
  else if t = tTRUE ∨ t = tFALSE then .bool
  else if t = tREAL32 ∨ t = tREAL64 then .real
  else if tINTV0 ≤ t ∧ t ≤ tINT64 then .int
  else if tSTRINGV0 ≤ t ∧ t ≤ tSTRING32 then .str
  else if t = tOBJ then .obj
  else if t = tOBJ_END then .objEnd
  else if t = tARRAY then .arr
  else if t = tARRAY_END then .arrEnd
  else .bad

/-! ## writers -/

/-- json_write_integer, json.h:169-202; the argument is `uint64_t`, so a negative value arrives as
`v + 2^64` and takes the last branch. -/
def writeInteger (v : Int) : Bytes :=
  let u := toUnsigned 64 v
  if u ≤ 31 then [tINTV0 + u]
  else if u ≤ 127 then tINT8 :: leBytes 1 u
  else if u ≤ 32767 then tINT16 :: leBytes 2 u
  else if u ≤ 2147483647 then tINT32 :: leBytes 4 u
  else tINT64 :: leBytes 8 u

/-- json_write_raw, json.h:268-299 (value != NULL) -/
def writeRaw (s : Bytes) : Bytes :=
  let n := s.length
  (if n ≤ 31 then [tSTRINGV0 + n]
   else if n ≤ 127 then tSTRING8 :: leBytes 1 n
   else if n ≤ 32767 then tSTRING16 :: leBytes 2 n
   else tSTRING32 :: leBytes 4 n) ++ s

/-- json_write_bool, json.h:385-394 -/
def writeBool (b : Bool) : Bytes := if b then [tTRUE] else [tFALSE]

/-- bit pattern of (double)FLT_MIN = 2^-126 -/
scoped notation "fltMinBits" => (897 * 2 ^ 52 : Nat)
/-- bit pattern of (double)FLT_MAX = (2 - 2^-23) * 2^127 -/
scoped notation "fltMaxBits" => (1150 * 2 ^ 52 + (2 ^ 23 - 1) * 2 ^ 29 : Nat)

/-- `value >= FLT_MIN && value <= FLT_MAX` (json.h:439): on bit patterns this is an interval test,
because positive doubles are ordered like their bit patterns, and patterns of negative numbers
and NaNs lie above. -/
def inFloatRange (bits : Nat) : Bool := fltMinBits ≤ bits ∧ bits ≤ fltMaxBits

/-- C conversion double -> float for a value in [FLT_MIN, FLT_MAX]: rebias the exponent and round
the 52 bit fraction to 23 bits, to nearest, ties to even (a carry moves into the exponent). -/
def f32OfF64 (bits : Nat) : Nat :=
  let q := bits - 896 * 2 ^ 52
  let base := q / 2 ^ 29
  let r := q % 2 ^ 29
  if 2 ^ 28 < r ∨ (r = 2 ^ 28 ∧ base % 2 = 1) then base + 1 else base

/-- C conversion float -> double (exact) on bit patterns. -/
def f64OfF32 (f : Nat) : Nat :=
  let sign := f / 2 ^ 31
  let mag := f % 2 ^ 31
  let exp := mag / 2 ^ 23
  let frac := mag % 2 ^ 23
  sign * 2 ^ 63 +
  (if exp = 255 then 2047 * 2 ^ 52 + frac * 2 ^ 29
   else if exp = 0 then
     if frac = 0 then 0
     else (Nat.log2 frac + 874) * 2 ^ 52 + (frac - 2 ^ Nat.log2 frac) * 2 ^ (52 - Nat.log2 frac)
   else (exp + 896) * 2 ^ 52 + frac * 2 ^ 29)

/-- json_write_real, json.h:436-451 -/
def writeReal (bits : Nat) : Bytes :=
  if inFloatRange bits then tREAL32 :: leBytes 4 (f32OfF64 bits)
  else tREAL64 :: leBytes 8 bits

mutual
/-- The document written for a value: encode_null/bool/integer/real/string, encode_array ...
encode_array_end, encode_obj, key, value ... encode_obj_end (runtime/json/encode.h:14-150). -/
def enc : J → Bytes
  | .null   => [tNULL]
  | .bool b => writeBool b
  | .int i  => writeInteger i
  | .real r => writeReal r
  | .str s  => writeRaw s
  | .arr l  => tARRAY :: (encList l ++ [tARRAY_END])
  | .obj l  => tOBJ :: (encFields l ++ [tOBJ_END])
/-- the elements of an array, one after another -/
def encList : List J → Bytes
  | []     => []
  | v :: t => enc v ++ encList t
/-- the fields of an object: key string, value -/
def encFields : List (Bytes × J) → Bytes
  | []          => []
  | (k, v) :: t => writeRaw k ++ (enc v ++ encFields t)
end

/-! ## readers -/

/-- a read of the tag byte `**pos`; past the end of the buffer it is undefined behaviour -/
def peek : Bytes → Res Nat
  | []     => .error .ub
  | t :: _ => .ok t

/-- json_read_integer, json.h:131-158 -/
def readInteger : Bytes → Res (Int × Bytes)
  | [] => .error .ub
  | t :: r =>
    if tINTV0 ≤ t ∧ t ≤ tINTV31 then .ok (((t - tINTV0 : Nat) : Int), r)
    else if t = tINT8 then do let (b, r) ← readN 1 r; .ok (toSigned 8 (leNat b), r)
    else if t = tINT16 then do let (b, r) ← readN 2 r; .ok (toSigned 16 (leNat b), r)
    else if t = tINT32 then do let (b, r) ← readN 4 r; .ok (toSigned 32 (leNat b), r)
    else if t = tINT64 then do let (b, r) ← readN 8 r; .ok (toSigned 64 (leNat b), r)
    else .error .err

/-- tail of json_read_raw (json.h:246-247): `*value = *pos; *pos += *size`.  A negative size moves the
cursor backwards out of the value: undefined behaviour. -/
def takeRaw (size : Int) (r : Bytes) : Res (Bytes × Bytes) :=
  if size < 0 then .error .ub else readN size.toNat r

/-- json_read_raw, json.h:222-248 -/
def readRaw : Bytes → Res (Bytes × Bytes)
  | [] => .error .ub
  | t :: r =>
    if tSTRINGV0 ≤ t ∧ t ≤ tSTRINGV31 then takeRaw ((t - tSTRINGV0 : Nat) : Int) r
    else if t = tSTRING8 then do let (b, r) ← readN 1 r; takeRaw (toSigned 8 (leNat b)) r
    else if t = tSTRING16 then do let (b, r) ← readN 2 r; takeRaw (toSigned 16 (leNat b)) r
    else if t = tSTRING32 then do let (b, r) ← readN 4 r; takeRaw (toSigned 32 (leNat b)) r
    else .error .err

/-- json_read_bool, json.h:363-374 -/
def readBool : Bytes → Res (Bool × Bytes)
  | [] => .error .ub
  | t :: r => if t = tTRUE then .ok (true, r) else if t = tFALSE then .ok (false, r) else .error .err

/-- json_read_real, json.h:410-426 -/
def readReal : Bytes → Res (Nat × Bytes)
  | [] => .error .ub
  | t :: r =>
    if t = tREAL32 then do let (b, r) ← readN 4 r; .ok (f64OfF32 (leNat b), r)
    else if t = tREAL64 then do let (b, r) ← readN 8 r; .ok (leNat b, r)
    else .error .err

/-- json_read_null, json.h:582-588 -/
def readNull : Bytes → Res Bytes
  | [] => .error .ub
  | t :: r => if t = tNULL then .ok r else .error .err

/-- json_read_obj, json.h:472-478 -/
def readObj : Bytes → Res Bytes
  | [] => .error .ub
  | t :: r => if t = tOBJ then .ok r else .error .err

/-- json_read_array, json.h:530-536 -/
def readArray : Bytes → Res Bytes
  | [] => .error .ub
  | t :: r => if t = tARRAY then .ok r else .error .err

/-- json_read_obj_end, json.h:480-487: `some rest` = consumed the end tag, `none` = not at the end -/
def readObjEnd : Bytes → Res (Option Bytes)
  | [] => .error .ub
  | t :: r => if t = tOBJ_END then .ok (some r) else .ok none

/-- json_read_array_end, json.h:538-545 -/
def readArrayEnd : Bytes → Res (Option Bytes)
  | [] => .error .ub
  | t :: r => if t = tARRAY_END then .ok (some r) else .ok none

/-- One turn of the loop of json_skip, json_op.h:20-63: the rest of the buffer and the new level. -/
def skipStep (level : Int) (bs : Bytes) : Res (Bytes × Int) := do
  let t ← peek bs
  match clsOf t with
  | .bool => do let (_, r) ← readBool bs; .ok (r, level)
  | .null => do let r ← readNull bs; .ok (r, level)
  | .real => do let (_, r) ← readReal bs; .ok (r, level)
  | .int  => do let (_, r) ← readInteger bs; .ok (r, level)
  | .str  => do let (_, r) ← readRaw bs; .ok (r, level)
  | .arr | .obj => .ok (bs.drop 1, level + 1)
  | .arrEnd | .objEnd => .ok (bs.drop 1, level - 1)
  | .bad => .error .err

/-- `do { step } while (level > 0)`, json_op.h:17-64.  Every turn consumes at least one byte, so with
fuel = number of bytes, running out of fuel means reading past the end of the buffer. -/
def skipLoop : Nat → Int → Bytes → Res Bytes
  | 0, _, _ => .error .ub
  | fuel + 1, level, bs => do
    let (r, level) ← skipStep level bs
    if level > 0 then skipLoop fuel level r else .ok r

/-- json_skip, json_op.h:14-65 -/
def skip (bs : Bytes) : Res Bytes := skipLoop bs.length 0 bs

/-- json_sizeof, json_op.h:67-73 -/
def sizeof (bs : Bytes) : Res Nat := do let r ← skip bs; .ok (bs.length - r.length)

mutual
/-- Recursive reader of a document: the control flow of json_export_as (json_export.c:18-128), which is
the function that reads a complete stored document, building the value instead of printing it.
(fuel as in `skipLoop`; object keys are read like any value there, but must be strings.) -/
def dec : Nat → Bytes → Res (J × Bytes)
  | 0, _ => .error .ub
  | fuel + 1, bs => do
    let t ← peek bs
    match clsOf t with
    | .null => do let r ← readNull bs; .ok (.null, r)
    | .bool => do let (b, r) ← readBool bs; .ok (.bool b, r)
    | .real => do let (b, r) ← readReal bs; .ok (.real b, r)
    | .int  => do let (b, r) ← readInteger bs; .ok (.int b, r)
    | .str  => do let (b, r) ← readRaw bs; .ok (.str b, r)
    | .arr  => do let r ← readArray bs; let (l, r) ← decList fuel r; .ok (.arr l, r)
    | .obj  => do let r ← readObj bs; let (l, r) ← decFields fuel r; .ok (.obj l, r)
    | _ => .error .err
/-- `while (! json_read_array_end(pos)) json_export_as(..)`, json_export.c:65-71 -/
def decList : Nat → Bytes → Res (List J × Bytes)
  | 0, _ => .error .ub
  | fuel + 1, bs => do
    match ← readArrayEnd bs with
    | some r => .ok ([], r)
    | none => do
      let (v, r) ← dec fuel bs
      let (l, r) ← decList fuel r
      .ok (v :: l, r)
/-- `while (! json_read_obj_end(pos)) { key; value }`, json_export.c:108-120 -/
def decFields : Nat → Bytes → Res (List (Bytes × J) × Bytes)
  | 0, _ => .error .ub
  | fuel + 1, bs => do
    match ← readObjEnd bs with
    | some r => .ok ([], r)
    | none => do
      let (k, r) ← readRaw bs
      let (v, r) ← dec fuel r
      let (l, r) ← decFields fuel r
      .ok ((k, v) :: l, r)
end

/-- read one document at the head of the buffer -/
def decode (bs : Bytes) : Res (J × Bytes) := dec (bs.length + 1) bs

/-! ## access: json_op.h:75-187 -/

/-- loop of json_obj_find, json_op.h:81-88: `some rest` = found, positioned at the value -/
def objFindLoop (name : Bytes) : Nat → Bytes → Res (Option Bytes)
  | 0, _ => .error .ub
  | fuel + 1, bs => do
    match ← readObjEnd bs with
    | some _ => .ok none
    | none => do
      let (k, r) ← readRaw bs
      if k = name then .ok (some r)
      else do let r ← skip r; objFindLoop name fuel r

/-- json_obj_find, json_op.h:75-90 -/
def objFind (bs : Bytes) (name : Bytes) : Res (Option Bytes) := do
  let t ← peek bs
  if t = tNULL then .ok none
  else do let r ← readObj bs; objFindLoop name (bs.length) r

/-- loop of json_array_find, json_op.h:147-153 -/
def arrayFindLoop (position : Int) : Nat → Int → Bytes → Res (Option Bytes)
  | 0, _, _ => .error .ub
  | fuel + 1, i, bs => do
    match ← readArrayEnd bs with
    | some _ => .ok none
    | none => if i = position then .ok (some bs)
              else do let r ← skip bs; arrayFindLoop position fuel (i + 1) r

/-- json_array_find, json_op.h:140-155 -/
def arrayFind (bs : Bytes) (position : Int) : Res (Option Bytes) := do
  let t ← peek bs
  if t = tNULL then .ok none
  else do let r ← readArray bs; arrayFindLoop position bs.length 0 r

/-- loop of json_array_last, json_op.h:163-170 -/
def arrayLastLoop : Nat → Bytes → Res (Option Bytes)
  | 0, _ => .error .ub
  | fuel + 1, bs => do
    match ← readArrayEnd bs with
    | some _ => .ok none
    | none => do
      let r ← skip bs
      let t ← peek r
      if t = tARRAY_END then .ok (some bs) else arrayLastLoop fuel r

/-- json_array_last, json_op.h:157-172 -/
def arrayLast (bs : Bytes) : Res (Option Bytes) := do
  let t ← peek bs
  if t = tNULL then .ok none
  else do let r ← readArray bs; arrayLastLoop bs.length r

/-- loop of json_array_size, json_op.h:187-191 -/
def arraySizeLoop : Nat → Nat → Bytes → Res Nat
  | 0, _, _ => .error .ub
  | fuel + 1, n, bs => do
    match ← readArrayEnd bs with
    | some _ => .ok n
    | none => do let r ← skip bs; arraySizeLoop fuel (n + 1) r

/-- json_array_size, json_op.h:180-193 -/
def arraySize (bs : Bytes) : Res Nat := do
  let t ← peek bs
  if t = tNULL then .ok 0
  else do let r ← readArray bs; arraySizeLoop bs.length 0 r

/-- loop of json_obj_size, json_op.h:131-136 -/
def objSizeLoop : Nat → Nat → Bytes → Res Nat
  | 0, _, _ => .error .ub
  | fuel + 1, n, bs => do
    match ← readObjEnd bs with
    | some _ => .ok n
    | none => do let r ← skip bs; let r ← skip r; objSizeLoop fuel (n + 1) r

/-- json_obj_size, json_op.h:126-138 -/
def objSize (bs : Bytes) : Res Nat := do
  let r ← readObj bs
  objSizeLoop bs.length 0 r

/-- Splitting of a path at the first dot: the scan at json_op.h:98-106. `none` = no dot. -/
def splitDot : Bytes → Option (Bytes × Bytes)
  | [] => none
  | c :: t => if c = 46 then some ([], t) else
      match splitDot t with
      | none => none
      | some (a, b) => some (c :: a, b)

/-- json_obj_find_path, json_op.h:92-119 -/
def objFindPath : Nat → Bytes → Bytes → Res (Option Bytes)
  | 0, _, _ => .error .ub
  | fuel + 1, bs, path =>
    match splitDot path with
    | none => objFind bs path
    | some (a, b) => do
      match ← objFind bs a with
      | none => .ok none
      | some r => objFindPath fuel r b

/-! ## comparison -/

/-- compare_int64, runtime/lib/misc.h:20-24 -/
def cmpInt (a b : Int) : Int := (if a > b then 1 else 0) - (if a < b then 1 else 0)

/-- memcmp over the common prefix, then the sizes: str_compare_fn, runtime/base/str.h:169-184.
memcmp's result is modelled by its sign. -/
def cmpStr : Bytes → Bytes → Int
  | [], [] => 0
  | [], _ :: _ => -1
  | _ :: _, [] => 1
  | a :: as, b :: bs => if a < b then -1 else if b < a then 1 else cmpStr as bs

/-- magnitude part of the pattern -/
def f64mag (bits : Nat) : Nat := bits % 2 ^ 63
/-- NaN test on the bit pattern -/
def f64isNaN (bits : Nat) : Bool := f64mag bits > 2047 * 2 ^ 52
/-- order key of a non-NaN double: sign and magnitude -/
def f64key (bits : Nat) : Int := if bits / 2 ^ 63 % 2 = 1 then -(f64mag bits : Int) else (f64mag bits : Int)
/-- compare_double, misc.h:38-42 (comparisons with NaN are false) -/
def cmpDouble (a b : Nat) : Int :=
  if f64isNaN a ∨ f64isNaN b then 0 else cmpInt (f64key a) (f64key b)

/-- outcome of one turn of json_compare's loop: decided, or continue with the rests and level -/
inductive CmpStep where
  | ret (rc : Int)
  | next (a b : Bytes) (level : Int)

/-- One turn of json_compare, json_compare.h:50-151. -/
def cmpStep (level : Int) (a b : Bytes) : Res CmpStep := do
  let ta ← peek a
  let tb ← peek b
  match clsOf ta with
  | .bool =>
    if clsOf tb ≠ .bool then .ok (.ret (cmpInt ta tb))
    else do
      let (x, a) ← readBool a
      let (y, b) ← readBool b
      let rc := cmpInt (if x then 1 else 0) (if y then 1 else 0)
      if rc ≠ 0 then .ok (.ret rc) else .ok (.next a b level)
  | .null =>
    if clsOf tb ≠ .null then .ok (.ret (cmpInt ta tb))
    else do
      let a ← skip a
      let b ← skip b
      .ok (.next a b level)
  | .real =>
    if clsOf tb ≠ .real then .ok (.ret (cmpInt ta tb))
    else do
      let (x, a) ← readReal a
      let (y, b) ← readReal b
      let rc := cmpDouble x y
      if rc ≠ 0 then .ok (.ret rc) else .ok (.next a b level)
  | .int =>
    if clsOf tb ≠ .int then .ok (.ret (cmpInt ta tb))
    else do
      let (x, a) ← readInteger a
      let (y, b) ← readInteger b
      let rc := cmpInt x y
      if rc ≠ 0 then .ok (.ret rc) else .ok (.next a b level)
  | .str =>
    if clsOf tb ≠ .str then .ok (.ret (cmpInt ta tb))
    else do
      let (x, a) ← readRaw a
      let (y, b) ← readRaw b
      let rc := cmpStr x y
      if rc ≠ 0 then .ok (.ret rc) else .ok (.next a b level)
  | .arr =>
    if clsOf tb ≠ .arr then .ok (.ret (cmpInt ta tb)) else .ok (.next (a.drop 1) (b.drop 1) (level + 1))
  | .arrEnd =>
    if clsOf tb ≠ .arrEnd then .ok (.ret (cmpInt ta tb)) else .ok (.next (a.drop 1) (b.drop 1) (level - 1))
  | .obj =>
    if clsOf tb ≠ .obj then .ok (.ret (cmpInt ta tb)) else .ok (.next (a.drop 1) (b.drop 1) (level + 1))
  | .objEnd =>
    if clsOf tb ≠ .objEnd then .ok (.ret (cmpInt ta tb)) else .ok (.next (a.drop 1) (b.drop 1) (level - 1))
  | .bad => .ok (.next a b level)

/-- `do { .. } while (level > 0); return 0`, json_compare.h:46-155.  (An unknown tag inside a container
makes the C loop spin forever; the model then runs out of fuel and reports `ub`.) -/
def cmpLoop : Nat → Int → Bytes → Bytes → Res Int
  | 0, _, _, _ => .error .ub
  | fuel + 1, level, a, b => do
    match ← cmpStep level a b with
    | .ret rc => .ok rc
    | .next a b level => if level > 0 then cmpLoop fuel level a b else .ok 0

/-- json_compare, json_compare.h:44-156 -/
def compare (a b : Bytes) : Res Int := cmpLoop (a.length + b.length) 0 a b

end Verif.Json
