import Verif.Json.Spec
/-!
# JSON text: escape.h, utf8.h (utf8_next), json_export.c, json_parser.c

Text is a byte list.  `printf("%g")` and `strtod` of the C library are parameters (`Libc`).
-/
namespace Verif.Json.Text
open Verif Verif.Json

/-- the C library number formatting functions used for reals: not modelled, taken as parameters -/
structure Libc where
  /-- output of printf("%g", value), json_export.c:42 -/
  fmtG : Nat → Bytes
  /-- strtod, json_parser.c:168: bit pattern and the remaining text; `none` = ERANGE -/
  strtod : Bytes → Option (Nat × Bytes)

/-- escape_str, runtime/json/escape.h:72-106, one character -/
def escapeChar (c : Nat) : Bytes :=
  if c = 34 then [92, 34]          -- "
  else if c = 92 then [92, 92]     -- \
  else if c = 8 then [92, 98]      -- \b
  else if c = 12 then [92, 102]    -- \f
  else if c = 10 then [92, 110]    -- \n
  else if c = 13 then [92, 114]    -- \r
  else if c = 9 then [92, 116]     -- \t
  else [c]

/-- escape_str, escape.h:72-106 -/
def escape : Bytes → Bytes
  | [] => []
  | c :: t => escapeChar c ++ escape t

/-- the switch of unescape_str, escape.h:36-64: the byte written for an escaped character; `none` = no case,
the output position is advanced over a byte that was never written (uninitialised memory). -/
def unescapeChar (c : Nat) : Option Nat :=
  if c = 92 then some 92
  else if c = 34 then some 34
  else if c = 97 then some 7
  else if c = 98 then some 8
  else if c = 102 then some 12
  else if c = 110 then some 10
  else if c = 114 then some 13
  else if c = 116 then some 9
  else if c = 118 then some 11
  else none

/-- unescape_str, escape.h:14-70 (`slash` is the loop variable) -/
def unescape : Bool → Bytes → Res Bytes
  | _, [] => .ok []
  | slash, c :: t =>
    if c = 92 ∧ slash = false then unescape true t
    else if slash = false then do let r ← unescape false t; .ok (c :: r)
    else match unescapeChar c with
      | some x => do let r ← unescape false t; .ok (x :: r)
      | none => .error .ub

/-- utf8_next, runtime/lib/utf8.h:28-73: the rest after one code point, `none` = -1 (invalid).
Masks are written as arithmetic: `(b & 0xE0) == 0xC0` is `b / 32 = 6`, `b & ~0xC0` is `b % 64`, etc. -/
def utf8Next : Bytes → Option Bytes
  | [] => none
  | a :: r =>
    if a < 128 then some r
    else if a / 32 = 6 then
      match r with
      | b :: r' => if b / 64 = 2 then
          (if (a % 64) * 64 + b % 128 < 0x80 then none else some r') else none
      | _ => none
    else if a / 16 = 14 then
      match r with
      | b :: c :: r' => if b / 64 = 2 ∧ c / 64 = 2 then
          (if (a % 32) * 4096 + (b % 128) * 64 + c % 128 < 0x800 then none else some r') else none
      | _ => none
    else if a / 8 = 30 then
      match r with
      | b :: c :: d :: r' => if b / 64 = 2 ∧ c / 64 = 2 ∧ d / 64 = 2 then
          (if (a % 16) * 262144 + (b % 128) * 4096 + (c % 128) * 64 + d % 128 < 0x10000 then none else some r')
          else none
      | _ => none
    else none

/-- loop of json_string_read, json_parser.c:93-120.  Returns the raw characters up to the closing quote, the
text after the quote, and whether a backslash was seen.  Each turn consumes at least one byte (fuel). -/
def stringLoop (q : Nat) : Nat → Bool → Bytes → Bool → Bytes → Res (Bytes × Bytes × Bool)
  | 0, _, _, _, _ => .error .ub
  | fuel + 1, slash, acc, esc, bs =>
    match bs with
    | [] => .error .err                                       -- unterminated JSON string
    | c :: r =>
      if c = q ∧ slash = false then .ok (acc, r, esc)
      else if c = q then stringLoop q fuel false (acc ++ [c]) esc r
      else if c = 10 then .error .err
      else
        let slash' := if c = 92 then !slash else false
        let esc' := if c = 92 then true else esc
        match utf8Next bs with
        | none => .error .err
        | some r' => stringLoop q fuel slash' (acc ++ bs.take (bs.length - r'.length)) esc' r'

/-- json_string_read, json_parser.c:87-124; `bs` starts at the opening quote -/
def stringRead (bs : Bytes) : Res (Bytes × Bytes × Bool) :=
  match bs with
  | [] => .error .ub
  | q :: r => stringLoop q (r.length + 1) false [] false r

/-- isspace in the C locale -/
def isSpace (c : Nat) : Bool := c = 32 ∨ (9 ≤ c ∧ c ≤ 13)
/-- isdigit -/
def isDigit (c : Nat) : Bool := 48 ≤ c ∧ c ≤ 57

/-- json_next, json_parser.c:63-70: skip white space; the end of text is an error -/
def next : Bytes → Res Bytes
  | [] => .error .err
  | c :: t => if isSpace c then next t else .ok (c :: t)

inductive Num where
  | int (v : Int) (rest : Bytes)
  | real
  | err

/-- digit loop of json_integer_read, json_parser.c:146-160; int64_mul_add_overflow (overflow.h:79-85). -/
def digitLoop : Nat → Bytes → Num
  | v, [] => .int v []
  | v, c :: t =>
    if c = 46 ∨ c = 101 ∨ c = 69 then .real
    else if isDigit c = false then .int v (c :: t)
    else if v * 10 > 2 ^ 63 - 1 ∨ v * 10 + (c - 48) > 2 ^ 63 - 1 then .err
    else digitLoop (v * 10 + (c - 48)) t

/-- `*self->pos == '-'`, json_parser.c:141 -/
def isMinus : Bytes → Bool
  | c :: _ => c = 45
  | [] => false

/-- json_integer_read + json_integer, json_parser.c:135-188: the encoded number and the rest of the text. -/
def number (L : Libc) (bs : Bytes) : Res (Bytes × Bytes) :=
  let minus := isMinus bs
  let start := if minus then bs.drop 1 else bs
  match digitLoop 0 start with
  | .int v rest => .ok (writeInteger (if minus then -v else v), rest)
  | .err => .error .err
  | .real =>
    match L.strtod start with
    | none => .error .err
    | some (bits, rest) =>
      .ok (writeReal (if minus then (bits + 2 ^ 63) % 2 ^ 64 else bits), rest)

/-- strncasecmp(pos, name, n) == 0 for a lower case ASCII `name`, json_parser.c:73-85: the rest on success -/
def keyword : Bytes → Bytes → Option Bytes
  | [], bs => some bs
  | _ :: _, [] => none
  | n :: ns, c :: t => if (if 65 ≤ c ∧ c ≤ 90 then c + 32 else c) = n then keyword ns t else none

/-- json_write_string32 + bytes: the form produced by encode_string_unescape (encode.h:74-86) -/
def writeString32 (s : Bytes) : Bytes := (tSTRING32 :: leBytes 4 s.length) ++ s

/-- encode_string or encode_string_unescape, json_parser.c:196-204 and 345-352 -/
def encodeString (raw : Bytes) (esc : Bool) : Res Bytes :=
  if esc then do let s ← unescape false raw; .ok (writeString32 s) else .ok (writeRaw raw)

/-- json_const, json_parser.c:190-236 -/
def const (L : Libc) (bs : Bytes) : Res (Bytes × Bytes) :=
  match bs with
  | [] => .error .ub
  | c :: _ =>
    if c = 34 ∨ c = 39 then do
      let (raw, rest, esc) ← stringRead bs
      let e ← encodeString raw esc
      .ok (e, rest)
    else if c = 110 ∨ c = 78 then
      match keyword [110, 117, 108, 108] bs with
      | some r => .ok ([tNULL], r)
      | none => .error .err
    else if c = 116 ∨ c = 84 then
      match keyword [116, 114, 117, 101] bs with
      | some r => .ok (writeBool true, r)
      | none => .error .err
    else if c = 102 ∨ c = 70 then
      match keyword [102, 97, 108, 115, 101] bs with
      | some r => .ok (writeBool false, r)
      | none => .error .err
    else if isDigit c ∨ c = 46 ∨ c = 45 then number L bs
    else .error .err

/-- JsonState, json_parser.c:42-48 -/
inductive St where
  | value | arrayNext | mapKey | mapNext
deriving DecidableEq, Repr

/-- One turn of the loop of json_parse, json_parser.c:300-402, with the popped state `s`. Returns the new
stack, the rest of the text and the bytes appended to the output. -/
def parseStep (L : Libc) (s : St) (stk : List St) (bs : Bytes) : Res (List St × Bytes × Bytes) := do
  let bs ← next bs
  match bs with
  | [] => .error .ub
  | c :: r =>
    match s with
    | .value =>
      if c = 91 then do
        let r ← next r
        match r with
        | 93 :: r' => .ok (stk, r', [tARRAY, tARRAY_END])
        | _ => .ok (.value :: .arrayNext :: stk, r, [tARRAY])
      else if c = 123 then do
        let r ← next r
        match r with
        | 125 :: r' => .ok (stk, r', [tOBJ, tOBJ_END])
        | _ => .ok (.mapKey :: stk, r, [tOBJ])
      else do
        let (e, rest) ← const L bs
        .ok (stk, rest, e)
    | .arrayNext =>
      if c = 44 then .ok (.value :: .arrayNext :: stk, r, [])
      else if c = 93 then .ok (stk, r, [tARRAY_END])
      else .error .err
    | .mapKey =>
      if c ≠ 34 ∧ c ≠ 39 then .error .err
      else do
        let (raw, rest, esc) ← stringRead bs
        let e ← encodeString raw esc
        let rest ← next rest
        match rest with
        | 58 :: rest' => .ok (.value :: .mapNext :: stk, rest', e)
        | _ => .error .err
    | .mapNext =>
      if c = 44 then .ok (.mapKey :: stk, r, [])
      else if c = 125 then .ok (stk, r, [tOBJ_END])
      else .error .err

/-- `while (! buf_empty(&self->stack))`, json_parser.c:298-402: the rest of the text and the document. -/
def parseLoop (L : Libc) : Nat → List St → Bytes → Bytes → Res (Bytes × Bytes)
  | _, [], bs, out => .ok (bs, out)
  | 0, _ :: _, _, _ => .error .ub
  | fuel + 1, s :: stk, bs, out => do
    let (stk, bs, e) ← parseStep L s stk bs
    parseLoop L fuel stk bs (out ++ e)

/-- json_parse, json_parser.c:238-403 (every turn removes a state or consumes a character) -/
def parse (L : Libc) (text : Bytes) : Res (Bytes × Bytes) :=
  parseLoop L (2 * text.length + 2) [.value] text []

/-- decimal digits, most significant first -/
def decDigits (n : Nat) : Bytes :=
  if h : n < 10 then [48 + n] else decDigits (n / 10) ++ [48 + n % 10]
decreasing_by omega

/-- printf("%" PRIi64), json_export.c:49 -/
def intText (i : Int) : Bytes := if i < 0 then 45 :: decDigits (-i).toNat else decDigits i.toNat

/-- n times two spaces, json_export.c:84-85 -/
def indent : Nat → Bytes
  | 0 => []
  | n + 1 => 32 :: 32 :: indent n

mutual
/-- json_export_as, json_export.c:17-128: text and the rest of the document. -/
def exportAs (L : Libc) (pretty : Bool) : Nat → Nat → Bytes → Res (Bytes × Bytes)
  | 0, _, _ => .error .ub
  | fuel + 1, deep, bs => do
    let t ← peek bs
    match clsOf t with
    | .null => do let r ← readNull bs; .ok ([110, 117, 108, 108], r)
    | .bool => do
      let (b, r) ← readBool bs
      .ok (if b then [116, 114, 117, 101] else [102, 97, 108, 115, 101], r)
    | .real => do let (x, r) ← readReal bs; .ok (L.fmtG x, r)
    | .int => do let (i, r) ← readInteger bs; .ok (intText i, r)
    | .str => do let (s, r) ← readRaw bs; .ok ([34] ++ escape s ++ [34], r)
    | .arr => do
      let r ← readArray bs
      let (x, r) ← exportList L pretty fuel deep r
      .ok ([91] ++ x ++ [93], r)
    | .obj => do
      let r ← readObj bs
      if pretty then
        match ← readObjEnd r with
        | some r => .ok ([123, 125], r)
        | none => do
          let (x, r) ← exportFields L pretty fuel deep r
          .ok ([123, 10] ++ x ++ indent deep ++ [125], r)
      else do
        let (x, r) ← exportFields L pretty fuel deep r
        .ok ([123] ++ x ++ [125], r)
    | _ => .error .err
/-- json_export.c:64-70 -/
def exportList (L : Libc) (pretty : Bool) : Nat → Nat → Bytes → Res (Bytes × Bytes)
  | 0, _, _ => .error .ub
  | fuel + 1, deep, bs => do
    match ← readArrayEnd bs with
    | some r => .ok ([], r)
    | none => do
      let (x, r) ← exportAs L pretty fuel deep bs
      let t ← peek r
      let sep := if t = tARRAY_END then [] else [44, 32]
      let (y, r) ← exportList L pretty fuel deep r
      .ok (x ++ sep ++ y, r)
/-- json_export.c:82-98 (pretty) and 104-116 -/
def exportFields (L : Libc) (pretty : Bool) : Nat → Nat → Bytes → Res (Bytes × Bytes)
  | 0, _, _ => .error .ub
  | fuel + 1, deep, bs => do
    match ← readObjEnd bs with
    | some r => .ok ([], r)
    | none => do
      let (k, r) ← exportAs L pretty fuel (deep + 1) bs
      let (v, r) ← exportAs L pretty fuel (deep + 1) r
      let t ← peek r
      let sep := if t = tOBJ_END then (if pretty then [10] else []) else (if pretty then [44, 10] else [44, 32])
      let (y, r) ← exportFields L pretty fuel deep r
      .ok ((if pretty then indent (deep + 1) else []) ++ k ++ [58, 32] ++ v ++ sep ++ y, r)
end

/-- json_export / json_export_pretty, json_export.c:130-140 -/
def export_ (L : Libc) (pretty : Bool) (bs : Bytes) : Res (Bytes × Bytes) :=
  exportAs L pretty (bs.length + 1) 0 bs

end Verif.Json.Text
