import Verif.Parse.Lex
import Verif.Json.TextModel
import Verif.Func.Timestamp
import Verif.Codec.Uuid
/-!
# INSERT … VALUES: parser/parse_insert.c, parse_row.c, parse_value.c, vm/vm/command.c (csend_shard), vm/value/row.h

The state of the parser is the rest of the text; a token that is looked at and pushed back (stmt_if) leaves the text as it is. The text starts after
the name of the table (parse_from is left out). ON CONFLICT and RETURNING are left to the rest of the text.
-/
set_option autoImplicit false
set_option linter.unusedVariables false
namespace Verif.Insert
open Verif Verif.Json.Text Verif.Parse.Lex

/-- column types -/
inductive Ty where
  | bool | int | dbl | str | json | stamp | interval | date | vec | uuid
deriving DecidableEq, Repr

/-- a value of the set, value.h; doubles and floats are bit patterns, `ref` is a variable (TYPE_REF) -/
inductive V where
  | null
  | bool (b : Bool)
  | int (i : Int)
  | dbl (bits : Nat)
  | str (s : Bytes)
  | json (doc : Bytes)
  | stamp (v : Int)
  | interval (iv : Func.Iv)
  | date (j : Int)
  | vec (l : List Nat)
  | uuid (u : Codec.Uuid)
  | ref (name : Bytes)
deriving DecidableEq

/-- struct Column, db/row/column.h:16-27, and constraints.h:24-33. `dflt`: what value_data_decode gives for the default (NULL for none). -/
structure Col where
  name : Bytes
  ty : Ty
  notNull : Bool
  identity : Bool
  stored : Bool
  dropped : Bool
  dflt : V

/-- the numbers of the C compiler and what a session has: conversions of integer and real literals, the variables in scope, the clock, the time zone -/
structure Env where
  libc : Libc
  /-- (double)(integer) -/
  dblOfInt : Int → Nat
  /-- real * minus -/
  dblOfReal : Bool → Bytes → Nat
  /-- (int64_t)(real * minus); none: out of range, undefined in C -/
  intOfReal : Bool → Bytes → Option Int
  /-- (float)(integer), negated -/
  fltOfInt : Bool → Nat → Nat
  fltOfReal : Bool → Bytes → Nat
  vars : Bytes → Option Ty
  time : Int
  tz : Option (Int → Int)

/-- positions in the table of keywords -/
abbrev kNULL : Nat := 76
abbrev kDEFAULT : Nat := 34
abbrev kTRUE : Nat := 115
abbrev kFALSE : Nat := 47
abbrev kCURRENT_TIMESTAMP : Nat := 14
abbrev kTIMESTAMP : Nat := 116
abbrev kINTERVAL : Nat := 59
abbrev kCURRENT_DATE : Nat := 15
abbrev kDATE : Nat := 35
abbrev kVECTOR : Nat := 135
abbrev kUUID : Nat := 125
abbrev kVALUES : Nat := 134
abbrev kGENERATE : Nat := 52

example : [kNULL, kDEFAULT, kTRUE, kFALSE, kCURRENT_TIMESTAMP, kTIMESTAMP, kINTERVAL, kCURRENT_DATE, kDATE, kVECTOR, kUUID, kVALUES, kGENERATE].map (fun i => kwNames[i]?) =
  ["null", "default", "true", "false", "current_timestamp", "timestamp", "interval", "current_date", "date", "vector", "uuid", "values", "generate"].map some := by decide

/-- stmt_if, stmt.h:  the text after the token, if it is the next one -/
def ifTok (t : LTok) (s : Bytes) : Res (Option Bytes) := do
  let (x, r) ← lexNext true s
  .ok (if x = t then some r else none)

/-- stmt_expect, stmt.h -/
def expect (t : LTok) (s : Bytes) : Res Bytes := do
  let (x, r) ← lexNext true s
  if x = t then .ok r else .error .err

/-- an optional minus before a number, parse_value.c:36-43, 110-116, 127-133: the sign, the next token and the text after it -/
def optMinus (t : LTok) (r : Bytes) : Res (Bool × LTok × Bytes) :=
  if t = .sym 45 then do
    let (t, r) ← lexNext true r
    .ok (true, t, r)
  else .ok (false, t, r)

/-- a component of a vector, parse_value.c:44-52 -/
def compOf (E : Env) (minus : Bool) : LTok → Res Nat
  | .int n => .ok (E.fltOfInt minus n)
  | .real x => .ok (E.fltOfReal minus x)
  | _ => .error .err

/-- the loop of parse_vector, parse_value.c:33-62 -/
def vecLoop (E : Env) : Nat → Bytes → Res (List Nat × Bytes)
  | 0, _ => .error .ub
  | f + 1, s => do
    let (t, r) ← lexNext true s
    let (minus, t, r) ← optMinus t r
    let v ← compOf E minus t
    let (t, r) ← lexNext true r
    if t = .sym 44 then do
      let (l, r) ← vecLoop E f r
      .ok (v :: l, r)
    else if t = .sym 93 then .ok ([v], r)
    else .error .err

/-- parse_vector, parse_value.c:20-65 -/
def parseVector (E : Env) (s : Bytes) : Res (List Nat × Bytes) := do
  let s ← expect (.sym 91) s
  match ← ifTok (.sym 93) s with
  | some r => .ok ([], r)
  | none => vecLoop E (s.length + 1) s

/-- an optional keyword before a string: `[DATE] string`, parse_value.c:184-194 and others -/
def optKw (k : Nat) (t : LTok) (r : Bytes) : Res (LTok × Bytes) := if t = .kw k then lexNext true r else .ok (t, r)

/-- parse_value, parse_value.c:67-256, after the first token `t`; `s` is the text from the token on, `r` the text after it -/
def parseTyped (E : Env) (c : Col) (s : Bytes) (t : LTok) (r : Bytes) : Res (V × Bytes) :=
  match c.ty with
  | .bool => if t = .kw kTRUE then .ok (.bool true, r) else if t = .kw kFALSE then .ok (.bool false, r) else .error .err
  | .int => do
    let (minus, t, r) ← optMinus t r
    match t with
    | .int n => .ok (.int (if minus then -(n : Int) else n), r)
    | .real x => match E.intOfReal minus x with
      | some i => .ok (.int i, r)
      | none => .error .ub
    | _ => .error .err
  | .dbl => do
    let (minus, t, r) ← optMinus t r
    match t with
    | .int n => .ok (.dbl (E.dblOfInt (if minus then -(n : Int) else n)), r)
    | .real x => .ok (.dbl (E.dblOfReal minus x), r)
    | _ => .error .err
  | .str => match t with
    | .str x _ => .ok (.str x, r)
    | _ => .error .err
  | .json => do
    let (r, doc) ← parse E.libc (skipBlank (s.length + 1) s)
    .ok (.json doc, r)
  | .stamp =>
    if t = .kw kCURRENT_TIMESTAMP then .ok (.stamp E.time, r)
    else match t with
      | .int n => .ok (.stamp n, r)
      | t => do
        let (t, r) ← optKw kTIMESTAMP t r
        match t with
        | .str x _ => do
          let ts ← Func.tsSet x
          let v ← Func.tsGetUnix ts E.tz
          .ok (.stamp v, r)
        | _ => .error .err
  | .interval => do
    let (t, r) ← optKw kINTERVAL t r
    match t with
    | .str x _ => do let iv ← Func.ivSet x; .ok (.interval iv, r)
    | _ => .error .err
  | .date =>
    if t = .kw kCURRENT_DATE then do let j ← Func.tsDate E.time; .ok (.date j, r)
    else do
      let (t, r) ← optKw kDATE t r
      match t with
      | .str x _ => do let j ← Func.dateSet x; .ok (.date j, r)
      | _ => .error .err
  | .vec => do
    let (l, r) ← parseVector E (if t = .kw kVECTOR then r else s)
    .ok (.vec l, r)
  | .uuid => do
    let (t, r) ← optKw kUUID t r
    match t with
    | .str x _ => match Codec.uuidSet ⟨0, 0, 0, 0, 0, 0⟩ x with
      | some u => .ok (.uuid u, r)
      | none => .error .err
    | _ => .error .err

/-- parse_value, parse_value.c:67-256: NULL, a variable, or a literal of the column's type -/
def parseValue (E : Env) (c : Col) (s : Bytes) : Res (V × Bytes) := do
  let (t, r) ← lexNext true s
  if t = .kw kNULL then .ok (.null, r)
  else match t with
    | .name n => if E.vars n = some c.ty then .ok (.ref n, r) else .error .err
    | t => parseTyped E c s t r

/-- parse_value_default, parse_value.c:258-274 -/
def valueDefault (c : Col) : V := if c.identity then .null else c.dflt

/-- parse_value_validate, parse_value.c:276-299 -/
def validate (c : Col) (v : V) : Res Unit :=
  if v ≠ .null then .ok () else if c.stored then .ok () else if c.notNull ∧ c.identity = false then .error .err else .ok ()

/-- DEFAULT or a value, parse_row.c:85-99 -/
def parseItem (E : Env) (c : Col) (s : Bytes) : Res (V × Bytes) := do
  match ← ifTok (.kw kDEFAULT) s with
  | some r => do validate c (valueDefault c); .ok (valueDefault c, r)
  | none => do
    let (v, r) ← parseValue E c s
    validate c v
    .ok (v, r)

/-- the comma after a value, parse_row.c:102-108; `last`: the column is the last one of the table -/
def rowComma (last : Bool) (r : Bytes) : Res Bytes := do
  match ← ifTok (.sym 44) r with
  | some r' => if last then .error .err else .ok r'
  | none => .ok r

/-- the loop of parse_row, parse_row.c:72-110 -/
def rowLoop (E : Env) : List Col → Bytes → Res (List V × Bytes)
  | [], s => .ok ([], s)
  | c :: cs, s =>
    if c.dropped then do
      let (l, r) ← rowLoop E cs s
      .ok (.null :: l, r)
    else do
      let (v, r) ← parseItem E c s
      let r ← rowComma cs.isEmpty r
      let (l, r) ← rowLoop E cs r
      .ok (v :: l, r)

/-- parse_row, parse_row.c:60-114 -/
def parseRow (E : Env) (cols : List Col) (s : Bytes) : Res (List V × Bytes) := do
  let s ← expect (.sym 40) s
  let (l, r) ← rowLoop E cols s
  let r ← expect (.sym 41) r
  .ok (l, r)

/-- the comma between the values of listed columns, parse_row.c:43-45 -/
def listComma (left : List Nat) (r : Bytes) : Res Bytes := if left.isEmpty then .ok r else expect (.sym 44) r

/-- the loop of parse_row_list, parse_row.c:31-54; `i` is the order of the first column, `list` the orders of the listed columns that are left -/
def rowListLoop (E : Env) : Nat → List Col → List Nat → Bytes → Res (List V × Bytes)
  | _, [], _, s => .ok ([], s)
  | i, c :: cs, list, s => do
    match ← ifTok (.kw kDEFAULT) s with
    | some r => do
      validate c (valueDefault c)
      let (l, r) ← rowListLoop E (i + 1) cs list r
      .ok (valueDefault c :: l, r)
    | none =>
      if list.head? = some i then do
        let (v, r) ← parseValue E c s
        let r ← listComma list.tail r
        validate c v
        let (l, r) ← rowListLoop E (i + 1) cs list.tail r
        .ok (v :: l, r)
      else do
        validate c (valueDefault c)
        let (l, r) ← rowListLoop E (i + 1) cs list s
        .ok (valueDefault c :: l, r)

/-- parse_row_list, parse_row.c:19-58 -/
def parseRowList (E : Env) (cols : List Col) (list : List Nat) (s : Bytes) : Res (List V × Bytes) := do
  let s ← expect (.sym 40) s
  let (l, r) ← rowListLoop E 0 cols list s
  let r ← expect (.sym 41) r
  .ok (l, r)

/-- one row, parse_row.c:146-149 -/
def parseOne (E : Env) (cols : List Col) (list : Option (List Nat)) (s : Bytes) : Res (List V × Bytes) :=
  match list with
  | some l => parseRowList E cols l s
  | none => parseRow E cols s

/-- parse_rows, parse_row.c:137-153; each row takes at least one byte (fuel) -/
def parseRows (E : Env) (cols : List Col) (list : Option (List Nat)) : Nat → Bytes → Res (List (List V) × Bytes)
  | 0, _ => .error .ub
  | f + 1, s => do
    let (row, r) ← parseOne E cols list s
    match ← ifTok (.sym 44) r with
    | some r' => do
      let (l, r) ← parseRows E cols list f r'
      .ok (row :: l, r)
    | none => .ok ([row], r)

/-- columns_find, db/row/columns.h:101-113: the order of the column; dropped ones are skipped, names compare without case -/
def findCol (name : Bytes) : Nat → List Col → Option Nat
  | _, [] => none
  | i, c :: cs => if c.dropped = false ∧ isCase c.name name then some i else findCol name (i + 1) cs

/-- the loop of parse_column_list, parse_insert.c:32-62; `last` is the order of the column before -/
def columnLoop (cols : List Col) : Nat → Option Nat → Bytes → Res (List Nat × Bytes)
  | 0, _, _ => .error .ub
  | f + 1, last, s => do
    let (t, r) ← lexNext true s
    match t with
    | .name n =>
      match findCol n 0 cols with
      | none => .error .err
      | some i =>
        if last.any (fun j => decide (i ≤ j)) then .error .err
        else do
          match ← ifTok (.sym 44) r with
          | some r' => do
            let (l, r) ← columnLoop cols f (some i) r'
            .ok (i :: l, r)
          | none => do
            let r ← expect (.sym 41) r
            .ok ([i], r)
    | _ => .error .err

/-- parse_column_list, parse_insert.c:20-65 -/
def columnList (cols : List Col) (s : Bytes) : Res (List Nat × Bytes) := do
  match ← ifTok (.sym 41) s with
  | some r => .ok ([], r)
  | none => columnLoop cols (s.length + 1) none s

/-- the loop over the columns of parse_row_generate, parse_row.c:126-138 -/
def defaults : List Col → Res (List V)
  | [] => .ok []
  | c :: cs => do
    validate c (valueDefault c)
    let l ← defaults cs
    .ok (valueDefault c :: l)

/-- parse_row_generate, parse_row.c:116-140 -/
def generate (cols : List Col) : Nat → Res (List (List V))
  | 0 => .ok []
  | n + 1 => do
    let r ← defaults cols
    let l ← generate cols n
    .ok (r :: l)

/-- the number of rows of GENERATE: parse_row_generate takes the 64-bit integer of the token as an `int`, parse_insert.c:240-241, parse_row.c:117; a
negative one gives no rows -/
def genCount (n : Nat) : Nat := (toSigned 32 (n % 2 ^ 32)).toNat

/-- parse_insert, parse_insert.c:206-262, after the name of the table: GENERATE, or VALUES with or without a column list (SELECT is left out) -/
def parseInsert (E : Env) (cols : List Col) (s : Bytes) : Res (List (List V) × Bytes) := do
  match ← ifTok (.kw kGENERATE) s with
  | some r => do
    let (t, r) ← lexNext true r
    match t with
    | .int n => do let rows ← generate cols (genCount n); .ok (rows, r)
    | _ => .error .err
  | none => do
    match ← ifTok (.sym 40) s with
    | some r => do
      let (l, r) ← columnList cols r
      let r ← expect (.kw kVALUES) r
      parseRows E cols (some l) (r.length + 1) r
    | none => do
      let r ← expect (.kw kVALUES) s
      parseRows E cols none (r.length + 1) r

/-! ## execution -/

/-- emit_insert_store, emit_insert.c:101-134, and cupdate_store, command.c:541-556: the expressions of the generated columns are computed from
the row as given, then all are stored. `gen i row`: the value of the expression of column `i`. -/
def storeGenerated (gen : Nat → List V → V) (cols : List Col) (row : List V) : List V :=
  (cols.zip row).zipIdx.map fun x => if x.1.1.stored then gen x.2 row else x.1.2

/-- row_get_identity, vm/value/row.h:17-44: the value of the first identity column (columns.h:59-61), drawn from the sequence for a NULL; 0 without one.
`draw`: the value a state of the sequence gives and its new state. Variables have been replaced by their values. -/
def identityOf {S : Type} (draw : S → Int × S) : List Col → List V → S → Int × S
  | c :: cs, v :: row, st =>
    if c.identity then
      match v with
      | .null => draw st
      | .int i => (i, st)
      | _ => (0, st)
    else identityOf draw cs row st
  | _, _, st => (0, st)

/-- the columns that row_create stores, value_data.h:55-63: an identity column has the identity of the row -/
def storeRow (id : Int) : List Col → List V → List V
  | c :: cs, v :: row => (if c.identity then .int id else v) :: storeRow id cs row
  | _, _ => []

/-- the request of a partition: dispatch_find and dispatch_add, command.c:50-67 -/
def addReq (p : Nat) (row : List V) : List (Nat × List (List V)) → List (Nat × List (List V))
  | [] => [(p, [row])]
  | (q, l) :: t => if q = p then (q, l ++ [row]) :: t else (q, l) :: addReq p row t

/-- csend_shard, command.c:24-100: the requests, one for each partition with rows. `part` is row_map for the row with its identity. -/
def shard {S : Type} (draw : S → Int × S) (cols : List Col) (part : List V → Nat) : List (List V) → S → List (Nat × List (List V)) → List (Nat × List (List V)) × S
  | [], st, reqs => (reqs, st)
  | row :: l, st, reqs =>
    let x := identityOf draw cols row st
    shard draw cols part l x.2 (addReq (part (storeRow x.1 cols row)) (storeRow x.1 cols row) reqs)

end Verif.Insert
