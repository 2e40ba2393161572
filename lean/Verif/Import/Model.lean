import Verif.Insert.Typed
/-!
# Rows sent to an endpoint: application/json, application/jsonl and text/csv

compiler/parser/parse_endpoint.c over the lexer and parse_value of Verif.Insert. The text of the request is read to the rows of the insert (or the
arguments of the function); what is done with the rows is that of C94. The relation itself has been found.
-/
set_option autoImplicit false
namespace Verif.Import
open Verif Verif.Json.Text Verif.Parse.Lex Verif.Insert

/-- parse_endpoint_column and the loop of parse_endpoint_set_columns, parse_endpoint.c:56-100: the orders of the columns of `columns=…`; the loop ends
at the first empty name. `last` is the order of the column before; each turn takes a name of at least one byte (fuel). -/
def columnLoop (cols : List Col) : Nat → Option Nat → Bytes → Res (List Nat)
  | 0, _, _ => .error .ub
  | f + 1, last, s =>
    let name := s.takeWhile (· ≠ 44)
    if name = [] then .ok []
    else match findCol name 0 cols with
      | none => .error .err
      | some i =>
        if last.any (fun j => decide (i ≤ j)) then .error .err
        else do
          let l ← columnLoop cols f (some i) ((s.dropWhile (· ≠ 44)).drop 1)
          .ok (i :: l)

/-- parse_endpoint_set_columns, parse_endpoint.c:70-100: none if there is no list -/
def setColumns (cols : List Col) (spec : Bytes) : Res (Option (List Nat)) :=
  if spec = [] then .ok none
  else do
    let l ← columnLoop cols (spec.length + 1) none spec
    .ok (some l)

/-- the comma after a value -/
def sep (need : Bool) (r : Bytes) : Res Bytes := if need then expect (.sym 44) r else .ok r

/-- import_row, parse_endpoint.c:137-185; `i` is the order of the first column, `list` the listed columns that are left -/
def importRow (E : Env) : Nat → List Col → Option (List Nat) → Bytes → Res (List V × Bytes)
  | _, [], _, s => .ok ([], s)
  | i, c :: cs, some l, s =>
    if l.head? = some i then do
      let (v, r) ← parseValue E c s
      validate c v
      let r ← sep (!l.tail.isEmpty) r
      let (row, r) ← importRow E (i + 1) cs (some l.tail) r
      .ok (v :: row, r)
    else do
      let (row, r) ← importRow E (i + 1) cs (some l) s
      .ok (valueDefault c :: row, r)
  | i, c :: cs, none, s =>
    if c.dropped then do
      let (row, r) ← importRow E (i + 1) cs none s
      .ok (.null :: row, r)
    else do
      let (v, r) ← parseValue E c s
      validate c v
      let r ← sep (!cs.isEmpty) r
      let (row, r) ← importRow E (i + 1) cs none r
      .ok (v :: row, r)

/-- stmt_if(self, KSTRING): the string and the text after it -/
def ifStr (s : Bytes) : Res (Option (Bytes × Bytes)) := do
  let (t, r) ← lexNext true s
  match t with
  | .str x _ => .ok (some (x, r))
  | _ => .ok none

/-- the value of a key, parse_endpoint.c:211-229; `cells`: the values so far (`match`) -/
def member (E : Env) (cols : List Col) (cells : List (Option V)) (key r : Bytes) : Res (List (Option V) × Bytes) := do
  let r ← expect (.sym 58) r
  match findCol key 0 cols with
  | none => .error .err
  | some i =>
    match cols[i]? with
    | none => .error .ub
    | some c =>
      if ((cells[i]?).getD none).isSome then .error .err
      else do
        let (v, r) ← parseValue E c r
        validate c v
        .ok (cells.set i (some v), r)

/-- the loop of import_obj, parse_endpoint.c:201-236 -/
def objLoop (E : Env) (cols : List Col) : Nat → List (Option V) → Bytes → Res (List (Option V) × Bytes)
  | 0, _, _ => .error .ub
  | f + 1, cells, s => do
    match ← ifStr s with
    | none => .ok (cells, s)
    | some (key, r) => do
      let (cells, r) ← member E cols cells key r
      match ← ifTok (.sym 44) r with
      | some r => objLoop E cols f cells r
      | none => .ok (cells, r)

/-- the loop over the columns without a value, parse_endpoint.c:241-252 -/
def fillDefaults : List Col → List (Option V) → Res (List V)
  | _ :: cs, some v :: cells => do
    let row ← fillDefaults cs cells
    .ok (v :: row)
  | c :: cs, none :: cells => do
    validate c (valueDefault c)
    let row ← fillDefaults cs cells
    .ok (valueDefault c :: row)
  | _, _ => .ok []

/-- import_obj, parse_endpoint.c:187-253 -/
def importObj (E : Env) (cols : List Col) (s : Bytes) : Res (List V × Bytes) := do
  let (cells, r) ← objLoop E cols (s.length + 1) (cols.map fun _ => none) s
  let row ← fillDefaults cols cells
  .ok (row, r)

/-- an object where a row is expected, parse_endpoint.c:260-276; `s` is the text from the brace on, `r` the text after it -/
def jsonObj (E : Env) (cols : List Col) (list : Option (List Nat)) (s r : Bytes) : Res (List V × Bytes) :=
  match list with
  | none => do
    let (row, r) ← importObj E cols r
    let r ← expect (.sym 125) r
    .ok (row, r)
  | some [] => do
    let (row, r) ← importRow E 0 cols (some []) r
    let r ← expect (.sym 125) r
    .ok (row, r)
  | some [i] => importRow E 0 cols (some [i]) s
  | some _ => .error .err

/-- import_json_row, parse_endpoint.c:255-282 -/
def importJsonRow (E : Env) (cols : List Col) (list : Option (List Nat)) (s : Bytes) : Res (List V × Bytes) := do
  match ← ifTok (.sym 123) s with
  | some r => jsonObj E cols list s r
  | none => do
    let r ← expect (.sym 91) s
    let (row, r) ← importRow E 0 cols list r
    let r ← expect (.sym 93) r
    .ok (row, r)

/-- the loops of import_jsonl and import_csv, parse_endpoint.c:284-294, 312-328: rows up to the end of the text. `fuel` bounds the turns. -/
def rowsToEof (one : Bytes → Res (List V × Bytes)) : Nat → Bytes → Res (List (List V) × Bytes)
  | 0, _ => .error .ub
  | f + 1, s => do
    let (row, r) ← one s
    match ← ifTok .eof r with
    | some r => .ok ([row], r)
    | none => do
      let (rows, r) ← rowsToEof one f r
      .ok (row :: rows, r)

/-- the loop of import_json, parse_endpoint.c:296-310 -/
def jsonLoop (one : Bytes → Res (List V × Bytes)) : Nat → Bytes → Res (List (List V) × Bytes)
  | 0, _ => .error .ub
  | f + 1, s => do
    let (row, r) ← one s
    match ← ifTok (.sym 44) r with
    | some r => do
      let (rows, r) ← jsonLoop one f r
      .ok (row :: rows, r)
    | none => do
      let r ← expect (.sym 93) r
      .ok ([row], r)

/-- the content types -/
inductive Content where
  | csv | jsonl | json
deriving DecidableEq

/-- import_csv, parse_endpoint.c:312-328 -/
def importCsv (E : Env) (cols : List Col) (list : Option (List Nat)) (fuel : Nat) (s : Bytes) : Res (List (List V) × Bytes) :=
  if list = some [] then .error .err else rowsToEof (importRow E 0 cols list) fuel s

/-- import_json, parse_endpoint.c:296-310 -/
def importJson (E : Env) (cols : List Col) (list : Option (List Nat)) (fuel : Nat) (s : Bytes) : Res (List (List V) × Bytes) := do
  let s ← expect (.sym 91) s
  jsonLoop (importJsonRow E cols list) fuel s

/-- the rows by content type, parse_endpoint.c:362-374 -/
def importRows (E : Env) (cols : List Col) (list : Option (List Nat)) (ct : Content) (fuel : Nat) (s : Bytes) : Res (List (List V) × Bytes) :=
  match ct with
  | .csv => importCsv E cols list fuel s
  | .jsonl => rowsToEof (importJsonRow E cols list) fuel s
  | .json => importJson E cols list fuel s

/-- "ensure there are no data left", parse_endpoint.c:376-378 -/
def atEof {α : Type} (x : α × Bytes) : Res α := do
  match ← ifTok .eof x.2 with
  | some _ => .ok x.1
  | none => .error .err

/-- import_insert, parse_endpoint.c:330-389: the rows of the insert for the text of a request; `spec` is the list of columns of the request -/
def importInsert (E : Env) (cols : List Col) (spec : Bytes) (ct : Content) (fuel : Nat) (s : Bytes) : Res (List (List V)) := do
  let list ← setColumns cols spec
  let x ← importRows E cols list ct fuel s
  atEof x

/-- the arguments by content type, parse_endpoint.c:412-423 -/
def importArgRows (E : Env) (cols : List Col) (list : Option (List Nat)) (ct : Content) (fuel : Nat) (s : Bytes) : Res (List (List V) × Bytes) :=
  match ct with
  | .csv => importCsv E cols list fuel s
  | .jsonl | .json => do
    let (row, r) ← importJsonRow E cols list s
    .ok ([row], r)

/-- import_execute, parse_endpoint.c:391-438: the arguments of a function -/
def importArgs (E : Env) (cols : List Col) (spec : Bytes) (ct : Content) (fuel : Nat) (s : Bytes) : Res (List (List V)) := do
  let list ← setColumns cols spec
  let x ← importArgRows E cols list ct fuel s
  atEof x

end Verif.Import
