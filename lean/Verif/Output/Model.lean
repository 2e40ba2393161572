import Verif.Json.PropsText
import Verif.Func.Timestamp
import Verif.Codec.Uuid
/-!
# The body of a response: vm/output/output.c, output.h, output_json.c, and value_export of vm/value/json.h

A result set is the list of its rows in the order of its iterator. `config().limit_send` is a parameter.
-/
set_option autoImplicit false
set_option linter.unusedVariables false
namespace Verif.Output
open Verif Verif.Json Verif.Json.Text

/-- a value of a result: value.h, the types value_export accepts. JSON is the encoded document; a timestamp has the offset the
time zone gives for it; the floats of a vector are given as the doubles printf gets. -/
inductive Cell where
  | null
  | bool (i : Int)
  | int (i : Int)
  | dbl (bits : Nat)
  | str (s : Bytes)
  | json (doc : Bytes)
  | date (j : Int)
  | stamp (v : Int) (off : Option Int)
  | interval (iv : Func.Iv)
  | vec (l : List Nat)
  | uuid (u : Codec.Uuid)

/-- the loop of TYPE_VECTOR, value/json.h:208-216 -/
def vecText (L : Libc) : List Nat → Bytes
  | [] => []
  | r :: l => L.fmtG r ++ (if l.isEmpty then [] else [44, 32]) ++ vecText L l

/-- value_export, value/json.h:148-235. `deep` is 0, except for JSON in output_json_row_obj. -/
def cellText (L : Libc) (pretty : Bool) (deep : Nat) : Cell → Res Bytes
  | .null => .ok [110, 117, 108, 108]
  | .bool i => .ok (if i > 0 then [116, 114, 117, 101] else [102, 97, 108, 115, 101])
  | .int i => .ok (intText i)
  | .dbl r => .ok (L.fmtG r)
  | .str s => .ok ([34] ++ escape s ++ [34])
  | .json doc => (exportAs L pretty (doc.length + 1) deep doc).map Prod.fst
  | .date j => (Func.dateGet j).map fun t => [34] ++ t ++ [34]
  | .stamp v off => (Func.tsGet v off).map fun t => [34] ++ t ++ [34]
  | .interval iv => .ok ([34] ++ Func.ivGet iv ++ [34])
  | .vec l => .ok ([91] ++ vecText L l ++ [93])
  | .uuid u => .ok ([34] ++ Codec.uuidGet u ++ [34])

/-- struct Output, output.h:24-32, and config().limit_send -/
structure Out where
  libc : Libc
  pretty : Bool
  minimal : Bool
  limit : Nat

/-- output_ensure_limit, output.h:58-64 -/
def ensure (o : Out) (buf : Bytes) : Res Bytes := if buf.length ≥ o.limit then .error .err else .ok buf

/-- the loop of output_json_row_array, output_json.c:26-33; `first`: column->order is 0 -/
def arrayCells (o : Out) : Bool → List Cell → Bytes → Res Bytes
  | _, [], buf => .ok buf
  | first, c :: l, buf => do
    let t ← cellText o.libc o.pretty 0 c
    let buf ← ensure o (buf ++ (if first then [] else [44, 32]) ++ t)
    arrayCells o false l buf

/-- output_json_row_array, output_json.c:20-36 -/
def rowArray (o : Out) (names : List Bytes) (row : List Cell) (buf : Bytes) : Res Bytes := do
  let buf ← arrayCells o true row (buf ++ if names.length > 1 then [91] else [])
  .ok (buf ++ if names.length > 1 then [93] else [])

/-- the loops of output_json_row_obj, output_json.c:45-68 and 74-88 -/
def objCells (o : Out) : Bool → List (Bytes × Cell) → Bytes → Res Bytes
  | _, [], buf => .ok buf
  | first, (name, c) :: l, buf => do
    let sep : Bytes := if first then [] else if o.pretty then [44, 10] else [44, 32]
    let key : Bytes := (if o.pretty then [32, 32, 34] else [34]) ++ name ++ [34, 58, 32]
    let t ← cellText o.libc o.pretty (if o.pretty then 1 else 0) c
    let buf ← ensure o (buf ++ sep ++ key ++ t)
    objCells o false l buf

/-- output_json_row_obj, output_json.c:38-90 -/
def rowObj (o : Out) (names : List Bytes) (row : List Cell) (buf : Bytes) : Res Bytes := do
  let buf ← objCells o true (names.zip row) (buf ++ if o.pretty then [123, 10] else [123])
  .ok (buf ++ if o.pretty then [10, 125] else [125])

/-- one row, output_json.c:112-115, 126-129 -/
def rowText (o : Out) (names : List Bytes) (row : List Cell) (buf : Bytes) : Res Bytes :=
  if o.minimal then rowArray o names row buf else rowObj o names row buf

/-- the loop over a store, output_json.c:104-117 -/
def rowsText (o : Out) (names : List Bytes) : Bool → List (List Cell) → Bytes → Res Bytes
  | _, [], buf => .ok buf
  | first, row :: l, buf => do
    let buf ← rowText o names row (buf ++ if first then [] else [44, 32])
    rowsText o names false l buf

/-- a result: a set or union, or the values of an expression -/
inductive Result where
  | store (rows : List (List Cell))
  | values (row : List Cell)

/-- output_json_write, output_json.c:92-132, into an empty buffer (session_execute) -/
def writeJson (o : Out) (names : List Bytes) : Result → Res Bytes
  | .store rows => do let buf ← rowsText o names true rows [91]; .ok (buf ++ [93])
  | .values row => do let buf ← rowText o names row [91]; .ok (buf ++ [93])

/-- output_json_write_json, output_json.c:134-177, for a document -/
def writeDoc (o : Out) (column : Bytes) (doc : Bytes) (unwrap : Bool) : Res Bytes := do
  let t ← peek doc
  let wrap : Bool := !(unwrap && decide (t = tARRAY))
  let text ← (exportAs o.libc o.pretty (doc.length + 1) 0 doc).map Prod.fst
  let body : Bytes :=
    if o.minimal then text
    else [123] ++ (if o.pretty then [10, 32, 32, 34] else [34]) ++ column ++ [34, 58, 32] ++ text ++ (if o.pretty then [10] else []) ++ [125]
  .ok ((if wrap then [91] else []) ++ body ++ (if wrap then [93] else []))

/-- the text of the error that is written, output_json.c:190-202: over 512 bytes only the last 512 bytes, after "…\n" -/
def errorText (text : Bytes) : Bytes :=
  if text.length > 512 then [0xE2, 0x80, 0xA6, 10] ++ text.drop (text.length - 512) else text

/-- output_json_write_error, output_json.c:179-206: the document `{"msg": text}` is encoded and exported -/
def writeError (o : Out) (text : Bytes) : Res Bytes :=
  (exportAs o.libc false ((tOBJ :: (writeRaw [109, 115, 103] ++
    (if text.length > 512 then writeString32 (errorText text) else writeRaw text) ++ [tOBJ_END])).length + 1) 0
    (tOBJ :: (writeRaw [109, 115, 103] ++
    (if text.length > 512 then writeString32 (errorText text) else writeRaw text) ++ [tOBJ_END]))).map Prod.fst

end Verif.Output
