import Verif.Json.Model
/-!
# Rows (db/row/row.h, vm/value/row.c, vm/value/value_data.h, vm/value/value_hash.h, db/row/compare.h)

A row is a block of bytes: `[u8 flags][u16 columns][size][index: one offset per column][data]`, where the
width of `size` and of an index entry is 1, 2 or 4 bytes.  Memory is a byte list; reads and writes outside of
the block are undefined behaviour.
-/
namespace Verif.Row
open Verif

/-- a store through a pointer: `bs` at offset `pos` of the block -/
def writeAt (buf : Bytes) (pos : Nat) (bs : Bytes) : Res Bytes :=
  if pos + bs.length ≤ buf.length then .ok (buf.take pos ++ (bs ++ buf.drop (pos + bs.length))) else .error .ub

/-- a load through a pointer: `n` bytes at offset `pos` -/
def readAt (buf : Bytes) (pos n : Nat) : Res Bytes :=
  if pos + n ≤ buf.length then .ok ((buf.drop pos).take n) else .error .ub

/-! ## Columns and values -/

/-- Column types, with their stored size: (column->type, column->type_size) as produced by type_read,
db/row/type.h:126-214.  Dates are `i32`-sized, timestamps `i64`-sized, booleans one byte. -/
inductive Ty where
  | bool | int8 | int16 | int32 | int64 | timestamp | date | float | double | interval | string | json | vector | uuid
deriving DecidableEq, Repr

/-- column->type_size, db/row/type.h:126-214; 0 means variable -/
def Ty.size : Ty → Nat
  | .bool | .int8 => 1
  | .int16 => 2
  | .int32 | .date | .float => 4
  | .int64 | .timestamp | .double => 8
  | .interval | .uuid => 16
  | .string | .json | .vector => 0

/-- struct Column, db/row/column.h:17-28 and Constraints, db/row/constraint.h:23-31
(only what is used to build a row) -/
structure Column where
  ty : Ty
  notNull : Bool := false
  identity : Bool := false
deriving DecidableEq, Repr

/-- struct Value, vm/value/value.h (the members a column can be given).  Floating point values are their
IEEE bit patterns, already in the precision of the column (the C conversion double → float of
value_data.h:104 is not modelled).  A vector is the list of the bit patterns of its elements. -/
inductive Val where
  | null
  | ref (i : Nat)
  | int (i : Int)            -- TYPE_BOOL, TYPE_INT, TYPE_TIMESTAMP, TYPE_DATE share value->integer
  | real (bits : Nat)
  | interval (m d us : Int)
  | str (s : Bytes)
  | json (doc : Bytes)
  | vector (l : List Nat)
  | uuid (a b : Nat)
deriving DecidableEq, Repr

/-- struct Vector {uint32_t size; float value[]}, runtime/lib/vector.h:16-20 -/
def vectorBytes (l : List Nat) : Bytes := leBytes 4 l.length ++ (l.map (leBytes 4)).flatten

/-- `if (self->type == TYPE_REF) self = &refs[self->integer]`, value_data.h:22-23, 59-60, value_hash.h:54-55 -/
def deref (refs : List Val) : Val → Res Val
  | .ref i => match refs[i]? with | some v => .ok v | none => .error .ub
  | v => .ok v

/-- value_data_size, vm/value/value_data.h:14-50 -/
def dataSize (refs : List Val) (c : Column) (v : Val) : Res Nat :=
  if c.identity then .ok c.ty.size
  else do
    let v ← deref refs v
    if v = .null then .ok 0
    else if c.ty.size > 0 then .ok c.ty.size
    else match v with
      | .str s => .ok (Json.writeRaw s).length
      | .json d => .ok d.length
      | .vector l => .ok (vectorBytes l).length
      | _ => .error .ub

/-- the switch of value_data_encode, vm/value/value_data.h:76-140: the bytes written for a value that is not
NULL.  Integers are converted to the width of the column (C conversion: reduced modulo 2^bits).
A value of a foreign type would read the wrong union member: undefined. -/
def encodeTy (ty : Ty) (v : Val) : Res Bytes :=
  match ty, v with
  | .bool, .int i | .int8, .int i => .ok (leBytes 1 (toUnsigned 8 i))
  | .int16, .int i => .ok (leBytes 2 (toUnsigned 16 i))
  | .int32, .int i | .date, .int i => .ok (leBytes 4 (toUnsigned 32 i))
  | .int64, .int i | .timestamp, .int i => .ok (leBytes 8 (toUnsigned 64 i))
  | .float, .real r => .ok (leBytes 4 r)
  | .double, .real r => .ok (leBytes 8 r)
  | .interval, .interval m d us =>
      .ok (leBytes 4 (toUnsigned 32 m) ++ (leBytes 4 (toUnsigned 32 d) ++ leBytes 8 (toUnsigned 64 us)))
  | .string, .str s => .ok (Json.writeRaw s)
  | .json, .json d => .ok d
  | .vector, .vector l => .ok (vectorBytes l)
  | .uuid, .uuid a b => .ok (leBytes 8 a ++ leBytes 8 b)
  | _, _ => .error .ub

/-- value_data_encode, vm/value/value_data.h:52-142; a `none` result: NULL, nothing written.
`identity = none` is the NULL pointer passed by row_update (vm/value/row.c:246); following it is undefined. -/
def encode (refs : List Val) (identity : Option Val) (c : Column) (v : Val) : Res (Option Bytes) := do
  let v ← deref refs v
  let v ← if c.identity then (match identity with | some i => .ok i | none => .error .ub) else .ok v
  if v = .null then
    if c.notNull then .error .err else .ok none
  else do
    let bs ← encodeTy c.ty v
    .ok (some bs)

/-! ## Row layout -/

/-- row_measure, db/row/row.h:126-146: (size_factor, size); 3 = sizeof(Row) -/
def rowMeasure (columns dataSize : Nat) : Nat × Nat :=
  let base := 3 + dataSize
  let size := base + 1 * (1 + columns)
  if size > 255 then
    let size := base + 2 * (1 + columns)
    if size > 65535 then (3, base + 4 * (1 + columns)) else (1, size)
  else (0, size)

/-- width of the size field and of an index entry, by size_factor (db/row/row.h:32-38, 44-48, 57-63) -/
def width (factor : Nat) : Nat := if factor = 0 then 1 else if factor = 1 then 2 else 4

/-- row_init, db/row/row.h:26-39: the bit-field byte is size_factor:2, is_delete:1, unused:5 -/
def rowInit (buf : Bytes) (columns factor size : Nat) : Res Bytes := do
  let buf ← writeAt buf 0 [factor % 4]
  let buf ← writeAt buf 1 (leBytes 2 columns)
  writeAt buf 3 (leBytes (width factor) size)

/-- self->size_factor -/
def rowFactor (row : Bytes) : Res Nat := do
  let b ← readAt row 0 1
  .ok (leNat b % 4)

/-- self->is_delete -/
def rowIsDelete (row : Bytes) : Res Bool := do
  let b ← readAt row 0 1
  .ok (leNat b / 4 % 2 = 1)

/-- self->columns -/
def rowColumns (row : Bytes) : Res Nat := do
  let b ← readAt row 1 2
  .ok (leNat b)

/-- row_size, db/row/row.h:41-49 -/
def rowSize (row : Bytes) : Res Nat := do
  let f ← rowFactor row
  let b ← readAt row 3 (width f)
  .ok (leNat b)

/-- row_at, db/row/row.h:51-67: offset of the column data from the start of the row, `none` for NULL -/
def rowAt (row : Bytes) (column : Nat) : Res (Option Nat) := do
  let n ← rowColumns row
  if column ≥ n then .ok none
  else do
    let f ← rowFactor row
    let b ← readAt row (3 + (1 + column) * width f) (width f)
    let offset := leNat b
    if offset = 0 then .ok none else .ok (some offset)

/-- row_set, db/row/row.h:88-98 -/
def rowSet (buf : Bytes) (factor column offset : Nat) : Res Bytes :=
  writeAt buf (3 + (1 + column) * width factor) (leBytes (width factor) offset)

/-- The loop of row_create, vm/value/row.c:36-45, and of row_update, vm/value/row.c:223-284, over the bytes
of each column (`none`: NULL).  The row is at offset 0 of the block; `pos` is the write position. -/
def fillLoop (factor : Nat) : List (Option Bytes) → Nat → Nat → Bytes → Res Bytes
  | [], _, _, buf => .ok buf
  | some bs :: cells, i, pos, buf => do
      let buf1 ← writeAt buf pos bs
      let buf2 ← rowSet buf1 factor i pos
      fillLoop factor cells (i + 1) (pos + bs.length) buf2
  | none :: cells, i, pos, buf => do
      let buf1 ← rowSet buf factor i 0
      fillLoop factor cells (i + 1) pos buf1

/-- row_allocate, db/heap/heap_row.h:15-22, and the fill loop.  `fresh n` is the (arbitrary) previous content
of the `n` bytes handed out by the heap; row_data, db/row/row.h:75-79, gives the first write position. -/
def rowBuild (fresh : Nat → Bytes) (dataSize : Nat) (cells : List (Option Bytes)) : Res Bytes := do
  let (factor, size) := rowMeasure cells.length dataSize
  let buf ← rowInit (fresh size) cells.length factor size
  fillLoop factor cells 0 (3 + (1 + cells.length) * (factor + 1)) buf

/-- sum of value_data_size, vm/value/row.c:25-31 -/
def totalSize (refs : List Val) : List (Column × Val) → Res Nat
  | [] => .ok 0
  | (c, v) :: t => do
      let n ← dataSize refs c v
      let m ← totalSize refs t
      .ok (n + m)

/-- value_data_encode of each column.  Simplification: the bytes of all columns are computed before any is
written (an error abandons the row in either order). -/
def encodeAll (refs : List Val) (identity : Option Val) : List (Column × Val) → Res (List (Option Bytes))
  | [] => .ok []
  | (c, v) :: t => do
      let b ← encode refs identity c v
      let bs ← encodeAll refs identity t
      .ok (b :: bs)

/-- row_create, vm/value/row.c:19-47; the i-th pair is the column with order i and its value -/
def rowCreate (fresh : Nat → Bytes) (refs : List Val) (identity : Val) (cols : List (Column × Val)) : Res Bytes := do
  let size ← totalSize refs cols
  let cells ← encodeAll refs (some identity) cols
  rowBuild fresh size cells

/-! ## Reading a column -/

/-- Element loop of a stored vector (the VM keeps a pointer to the stored struct; modelled as reading it). -/
def readWords : Nat → Bytes → Res (List Nat)
  | 0, _ => .ok []
  | n + 1, bs => do
      let (w, r) ← readN 4 bs
      let l ← readWords n r
      .ok (leNat w :: l)

/-- ctable_readb … ctable_readu, vm/vm/vm.c:1638-1754, with the operation chosen by the column type
(compiler/compiler/emit_expr.c:125-181): the value read at `bs`, the memory from the column data on. -/
def decodeTy (ty : Ty) (bs : Bytes) : Res Val :=
  match ty with
  | .bool | .int8 => do let (b, _) ← readN 1 bs; .ok (.int (toSigned 8 (leNat b)))
  | .int16 => do let (b, _) ← readN 2 bs; .ok (.int (toSigned 16 (leNat b)))
  | .int32 | .date => do let (b, _) ← readN 4 bs; .ok (.int (toSigned 32 (leNat b)))
  | .int64 | .timestamp => do let (b, _) ← readN 8 bs; .ok (.int (toSigned 64 (leNat b)))
  | .float => do let (b, _) ← readN 4 bs; .ok (.real (leNat b))
  | .double => do let (b, _) ← readN 8 bs; .ok (.real (leNat b))
  | .interval => do
      let (m, r) ← readN 4 bs
      let (d, r) ← readN 4 r
      let (us, _) ← readN 8 r
      .ok (.interval (toSigned 32 (leNat m)) (toSigned 32 (leNat d)) (toSigned 64 (leNat us)))
  | .string => do let (s, _) ← Json.readRaw bs; .ok (.str s)
  | .json => do let n ← Json.sizeof bs; .ok (.json (bs.take n))
  | .vector => do
      let (n, r) ← readN 4 bs
      let l ← readWords (leNat n) r
      .ok (.vector l)
  | .uuid => do
      let (a, r) ← readN 8 bs
      let (b, _) ← readN 8 r
      .ok (.uuid (leNat a) (leNat b))

/-- read column `i` of type `ty` from the memory that starts with the row (more memory may follow):
vm/vm/vm.c:1638-1754 -/
def readColumn (mem : Bytes) (i : Nat) (ty : Ty) : Res Val := do
  match ← rowAt mem i with
  | none => .ok .null
  | some off => decodeTy ty (mem.drop off)

/-! ## row_update -/

/-- size in bytes of the stored value of a column that is not updated: vm/value/row.c:195-215
(row_update_prepare) and :265-281 (row_update) -/
def storedSize (ty : Ty) (bs : Bytes) : Res Nat :=
  if ty.size > 0 then .ok ty.size
  else match ty with
    | .vector => do let (n, _) ← readN 4 bs; .ok (4 + leNat n * 4)
    | _ => Json.sizeof bs

/-- the bytes of each column of the new row: vm/value/row.c:223-284.  `upd` is the `[order, value, ...]`
list; an entry is used when its order is the one of the current column (entries must be in column order:
`if (order < count && values[order * 2].integer == column->order)`). -/
def updateCells (src : Bytes) : List Column → Nat → List (Nat × Val) → Res (List (Option Bytes))
  | [], _, _ => .ok []
  | c :: cs, i, upd => do
      match upd with
      | (o, v) :: upd' =>
        if o = i then do
          let b ← encode [] none c v
          let bs ← updateCells src cs (i + 1) upd'
          .ok (b :: bs)
        else keep c cs i upd
      | [] => keep c cs i upd
where
  keep (c : Column) (cs : List Column) (i : Nat) (upd : List (Nat × Val)) : Res (List (Option Bytes)) := do
    match ← rowAt src i with
    | none => do
        let bs ← updateCells src cs (i + 1) upd
        .ok (none :: bs)
    | some off => do
        let n ← storedSize c.ty (src.drop off)
        let b ← readAt src off n
        let bs ← updateCells src cs (i + 1) upd
        .ok (some b :: bs)

/-- row_update, vm/value/row.c:211-287.  Simplifications: the data size computed by row_update_prepare
(167-209) is the total of the columns' bytes, which is what its loop adds up. -/
def rowUpdate (fresh : Nat → Bytes) (src : Bytes) (cols : List Column) (upd : List (Nat × Val)) : Res Bytes := do
  let cells ← updateCells src cols 0 upd
  rowBuild fresh ((cells.map (fun c => (c.getD []).length)).sum) cells

/-! ## Keys: comparison, hashing, search keys -/

/-- struct Key, db/row/key.h:16-23: the key column (its order in the row) and its type; the position of the
key in the list is key->order (keys_add, db/row/keys.h:50-63). `asc` is not consulted by compare(). -/
structure Key where
  col : Nat
  ty : Ty
deriving DecidableEq, Repr

/-- memory at row_column(row, column); following the NULL pointer of a NULL column is undefined -/
def keyPtr (row : Bytes) (k : Key) : Res Bytes := do
  match ← rowAt row k.col with
  | none => .error .ub
  | some off => .ok (row.drop off)

/-- `*(intN_t*)p` -/
def loadInt (w : Nat) (p : Bytes) : Res Int := do
  let (b, _) ← readN w p
  .ok (toSigned (8 * w) (leNat b))

/-- the four branches of compare, db/row/compare.h:20-44, with compare_int64/compare_int32 and uuid_compare
(runtime/lib/uuid.h:37-44), json_compare_string (runtime/json/json_compare.h:30-44).
The result of memcmp is reduced to -1, 0, 1. -/
def cmpKey (ty : Ty) (pa pb : Bytes) : Res Int :=
  if ty.size = 8 then do
    let a ← loadInt 8 pa
    let b ← loadInt 8 pb
    .ok (Json.cmpInt a b)
  else if ty.size = 4 then do
    let a ← loadInt 4 pa
    let b ← loadInt 4 pb
    .ok (Json.cmpInt a b)
  else if ty.size = 16 then do
    let (a1, ra) ← readN 8 pa
    let (b1, rb) ← readN 8 pb
    let rc := Json.cmpInt (leNat a1) (leNat b1)
    if rc ≠ 0 then .ok rc
    else do
      let (a2, _) ← readN 8 ra
      let (b2, _) ← readN 8 rb
      .ok (Json.cmpInt (leNat a2) (leNat b2))
  else do
    let (a, _) ← Json.readRaw pa
    let (b, _) ← Json.readRaw pb
    .ok (Json.cmpStr a b)

/-- compare, db/row/compare.h:14-48 -/
def compare : List Key → Bytes → Bytes → Res Int
  | [], _, _ => .ok 0
  | k :: ks, a, b => do
      let pa ← keyPtr a k
      let pb ← keyPtr b k
      let rc ← cmpKey k.ty pa pb
      if rc ≠ 0 then .ok rc else compare ks a b

/-! murmur3, runtime/lib/hash.h:42-84: 32-bit arithmetic -/

def m32 (x : Nat) : Nat := x % 4294967296

/-- hash_murmur_scramble, runtime/lib/hash.h:42-49 -/
def scramble (k : Nat) : Nat :=
  let k := m32 (k * 0xcc9e2d51)
  let k := m32 (k <<< 15 ||| k >>> 17)
  m32 (k * 0x1b873593)

/-- the 4-byte block loop, runtime/lib/hash.h:57-64; returns the tail -/
def murmurBlocks : Nat → Bytes → Nat → Nat × Bytes
  | 0, key, h => (h, key)
  | n + 1, key, h =>
      let h := h ^^^ scramble (leNat (key.take 4))
      let h := m32 (h <<< 13 ||| h >>> 19)
      let h := m32 (h * 5 + 0xe6546b64)
      murmurBlocks n (key.drop 4) h

/-- hash_murmur3_32, runtime/lib/hash.h:51-84 -/
def murmur (key : Bytes) (seed : Nat) : Nat :=
  let (h, tail) := murmurBlocks (key.length / 4) key seed
  let h := h ^^^ scramble (leNat tail)
  let h := h ^^^ m32 key.length
  let h := h ^^^ (h >>> 16)
  let h := m32 (h * 0x85ebca6b)
  let h := h ^^^ (h >>> 13)
  let h := m32 (h * 0xc2b2ae35)
  h ^^^ (h >>> 16)

/-- row_hash, db/row/row.h:106-124, with the seed of the loop as argument -/
def rowHash : List Key → Bytes → Nat → Res Nat
  | [], _, seed => .ok seed
  | k :: ks, row, seed => do
      let p ← keyPtr row k
      let bytes ← (if k.ty.size > 0 then do let (b, _) ← readN k.ty.size p; .ok b
                   else do let (s, _) ← Json.readRaw p; .ok s : Res Bytes)
      rowHash ks row (murmur bytes seed)

/-- the bytes hashed by value_hash, vm/value/value_hash.h:14-45: chosen by the type of the value and
column->type_size == 4 -/
def valueHashBytes (ty : Ty) : Val → Res Bytes
  | .int i => .ok (if ty.size = 4 then leBytes 4 (toUnsigned 32 i) else leBytes 8 (toUnsigned 64 i))
  | .uuid a b => .ok (leBytes 8 a ++ leBytes 8 b)
  | .str s => .ok s
  | _ => .error .ub

/-- value_hash_refs, vm/value/value_hash.h:47-60 -/
def valueHashRefs (refs : List Val) (identity : Val) (c : Column) (v : Val) (seed : Nat) : Res Nat := do
  let v ← deref refs v
  let v := if v = .null ∧ c.identity = true then identity else v
  let bs ← valueHashBytes c.ty v
  .ok (murmur bs seed)

/-- value_hash_row, vm/value/value_hash.h:62-76: hash of the values of a row to be inserted -/
def valueHashRow (refs : List Val) (identity : Val) : List Key → List (Column × Val) → Nat → Res Nat
  | [], _, seed => .ok seed
  | k :: ks, cols, seed =>
      match cols[k.col]? with
      | none => .error .ub
      | some (c, v) => do
          let h ← valueHashRefs refs identity c v seed
          valueHashRow refs identity ks cols h

/-- value_hash_keys, vm/value/value_hash.h:78-92: hash of the key values of a point lookup -/
def valueHashKeys : List Key → List Val → Nat → Res Nat
  | [], _, seed => .ok seed
  | _ :: _, [], _ => .error .ub
  | k :: ks, v :: vs, seed => do
      let bs ← valueHashBytes k.ty v
      valueHashKeys ks vs (murmur bs seed)

/-- The bytes written for key number `o` by row_create_key, vm/value/row.c:95-160: the given value, or for
the keys that are not given the smallest string, INT32_MIN, INT64_MIN, a zero timestamp or a zero uuid. -/
def keyBytes (values : List Val) (o : Nat) (ty : Ty) : Res Bytes :=
  match values[o]? with
  | some v => encodeTy ty v
  | none =>
    match ty with
    | .string => .ok (Json.writeRaw [])
    | .int32 => .ok (leBytes 4 (toUnsigned 32 (-2147483648)))
    | .int64 => .ok (leBytes 8 (toUnsigned 64 (-9223372036854775808)))
    | .timestamp => .ok (leBytes 8 (toUnsigned 64 0))
    | .uuid => .ok (leBytes 8 0 ++ leBytes 8 0)
    | _ => .error .ub

/-- keys_find_column, db/row/keys.h: the key (with its order) on a column -/
def findKey (col : Nat) : List Key → Nat → Option (Nat × Key)
  | [], _ => none
  | k :: ks, o => if k.col = col then some (o, k) else findKey col ks (o + 1)

/-- the size loop of row_create_key, vm/value/row.c:54-78 -/
def keySizes (values : List Val) : List Key → Nat → Res Nat
  | [], _ => .ok 0
  | k :: ks, o => do
      let bs ← keyBytes values o k.ty
      let n ← keySizes values ks (o + 1)
      .ok (bs.length + n)

/-- the write loop of row_create_key, vm/value/row.c:81-162, over columns `i, i+1, ...` (n of them) -/
def keyCells (keys : List Key) (values : List Val) : Nat → Nat → Res (List (Option Bytes))
  | 0, _ => .ok []
  | n + 1, i => do
      match findKey i keys 0 with
      | none => do
          let cs ← keyCells keys values n (i + 1)
          .ok (none :: cs)
      | some (o, k) => do
          let b ← keyBytes values o k.ty
          let cs ← keyCells keys values n (i + 1)
          .ok (some b :: cs)

/-- row_create_key, vm/value/row.c:49-165; `values.length` is the argument `count` -/
def rowCreateKey (fresh : Nat → Bytes) (columns : Nat) (keys : List Key) (values : List Val) : Res Bytes := do
  let size ← keySizes values keys 0
  let cells ← keyCells keys values columns 0
  rowBuild fresh size cells

end Verif.Row
