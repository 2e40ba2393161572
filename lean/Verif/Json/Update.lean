import Verif.Json.Model
import Verif.Json.TextModel
/-!
# JSON functions: set(), unset(), append(), push(), pop(), pop_back(), put(), remove()

vm/value/update.c, vm/value/json_array.h, vm/func/fn_json.c. `nv` is the encoded form of the new value (value_encode,
vm/value/json.h:14-86).
-/
set_option linter.unusedVariables false
namespace Verif.Json
open Verif Verif.Json.Text

/-- the loop of update_read, update.c:58-66: the characters up to the next dot and what follows (from the dot on) -/
def readName : Bytes → Res (Bytes × Bytes)
  | [] => .ok ([], [])
  | c :: t =>
    if c = 46 then .ok ([], c :: t)
    else if isSpace c then .error .err
    else do let (n, r) ← readName t; .ok (c :: n, r)

/-- update_read, update.c:51-72: the next name of the path and the rest of the path -/
def updateRead (path : Bytes) : Res (Bytes × Bytes) :=
  if path = [] then .error .err
  else do
    let (n, r) ← readName path
    if n = [] then .error .err else .ok (n, r.drop 1)

mutual
/-- update_set_next, update.c:112-167: what it writes, and pos, path, found afterwards -/
def setNext (nv : Bytes) : Nat → Bytes → Bytes → Bool → Res (Bytes × Bytes × Bytes × Bool)
  | 0, _, _, _ => .error .ub
  | f + 1, pos, path, found => do
    let (key, path) ← updateRead path
    let r ← readObj pos
    let (out, r, path, found) ← setLoop nv f key r path found
    if found then .ok (tOBJ :: (out ++ [tOBJ_END]), r, path, found)
    else if path ≠ [] then .error .err
    else .ok (tOBJ :: (out ++ (writeRaw key ++ (nv ++ [tOBJ_END]))), r, path, found)
/-- its loop over the fields, update.c:125-153 -/
def setLoop (nv : Bytes) : Nat → Bytes → Bytes → Bytes → Bool → Res (Bytes × Bytes × Bytes × Bool)
  | 0, _, _, _, _ => .error .ub
  | f + 1, key, pos, path, found => do
    match ← readObjEnd pos with
    | some r => .ok ([], r, path, found)
    | none => do
      let (at_, r) ← readRaw pos
      if found = false ∧ key = at_ then
        if path ≠ [] then do
          let (o, r, path, found) ← setNext nv f r path found
          let (o2, r, path, found) ← setLoop nv f key r path found
          .ok (writeRaw at_ ++ (o ++ o2), r, path, found)
        else do
          let r ← skip r
          let (o2, r, path, found) ← setLoop nv f key r path true
          .ok (writeRaw at_ ++ (nv ++ o2), r, path, found)
      else do
        let r' ← skip r
        let (o2, q, path, found) ← setLoop nv f key r' path found
        .ok (writeRaw at_ ++ (r.take (r.length - r'.length) ++ o2), q, path, found)
end

/-- update_set, update.c:169-178 (fn_set checks that the document is an object) -/
def updateSet (json path nv : Bytes) : Res Bytes := do
  let (out, _, _, _) ← setNext nv (json.length + 1) json path false
  .ok out

mutual
/-- update_unset_next, update.c:74-110 -/
def unsetNext : Nat → Bytes → Bytes → Res (Bytes × Bytes × Bytes)
  | 0, _, _ => .error .ub
  | f + 1, pos, path => do
    let (key, path) ← updateRead path
    let r ← readObj pos
    let (out, r, path) ← unsetLoop f key r path
    .ok (tOBJ :: (out ++ [tOBJ_END]), r, path)
/-- its loop over the fields, update.c:87-108 -/
def unsetLoop : Nat → Bytes → Bytes → Bytes → Res (Bytes × Bytes × Bytes)
  | 0, _, _, _ => .error .ub
  | f + 1, key, pos, path => do
    match ← readObjEnd pos with
    | some r => .ok ([], r, path)
    | none => do
      let (at_, r) ← readRaw pos
      if key = at_ then
        if path ≠ [] then do
          let (o, r, path) ← unsetNext f r path
          let (o2, r, path) ← unsetLoop f key r path
          .ok (writeRaw at_ ++ (o ++ o2), r, path)
        else do
          let r ← skip r
          unsetLoop f key r path
      else do
        let r' ← skip r
        let (o2, q, path) ← unsetLoop f key r' path
        .ok (writeRaw at_ ++ (r.take (r.length - r'.length) ++ o2), q, path)
end

/-- update_unset, update.c:180-189 -/
def updateUnset (json path : Bytes) : Res Bytes := do
  let (out, _, _) ← unsetNext (json.length + 1) json path
  .ok out

/-! ## arrays: vm/value/json_array.h; `json` is the whole document (json_size bytes) -/

/-- value_array_append, json_array.h:29-42 -/
def arrayAppend (json : Bytes) (nvs : List Bytes) : Bytes := json.take (json.length - 1) ++ (nvs.flatten ++ [tARRAY_END])

/-- value_array_push, json_array.h:44-57 -/
def arrayPush (json : Bytes) (nvs : List Bytes) : Bytes := tARRAY :: (nvs.flatten ++ json.drop 1)

/-- value_array_pop, json_array.h:59-71 -/
def arrayPop (json : Bytes) : Res Bytes := do
  let pos ← readArray json
  let t ← peek pos
  if t = tARRAY_END then .ok (tARRAY :: pos) else do let pos ← skip pos; .ok (tARRAY :: pos)

/-- value_array_pop_back, json_array.h:73-84 -/
def arrayPopBack (json : Bytes) : Res Bytes := do
  match ← arrayLast json with
  | some pos => .ok (json.take (json.length - pos.length) ++ [tARRAY_END])
  | none => .ok [tARRAY, tARRAY_END]

/-- a C `int` made from an int64_t argument -/
def toInt32 (i : Int) : Int := toSigned 32 (toUnsigned 32 i)

/-- the loop of value_array_put, json_array.h:99-110: the output and the number of elements -/
def putLoop (idx : Int) (nv : Bytes) : Nat → Int → Bytes → Res (Bytes × Int)
  | 0, _, _ => .error .ub
  | f + 1, i, pos => do
    match ← readArrayEnd pos with
    | some _ => .ok ([], i)
    | none => do
      let r ← skip pos
      let (out, n) ← putLoop idx nv f (i + 1) r
      .ok ((if i = idx then nv else pos.take (pos.length - r.length)) ++ out, n)

/-- value_array_put, json_array.h:86-118; the index is an int64_t that fn_put passes as an int -/
def arrayPut (json : Bytes) (index : Int) (nv : Bytes) : Res Bytes := do
  let r ← readArray json
  let (out, n) ← putLoop (toInt32 index) nv json.length 0 r
  if toInt32 index < 0 ∨ n ≤ toInt32 index then .error .err else .ok (tARRAY :: (out ++ [tARRAY_END]))

/-- the loop of value_array_remove, json_array.h:129-137 -/
def removeLoop (idx : Int) : Nat → Int → Bytes → Res (Bytes × Int)
  | 0, _, _ => .error .ub
  | f + 1, i, pos => do
    match ← readArrayEnd pos with
    | some _ => .ok ([], i)
    | none => do
      let r ← skip pos
      let (out, n) ← removeLoop idx f (i + 1) r
      .ok ((if i ≠ idx then pos.take (pos.length - r.length) else []) ++ out, n)

/-- value_array_remove, json_array.h:120-144 -/
def arrayRemove (json : Bytes) (index : Int) : Res Bytes := do
  let r ← readArray json
  let (out, n) ← removeLoop (toInt32 index) json.length 0 r
  if toInt32 index < 0 ∨ n ≤ toInt32 index then .error .err else .ok (tARRAY :: (out ++ [tARRAY_END]))

end Verif.Json
