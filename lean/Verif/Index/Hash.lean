import Verif.Index.TreeHistory
import Verif.Row.Model
/-!
# Hash index (open addressing, incremental resize)

db/index/hash_store.h, hash.h, hash_iterator.h, index_hash.c, index_hash_merge.h
-/
set_option linter.unusedSimpArgs false
namespace Verif.Index.Hash
open Verif.Index (lookup others)
variable {R : Type}

/-- an element of `Row** rows`: NULL, HT_DELETED or a row; hash_store.h:15 -/
inductive Slot (R : Type) where
  | empty
  | deleted
  | row (r : R)
deriving DecidableEq

/-- HashStore, hash_store.h:17-23; `size` is the length of the array. `count` is uint64_t; it is never decremented
below zero because every decrement removes a stored row. -/
structure Store (R : Type) where
  slots : List (Slot R)
  count : Nat
deriving DecidableEq

def Store.size (s : Store R) : Nat := s.slots.length

/-- rows[pos] -/
def Store.at (s : Store R) (pos : Nat) : Slot R := s.slots.getD pos .empty

/-- hash_store_create, hash_store.h:54-62 -/
def Store.create (size : Nat) : Store R := ⟨List.replicate size .empty, 0⟩

/-- hash_store_is_full, hash_store.h:48-52 -/
def Store.isFull (s : Store R) : Bool := decide (s.count > s.size / 2)

/-- errors: "hashtable overflow" (error()), and reads outside of an array -/
inductive HErr where
  | overflow
  | outOfBounds
deriving DecidableEq

/-- The probing loop `do { .. pos = (pos + 1) % size } while (start != pos)` shared by hash_store_set, _delete and
_get (hash_store.h:64-150): visits start, start+1, .. modulo the size, `n` positions in total, and stops at the first
slot for which the loop body leaves the loop. -/
def probe (stop : Slot R → Bool) (slots : List (Slot R)) (start : Nat) : Nat → Nat → Option Nat
  | 0, _ => none
  | n + 1, d =>
      let pos := (start + d) % slots.length
      if stop (slots.getD pos .empty) then some pos else probe stop slots start n (d + 1)

/-- the exits of the loop of hash_store_set: free slot, tombstone, or equal key; hash_store.h:71-83 -/
def stopSet (cmp : R → R → Int) (key : R) : Slot R → Bool
  | .empty => true
  | .deleted => true
  | .row r => decide (cmp r key = 0)

/-- the exits of the loops of hash_store_delete and hash_store_get: free slot or equal key; hash_store.h:99-110,
122-141 -/
def stopGet (cmp : R → R → Int) (key : R) : Slot R → Bool
  | .empty => true
  | .deleted => false
  | .row r => decide (cmp r key = 0)

/-- hash_store_set, hash_store.h:64-92 -/
def Store.set (hash : R → Nat) (cmp : R → R → Int) (s : Store R) (key : R) : Except HErr (Option R × Store R) :=
  match probe (stopSet cmp key) s.slots (hash key % s.size) s.size 0 with
  | none => .error .overflow
  | some pos =>
    match s.at pos with
    | .row r => .ok (some r, { s with slots := s.slots.set pos (.row key) })
    | _ => .ok (none, ⟨s.slots.set pos (.row key), s.count + 1⟩)

/-- hash_store_delete, hash_store.h:94-118 -/
def Store.delete (hash : R → Nat) (cmp : R → R → Int) (s : Store R) (key : R) : Option R × Store R :=
  match probe (stopGet cmp key) s.slots (hash key % s.size) s.size 0 with
  | none => (none, s)
  | some pos =>
    match s.at pos with
    | .row r => (some r, ⟨s.slots.set pos .deleted, s.count - 1⟩)
    | _ => (none, s)

/-- hash_store_get, hash_store.h:120-151: the row and `*at` -/
def Store.get (hash : R → Nat) (cmp : R → R → Int) (s : Store R) (key : R) : Except HErr (Option R × Nat) :=
  match probe (stopGet cmp key) s.slots (hash key % s.size) s.size 0 with
  | none => .error .overflow
  | some pos =>
    match s.at pos with
    | .row r => .ok (some r, pos)
    | _ => .ok (none, pos)

/-- hash_store_next, hash_store.h:153-169, as a loop over the slots from position `at`; `none` is `*at = UINT64_MAX` -/
def nextFrom : List (Slot R) → Nat → Option (R × Nat)
  | [], _ => none
  | .row r :: _, at_ => some (r, at_)
  | _ :: l, at_ => nextFrom l (at_ + 1)

def Store.next (s : Store R) (at_ : Nat) : Option (R × Nat) := nextFrom (s.slots.drop at_) at_

/-- Hash, hash.h:16-24; `prev ≠ none` is `rehashing`. -/
structure Hash (R : Type) where
  current : Store R
  prev : Option (Store R)
  pos : Nat
deriving DecidableEq

/-- hash_create, hash.h:46-52 -/
def Hash.create : Hash R := ⟨Store.create 256, none, 0⟩

/-- hash_rehash_start, hash.h:54-66 -/
def Hash.rehashStart (h : Hash R) : Hash R := ⟨Store.create (h.current.size * 2), some h.current, 0⟩

/-- the loop of hash_rehash, hash.h:72-88: the position of the next row to move -/
def rehashFind (p : Store R) : Nat → Nat → Option (R × Nat)
  | 0, _ => none
  | n + 1, pos =>
    match p.at pos with
    | .row r => some (r, pos)
    | _ => rehashFind p n (pos + 1)

/-- hash_rehash, hash.h:68-95 -/
def Hash.rehash (hash : R → Nat) (cmp : R → R → Int) (h : Hash R) : Except HErr (Hash R) :=
  match h.prev with
  | none => .ok h
  | some p =>
    match rehashFind p (p.size - h.pos) h.pos with
    | some (r, pos) =>
      match h.current.set hash cmp r with
      | .error e => .error e
      | .ok (_, cur) => .ok ⟨cur, some ⟨p.slots.set pos .empty, p.count - 1⟩, pos + 1⟩
    | none => .ok ⟨h.current, none, h.pos⟩

/-- `if (hash_store_is_full(current)) { hash_rehash_start; hash_rehash }`, hash.h:112-116, 160-164 -/
def Hash.grow (hash : R → Nat) (cmp : R → R → Int) (h : Hash R) : Except HErr (Hash R) :=
  if h.current.isFull then h.rehashStart.rehash hash cmp else .ok h

/-- hash_set, hash.h:97-119 -/
def Hash.set (hash : R → Nat) (cmp : R → R → Int) (h : Hash R) (key : R) : Except HErr (Option R × Hash R) :=
  match h.prev with
  | some p =>
    match h.current.set hash cmp key with
    | .error e => .error e
    | .ok (old, cur) =>
      match old with
      | some o =>
        match Hash.rehash hash cmp ⟨cur, some p, h.pos⟩ with
        | .error e => .error e
        | .ok h' => .ok (some o, h')
      | none =>
        let (o, p') := p.delete hash cmp key
        match Hash.rehash hash cmp ⟨cur, some p', h.pos⟩ with
        | .error e => .error e
        | .ok h' => .ok (o, h')
  | none =>
    match h.current.set hash cmp key with
    | .error e => .error e
    | .ok (old, cur) =>
      match Hash.grow hash cmp { h with current := cur } with
      | .error e => .error e
      | .ok h' => .ok (old, h')

/-- hash_get_or_set, hash.h:121-168: existed?, `*pos`, new state -/
def Hash.getOrSet (hash : R → Nat) (cmp : R → R → Int) (h : Hash R) (key : R) : Except HErr (Bool × Nat × Hash R) :=
  match h.prev with
  | some p =>
    match h.current.get hash cmp key with
    | .error e => .error e
    | .ok (some _, pos) =>
      match h.rehash hash cmp with
      | .error e => .error e
      | .ok h' => .ok (true, pos, h')
    | .ok (none, pos) =>
      match p.get hash cmp key with
      | .error e => .error e
      | .ok (some r, ppos) =>
        match Hash.rehash hash cmp ⟨⟨h.current.slots.set pos (.row r), h.current.count + 1⟩,
            some ⟨p.slots.set ppos .empty, p.count - 1⟩, h.pos⟩ with
        | .error e => .error e
        | .ok h' => .ok (true, pos, h')
      | .ok (none, _) =>
        match Hash.rehash hash cmp ⟨⟨h.current.slots.set pos (.row key), h.current.count + 1⟩, some p, h.pos⟩ with
        | .error e => .error e
        | .ok h' => .ok (false, pos, h')
  | none =>
    match h.current.get hash cmp key with
    | .error e => .error e
    | .ok (some _, pos) =>
      match h.grow hash cmp with
      | .error e => .error e
      | .ok h' => .ok (true, pos, h')
    | .ok (none, pos) =>
      match Hash.grow hash cmp { h with current := ⟨h.current.slots.set pos (.row key), h.current.count + 1⟩ } with
      | .error e => .error e
      | .ok h' => .ok (false, pos, h')

/-- hash_delete, hash.h:170-184 -/
def Hash.delete (hash : R → Nat) (cmp : R → R → Int) (h : Hash R) (key : R) : Except HErr (Option R × Hash R) :=
  match h.prev with
  | some p =>
    match h.current.delete hash cmp key with
    | (some o, cur) =>
      match Hash.rehash hash cmp ⟨cur, some p, h.pos⟩ with
      | .error e => .error e
      | .ok h' => .ok (some o, h')
    | (none, cur) =>
      let (o, p') := p.delete hash cmp key
      match Hash.rehash hash cmp ⟨cur, some p', h.pos⟩ with
      | .error e => .error e
      | .ok h' => .ok (o, h')
  | none =>
    let (o, cur) := h.current.delete hash cmp key
    .ok (o, { h with current := cur })

/-- HashIterator, hash_iterator.h:16-22; `inPrev`: current_store == hash->prev. -/
structure Iter (R : Type) where
  current : Option R
  inPrev : Bool
  pos : Nat
deriving DecidableEq

/-- point lookup of hash_iterator_open, hash_iterator.h:24-51 -/
def openKey (hash : R → Nat) (cmp : R → R → Int) (h : Hash R) (key : R) : Except HErr (Iter R) :=
  match h.current.get hash cmp key with
  | .error e => .error e
  | .ok (some r, pos) => .ok ⟨some r, false, pos⟩
  | .ok (none, pos) =>
    match h.prev with
    | none => .ok ⟨none, false, pos⟩
    | some p =>
      match p.get hash cmp key with
      | .error e => .error e
      | .ok (some r, pos) => .ok ⟨some r, true, pos⟩
      | .ok (none, pos) => .ok ⟨none, true, pos⟩

/-- result of a hash_store_next as an iterator state -/
def iterAt (inPrev : Bool) : Option (R × Nat) → Iter R
  | some (r, pos) => ⟨some r, inPrev, pos⟩
  | none => ⟨none, inPrev, 2 ^ 64 - 1⟩

/-- full scan of hash_iterator_open, hash_iterator.h:53-72 -/
def openScan (h : Hash R) : Iter R :=
  match h.prev with
  | some p =>
    match h.current.next 0 with
    | some x => iterAt false (some x)
    | none => iterAt true (p.next 0)
  | none => if h.current.count = 0 then ⟨none, false, 0⟩ else iterAt false (h.current.next 0)

/-- hash_iterator_open_at, hash_iterator.h:74-81: `rows[pos]` of the current store. The C code reads a Row*: NULL is
no row; HT_DELETED is a bad pointer, modelled as no row. -/
def openAt (h : Hash R) (pos : Nat) : Except HErr (Iter R) :=
  if pos < h.current.size then
    match h.current.at pos with
    | .row r => .ok ⟨some r, false, pos⟩
    | _ => .ok ⟨none, false, pos⟩
  else .error .outOfBounds

/-- hash_iterator_next, hash_iterator.h:95-116 -/
def iterNext (h : Hash R) (it : Iter R) : Iter R :=
  match it.current with
  | none => it
  | some _ =>
    if it.inPrev then
      match h.prev with
      | some p => iterAt true (p.next (it.pos + 1))
      | none => it
    else
      match h.current.next (it.pos + 1) with
      | some x => iterAt false (some x)
      | none =>
        match h.prev with
        | none => iterAt false none
        | some p => iterAt true (p.next 0)

/-- hash_iterator_replace, hash_iterator.h:118-126 -/
def iterReplace (h : Hash R) (it : Iter R) (key : R) : Hash R :=
  if it.inPrev then
    { h with prev := h.prev.map fun p => { p with slots := p.slots.set it.pos (.row key) } }
  else { h with current := { h.current with slots := h.current.slots.set it.pos (.row key) } }

/-- hash_iterator_delete, hash_iterator.h:128-138 -/
def iterDelete (h : Hash R) (it : Iter R) : Hash R :=
  if it.inPrev then
    { h with prev := h.prev.map fun p => ⟨p.slots.set it.pos .deleted, p.count - 1⟩ }
  else { h with current := ⟨h.current.slots.set it.pos .deleted, h.current.count - 1⟩ }

/-- `while (iterator_has(it)) { visit(iterator_at(it)); iterator_next(it) }`; `fuel` bounds the visits -/
def scanLoop (h : Hash R) : Nat → Iter R → List R
  | 0, _ => []
  | n + 1, it =>
    match it.current with
    | none => []
    | some r => r :: scanLoop h n (iterNext h it)

/-- a full scan through index_hash_iterator (index_hash_iterator.h); there are at most as many rows as slots -/
def scan (h : Hash R) : List R :=
  scanLoop h (h.current.size + (match h.prev with | some p => p.size | none => 0) + 1) (openScan h)

/-- operations of index_hash.c as used by SQL statements -/
inductive HOp (R : Type) where
  | upsert (r : R)            -- index_hash_upsert
  | replace (r : R)           -- index_hash_replace_by (plain INSERT)
  | delete (r : R)            -- index_hash_delete_by
  | lookup (r : R)            -- index_hash_iterator + open at a key
  | update (k r : R)          -- open at k, then index_hash_replace at the cursor
  | remove (k : R)            -- open at k, then index_hash_delete at the cursor
  | scan
deriving DecidableEq

/-- what the caller observes -/
inductive HOut (R : Type) where
  | existed (b : Bool) (row : Option R)
  | row (r : Option R)
  | rows (l : List R)
deriving DecidableEq

/-- one operation, index_hash.c:18-70 -/
def step (hash : R → Nat) (cmp : R → R → Int) (h : Hash R) : HOp R → Except HErr (HOut R × Hash R)
  | .upsert r =>
    match h.getOrSet hash cmp r with
    | .error e => .error e
    | .ok (b, pos, h') =>
      match openAt h' pos with
      | .error e => .error e
      | .ok it => .ok (.existed b it.current, h')
  | .replace r =>
    match h.set hash cmp r with
    | .error e => .error e
    | .ok (o, h') => .ok (.row o, h')
  | .delete r =>
    match h.delete hash cmp r with
    | .error e => .error e
    | .ok (o, h') => .ok (.row o, h')
  | .lookup r =>
    match openKey hash cmp h r with
    | .error e => .error e
    | .ok it => .ok (.row it.current, h)
  | .update k r =>
    match openKey hash cmp h k with
    | .error e => .error e
    | .ok it =>
      match it.current with
      | none => .ok (.row none, h)
      | some y => .ok (.row (some y), iterReplace h it r)
  | .remove k =>
    match openKey hash cmp h k with
    | .error e => .error e
    | .ok it =>
      match it.current with
      | none => .ok (.row none, h)
      | some y => .ok (.row (some y), iterDelete h it)
  | .scan => .ok (.rows (Hash.scan h), h)

/-- a history; stops at the first error -/
def run (hash : R → Nat) (cmp : R → R → Int) (h : Hash R) : List (HOp R) → Except HErr (List (HOut R) × Hash R)
  | [] => .ok ([], h)
  | op :: ops =>
    match step hash cmp h op with
    | .error e => .error e
    | .ok (o, h') =>
      match run hash cmp h' ops with
      | .error e => .error e
      | .ok (os, h'') => .ok (o :: os, h'')

/-! ## Specification: a map from keys to rows -/

/-- `SpecStep m op out m'`: on the map `m` (any list of its rows) the operation shows `out` and leaves `m'` -/
inductive SpecStep (cmp : R → R → Int) (m : List R) : HOp R → HOut R → List R → Prop
  | upsertNew (r : R) : lookup cmp m r = none → SpecStep cmp m (.upsert r) (.existed false (some r)) (r :: m)
  | upsertOld (r y : R) : lookup cmp m r = some y → SpecStep cmp m (.upsert r) (.existed true (some y)) m
  | replace (r : R) : SpecStep cmp m (.replace r) (.row (lookup cmp m r)) (r :: others cmp m r)
  | delete (r : R) : SpecStep cmp m (.delete r) (.row (lookup cmp m r)) (others cmp m r)
  | lookup (r : R) : SpecStep cmp m (.lookup r) (.row (lookup cmp m r)) m
  | updateNone (k r : R) : lookup cmp m k = none → SpecStep cmp m (.update k r) (.row none) m
  | update (k r y : R) : lookup cmp m k = some y → SpecStep cmp m (.update k r) (.row (some y)) (r :: others cmp m k)
  | remove (k : R) : SpecStep cmp m (.remove k) (.row (lookup cmp m k)) (others cmp m k)
  | scan (l : List R) : l.Perm m → SpecStep cmp m .scan (.rows l) m

inductive SpecRun (cmp : R → R → Int) : List R → List (HOp R) → List (HOut R) → List R → Prop
  | nil (m : List R) : SpecRun cmp m [] [] m
  | cons {m m' m'' : List R} {op : HOp R} {o : HOut R} {ops : List (HOp R)} {os : List (HOut R)} :
      SpecStep cmp m op o m' → SpecRun cmp m' ops os m'' → SpecRun cmp m (op :: ops) (o :: os) m''

/-! ## Scan over the partitions of a table -/

/-- IndexHashMerge, index_hash_merge.h:16-23: the partitions with their iterators; `cur`: index of current_it -/
structure Merge (R : Type) where
  list : List (Hash R × Iter R)
  cur : Option Nat
  order : Nat

/-- index_hash_merge_open, index_hash_merge.h:31-49 -/
def Merge.open (parts : List (Hash R)) : Merge R :=
  let list := parts.map fun h => (h, openScan h)
  match list.findIdx? (fun p => p.2.current.isSome) with
  | none => ⟨list, none, 0⟩
  | some i => ⟨list, some i, i⟩

/-- index_hash_merge_at, index_hash_merge.h:58-65 -/
def Merge.at (m : Merge R) : Option R :=
  match m.cur with
  | none => none
  | some i => match m.list[i]? with | some p => p.2.current | none => none

/-- index_hash_merge_next, index_hash_merge.h:67-92. After the current partition is exhausted the loop increments the
order and leaves with no current iterator if it is still *below* list_count; otherwise it reads list[order], which is
past the end of the array. -/
def Merge.next (m : Merge R) : Except HErr (Merge R) :=
  match m.cur with
  | none => .ok m
  | some i =>
    match m.list[i]? with
    | none => .error .outOfBounds
    | some (h, it) =>
      let it' := iterNext h it
      let list := m.list.set i (h, it')
      if it'.current.isSome then .ok { m with list := list }
      else if m.order + 1 < list.length then .ok ⟨list, none, m.order + 1⟩
      else .error .outOfBounds

def Merge.scanLoop : Nat → Merge R → Except HErr (List R)
  | 0, _ => .ok []
  | n + 1, m =>
    match m.at with
    | none => .ok []
    | some r =>
      match m.next with
      | .error e => .error e
      | .ok m' =>
        match Merge.scanLoop n m' with
        | .error e => .error e
        | .ok l => .ok (r :: l)

/-- number of slots of an index -/
def Hash.capacity (h : Hash R) : Nat := h.current.size + (match h.prev with | some p => p.size | none => 0)

/-- full scan of a table by cursor_scan_cross (db/part/cursor.c:113-135) with a hash index -/
def mergeScan (parts : List (Hash R)) : Except HErr (List R) :=
  Merge.scanLoop ((parts.map Hash.capacity).sum + 1) (Merge.open parts)

end Verif.Index.Hash
