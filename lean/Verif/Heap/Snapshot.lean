import Verif.Heap.Model
/-!
# A partition while a snapshot of its row memory is taken

Models heap.c:187-196, 254-260, 269-291 (redirection to the shadow heap), heap_snapshot (heap.c:316-321),
db/service/refresh.c:63-76 (begin) and 134-183 (refresh_apply), db/service/indexate.c:75-106 (begin), 108-136 (the
background job) and 150-191 (indexate_apply), db/part/part.c:57-75 (part_open), 85-90 (part_truncate) and
db/part/part_op.c:258-284 (part_apply).

* A block holds a row, or (in the shadow heap) the pointer of a block of the main heap to be released later.
* An index is a map from the key of a row to the pointer of the row (the data structures are the subject of C10-C13).
* Copying a row (row_copy) asks for a block of the size of the row: `size`.
-/
namespace Verif.Heap

inductive Cell (R : Type) where
  | row (r : R)
  | pending (a : Addr)

/-- a pointer: into the main heap or into the shadow heap -/
structure Ptr where
  shadow : Bool
  addr   : Addr
deriving DecidableEq

variable {K R : Type}

/-- the heap of a partition and its shadow heap while a snapshot is active -/
structure Mem (R : Type) where
  main   : Heap (Cell R)
  shadow : Option (Heap (Cell R))

/-- refresh.c:73-75, indexate.c:101-103: heap_snapshot(heap, new heap, true) -/
def Mem.begin (m : Mem R) : Mem R := { m with shadow := some (Heap.init _) }

/-- heap.c:187-267 heap_add: into the shadow heap while there is one; the counters of the main heap are updated -/
def Mem.add (m : Mem R) (size : R → Nat) (r : R) : Ptr × Mem R :=
  match m.shadow with
  | none => let (a, h) := m.main.add (size r) (.row r) false false; (⟨false, a⟩, { m with main := h })
  | some s =>
    let (a, s') := s.add (size r) (.row r) true false
    (⟨true, a⟩, { main := { m.main with countUsed := m.main.countUsed + 1
                                        sizeUsed := m.main.sizeUsed + bucketSize (bucketOf (chunkSize + size r)) }
                  shadow := some { s' with countUsed := s.countUsed, sizeUsed := s.sizeUsed } })

/-- heap.c:269-312 heap_remove: the chunk's own flag tells which heap it is in; blocks of the main heap are not touched
while a snapshot is active, their release is recorded in the shadow heap -/
def Mem.remove (m : Mem R) (p : Ptr) : Mem R :=
  match m.shadow with
  | none => { m with main := m.main.remove p.addr }
  | some s =>
    let chunk := if p.shadow then s.chunkAt p.addr else m.main.chunkAt p.addr
    match chunk with
    | none => m
    | some c =>
      if c.isShadow then { m with shadow := some (s.remove p.addr) }
      else { m with shadow := some (s.add 8 (.pending p.addr) true true).2 }

/-- a partition: its row memory and its primary index -/
structure Partn (K R : Type) where
  mem : Mem R
  idx : K → Option Ptr

variable [DecidableEq K]

/-- index_replace_by (db/index/index.h:59-63) -/
def assign {K : Type} [DecidableEq K] (ix : K → Option Ptr) (k : K) (p : Option Ptr) : K → Option Ptr := fun x => if x = k then p else ix x

/-- refresh.c:156-176: the blocks of the shadow heap in scan order: release the recorded blocks, copy the rows into the main
heap and let the index point to the copy. `none`: the assertion in line 175, or a block read as what it is not. -/
def applyShadow (size : R → Nat) (key : R → K) : List (Addr × Chunk (Cell R)) → Heap (Cell R) → (K → Option Ptr) →
    Option (Heap (Cell R) × (K → Option Ptr))
  | [], h, ix => some (h, ix)
  | (a, c) :: xs, h, ix =>
    if c.isShadowFree then
      match c.data with
      | .pending p => applyShadow size key xs (h.remove p) ix
      | .row _ => none
    else
      match c.data with
      | .row r =>
        let (a', h') := h.add (size r) (.row r) false false
        if ix (key r) = some ⟨true, a⟩ then applyShadow size key xs h' (assign ix (key r) (some ⟨false, a'⟩)) else none
      | .pending _ => none

/-- refresh_apply; `fuel` bounds the scan -/
def Partn.apply (s : Partn K R) (size : R → Nat) (key : R → K) (fuel : Nat) : Option (Partn K R) :=
  match s.mem.shadow with
  | none => none
  | some sh =>
    match sh.scan fuel with
    | none => none
    | some l =>
      match applyShadow size key l s.mem.main s.idx with
      | some (h, ix) => some ⟨⟨h, none⟩, ix⟩
      | none => none

/-- heap_iterator.h: the rows of a heap with their addresses; `none`: the scan left the heap -/
def rowsOf (h : Heap (Cell R)) (fuel : Nat) : Option (List (Addr × R)) :=
  match h.scan fuel with
  | none => none
  | some l => some (l.filterMap fun x => match x.2.data with | .row r => some (x.1, r) | .pending _ => none)

/-- part.c:57-75 part_open: the index is rebuilt from the rows of the heap file -/
def rebuild (key : R → K) (rows : List (Addr × R)) : K → Option Ptr :=
  rows.foldl (fun ix x => assign ix (key x.2) (some ⟨false, x.1⟩)) fun _ => none

/-- heap_create and, after a restart, part_open of the partition file (heap_file.c, part.c:57-75) -/
def Partn.restart (s : Partn K R) (key : R → K) (fuel : Nat) : Option (Partn K R) :=
  match rowsOf s.mem.main.reopen fuel with
  | none => none
  | some rows => some ⟨⟨s.mem.main.reopen, none⟩, rebuild key rows⟩

/-- part.c:85-90 part_truncate -/
def Partn.truncate (s : Partn K R) : Partn K R := { s with idx := fun _ => none }

/-! ## Index build -/

/-- indexate.c:117-126: the rows of the main heap are added to the new index; a row with the same key is an error -/
def buildJob {K2 : Type} [DecidableEq K2] (key2 : R → K2) : List (Addr × R) → (K2 → Option Ptr) → Option (K2 → Option Ptr)
  | [], ix => some ix
  | (a, r) :: xs, ix =>
    match ix (key2 r) with
    | some _ => none
    | none => buildJob key2 xs (assign ix (key2 r) (some ⟨false, a⟩))

/-- indexate.c:164-187: as `applyShadow`, and the copied rows are added to the new index. `none`: an error is reported.
(The existing index is replaced without assertion.) -/
def applyBuild {K2 : Type} [DecidableEq K2] (size : R → Nat) (key : R → K) (key2 : R → K2) :
    List (Addr × Chunk (Cell R)) → Heap (Cell R) → (K → Option Ptr) → (K2 → Option Ptr) →
    Option (Heap (Cell R) × (K → Option Ptr) × (K2 → Option Ptr))
  | [], h, ix, jx => some (h, ix, jx)
  | (a, c) :: xs, h, ix, jx =>
    if c.isShadowFree then
      match c.data with
      | .pending p => applyBuild size key key2 xs (h.remove p) ix jx
      | .row _ => none
    else
      match c.data with
      | .row r =>
        let (a', h') := h.add (size r) (.row r) false false
        match jx (key2 r) with
        | some _ => none
        | none =>
          applyBuild size key key2 xs h' (assign ix (key r) (some ⟨false, a'⟩)) (assign jx (key2 r) (some ⟨false, a'⟩))
      | .pending _ => none

/-- indexate_apply -/
def Partn.applyIndex {K2 : Type} [DecidableEq K2] (s : Partn K R) (size : R → Nat) (key : R → K) (key2 : R → K2)
    (jx : K2 → Option Ptr) (fuel : Nat) : Option (Partn K R × (K2 → Option Ptr)) :=
  match s.mem.shadow with
  | none => none
  | some sh =>
    match sh.scan fuel with
    | none => none
    | some l =>
      match applyBuild size key key2 l s.mem.main s.idx jx with
      | some (h, ix, jx) => some (⟨⟨h, none⟩, ix⟩, jx)
      | none => none

/-! ## What statements do -/

/-- memory is allocated and released, an index entry is set or removed, in any order -/
inductive POp (K R : Type) where
  | alloc (r : R)
  | free (p : Ptr)
  | index (k : K) (p : Option Ptr)

def Partn.step (s : Partn K R) (size : R → Nat) : POp K R → Partn K R
  | .alloc r => { s with mem := (s.mem.add size r).2 }
  | .free p => { s with mem := s.mem.remove p }
  | .index k p => { s with idx := assign s.idx k p }

end Verif.Heap
