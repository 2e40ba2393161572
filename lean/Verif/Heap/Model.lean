import Verif.Common
/-!
# Row heap

Models db/heap/heap.c, heap.h, page_mgr.h, heap_iterator.h and the state restored by heap_file.c.

* A page is the list of the chunk headers in it, in address order, each with the offset stored in its header; what is
  between two headers is the row memory. `data` stands for the bytes the owner of the block wrote into it.
* `prev` and `next` links of the lru list are not modelled (no caller enables `lru`); `next` is always 0 then.
* Page numbers are 19-bit and offsets 21-bit fields of HeapChunk and HeapBucket (heap.h:27-38, 48-58): modelled by
  reduction modulo 2^19 and 2^21 when stored.
* mmap failures, crc and compression of pages are not modelled.
-/
namespace Verif.Heap

/-- page_mgr.h:44 -/
def pageSize : Nat := 512 * 1024
/-- page_mgr.h:18-27: PageHeader is 24 bytes; heap.h:18-44: HeapChunk is 24 bytes -/
def headerSize : Nat := 24
def chunkSize : Nat := 24

/-- heap.c:85-96 heap_prepare and 20-34 heap_set: size of bucket `id` -/
def bucketSize (id : Nat) : Nat :=
  if id < 64 then 0 + (id - 0 + 1) * 16
  else if id < 96 then 1024 + (id - 64 + 1) * 32
  else if id < 128 then 2048 + (id - 96 + 1) * 64
  else if id < 160 then 4096 + (id - 128 + 1) * 128
  else if id < 192 then 8192 + (id - 160 + 1) * 256
  else if id < 224 then 16384 + (id - 192 + 1) * 512
  else if id < 256 then 32768 + (id - 224 + 1) * 1024
  else if id < 288 then 65536 + (id - 256 + 1) * 2048
  else if id < 320 then 131072 + (id - 288 + 1) * 4096
  else if id < 352 then 262144 + (id - 320 + 1) * 8192
  else if id < 384 then 524288 + (id - 352 + 1) * 16384
  else 1048576

/-- heap.c:130-152 heap_log_to_bucket[log2 - 1]: first bucket and step of the group -/
def logToBucket (log2 : Nat) : Nat × Nat :=
  if log2 ≤ 9 then (0, 16)
  else if log2 = 10 then (64, 32)
  else if log2 = 11 then (96, 64)
  else if log2 = 12 then (128, 128)
  else if log2 = 13 then (160, 256)
  else if log2 = 14 then (192, 512)
  else if log2 = 15 then (224, 1024)
  else if log2 = 16 then (256, 2048)
  else if log2 = 17 then (288, 4096)
  else if log2 = 18 then (320, 8192)
  else if log2 = 19 then (352, 16384)
  else (384, 0)

/-- heap.c:154-185 heap_bucket_of; the asserts (size ≤ 1 MiB, log2 ≠ 0) are not part of a release build -/
def bucketOf (size : Nat) : Nat :=
  let log2 := Nat.log2 size
  let (bucket, step) := logToBucket log2
  if step ≠ 0 then
    if log2 ≤ 9 then bucket + size / step else bucket + (size - 2 ^ log2) / step
  else bucket

/-- address of a chunk: page number and offset in the page -/
abbrev Addr := Nat × Nat

/-- heap.h:18-44 HeapChunk and the contents of its row -/
structure Chunk (D : Type) where
  offset       : Nat
  bucket       : Nat
  bucketLeft   : Nat
  isFree       : Bool
  isLast       : Bool
  isShadow     : Bool
  isShadowFree : Bool
  prev         : Addr
  data         : D

/-- page_mgr.h:18-27 PageHeader (order is the position in the list) and the chunks on the page -/
structure Page (D : Type) where
  size   : Nat
  last   : Nat
  chunks : List (Chunk D)

/-- heap.h:46-56 HeapBucket: head of the list of free chunks -/
structure FreeList where
  list  : Addr
  count : Nat

/-- heap.h:80-90 Heap; `last` is the offset of the last chunk on the last page, or none (NULL); page_header is the last page -/
structure Heap (D : Type) where
  pages     : List (Page D)
  last      : Option Nat
  lists     : Nat → FreeList
  countUsed : Int
  sizeUsed  : Int

variable {D : Type}

/-- heap.c:99-113 heap_allocate -/
def Heap.init (D : Type) : Heap D := ⟨[], none, fun _ => ⟨(0, 0), 0⟩, 0, 0⟩

/-- heap.h:98-102 heap_chunk_at: the header at an address -/
def Heap.chunkAt (h : Heap D) (a : Addr) : Option (Chunk D) :=
  match h.pages[a.1]? with
  | some pg => pg.chunks.find? fun c => c.offset = a.2
  | none => none

def Page.update (pg : Page D) (o : Nat) (f : Chunk D → Chunk D) : Page D :=
  { pg with chunks := pg.chunks.map fun c => if c.offset = o then f c else c }

/-- write to the header at an address -/
def updateAt (pages : List (Page D)) (a : Addr) (f : Chunk D → Chunk D) : List (Page D) :=
  pages.modify a.1 fun pg => pg.update a.2 f

/-- the 19 and 21 bits an address is stored in -/
def packAddr (a : Addr) : Addr := (a.1 % 2 ^ 19, a.2 % 2 ^ 21)

/-- heap.c:218-221: does the current page have no room? The difference is computed as int and compared as uint32_t. -/
def noRoom (pageUsed bucketSz : Nat) : Bool := (pageSize + 2 ^ 32 - pageUsed) % 2 ^ 32 < bucketSz

/-- heap.c:217-234: a new page if there is no current one or it has no room -/
def Heap.prepare (h : Heap D) (sz : Nat) : Heap D :=
  let room := match h.last, h.pages.getLast? with
    | some _, some pg => !noRoom pg.size sz
    | _, _ => false
  if room then h
  else { h with pages := h.pages ++ [⟨headerSize, 0, []⟩], last := none }

/-- heap.c:235-251: a new chunk at the end of the current page -/
def Heap.bump (h : Heap D) (bucket : Nat) (d : D) (shadow shadowFree : Bool) : Addr × Heap D :=
  let h := h.prepare (bucketSize bucket)
  let page := h.pages.length - 1
  let used := match h.pages[page]? with | some pg => pg.size | none => 0
  let left := match h.last with
    | some o => match h.chunkAt (page, o) with | some c => c.bucket | none => 0
    | none => 0
  let c : Chunk D := ⟨used, bucket, left, false, true, shadow, shadowFree, (0, 0), d⟩
  let pages := match h.last with
    | some o => updateAt h.pages (page, o) fun c => { c with isLast := false }
    | none => h.pages
  let pages := pages.modify page fun pg => ⟨pg.size + bucketSize bucket, pg.size, pg.chunks ++ [c]⟩
  ((page, used), { h with pages := pages, last := some used })

/-- heap.c:187-267 heap_add (of the heap that allocates; see `Snapshot` for the redirection to the shadow heap).
Returns the address of the chunk; the row starts 24 bytes later. `d` is what the caller writes into the block. -/
def Heap.add (h : Heap D) (size : Nat) (d : D) (shadow shadowFree : Bool) : Addr × Heap D :=
  let bucket := bucketOf (chunkSize + size)
  let l := h.lists bucket
  let (a, h) :=
    if l.count > 0 then
      let a := l.list
      let prev := match h.chunkAt a with | some c => c.prev | none => (0, 0)
      let pages := updateAt h.pages a fun c =>
        { c with prev := (0, 0), isFree := false, isShadow := shadow, isShadowFree := shadowFree, data := d }
      (a, { h with pages := pages, lists := fun b => if b = bucket then ⟨prev, l.count - 1⟩ else h.lists b })
    else h.bump bucket d shadow shadowFree
  (a, { h with countUsed := h.countUsed + 1, sizeUsed := h.sizeUsed + bucketSize bucket })

/-- heap.c:269-312 heap_remove, the part after the redirection: put the chunk on the free list of its bucket -/
def Heap.remove (h : Heap D) (a : Addr) : Heap D :=
  match h.chunkAt a with
  | none => h   -- not a chunk of this heap
  | some c =>
    let l := h.lists c.bucket
    { h with
      pages := updateAt h.pages a fun c => { c with prev := l.list, isFree := true }
      lists := fun b => if b = c.bucket then ⟨packAddr a, l.count + 1⟩ else h.lists b
      countUsed := h.countUsed - 1
      sizeUsed := h.sizeUsed - bucketSize c.bucket }

/-- heap_file.c:66-158 heap_open of a file written by heap_create (18-64): pages and buckets are the same, `last` is
taken from the header of the last page -/
def Heap.reopen (h : Heap D) : Heap D := { h with last := h.pages.getLast?.map fun pg => pg.last }

/-! ## Iterator -/

/-- heap_iterator.h:25-43 heap_iterator_next_chunk -/
def Heap.nextChunk (h : Heap D) (cur : Addr) : Option Addr :=
  match h.chunkAt cur with
  | none => none
  | some c =>
    if !c.isLast then some (cur.1, cur.2 + bucketSize c.bucket)
    else if cur.1 + 1 ≥ h.pages.length then none
    else some (cur.1 + 1, headerSize)

/-- heap_iterator.h:45-50, 78-83: all allocated chunks from the position on; `none`: a position that is not a chunk -/
def Heap.walk (h : Heap D) : Nat → Option Addr → Option (List (Addr × Chunk D))
  | _, none => some []
  | 0, some _ => none
  | fuel + 1, some cur =>
    match h.chunkAt cur with
    | none => none
    | some c =>
      match h.walk fuel (h.nextChunk cur) with
      | none => none
      | some rest => some (if c.isFree then rest else (cur, c) :: rest)

/-- heap_iterator.h:52-64 heap_iterator_open and the loop over all rows -/
def Heap.scan (h : Heap D) (fuel : Nat) : Option (List (Addr × Chunk D)) :=
  match h.last with
  | none => some []
  | some _ => h.walk fuel (some (0, headerSize))

/-! ## Histories -/

inductive Op (D : Type) where
  | add (size : Nat) (d : D)
  | remove (a : Addr)
  | reopen

/-- result of an operation: the address for `add` -/
def Heap.step (h : Heap D) : Op D → Option Addr × Heap D
  | .add n d => let (a, h') := h.add n d false false; (some a, h')
  | .remove a => (none, h.remove a)
  | .reopen => (none, h.reopen)

end Verif.Heap
