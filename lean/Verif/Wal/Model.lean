import Verif.Store.IdMgr
import Verif.Row.Model
/-!
# Write-ahead log

Models db/transaction/{write_log.h, write.h, record.h, write_list.h}, db/wal/{wal.c, wal_file.h, wal_cursor.c, wal_mgr.c, wal_worker.c,
wal_slot.h}, runtime/os/{file.h, vfs.c} as far as the log uses them, and the loop of db/db/recover.c.

* A log file is its number and its bytes; the log is the list of files in the order of their numbers; the last one is the current file.
* Integers are stored in the byte order of the machine (little endian). Structures are packed.
* crc is CRC-32C without initial and final inversion, as runtime/lib/crc.c computes it.
* A read from a file that returns fewer bytes than asked for raises an error (vfs.c:143-157), as in the code.
-/
namespace Verif.Wal
open Verif

/-! ## Checksum -/

/-- one bit of CRC-32C (reflected polynomial 0x82F63B78) -/
def crcBit (x : Nat) : Nat := if x % 2 = 1 then (x / 2) ^^^ 0x82F63B78 else x / 2

/-- crc.c: one byte, `table[(crc ^ byte) & 0xff] ^ (crc >> 8)`; the table entry of a byte is eight steps of crcBit -/
def crcByte (c b : Nat) : Nat := crcBit (crcBit (crcBit (crcBit (crcBit (crcBit (crcBit (crcBit (c ^^^ b))))))))

/-- crc.c crc32, byte by byte; the tables, the loop over eight bytes and the CRC32 instruction compute the same function (Crc: C101_same, soft_crc, sse_crc) -/
def crc32 (c : Nat) (bs : Bytes) : Nat := bs.foldl crcByte c

/-! ## Records -/

/-- record.h:35-41 RecordCmd; `a`, `b`: the two halves of the table id -/
structure Cmd where
  cmd  : Nat
  size : Nat
  crc  : Nat
  a    : Nat
  b    : Nat
deriving DecidableEq

/-- record.h:17-20 -/
def REPLACE : Nat := 0
def DELETE : Nat := 1
/-- record.h:22-23 -/
def DDL : Nat := 2
def DDL_CREATE_INDEX : Nat := 3

def Cmd.bytes (c : Cmd) : Bytes := leBytes 1 c.cmd ++ leBytes 4 c.size ++ leBytes 4 c.crc ++ leBytes 8 c.a ++ leBytes 8 c.b

/-- write_log.h:16-21 WriteLog: command headers and the pieces of memory to write -/
structure WLog where
  cmds : List Cmd
  iov  : List Bytes

def WLog.empty : WLog := ⟨[], []⟩

/-- write_log.h:52-79 write_log_add; the length of `row` is row_size(row) (Row: C08_size) -/
def WLog.add (l : WLog) (cmd a b : Nat) (row : Bytes) : WLog :=
  let fresh : Cmd := ⟨cmd, row.length % 2 ^ 32, crc32 0 row, a, b⟩
  match l.cmds.getLast? with
  | some h =>
    if h.cmd ≠ cmd ∨ h.a ≠ a ∨ h.b ≠ b then ⟨l.cmds ++ [fresh], l.iov ++ [row]⟩
    else ⟨l.cmds.dropLast ++ [{ h with size := (h.size + row.length) % 2 ^ 32, crc := crc32 h.crc row }], l.iov ++ [row]⟩
  | none => ⟨l.cmds ++ [fresh], l.iov ++ [row]⟩

/-- write_log.h:81-98 write_log_add_op -/
def WLog.addOp (l : WLog) (cmd : Nat) (op : Bytes) : WLog :=
  ⟨l.cmds ++ [⟨cmd, op.length % 2 ^ 32, crc32 0 op, 0, 0⟩], l.iov ++ [op]⟩

def WLog.meta (l : WLog) : Bytes := (l.cmds.map Cmd.bytes).flatten
def WLog.data (l : WLog) : Bytes := l.iov.flatten

/-- one change of a transaction -/
inductive Change where
  /-- a row written (REPLACE) or removed (DELETE): command, table id, row -/
  | row (cmd a b : Nat) (row : Bytes)
  /-- DDL: command and operation -/
  | op (cmd : Nat) (op : Bytes)
deriving DecidableEq

/-- log.h:127-155 log_row, 157-184 log_rel: each change of a transaction is added to its write log -/
def WLog.change (l : WLog) : Change → WLog
  | .row cmd a b row => l.add cmd a b row
  | .op cmd op => l.addOp cmd op

/-- the write log of a transaction that made these changes -/
def WLog.ofChanges (cs : List Change) : WLog := cs.foldl WLog.change WLog.empty

/-- record.h:26-33 Record -/
structure Hdr where
  crc   : Nat
  lsn   : Nat
  size  : Nat
  count : Nat
  ops   : Nat

/-- write.h:49-60 write_begin, 75-92 write_add for each log -/
def header (logs : List WLog) : Hdr :=
  logs.foldl (fun h l => ⟨crc32 h.crc l.meta, h.lsn, (h.size + l.meta.length + l.data.length) % 2 ^ 32,
    (h.count + l.cmds.length) % 2 ^ 32, (h.ops + l.iov.length) % 2 ^ 32⟩) ⟨0, 0, 24, 0, 0⟩

/-- the part of the header that the checksum covers -/
def Hdr.tail (h : Hdr) : Bytes := leBytes 8 h.lsn ++ leBytes 4 h.size ++ leBytes 4 h.count ++ leBytes 4 h.ops

def Hdr.bytes (h : Hdr) : Bytes := leBytes 4 h.crc ++ h.tail

/-- write.h:62-73 write_end -/
def Hdr.finish (h : Hdr) (lsn : Nat) : Hdr :=
  let h := { h with lsn := lsn }
  { h with crc := crc32 h.crc h.tail }

/-- wal.c:303-315: what is written for a record: header and commands of all logs, then the data of all logs -/
def record (lsn : Nat) (logs : List WLog) : Bytes :=
  ((header logs).finish lsn).bytes ++ (logs.map WLog.meta).flatten ++ (logs.map WLog.data).flatten

/-! ## Reading a record -/

/-- `n` bytes at an offset of a buffer -/
def slice (b : Bytes) (off n : Nat) : Bytes := (b.drop off).take n

/-- reading the header of a record -/
def Hdr.read (r : Bytes) : Hdr :=
  ⟨leNat (slice r 0 4), leNat (slice r 4 8), leNat (slice r 12 4), leNat (slice r 16 4), leNat (slice r 20 4)⟩

/-- record.h:43-47 record_cmd, `cmd++` (recover.c:139-150): the i-th command -/
def Cmd.read (r : Bytes) (i : Nat) : Cmd :=
  let p := 24 + 25 * i
  ⟨leNat (slice r p 1), leNat (slice r (p + 1) 4), leNat (slice r (p + 5) 4), leNat (slice r (p + 9) 8), leNat (slice r (p + 17) 8)⟩

/-- record.h:71-79 record_validate -/
def validate (r : Bytes) : Bool :=
  let h := Hdr.read r
  crc32 (crc32 0 (slice r 24 (25 * h.count))) (slice r 4 20) = h.crc

/-- record.h:81-86 record_validate_cmd -/
def validateCmd (c : Cmd) (r : Bytes) (pos : Nat) : Bool := crc32 0 (slice r pos c.size) = c.crc

/-- recover.c:82-89, 104-111: the rows of a command, from `pos` to `stop`; each row has its size inside. `fuel` bounds the number of rows: a row
of size 0 repeats for ever, as in the code (the result is then a failure for every fuel) -/
def rows (r : Bytes) (stop : Nat) : Nat → Nat → Res (List Bytes × Nat)
  | 0, pos => if pos < stop then .error .ub else .ok ([], pos)
  | n + 1, pos =>
    if pos < stop then do
      let k ← Row.rowSize (r.drop pos)
      let (rs, p) ← rows r stop n (pos + k)
      .ok (slice r pos k :: rs, p)
    else .ok ([], pos)

/-- recover.c:133-151 recover_next_record, 72-130 recover_cmd: the changes found in a record, with checksums (wal_crc is on by default,
config.c:63). Commands other than rows carry one operation; its length is taken from the command here (json_skip in the code, Json: C04) -/
def changes (r : Bytes) : Nat → Nat → Nat → Res (List Change)
  | 0, _, _ => .ok []
  | n + 1, i, pos =>
    let c := Cmd.read r i
    if !validateCmd c r pos then .error .err
    else if c.cmd = REPLACE ∨ c.cmd = DELETE then do
      let (rs, p) ← rows r (pos + c.size) c.size pos
      let cs ← changes r n (i + 1) p
      .ok (rs.map (Change.row c.cmd c.a c.b) ++ cs)
    else if c.cmd = DDL ∨ c.cmd = DDL_CREATE_INDEX then do
      let cs ← changes r n (i + 1) (pos + c.size)
      .ok (Change.op c.cmd (slice r pos c.size) :: cs)
    else .error .err

/-- the changes of a record; record.h:49-53 record_data -/
def decode (r : Bytes) : Res (List Change) :=
  let h := Hdr.read r
  changes r h.count 0 (24 + h.count * 25)

/-! ## Files -/

/-- wal_file.h:79-83 wal_file_eof: the parameters and the sum are 32 bit -/
def eof (off size : Nat) (fileSize : Nat) : Bool := (off % 2 ^ 32 + size % 2 ^ 32) % 2 ^ 32 > fileSize

/-- file.h:249-262 file_pread_buf: all bytes or an error -/
def preadBuf (file : Bytes) (off n : Nat) : Res Bytes :=
  if n ≥ 2 ^ 31 then .error .ub
  else if n = 0 ∨ off + n > file.length then .error .err
  else .ok (slice file off n)

/-- wal_file.h:85-111 wal_file_pread -/
def pread (file : Bytes) (off : Nat) : Res (Option Bytes) :=
  if eof off 24 file.length then .ok none
  else do
    let h ← preadBuf file off 24
    let size := (Hdr.read h).size
    if eof off size file.length then .ok none
    else if size < 24 then .error .ub
    else do
      let d ← preadBuf file (off + 24) (size - 24)
      .ok (some (h ++ d))

structure File where
  id    : Nat
  bytes : Bytes
deriving DecidableEq

def ids (fs : List File) : List Nat := fs.map File.id

/-- wal_file_open (wal_file.h:36-44): the file must exist -/
def openFile (fs : List File) (id : Nat) : Res File :=
  match fs.find? fun f => f.id = id with
  | some f => .ok f
  | none => .error .err

/-- wal_cursor.c:95-142 wal_cursor_read: next record, with the file and the offset after it. `fileNext`: go on with the next file;
`check`: validate checksums. `fuel` bounds the number of files. Nothing is written meanwhile, so that file_update_size finds no change -/
def cursorRead (fs : List File) (fileNext check : Bool) : Nat → Nat → Nat → Res (Option (Bytes × Nat × Nat))
  | 0, _, _ => .ok none
  | n + 1, id, off => do
    let f ← openFile fs id
    match ← pread f.bytes off with
    | some r => if check && !validate r then .error .err else .ok (some (r, id, off + (Hdr.read r).size))
    | none =>
      if !fileNext then .ok none
      else
        let id' := Store.IdMgr.next (ids fs) id
        if id' = Store.IdMgr.NONE then .ok none else cursorRead fs fileNext check n id' 0

/-- repeated wal_cursor_next (wal_cursor.c:144-149): all records from a position on; `fuel` bounds the number of records -/
def cursorAll (fs : List File) (fileNext check : Bool) : Nat → Nat → Nat → Res (List Bytes)
  | 0, _, _ => .ok []
  | n + 1, id, off => do
    match ← cursorRead fs fileNext check (fs.length + 1) id off with
    | none => .ok []
    | some (r, id', off') => do
      let rs ← cursorAll fs fileNext check n id' off'
      .ok (r :: rs)

/-- wal_cursor.c:56-69: rewind to the start lsn. Returns file and offset, or nothing at the end of the log -/
def rewind (fs : List File) (fileNext check : Bool) (lsn : Nat) : Nat → Nat → Nat → Res (Option (Nat × Nat))
  | 0, _, _ => .ok none
  | n + 1, id, off => do
    match ← cursorRead fs fileNext check (fs.length + 1) id off with
    | none => .ok none
    | some (r, id', off') =>
      if (Hdr.read r).lsn ≥ lsn then .ok (some (id', off' - (Hdr.read r).size)) else rewind fs fileNext check lsn n id' off'

/-- wal_cursor.c:34-54 wal_cursor_open: the file to start with -/
def startFile (fs : List File) (lsn : Nat) : Nat :=
  if lsn = 0 then Store.IdMgr.min (ids fs) else Store.IdMgr.find (ids fs) lsn

/-- opening a cursor at an lsn and reading to the end -/
def readFrom (fs : List File) (fileNext check : Bool) (fuel lsn : Nat) : Res (List Bytes) :=
  let id := startFile fs lsn
  if id = Store.IdMgr.NONE then .ok []
  else do
    match ← rewind fs fileNext check lsn fuel id 0 with
    | none => .ok []
    | some (id', off) => cursorAll fs fileNext check fuel id' off

/-- recover.c:203-241 recover_wal_main: file after file, each read to its end -/
def recoverFiles (fs : List File) (check : Bool) (fuel : Nat) : Nat → Nat → Res (List Bytes)
  | 0, _ => .ok []
  | n + 1, id =>
    let start := startFile fs id
    if start = Store.IdMgr.NONE then .ok []
    else do
      let rs ← readFrom fs false check fuel id
      let id' := Store.IdMgr.next (ids fs) start
      if id' = Store.IdMgr.NONE then .ok rs
      else do
        let rs' ← recoverFiles fs check fuel n id'
        .ok (rs ++ rs')

def recover (fs : List File) (check : Bool) (fuel : Nat) : Res (List Bytes) := recoverFiles fs check fuel (fs.length + 1) 0

/-! ## Writing -/

/-- the open log: the files (the last one is `current`) and state_lsn -/
structure Wal where
  files : List File
  lsn   : Nat

/-- wal.c:249-257 wal_open without files; wal.c:71-104 wal_create -/
def Wal.init : Wal := ⟨[⟨1, []⟩], 0⟩

/-- append to the current file -/
def appendLast : List File → Bytes → List File
  | [], _ => []
  | [f], b => [⟨f.id, f.bytes ++ b⟩]
  | f :: g :: fs, b => f :: appendLast (g :: fs) b

/-- size of the current file -/
def currentSize (fs : List File) : Nat := ((fs.getLast?.map fun f => f.bytes.length)).getD 0

/-- wal_file_truncate on the current file -/
def truncateLast : List File → Nat → List File
  | [], _ => []
  | [f], n => [⟨f.id, f.bytes.take n⟩]
  | f :: g :: fs, n => f :: truncateLast (g :: fs) n

/-- wal.c:286-318 wal_write_list: the bytes of a batch of records; the lsn grows by one for each -/
def batch : Nat → List (List WLog) → Bytes
  | _, [] => []
  | lsn, w :: ws => record (lsn + 1) w ++ batch (lsn + 1) ws

/-- wal.c:320-351 wal_write. `failAt`: the write fails after that many bytes; then the file is truncated to its size before (330-336) -/
def Wal.write (w : Wal) (ws : List (List WLog)) (failAt : Option Nat) : Wal × Bool :=
  match failAt with
  | none => (⟨appendLast w.files (batch w.lsn ws), w.lsn + ws.length⟩, true)
  | some n => (⟨truncateLast (appendLast w.files ((batch w.lsn ws).take n)) (currentSize w.files), w.lsn⟩, false)

/-- wal.c:71-104 wal_create(id): the file must not exist (O_EXCL, file.h:82-86) -/
def Wal.create (w : Wal) (id : Nat) : Wal :=
  if id ∈ ids w.files then w else { w with files := w.files ++ [⟨id, []⟩] }

/-- outcome of the steps of wal_mgr_write after the records are written -/
structure Outcome where
  /-- bytes written before the write fails -/
  writeFails : Option Nat
  /-- wal_sync_on_write and the sync fails -/
  syncFails  : Bool
  /-- the file is full (wal.c:350) -/
  full       : Bool
  /-- wal_worker is off and creating the next file (or syncing it) fails -/
  createFails : Bool

/-- wal_mgr.c:103-113 wal_mgr_write, with rotation (wal_mgr.c:82-100, or the worker wal_worker.c:48-51 when nothing is written meanwhile);
the flag tells whether the call returns without an error -/
def Wal.mgrWrite (w : Wal) (ws : List (List WLog)) (o : Outcome) : Wal × Bool :=
  if ws.length = 0 then (w, true)
  else
    let (w1, ok) := w.write ws o.writeFails
    if !ok then (w1, false)
    else if o.syncFails then (w1, false)
    else if !o.full then (w1, true)
    else if o.createFails then (w1, false)
    else (w1.create (w1.lsn + 1), true)

/-- wal.c:107-137 wal_gc, 41-57 wal_slots: the slots and the lowest lsn that recovery needs -/
def slotsMin (slots : List Nat) (min : Nat) : Nat := slots.foldl (fun m lsn => if m < lsn then lsn else m) min

def Wal.gc (w : Wal) (slots : List Nat) (min : Nat) : Wal :=
  let removed := (Store.IdMgr.gc (ids w.files) (slotsMin slots min)).1
  { w with files := w.files.filter fun f => f.id ∉ removed }

/-- wal.c:200-230: rewind to the lsn, checking checksums; returns the offset to cut at -/
def cutAt (file : Bytes) (lsn : Nat) : Nat → Nat → Res Nat
  | 0, off => .ok off
  | n + 1, off => do
    match ← pread file off with
    | none => .ok off
    | some r =>
      if !validate r then .error .err
      else
        let h := Hdr.read r
        if h.lsn > lsn then .ok off
        else if h.lsn = lsn then .ok (off + h.size)
        else cutAt file lsn n (off + h.size)

/-- wal.c:180-246 wal_truncate (`lsn` ≠ 0) -/
def truncate (fs : List File) (lsn fuel : Nat) : Res (List File) := do
  let id0 := Store.IdMgr.find (ids fs) lsn
  let id := if id0 = Store.IdMgr.NONE then Store.IdMgr.min (ids fs) else id0
  let f ← openFile fs id
  let off ← cutAt f.bytes lsn fuel 0
  .ok ((fs.filter fun f => f.id ≤ id).map fun f => if f.id = id then ⟨f.id, f.bytes.take off⟩ else f)

end Verif.Wal
