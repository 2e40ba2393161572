import Verif.Object.Model
import Verif.Row.Model
import Verif.Crc.Model
/-!
# Object files: how they are written and read

db/object: writer.c, region_writer.h, meta_writer.h, region.h, meta.h, reader.h, object.c; db/storage/encoder.h; runtime/lib/iov.h; os/vfs.c.

Offsets, sizes and counters are stored with leBytes, which cuts them to the width of the field; while they are added up they are numbers without a bound
(an uint32 or uint64 that is added to gives the same after the cut). The file is its bytes; writes succeed. The compression library is a pair of
functions: what it makes of the pieces it is given, and what it makes of that. The sizes of buffers are ints: they stay below 2^31.
-/
set_option autoImplicit false
namespace Verif.Object.File
open Verif
open Verif.Row (rowSize)

/-- codec.h, codec_compression.c: encode_begin, encode of each piece, encode_end; decode into a buffer of the given size -/
structure Codec where
  enc : List Bytes → Bytes
  dec : Bytes → Nat → Res Bytes

/-- encoder_encode, encoder.h:142-160: the pieces that are written; none: no compression -/
def encode (c : Option Codec) (ps : List Bytes) : List Bytes := c.elim ps fun c => [c.enc ps]

/-- encoder_compression, encoder.h:53-59: COMPRESSION_NONE, COMPRESSION_ZSTD -/
def idOf (c : Option Codec) : Nat := if c.isNone then 0 else 1

/-- encoder_iov(encoder)->iov_len: the length of the first piece, meta_writer.h:91, 112 -/
def firstLen (iov : List Bytes) : Nat := (iov.headD []).length

/-- encoder_iov_crc, encoder.h:119-128: the pieces one after the other (see C101_pieces) -/
def crcOf (crc : Nat → Bytes → Nat) (iov : List Bytes) : Nat := iov.foldl (fun c p => crc c p) 0

/-- the offsets of the pieces of a buffer: buf_size at each buf_write, as uint32 -/
def offsets : Nat → List Bytes → Bytes
  | _, [] => []
  | at_, p :: ps => leBytes 4 at_ ++ offsets (at_ + p.length) ps

/-! ## writing -/

/-- Region, region.h:16-23, region_writer_start, region_writer_add, region_writer.h:70-117: the two buffers of a region with these rows. A row is its row_size bytes. -/
def regionMeta (rows : List Bytes) : Bytes :=
  leBytes 4 (24 + 4 * rows.length + rows.flatten.length) ++ leBytes 4 rows.length ++ List.replicate 16 0 ++ offsets 0 rows

/-- region_writer_size, region_writer.h:57-61 -/
def regionSize (rows : List Bytes) : Nat := 24 + 4 * rows.length + rows.flatten.length

/-- MetaRegion, meta.h:20-31 -/
structure Ref where
  offset : Nat
  crc : Nat
  size : Nat
  sizeOrigin : Nat
  rows : Nat
  min : Bytes
  max : Bytes
deriving DecidableEq, Repr

def Ref.bytes (r : Ref) : Bytes :=
  leBytes 4 r.offset ++ leBytes 4 r.crc ++ leBytes 4 r.size ++ leBytes 4 r.sizeOrigin ++ leBytes 4 r.min.length ++ leBytes 4 r.max.length ++ leBytes 4 r.rows ++
    List.replicate 16 0 ++ r.min ++ r.max

/-- Meta, meta.h:33-48 -/
structure Meta where
  crc : Nat := 0
  crcData : Nat := 0
  magic : Nat := 0
  version : Nat := 0
  size : Nat := 0
  sizeOrigin : Nat := 0
  sizeRegions : Nat := 0
  sizeRegionsOrigin : Nat := 0
  sizeTotal : Nat := 0
  sizeTotalOrigin : Nat := 0
  regions : Nat := 0
  rows : Nat := 0
  compression : Nat := 0
deriving DecidableEq, Repr

def Meta.tail (m : Meta) : Bytes :=
  leBytes 4 m.crcData ++ leBytes 4 m.magic ++ leBytes 4 m.version ++ leBytes 4 m.size ++ leBytes 4 m.sizeOrigin ++ leBytes 8 m.sizeRegions ++ leBytes 8 m.sizeRegionsOrigin ++
    leBytes 8 m.sizeTotal ++ leBytes 8 m.sizeTotalOrigin ++ leBytes 4 m.regions ++ leBytes 8 m.rows ++ leBytes 1 m.compression ++ List.replicate 16 0

def Meta.bytes (m : Meta) : Bytes := leBytes 4 m.crc ++ m.tail

/-- Writer, writer.h: the file, the rows of the region that is open (none: not started), the references; `codec` that of the storage, `limit` region_size, `crcOn` storage_crc -/
structure Writer where
  crc : Nat → Bytes → Nat
  codec : Option Codec
  limit : Int
  crcOn : Bool
  file : Bytes
  region : Option (List Bytes)
  refs : List Ref

/-- writer_start, writer.c:86-108: the header is left empty -/
def start (crc : Nat → Bytes → Nat) (codec : Option Codec) (limit : Int) (crcOn : Bool) (file : Bytes) : Writer :=
  ⟨crc, codec, limit, crcOn, file ++ ({} : Meta).bytes, none, []⟩

/-- meta_writer_add, meta_writer.h:102-146 -/
def refOf (w : Writer) (rows : List Bytes) (iov : List Bytes) : Ref :=
  ⟨w.file.length, if w.crcOn then crcOf w.crc iov else 0, firstLen iov, regionSize rows, rows.length, rows.headD [], rows.getLastD []⟩

/-- writer_stop_region, writer.c:66-84, region_writer_stop, region_writer.h:80-91 -/
def stopRegion (w : Writer) : Writer :=
  w.region.elim w fun rows =>
    let iov := encode w.codec [regionMeta rows, rows.flatten]
    { w with refs := w.refs ++ [refOf w rows iov], file := w.file ++ iov.flatten }

/-- writer_is_region_limit, writer.c:51-57 -/
def isLimit (w : Writer) : Bool := w.region.elim true fun rows => decide (toSigned 32 (regionSize rows % 2 ^ 32) ≥ w.limit)

/-- writer_add, writer.c:132-145 -/
def add (w : Writer) (row : Bytes) : Writer :=
  let w := if isLimit w then { stopRegion w with region := some [] } else w
  { w with region := w.region.map fun rows => rows ++ [row] }

/-- the two buffers of the index: offsets and references, meta_writer_add -/
def indexOffsets (refs : List Ref) : Bytes := offsets 0 (refs.map Ref.bytes)
def indexData (refs : List Ref) : Bytes := (refs.map Ref.bytes).flatten

/-- meta_writer_copy, meta_writer.h:148-154: the index as a branch holds it -/
def index (refs : List Ref) : Bytes := indexOffsets refs ++ indexData refs

/-- meta_writer_stop, meta_writer.h:77-100: the header; `iov` is the encoded index -/
def header (w : Writer) (iov : List Bytes) : Meta :=
  let m : Meta :=
    { magic := 0x20849615, version := 0, crcData := crcOf w.crc iov
      size := firstLen iov, sizeOrigin := (index w.refs).length
      sizeRegions := (w.refs.map Ref.size).sum, sizeRegionsOrigin := (w.refs.map Ref.sizeOrigin).sum
      sizeTotal := (w.refs.map Ref.size).sum + firstLen iov + 85
      sizeTotalOrigin := (w.refs.map Ref.sizeOrigin).sum + (index w.refs).length + 85
      regions := w.refs.length, rows := (w.refs.map Ref.rows).sum, compression := idOf w.codec }
  { m with crc := w.crc 0 m.bytes }

/-- pwrite -/
def pwrite (file bs : Bytes) (offset : Nat) : Bytes := file.take offset ++ bs ++ file.drop (offset + bs.length)

/-- writer_stop, writer.c:110-130: the file (and the references, for meta_writer_copy) -/
def stop (w : Writer) : Writer :=
  let w := stopRegion w
  let iov := encode w.codec [indexOffsets w.refs, indexData w.refs]
  let file := w.file ++ iov.flatten
  { w with file := pwrite file (header w iov).bytes (file.length - (header w iov).sizeTotal), region := none }

/-- an object with these rows is written at the end of a file -/
def writeAll (crc : Nat → Bytes → Nat) (codec : Option Codec) (limit : Int) (crcOn : Bool) (file : Bytes) (rows : List Bytes) : Writer :=
  stop (rows.foldl add (start crc codec limit crcOn file))

/-! ## reading -/

/-- file_pread, vfs_pread, vfs.c:143-157: no bytes are an error, also if none are asked for -/
def pread (file : Bytes) (size offset : Nat) : Res Bytes :=
  if size = 0 then .error .err else if offset + size ≤ file.length then .ok ((file.drop offset).take size) else .error .err

/-- a field of a structure in memory -/
def field (bs : Bytes) (pos w : Nat) : Res Nat := (Verif.Row.readAt bs pos w).bind fun b => .ok (leNat b)

/-- meta_region, meta.h:56-64, and the fields: the reference number `pos` of an index of `n` -/
def readRef (data : Bytes) (n pos : Nat) : Res Ref :=
  (field data (4 * pos) 4).bind fun off =>
    let p := 4 * n + off
    (field data p 4).bind fun offset => (field data (p + 4) 4).bind fun crc => (field data (p + 8) 4).bind fun size =>
    (field data (p + 12) 4).bind fun so => (field data (p + 16) 4).bind fun smin => (field data (p + 20) 4).bind fun smax => (field data (p + 24) 4).bind fun rows =>
    (Verif.Row.readAt data (p + 44) smin).bind fun mn => (Verif.Row.readAt data (p + 44 + smin) smax).bind fun mx => .ok ⟨offset, crc, size, so, rows, mn, mx⟩

/-- reader_execute, reader.h:60-88 -/
def readRegion (codec : Option Codec) (file : Bytes) (r : Ref) : Res Bytes :=
  (pread file r.size r.offset).bind fun bs =>
    (codec.elim (.ok bs) fun c => c.dec bs r.sizeOrigin).bind fun region =>
      (field region 0 4).bind fun size => (field region 4 4).bind fun rows =>
        if size = r.sizeOrigin ∧ rows = r.rows then .ok region else .error .err

/-- region_row, region.h:25-33, and the row_size bytes of the row -/
def regionRow (region : Bytes) (pos : Nat) : Res Bytes :=
  (field region 4 4).bind fun n => (field region (24 + 4 * pos) 4).bind fun off =>
    (rowSize (region.drop (24 + 4 * n + off))).bind fun size => Verif.Row.readAt region (24 + 4 * n + off) size

/-- the rows from `pos` on, `k` of them (the loop of region_iterator_next) -/
def regionRows (region : Bytes) : Nat → Nat → Res (List Bytes)
  | 0, _ => .ok []
  | k + 1, pos => (regionRow region pos).bind fun r => (regionRows region k (pos + 1)).bind fun l => .ok (r :: l)

/-- a reference and the region it is for, as branch_iterator_open_region uses them -/
def readStored (codec : Option Codec) (file data : Bytes) (n pos : Nat) : Res (Stored Bytes) :=
  (readRef data n pos).bind fun r => (readRegion codec file r).bind fun region => (regionRows region r.rows 0).bind fun rows =>
    .ok ⟨r.rows, r.min, r.max, rows⟩

/-- all regions of a branch, from number `pos` on -/
def readBranch (codec : Option Codec) (file data : Bytes) (n : Nat) : Nat → Nat → Res (List (Stored Bytes))
  | 0, _ => .ok []
  | k + 1, pos => (readStored codec file data n pos).bind fun s => (readBranch codec file data n k (pos + 1)).bind fun l => .ok (s :: l)

/-- Meta from its 85 bytes -/
def readMeta (bs : Bytes) : Res Meta :=
  (field bs 0 4).bind fun crc => (field bs 4 4).bind fun crcData => (field bs 8 4).bind fun magic => (field bs 12 4).bind fun version =>
  (field bs 16 4).bind fun size => (field bs 20 4).bind fun so => (field bs 24 8).bind fun sr => (field bs 32 8).bind fun sro => (field bs 40 8).bind fun st =>
  (field bs 48 8).bind fun sto => (field bs 56 4).bind fun regions => (field bs 60 8).bind fun rows => (field bs 68 1).bind fun comp =>
    .ok ⟨crc, crcData, magic, version, size, so, sr, sro, st, sto, regions, rows, comp⟩

/-- encoder_set_compression, encoder.h:61-78, with the codec of the library -/
def codecOf (zstd : Codec) (id : Nat) : Res (Option Codec) := if id = 0 then .ok none else if id = 1 then .ok (some zstd) else .error .err

/-- object_read_index, object.c:58-90, object_validate_index, object.c:48-56: the index; `offset` is the end of the branch. What is checked is the index of the
branch, which is empty until it is decompressed. -/
def readIndex (crc : Nat → Bytes → Nat) (zstd : Codec) (file : Bytes) (m : Meta) (offset : Nat) : Res Bytes :=
  (codecOf zstd m.compression).bind fun codec =>
    codec.elim
      ((pread file m.size (offset - m.size)).bind fun bs => if crc 0 bs ≠ m.crcData then .error .err else .ok bs)
      (fun c => (pread file m.size (offset - m.size)).bind fun bs => if crc 0 [] ≠ m.crcData then .error .err else c.dec bs m.sizeOrigin)

/-- object_read, object.c:92-136: header, index and the end of the branch at `offset` -/
def objectRead (crc : Nat → Bytes → Nat) (zstd : Codec) (file : Bytes) (offset : Nat) : Res (Meta × Bytes × Nat) :=
  if (file.length - offset : Int) < 85 then .error .err
  else
    (pread file 85 offset).bind fun bs => (readMeta bs).bind fun m =>
      if m.magic ≠ 0x20849615 then .error .err
      else if crc 0 (bs.drop 4) ≠ m.crc then .error .err
      else if m.version > 0 then .error .err
      else if offset + m.sizeTotal > file.length then .error .err
      else (readIndex crc zstd file m (offset + m.sizeTotal)).bind fun data => .ok (m, data, offset + m.sizeTotal)

/-- the loop of object_open, object.c:143-149: as many branches as the version says -/
def objectBranches (crc : Nat → Bytes → Nat) (zstd : Codec) (file : Bytes) : Nat → Nat → Res (List (Meta × Bytes) × Nat)
  | 0, offset => .ok ([], offset)
  | k + 1, offset => (objectRead crc zstd file offset).bind fun b => (objectBranches crc zstd file k b.2.2).bind fun r => .ok ((b.1, b.2.1) :: r.1, r.2)

/-- object_open, object.c:138-160: the branches and the file after it -/
def objectOpen (crc : Nat → Bytes → Nat) (zstd : Codec) (file : Bytes) (version : Nat) : Res (List (Meta × Bytes) × Bytes) :=
  (objectBranches crc zstd file version 0).bind fun r => .ok (r.1, if r.2 = file.length then file.take r.2 else file)

end Verif.Object.File
