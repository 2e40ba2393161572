import Verif.Wal.Model
/-!
# Checkpoints and recovery

Models db/db/recover.c, the loading of partitions (db/part/part_mgr.c, part.c part_open), the files written by a checkpoint as far as recovery
depends on them (db/service/refresh.c, db/service/op.c, db/catalog/catalog_file.c) and the DDL operations create, drop and truncate table
(db/catalog/table_mgr.c, table.h, db/part/part_mgr.c).

* A partition in memory is its primary index (key ↦ row), the rows in its heap, the lsn in the header of the heap and the lsn of its track. The
  other indexes follow the primary one (Part: C18); building an image of the heap while statements run is Heap: C48, C49.
* A partition file is the lsn in its header and the rows of the heap.
* The log is the list of its records as bytes (reading them back from the files is Wal: C23, C25).
* Key extraction, the mapping of keys to partitions (Store: C31) and the parsing of DDL operations are parameters.
* Names of tables are identified with their ids; a table is created with `nparts` partitions.
-/
namespace Verif.Recover
open Verif Verif.Wal

/-- table id (the two halves of the uuid) -/
abbrev Tid := Nat × Nat

/-- what a DDL operation does (catalog.c:160-590, as far as the contents of tables are concerned) -/
inductive Ddl where
  | create (t : Tid)
  | drop (t : Tid)
  | truncate (t : Tid)
  | other
deriving DecidableEq

structure Env (K : Type) where
  /-- key of a row of a table -/
  key    : Tid → Bytes → K
  /-- part_mapping.h:67-72 part_mapping_map: the partition of a key -/
  slot   : Tid → K → Option Nat
  ddl    : Bytes → Ddl
  nparts : Nat

/-- heap_file.c: contents of a partition file -/
structure Image where
  lsn  : Nat
  heap : List Bytes
deriving DecidableEq

/-- part.h:18-29 Part -/
structure Mem (K : Type) where
  /-- heap->header->lsn -/
  lsn   : Nat
  /-- track.lsn -/
  track : Nat
  /-- primary index -/
  rows  : K → Option Bytes
  /-- rows in the heap -/
  heap  : List Bytes

structure Sys (K : Type) where
  /-- catalog: existing tables -/
  tabs    : List Tid
  parts   : Tid → Nat → Mem K
  /-- partition files -/
  img     : Tid → Nat → Option Image
  /-- partition files being written by a refresh -/
  busy    : Tid → Nat → Option Image
  /-- catalog.json: lsn and tables -/
  cat     : Nat
  catTabs : List Tid
  /-- state_catalog_pending -/
  pending : Nat
  /-- state_lsn -/
  lsn     : Nat
  log     : List Bytes

variable {K : Type} [DecidableEq K]

def setRow (f : K → Option Bytes) (k : K) (v : Option Bytes) : K → Option Bytes := fun x => if x = k then v else f x

def setPart {α : Type} (f : Tid → Nat → α) (t : Tid) (p : Nat) (m : α) : Tid → Nat → α := fun t' p' => if t' = t ∧ p' = p then m else f t' p'

/-- part_op.c:94-131 part_insert with replace (and the free of the replaced row at commit, part_op.c:36-46) -/
def Mem.put (m : Mem K) (k : K) (row : Bytes) : Mem K :=
  { m with rows := setRow m.rows k (some row)
           heap := (match m.rows k with | some r => m.heap.erase r | none => m.heap) ++ [row] }

/-- part_op.c:246-257 part_delete_by: the row must exist; part_op.c:204-243 part_delete; the row is freed at commit -/
def Mem.del (m : Mem K) (k : K) : Res (Mem K) :=
  match m.rows k with
  | none => .error .err
  | some r => .ok { m with rows := setRow m.rows k none, heap := m.heap.erase r }

/-- recover.c:88-94, 108-113: one row of a command -/
def Mem.row (m : Mem K) (cmd : Nat) (k : K) (row : Bytes) : Res (Mem K) :=
  if cmd = REPLACE then .ok (m.put k row) else m.del k

/-- part.c:60-84 part_open: the index is rebuilt from the heap -/
def loadRows (key : Bytes → K) (heap : List Bytes) : K → Option Bytes := heap.foldl (fun f r => setRow f (key r) (some r)) fun _ => none

/-- part_mgr.c:55-84 part_mgr_open: read the file, or create an empty one (part_mgr_recover.c:84-142, when the table has no files); the track
starts with the lsn of the header -/
def load (env : Env K) (t : Tid) (i : Option Image) : Mem K :=
  match i with
  | none => ⟨0, 0, fun _ => none, []⟩
  | some i => ⟨i.lsn, i.lsn, loadRows (env.key t) i.heap, i.heap⟩

/-- part_mgr.c:80-83: state_lsn follows the headers -/
def followParts (env : Env K) (s : Sys K) (t : Tid) : Nat := (List.range env.nparts).foldl (fun l p => max l (s.parts t p).lsn) s.lsn

/-- catalog.c:142-… catalog_execute. create: table_mgr.c:42-68; drop: table_mgr.c:70-91, table.h:43-62, part_mgr.c:96-115 (files are removed);
truncate: table_mgr.c:93-138, part_mgr.c:117-126, part.c:84-89 (only the indexes are emptied) -/
def execDdl (env : Env K) (s : Sys K) (op : Bytes) : Res (Sys K) :=
  match env.ddl op with
  | .create t =>
    if t ∈ s.tabs then .error .err
    else
      let s1 : Sys K := { s with tabs := s.tabs ++ [t]
                                 parts := fun t' p => if t' = t then load env t (s.img t p) else s.parts t' p
                                 img := fun t' p => if t' = t then some ((s.img t p).getD ⟨0, []⟩) else s.img t' p }
      .ok { s1 with lsn := followParts env s1 t }
  | .drop t =>
    if t ∉ s.tabs then .error .err
    else .ok { s with tabs := s.tabs.erase t
                      parts := fun t' p => if t' = t then ⟨0, 0, fun _ => none, []⟩ else s.parts t' p
                      img := fun t' p => if t' = t then none else s.img t' p
                      busy := fun t' p => if t' = t then none else s.busy t' p }
  | .truncate t =>
    if t ∉ s.tabs then .error .err
    else .ok { s with parts := fun t' p => if t' = t then { s.parts t' p with rows := fun _ => none } else s.parts t' p }
  | .other => .ok s

/-! ## Recovery -/

/-- commands of a record with their rows: the loop of recover.c:143-155 and the loops over rows (86-94, 106-113); as Wal `changes`, but
command by command. All commands are checked before the first one is applied; the code checks each one before it is applied, and rolls
back when a later check fails (recover.c:194-198) -/
def groups (r : Bytes) : Nat → Nat → Nat → Res (List (Cmd × List Bytes))
  | 0, _, _ => .ok []
  | n + 1, i, pos =>
    let c := Cmd.read r i
    if !validateCmd c r pos then .error .err
    else if c.cmd = REPLACE ∨ c.cmd = DELETE then do
      let (rs, p) ← rows r (pos + c.size) c.size pos
      let gs ← groups r n (i + 1) p
      .ok ((c, rs) :: gs)
    else if c.cmd = DDL ∨ c.cmd = DDL_CREATE_INDEX then do
      let gs ← groups r n (i + 1) (pos + c.size)
      .ok ((c, [slice r pos c.size]) :: gs)
    else .error .err

/-- recover.c:52-70 recover_map and 72-141 recover_cmd. The partition is the one of the first row of the command -/
def recoverCmd (env : Env K) (lsn : Nat) (s : Sys K) (g : Cmd × List Bytes) : Res (Sys K) :=
  let t : Tid := (g.1.a, g.1.b)
  if g.1.cmd = REPLACE ∨ g.1.cmd = DELETE then
    match g.2 with
    | [] => .error .ub
    | first :: _ =>
      if t ∉ s.tabs then .ok s
      else
        match env.slot t (env.key t first) with
        | none => .error .err
        | some p =>
          let m := { s.parts t p with track := max (s.parts t p).track lsn }
          if lsn ≤ m.lsn then .ok { s with parts := setPart s.parts t p m }
          else do
            let m ← g.2.foldlM (fun m row => m.row g.1.cmd (env.key t row) row) m
            .ok { s with parts := setPart s.parts t p m }
  else
    match g.2 with
    | [op] =>
      if lsn ≤ s.cat then .ok s
      else do
        let s ← execDdl env s op
        .ok { s with pending := lsn }
    | _ => .error .ub

/-- recover.c:143-179 recover_next_record -/
def recoverRecord (env : Env K) (s : Sys K) (r : Bytes) : Res (Sys K) := do
  let h := Hdr.read r
  let gs ← groups r h.count 0 (24 + h.count * 25)
  let s ← gs.foldlM (recoverCmd env h.lsn) s
  .ok { s with lsn := max s.lsn h.lsn }

/-- catalog_file.c:106-… catalog_restore, and the tables in it (part_mgr_open) -/
def restoreCatalog (env : Env K) (s : Sys K) : Sys K :=
  let s1 : Sys K := { s with tabs := s.catTabs
                             parts := fun t p => load env t (s.img t p)
                             img := fun t p => if t ∈ s.catTabs then some ((s.img t p).getD ⟨0, []⟩) else s.img t p
                             busy := fun _ _ => none
                             pending := s.cat
                             lsn := s.cat }
  { s1 with lsn := s.catTabs.foldl (fun l t => followParts env { s1 with lsn := l } t) s.cat }

/-- system.c:227-243 system_recover, db.c:48-55 db_open, recover.c:201-240: the catalog and the partition files are read, then the log is replayed -/
def restart (env : Env K) (s : Sys K) : Res (Sys K) := s.log.foldlM (recoverRecord env) (restoreCatalog env s)

/-! ## Running -/

/-- a change made by a transaction, in memory (at commit, with the lsn of its record) -/
def runChange (env : Env K) (lsn : Nat) (s : Sys K) : Change → Res (Sys K)
  | .row cmd a b row =>
    let t : Tid := (a, b)
    if t ∉ s.tabs then .error .err
    else
      match env.slot t (env.key t row) with
      | none => .error .err
      | some p => do
        let m ← (s.parts t p).row cmd (env.key t row) row
        .ok { s with parts := setPart s.parts t p { m with track := lsn } }
  | .op _ op => do
    let s ← execDdl env s op
    .ok { s with pending := lsn }

/-- what happens to the system -/
inductive Op where
  /-- a transaction: for each of its partitions the changes it makes there -/
  | tx (css : List (List Change))
  /-- refresh.c:27-76 refresh_begin and 85-86: the image is taken; the lsn in the header changes -/
  | refreshStart (t : Tid) (p : Nat)
  /-- refresh.c:93-130 refresh_complete_job: the file is replaced (one step here; see C36 for the steps in between) -/
  | refreshEnd (t : Tid) (p : Nat)
  /-- op.c:58-60, catalog_file.c:217-269 catalog_write -/
  | catalog
  /-- op.c:94-139 service_gc and wal_gc (without slots): remove records up to `m` that are below the minimum -/
  | gc (m : Nat)
  /-- the system stops and is started again -/
  | restart
  /-- a change in a table that is UNLOGGED at that time (part_op.c:99-100) -/
  | unlogged (c : Change)

/-- op.c:94-136 service_gc: the lowest lsn that is needed; `none` = UINT64_MAX -/
def minOpt (a : Option Nat) (b : Nat) : Option Nat := match a with | none => some b | some a => some (min a b)
def gcMin (env : Env K) (s : Sys K) : Option Nat :=
  let a := if s.pending > s.cat then some s.cat else none
  s.tabs.foldl (fun a t => (List.range env.nparts).foldl (fun a p =>
    if (s.parts t p).track > (s.parts t p).lsn then minOpt a (s.parts t p).lsn else a) a) a

/-- below the minimum -/
def below (l : Nat) : Option Nat → Bool
  | none => true
  | some m => l < m

def step (env : Env K) (s : Sys K) : Op → Res (Sys K)
  | .tx css =>
    match css.flatten.foldlM (runChange env (s.lsn + 1)) s with
    | .error _ => .ok s     -- the transaction is aborted: nothing changes (Part: C18)
    | .ok s1 => .ok { s1 with lsn := s.lsn + 1, log := s1.log ++ [record (s.lsn + 1) (css.map WLog.ofChanges)] }
  | .refreshStart t p =>
    if t ∈ s.tabs ∧ p < env.nparts then
      let m := s.parts t p
      .ok { s with parts := setPart s.parts t p { m with lsn := m.track }, busy := setPart s.busy t p (some ⟨m.track, m.heap⟩) }
    else .ok s
  | .refreshEnd t p =>
    match s.busy t p with
    | none => .ok s
    | some i => .ok { s with img := setPart s.img t p (some i), busy := setPart s.busy t p none }
  | .catalog => if s.cat < s.pending then .ok { s with cat := s.pending, catTabs := s.tabs } else .ok s
  | .gc m => .ok { s with log := s.log.filter fun r => ¬ ((Hdr.read r).lsn ≤ m ∧ below (Hdr.read r).lsn (gcMin env s)) }
  | .restart => Recover.restart env s
  | .unlogged c =>
    match c with
    | .row _ a b row =>
      match runChange env (((env.slot (a, b) (env.key (a, b) row)).map fun p => (s.parts (a, b) p).track).getD 0) s c with
      | .error _ => .ok s
      | .ok s1 => .ok s1
    | .op _ _ => .ok s

def run (env : Env K) (s : Sys K) (ops : List Op) : Res (Sys K) := ops.foldlM (step env) s

/-- a new system (catalog.c:108-118 catalog_open, bootstrap) -/
def Sys.init : Sys K := ⟨[], fun _ _ => ⟨0, 0, fun _ => none, []⟩, fun _ _ => none, fun _ _ => none, 0, [], 0, 0, []⟩

end Verif.Recover
