import Verif.Json.TextModel
import Verif.Store.IdMgr
import Verif.Wal.Model
/-!
# Backup and restore

db/db/snapshot_mgr.c, db/catalog/catalog_snapshot.c, db/wal/wal.c (wal_snapshot, wal_gc), sync/backup/backup.c and restore.c: a server with its directory of files, backups that come and go
while it works, and a client that fetches the files of a backup one by one.

Simplifications: a file is a sequence of bytes behind a number (inode), names are paths relative to the directory of the database. The files version.json, config.json, state.json and
catalog.json are sent inside the reply to the first request and are not modelled here (the catalog text is C91), nor is HTTP (C82). A snapshot is one step: it holds the catalog lock
(db.c:74), and a checkpoint or flush holds that lock too, shared, as long as it runs (op.c:30, 53): so these are steps of their own. Errors of the disk are not modelled.
-/
set_option autoImplicit false
namespace Verif.Backup
open Verif.Json.Text (decDigits)

abbrev Path := Bytes

/-- "wal/" and the number, wal.c:442 -/
def walPath (n : Nat) : Path := [119, 97, 108, 47] ++ decDigits n

/-- ".snapshot", id.h:50 -/
def snap : Bytes := [46, 115, 110, 97, 112, 115, 104, 111, 116]

/-- a registered backup: Snapshot, snapshot_mgr.h:18-23. `files` and `wal` are what the reply lists, with the bytes the files had when it was made (the reply has their number); `whole`
is false if the listing ended with an error. -/
structure Bk where
  id : Nat
  files : List (Path × Bytes)
  wal : List (Path × Bytes)
  whole : Bool

/-- the server: names, contents, the next unused inode, the partition and object files of the catalog in its order, the wal files, the backups at work and those waiting to be cleaned up -/
structure St where
  dir : Path → Option Nat
  data : Nat → Bytes
  next : Nat
  parts : List Path
  wals : List Nat
  /-- the largest number of a wal file so far -/
  hi : Nat
  active : List Bk
  gc : List Bk

def upd {α β : Type} [DecidableEq α] (f : α → β) (a : α) (b : β) : α → β := fun x => if x = a then b else f x

def St.read (s : St) (p : Path) : Option Bytes := (s.dir p).map s.data

/-- unlink, when the file is there -/
def unlinkAll (dir : Path → Option Nat) (ps : List Path) : Path → Option Nat := fun p => if p ∈ ps then none else dir p

/-- a new file with its content -/
def create (s : St) (p : Path) (b : Bytes) : St := { s with dir := upd s.dir p (some s.next), data := upd s.data s.next b, next := s.next + 1 }

/-- new files, one after the other -/
def createAll (s : St) : List (Path × Bytes) → St
  | [] => s
  | (p, b) :: l => createAll (create s p b) l

/-- id_snapshot for each file, id.h:158-176, catalog_snapshot.c:52-79: the name it links to must not be there. The links made, and whether it came to the end -/
def linkAll (dir : Path → Option Nat) : List Path → (Path → Option Nat) × Bool
  | [] => (dir, true)
  | p :: l =>
    match dir p, dir (p ++ snap) with
    | some i, none => linkAll (upd dir (p ++ snap) (some i)) l
    | _, _ => (dir, false)

/-- the entry of a file in the listing, encode_basefile, basefile.h:32-57 (the mode is left out) -/
def entry (s : St) (p : Path) : Path × Bytes := (p, (s.read p).getD [])

/-- snapshot_mgr_create, snapshot_mgr.c:63-119; a failed one is dropped at once -/
def register (s : St) (id : Nat) : St × Bk :=
  let (dir, ok) := linkAll s.dir s.parts
  let s1 := { s with dir := dir }
  let b : Bk := ⟨id, if ok then s.parts.map (fun p => entry s1 (p ++ snap)) else [], if ok then s.wals.map (fun n => entry s1 (walPath n)) else [], ok⟩
  ({ s1 with active := s.active ++ [b] }, b)

/-- catalog_snapshot_cleanup, catalog_snapshot.c:84-110, for one backup: the links of a whole listing are removed. (The listing of a backup that failed has no end: decode_obj fails or
reads past it, and no link is removed.) -/
def cleanup (dir : Path → Option Nat) (b : Bk) : Path → Option Nat := if b.whole then unlinkAll dir (b.files.map Prod.fst) else dir

/-- snapshot_mgr_drop, snapshot_mgr.c:138-155, and snapshot_mgr_gc, 121-136 -/
def drop (s : St) (id : Nat) : St :=
  let out := s.active.filter (fun b => b.id = id)
  let left := s.active.filter (fun b => b.id ≠ id)
  if left = [] then { s with active := [], gc := [], dir := (s.gc ++ out).foldl cleanup s.dir }
  else { s with active := left, gc := s.gc ++ out }

/-- snapshot_mgr_create with the drop on error, snapshot_mgr.c:112-116; the answer, if there is one -/
def snapshot (s : St) (id : Nat) : St × Option Bk :=
  let (s1, b) := register s id
  if b.whole then (s1, some b) else (drop s1 id, none)

/-- wal_gc, wal.c:106-136, with wal_slots, 44-58: `reps` are the positions of the replicas; each backup has a slot with 0 (wal.c:431) -/
def walGc (s : St) (reps : List Nat) (min : Nat) : St :=
  let m := Wal.slotsMin (reps ++ s.active.map (fun _ => 0)) min
  let r := Store.IdMgr.gc s.wals m
  { s with dir := unlinkAll s.dir (r.1.map walPath), wals := r.2 }

/-- backup_send_file, backup.c:55-93: the bytes that follow the header. The path is not checked (backup.c:110). -/
def send (s : St) (p : Path) (size : Nat) : Option Bytes :=
  match s.read p with
  | some b => if size > b.length then none else some (b.take size)
  | none => none

/-- restore_file_remote cuts ".snapshot" off, restore.c:193-195 -/
def cut (p : Path) : Path := if p.length > 9 ∧ p.drop (p.length - 9) = snap then p.take (p.length - 9) else p

/-- the path of a partition or object file: storage/<volume>/<id>[.<version>], id.h:97-124 -/
def IsPart (p : Path) : Prop := ∃ q d, p = [115, 116, 111, 114, 97, 103, 101, 47] ++ q ++ [d] ∧ 48 ≤ d ∧ d ≤ 57

/-- what the server does besides backups -/
inductive Work : St → St → Prop
  /-- records are written to the last wal file -/
  | append {s : St} (n : Nat) (i : Nat) (b : Bytes) : s.wals.getLast? = some n → s.dir (walPath n) = some i → Work s { s with data := upd s.data i (s.data i ++ b) }
  /-- a new wal file, wal.c:70-104; its number is the next lsn, above that of all wal files there ever were -/
  | walCreate {s : St} (n : Nat) : s.hi < n → Work s { create s (walPath n) [] with wals := s.wals ++ [n], hi := n }
  /-- checkpoint, flush, CREATE and DROP TABLE: files go, files come, with names that were never used -/
  | replace {s : St} (old : List Path) (new : List (Path × Bytes)) (parts : List Path) : (∀ p ∈ old, p ∈ s.parts) → (∀ x ∈ new, IsPart x.1 ∧ s.dir x.1 = none) → (new.map Prod.fst).Nodup →
      (∀ p ∈ parts, (p ∈ s.parts ∧ p ∉ old) ∨ p ∈ new.map Prod.fst) → parts.Nodup →
      Work s { createAll { s with dir := unlinkAll s.dir old } new with parts := parts }
  /-- wal garbage collection -/
  | walGc {s : St} (reps : List Nat) (min : Nat) : Work s (walGc s reps min)

/-- what the server does; `k` is the backup that is being looked at: its own end is not among the steps of `Step k` -/
inductive Step (k : Nat) : St → St → Prop
  | work {s s' : St} : Work s s' → Step k s s'
  /-- another backup begins -/
  | snapshot {s : St} (id : Nat) : id ≠ k → (∀ b ∈ s.active, b.id ≠ id) → Step k s (snapshot s id).1
  /-- another backup ends -/
  | drop {s : St} (id : Nat) : id ≠ k → Step k s (drop s id)

inductive Steps (k : Nat) : St → St → Prop
  | refl {s : St} : Steps k s s
  | step {s s' s'' : St} : Steps k s s' → Step k s' s'' → Steps k s s''

/-- an empty database with its first wal file -/
def init : St := ⟨upd (fun _ => none) (walPath 0) (some 0), fun _ => [], 1, [], [0], 0, [], []⟩

/-- a state of the server: steps from the start, with backups of any number -/
inductive Reach : St → Prop
  | init : Reach init
  | step {s s' : St} (k : Nat) : Reach s → Step k s s' → Reach s'

/-- a server where a backup begins only when there is no other -/
inductive One : St → Prop
  | init : One init
  | work {s s' : St} : One s → Work s s' → One s'
  | snapshot {s : St} (id : Nat) : One s → s.active = [] → One (snapshot s id).1
  | drop {s : St} (id : Nat) : One s → One (drop s id)

/-- restore_run, restore.c:279-303, for a list of files: a request for each, while the server goes on; the files written -/
inductive Fetch (k : Nat) : St → List (Path × Nat) → List (Path × Bytes) → Prop
  | nil {s : St} : Fetch k s [] []
  | cons {s s' : St} {p : Path} {n : Nat} {b : Bytes} {l : List (Path × Nat)} {out : List (Path × Bytes)} :
      Steps k s s' → send s' p n = some b → Fetch k s' l out → Fetch k s ((p, n) :: l) ((cut p, b) :: out)

/-- the list of files a backup sends: names and sizes -/
def Bk.list (b : Bk) : List (Path × Nat) := (b.files ++ b.wal).map (fun x => (x.1, x.2.length))

end Verif.Backup
