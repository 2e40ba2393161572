import Verif.Common
/-!
# Files: replacing partition files and the catalog file

Models the order of file operations of db/service/refresh.c, db/service/flush.c, db/service/service_file.h, the recovery of interrupted
operations (db/service/service_recover.c, db/part/part_mgr_recover.c) and of db/catalog/catalog_file.c.

* A directory maps names to contents. Files are written byte by byte; the process can stop after any operation. Renaming and unlinking are atomic.
* What the operating system does with data that is not synced is not modelled: a stop is a stop of the process.
* refresh.c, flush.c and service_recover.c use ids with types (ID_PART, ID_SERVICE) that db/storage/id.h of this commit does not have any more
  (STATE_COMPLETE, STATE_INCOMPLETE); they are modelled as written.
-/
namespace Verif.Recover
open Verif

/-- names of files -/
inductive Name where
  /-- partition file -/
  | part (id : Nat)
  /-- partition file with .incomplete -/
  | partInc (id : Nat)
  /-- object (branch) file of a flush -/
  | obj (id : Nat)
  | objInc (id : Nat)
  /-- service file -/
  | svc (id : Nat)
  | svcInc (id : Nat)
  /-- catalog.json -/
  | cat
  /-- catalog.json.incomplete -/
  | catInc
deriving DecidableEq

abbrev Fs := Name → Option Bytes

def Fs.set (fs : Fs) (n : Name) (v : Option Bytes) : Fs := fun m => if m = n then v else fs m

inductive FsOp where
  /-- file.h file_create -/
  | create (n : Name)
  /-- one byte of a write -/
  | byte (n : Name) (b : Nat)
  /-- fs_unlink (if the file exists) -/
  | unlink (n : Name)
  /-- fs_rename (if the file exists), id.h id_rename -/
  | rename (a b : Name)
deriving DecidableEq

def FsOp.apply (fs : Fs) : FsOp → Fs
  | .create n => fs.set n (some [])
  | .byte n b => fs.set n ((fs n).map (· ++ [b]))
  | .unlink n => fs.set n none
  | .rename a b => match fs a with | none => fs | some d => (fs.set b (some d)).set a none

def applyAll (fs : Fs) (ops : List FsOp) : Fs := ops.foldl FsOp.apply fs

/-- file_write_buf -/
def write (n : Name) (d : Bytes) : List FsOp := d.map (FsOp.byte n)

/-- text of a service file: input and output files (service_file.h:79-127 writes it as JSON, 135-… reads it) -/
structure SvcText where
  enc : List Name → List Name → Bytes
  dec : Bytes → Option (List Name × List Name)
  law : ∀ i o, dec (enc i o) = some (i, o)

/-- a refresh: the partition file `a` is replaced by `b`, with the service file `c` -/
structure Job where
  a   : Nat
  b   : Nat
  c   : Nat
  old : Bytes
  new : Bytes

/-- service_file.h:79-127 service_file_create -/
def createService (T : SvcText) (c : Nat) (ins outs : List Name) : List FsOp :=
  .create (.svcInc c) :: write (.svcInc c) (T.enc ins outs) ++ [.rename (.svcInc c) (.svc c)]

/-- refresh.c:78-91 refresh_snapshot_job and 93-130 refresh_complete_job: the file operations of a refresh in their order -/
def Job.prep (T : SvcText) (j : Job) : List FsOp :=
  .create (.partInc j.b) :: write (.partInc j.b) j.new ++ createService T j.c [.part j.a] [.part j.b]
def Job.ops (T : SvcText) (j : Job) : List FsOp :=
  j.prep T ++ [.unlink (.part j.a), .rename (.partInc j.b) (.part j.b), .unlink (.svc j.c)]

/-- flush.c:69-… flush_job and flush_complete_job: a flush also creates a branch file `o` -/
def flushOps (T : SvcText) (j : Job) (o : Nat) (branch : Bytes) : List FsOp :=
  .create (.partInc j.b) :: write (.partInc j.b) j.new ++ (.create (.objInc o) :: write (.objInc o) branch) ++
  createService T j.c [.part j.a] [.part j.b, .obj o] ++
  [.unlink (.part j.a), .rename (.partInc j.b) (.part j.b), .rename (.objInc o) (.obj o), .unlink (.svc j.c)]

/-- several refreshes at the same time: which of them does its next operation (`prog` = operations done by each) -/
def advance (js : Nat → Option (List FsOp)) : List Nat → (Nat → Nat) → Fs → (Nat → Nat) × Fs
  | [], prog, fs => (prog, fs)
  | i :: r, prog, fs =>
    match js i with
    | none => advance js r prog fs
    | some ops =>
      match ops[prog i]? with
      | none => advance js r prog fs
      | some op => advance js r (fun k => if k = i then prog i + 1 else prog k) (op.apply fs)

/-! ## Recovery -/

/-- service_recover.c:45-84 service_recover_of, 112-136 (a directory entry), part_mgr_recover.c:48-80 (an entry of a volume); `none`: the service
file cannot be read -/
def entryOps (T : SvcText) (fs : Fs) : Name → Option (List FsOp)
  | .svcInc c => some [.unlink (.svcInc c)]
  | .svc c =>
    match fs (.svc c) with
    | none => some []
    | some d =>
      match T.dec d with
      | none => none
      | some (ins, outs) => some ((if outs.all fun n => (fs n).isSome then ins else outs).map .unlink ++ [.unlink (.svc c)])
  | .partInc b => some [.unlink (.partInc b)]
  | .objInc b => some [.unlink (.objInc b)]
  | _ => some []

/-- the operations of a recovery that reads the entries `es` -/
def recOps (T : SvcText) : Fs → List Name → Option (List FsOp)
  | _, [] => some []
  | fs, e :: es =>
    match entryOps T fs e with
    | none => none
    | some o =>
      match recOps T (applyAll fs o) es with
      | none => none
      | some r => some (o ++ r)

/-- recoveries that are interrupted: the entries that each of them reads, and after how many operations it stops -/
def crashed (T : SvcText) : Fs → List (List Name × Nat) → Option Fs
  | fs, [] => some fs
  | fs, (es, i) :: r =>
    match recOps T fs es with
    | none => none
    | some ops => crashed T (applyAll fs (ops.take i)) r

/-! ## The catalog file -/

/-- catalog_file.c:217-269 catalog_write -/
def catWrite (text : Bytes) : List FsOp :=
  .unlink .catInc :: .create .catInc :: write .catInc text ++ [.unlink .cat, .rename .catInc .cat]

/-- catalog_file.c:146-181 catalog_read: operations, and the text that is read (`none`: the file is missing) -/
def catRead (fs : Fs) : List FsOp × Option Bytes :=
  match fs .cat with
  | none =>
    match fs .catInc with
    | none => ([], none)
    | some d => ([.rename .catInc .cat], some d)
  | some d => (if (fs .catInc).isSome then [.unlink .catInc] else [], some d)

/-- what happens to the catalog file -/
inductive CatEvent where
  /-- it is written, and the process stops after `i` operations -/
  | writeStop (text : Bytes) (i : Nat)
  | write (text : Bytes)
  /-- it is read at the start, and the process stops after `i` operations -/
  | readStop (i : Nat)
  | read

def catStep (fs : Fs) : CatEvent → Fs
  | .writeStop text i => applyAll fs ((catWrite text).take i)
  | .write text => applyAll fs (catWrite text)
  | .readStop i => applyAll fs ((catRead fs).1.take i)
  | .read => applyAll fs (catRead fs).1

def catRun (fs : Fs) (es : List CatEvent) : Fs := es.foldl catStep fs

end Verif.Recover
