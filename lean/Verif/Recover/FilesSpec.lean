import Verif.Recover.FilesModel
/-! # What recovery of files should do -/
namespace Verif.Recover
open Verif

/-- the partition has its complete old file or its complete new file, and not both -/
def OldOrNew (j : Job) (fs : Fs) : Prop :=
  (fs (.part j.a) = some j.old ∧ fs (.part j.b) = none) ∨ (fs (.part j.a) = none ∧ fs (.part j.b) = some j.new)

/-- before the refreshes: the old files exist, nothing else of them does, and no service file exists -/
structure Ready (js : List Job) (fs : Fs) : Prop where
  old  : ∀ j ∈ js, fs (.part j.a) = some j.old
  new  : ∀ j ∈ js, fs (.part j.b) = none
  svc  : ∀ c, fs (.svc c) = none

/-- ids are not used twice (state_psn_next) -/
structure Distinct (js : List Job) : Prop where
  ids  : (js.flatMap fun j => [j.a, j.b, j.c]).Nodup

/-- the file can be read as a partition or is not there: no temporary files are left -/
def NoTemp (fs : Fs) : Prop := ∀ id, fs (.svc id) = none ∧ fs (.svcInc id) = none ∧ fs (.partInc id) = none

/-- all temporary files are among the entries -/
def Lists (fs : Fs) (es : List Name) : Prop :=
  ∀ id, (fs (.svc id) ≠ none → Name.svc id ∈ es) ∧ (fs (.svcInc id) ≠ none → Name.svcInc id ∈ es) ∧ (fs (.partInc id) ≠ none → Name.partInc id ∈ es)

/-- the texts a reader of the catalog may get: after a completed write only that one; a write that was interrupted may or may not have
happened, until the catalog is read -/
def catAllowed : List Bytes → List CatEvent → List Bytes
  | ts, [] => ts
  | ts, .writeStop t _ :: r => catAllowed (t :: ts) r
  | _, .write t :: r => catAllowed [t] r
  | ts, .readStop _ :: r => catAllowed ts r
  | ts, .read :: r => catAllowed ts r

/-- a process that is stopped is started again, and then reads the catalog before it writes it -/
def readsFirst : Bool → List CatEvent → Prop
  | _, [] => True
  | up, .writeStop _ _ :: r => up = true ∧ readsFirst false r
  | up, .write _ :: r => up = true ∧ readsFirst true r
  | _, .readStop _ :: r => readsFirst false r
  | _, .read :: r => readsFirst true r

end Verif.Recover
