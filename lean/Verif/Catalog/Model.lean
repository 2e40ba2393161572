import Verif.Common
/-!
# The catalog and its DDL transactions

Databases, tables (with columns, indexes and tiers), functions and storages, the statements that
change them and the undo log of a DDL transaction.  Models `amelie/db/transaction/relation_mgr.c`,
`log.h` (`log_relation`), `commit.c`, `amelie/db/catalog/{catalog.c, cascade.c, database_mgr.c,
table_mgr.c, table_mgr_alter.c, table_index.c, table_tier.c, udf_mgr.c}`,
`amelie/db/storage/storage_mgr.c`, `amelie/db/row/{columns.h, constraints.h}` and
`session_execute_utility` of `amelie/system/session/session.c`.

Simplifications, used throughout:
* an object of the C heap is a record carrying its address (`oid`, `cid`, `iid`, `tid`), fresh for
  every allocation; a pointer kept in the undo log is that number;
* the request (`uint8_t* op`) is taken decoded;
* rows, partitions and files of a table are not here (`table_open`, `tier_open`, `mkdir` may fail:
  the oracle `Env.opens`), nor is the compiled body of a function beyond the list of the names it
  uses (the oracle `Env.compile`); the reference count of a storage is the oracle `Env.busy`;
* `log_persist_relation` (what goes to the WAL) is the area Recover.
-/
namespace Verif.Catalog

abbrev Name := Bytes

/-- `tolower` of the C locale -/
def lower (b : Nat) : Nat := if 65 ≤ b ∧ b ≤ 90 then b + 32 else b

/-- `str_compare_case` (runtime/base/str.h:139-149): same length and `strncasecmp` = 0.  Names hold no
zero byte, at which `strncasecmp` would stop. -/
def same (a b : Name) : Bool := decide (a.map lower = b.map lower)

/-- `struct Constraints` (db/row/constraints.h:23-31) -/
structure Cons where
  notNull  : Bool
  identity : Int
  modulo   : Int
  stored   : Bytes
  resolved : Bytes
  value    : Bytes
deriving DecidableEq, Repr

/-- `constraints_init` (constraints.h:33-42) -/
def Cons.init : Cons := ⟨false, 0, 9223372036854775807, [], [], []⟩

/-- `struct Column` (db/row/column.h:17-28); `order` is the position in the list (`columns_add`,
columns.h:46-48; a column leaves the list only when the transaction that added it last is undone),
`refs` is `isKey` below -/
structure Col where
  cid      : Nat
  name     : Name
  type     : Int
  typeSize : Int
  dropped  : Bool
  cons     : Cons
deriving DecidableEq, Repr

/-- `struct Key` (db/row/key.h:16-23) -/
structure KeyRef where
  ref : Nat
  asc : Bool
deriving DecidableEq, Repr

/-- `struct IndexConfig` (db/index/index_config.h:23-31) -/
structure Idx where
  iid     : Nat
  name    : Name
  type    : Int
  unique  : Bool
  primary : Bool
  keys    : List KeyRef
deriving DecidableEq, Repr

/-- `struct Volume` (db/storage/volume.h:16-25); `used` is `list_count > 0` -/
structure Vol where
  name  : Name
  id    : Bytes
  pause : Bool
  used  : Bool
deriving DecidableEq, Repr

/-- `struct TierConfig` with the `Tier` over it (db/tier/tier_config.h:22-29) -/
structure Tier where
  tid        : Nat
  name       : Name
  regionSize : Int
  objectSize : Int
  vols       : List Vol
deriving DecidableEq, Repr

/-- `struct Table` and its `TableConfig` (db/catalog/table.h:16-24, table_config.h:16-28);
`seq` is the identity counter -/
structure Tab where
  oid      : Nat
  db       : Name
  name     : Name
  id       : Bytes
  unlogged : Bool
  cols     : List Col
  idxs     : List Idx
  parts    : Int
  vols     : List Vol
  tiers    : List Tier
  seq      : Int
deriving DecidableEq, Repr

/-- `struct Database` (db/catalog/database.h, database_config.h:16-20) -/
structure Db where
  oid    : Nat
  name   : Name
  system : Bool
deriving DecidableEq, Repr

/-- `struct Storage` (db/storage/storage.h:16-21, storage_config.h:16-23) -/
structure Stor where
  oid         : Nat
  name        : Name
  path        : Bytes
  compression : Bytes
  level       : Int
  system      : Bool
deriving DecidableEq, Repr

/-- `struct Udf` and its `UdfConfig` (db/catalog/udf.h:18-26, udf_config.h:16-24); `uses` is the access
list of the compiled program (`udf->data`) -/
structure Udf where
  oid       : Nat
  db        : Name
  name      : Name
  text      : Bytes
  args      : List Col
  type      : Int
  returning : List Col
  uses      : List Name
deriving DecidableEq, Repr

/-- `struct Catalog` (db/catalog/catalog.h): four `RelationMgr` lists.  `next` numbers allocations,
`broken` records that the program used a wild pointer. -/
structure Cat where
  stors  : List Stor
  dbs    : List Db
  tabs   : List Tab
  udfs   : List Udf
  next   : Nat
  broken : Bool
deriving DecidableEq, Repr

class HasOid (α : Type) where
  oid : α → Nat

instance : HasOid Stor := ⟨Stor.oid⟩
instance : HasOid Db := ⟨Db.oid⟩
instance : HasOid Tab := ⟨Tab.oid⟩
instance : HasOid Udf := ⟨Udf.oid⟩
instance : HasOid Col := ⟨Col.cid⟩
instance : HasOid Idx := ⟨Idx.iid⟩
instance : HasOid Tier := ⟨Tier.tid⟩

/-- the object behind a pointer -/
def at_ {α : Type} [HasOid α] (l : List α) (o : Nat) : Option α := l.find? fun x => decide (HasOid.oid x = o)
/-- `list_append` (`relation_mgr_set`, relation_mgr.c:36-42) -/
def put {α : Type} (l : List α) (x : α) : List α := l ++ [x]
/-- `list_unlink` (`relation_mgr_delete`, relation_mgr.c:44-50) -/
def del {α : Type} [HasOid α] (l : List α) (o : Nat) : List α := l.filter fun x => decide (HasOid.oid x ≠ o)
/-- writing through a pointer -/
def upd {α : Type} [HasOid α] (l : List α) (o : Nat) (f : α → α) : List α :=
  l.map fun x => if HasOid.oid x = o then f x else x

/-! ## The undo log -/

/-- a `LogOp` of a DDL transaction (log.h:22-28, 148-168) with the data saved beside it -/
inductive Undo
  | newStor (o : Nat) | delStor (s : Stor) | nameStor (o : Nat) (n : Name)
  | newDb (o : Nat) | delDb (d : Db) | nameDb (o : Nat) (n : Name)
  | newTab (o : Nat) | delTab (t : Tab) | nameTab (o : Nat) (db n : Name)
  | truncate (o : Nat) | identity (o : Nat) (v : Int) | unlogged (o : Nat)
  | colName (o c : Nat) (n : Name) | colNew (o c : Nat) | colDel (o c : Nat) (k : Cons) | colSet (o c : Nat) (k : Cons)
  | idxNew (o : Nat) | idxDel (o i : Nat) | idxName (o i : Nat) (n : Name)
  | tierNew (o t : Nat) | tierDel (o t : Nat) | tierName (o t : Nat) (n : Name)
  | volNew (o t : Nat) (n : Name) | volDel (o t : Nat) (n : Name) | volPause (o t : Nat) (n : Name)
  | tierSet (o t : Nat) (r s : Int)
  | newUdf (o : Nat) | delUdf (u : Udf) | swapUdf (prev : Udf) | nameUdf (o : Nat) (db n : Name)
deriving DecidableEq, Repr

/-- C conversion of an `int64_t` to `int` -/
def toInt (v : Int) : Int := toSigned 32 (toUnsigned 32 v)

def onTab (c : Cat) (o : Nat) (f : Tab → Tab) : Cat := { c with tabs := upd c.tabs o f }
def onCol (k : Nat) (f : Col → Col) (t : Tab) : Tab := { t with cols := upd t.cols k f }
def onIdx (k : Nat) (f : Idx → Idx) (t : Tab) : Tab := { t with idxs := upd t.idxs k f }
def onTier (k : Nat) (f : Tier → Tier) (t : Tab) : Tab := { t with tiers := upd t.tiers k f }
/-- first volume with this name (`volume_mgr_find` uses `str_compare`, volume_mgr.h:101-111) -/
def onVol (n : Name) (f : Vol → Vol) : List Vol → List Vol
  | [] => []
  | v :: l => if v.name = n then f v :: l else v :: onVol n f l
/-- `volume_mgr_remove` of the volume `volume_mgr_find` gives -/
def cutVol (n : Name) : List Vol → List Vol
  | [] => []
  | v :: l => if v.name = n then l else v :: cutVol n l

/-- the `abort` function of each `LogIf` -/
def undo (c : Cat) : Undo → Cat
  -- relation_mgr.c:81-88, 116-122
  | .newStor o => { c with stors := del c.stors o }
  | .delStor s => { c with stors := put c.stors s }
  -- storage_mgr.c:88-99
  | .nameStor o n => { c with stors := upd c.stors o fun s => { s with name := n } }
  | .newDb o => { c with dbs := del c.dbs o }
  | .delDb d => { c with dbs := put c.dbs d }
  -- database_mgr.c:88-98
  | .nameDb o n => { c with dbs := upd c.dbs o fun d => { d with name := n } }
  | .newTab o => { c with tabs := del c.tabs o }
  | .delTab t => { c with tabs := put c.tabs t }
  -- table_mgr_alter.c:31-43
  | .nameTab o db n => onTab c o fun t => { t with db := db, name := n }
  -- table_mgr.c:106-111
  | .truncate _ => c
  -- table_mgr_alter.c:94-103
  | .identity o v => onTab c o fun t => { t with seq := v }
  -- table_mgr_alter.c:146-152: the opposite of the current value
  | .unlogged o => onTab c o fun t => { t with unlogged := !t.unlogged }
  -- table_mgr_alter.c:193-202
  | .colName o k n => onTab c o (onCol k fun x => { x with name := n })
  -- table_mgr_alter.c:265-274
  | .colNew o k => onTab c o fun t => { t with cols := del t.cols k }
  -- table_mgr_alter.c:331-346
  | .colDel o k s => onTab c o (onCol k fun x => { x with dropped := false, cons := s })
  -- table_mgr_alter.c:419-430
  | .colSet o k s => onTab c o (onCol k fun x => { x with cons := s })
  -- table_index.c:44-51 with the `iface_arg` set at table_index.c:65: `index` there is not the
  -- parameter (called `config`) but the libc function of that name
  | .idxNew _ => { c with broken := true }
  -- table_index.c:81-86
  | .idxDel _ _ => c
  -- table_index.c:121-130
  | .idxName o k n => onTab c o (onIdx k fun x => { x with name := n })
  -- table_tier.c:51-58
  | .tierNew o k => onTab c o fun t => { t with tiers := del t.tiers k }
  -- table_tier.c:112-117
  | .tierDel _ _ => c
  -- table_tier.c:152-161
  | .tierName o k n => onTab c o (onTier k fun x => { x with name := n })
  -- table_tier.c:216-233
  | .volNew o k n => onTab c o (onTier k fun x => { x with vols := cutVol n x.vols })
  -- table_tier.c:322-327
  | .volDel _ _ _ => c
  -- table_tier.c:396-407
  | .volPause o k n => onTab c o (onTier k fun x => { x with vols := onVol n (fun v => { v with pause := !v.pause }) x.vols })
  -- table_tier.c:474-486; the setters take `int` (tier_config.h:64-74)
  | .tierSet o k r s => onTab c o (onTier k fun x => { x with regionSize := toInt r, objectSize := toInt s })
  | .newUdf o => { c with udfs := del c.udfs o }
  | .delUdf u => { c with udfs := put c.udfs u }
  -- udf_mgr.c:72-93
  | .swapUdf p => { c with udfs := upd c.udfs p.oid fun _ => p }
  -- udf_mgr.c:187-198
  | .nameUdf o db n => { c with udfs := upd c.udfs o fun u => { u with db := db, name := n } }

/-- the `commit` function of each `LogIf`: only what a later reader of the catalog sees
(dropping a relation frees it; truncating removes rows) -/
def finish (c : Cat) : Undo → Cat
  -- table_index.c:24-34, 71-79
  | .idxDel o k => onTab c o fun t => { t with idxs := del t.idxs k }
  -- table_tier.c:24-41, 104-110
  | .tierDel o k => onTab c o fun t => { t with tiers := del t.tiers k }
  -- table_tier.c:301-320
  | .volDel o k n => onTab c o (onTier k fun x => { x with vols := cutVol n x.vols })
  | _ => c

/-- `tr_abort` (commit.c:51-65): newest first -/
def undoAll (c : Cat) (log : List Undo) : Cat := log.foldl undo c
/-- `tr_commit` (commit.c:34-49): oldest first; `log` is kept newest first -/
def finishAll (c : Cat) (log : List Undo) : Cat := log.reverse.foldl finish c

/-! ## Statements -/

/-- what a statement replies: something done, nothing to do (`IF EXISTS`), an error -/
inductive Reply | done | skip | error
deriving DecidableEq, Repr

/-- state after a statement: the catalog, the log entries it appended (newest first), the reply -/
structure R where
  cat   : Cat
  log   : List Undo
  reply : Reply
deriving DecidableEq, Repr

/-- outcomes outside of the catalog -/
structure Env where
  /-- `storage->refs > 0` (storage_mgr.c:66-68) -/
  busy    : Name → Bool
  /-- `table_open`, `tier_open`, `mkdir` succeed -/
  opens   : Bool
  /-- `udf_compile`: the names the body uses, or an error (system.c:26-58) -/
  compile : Cat → Udf → Option (List Name)

/-- `error(...)` or the quiet return of `IF [NOT] EXISTS` -/
def miss (c : Cat) (quiet : Bool) : R := ⟨c, [], if quiet then .skip else .error⟩
def fail (c : Cat) : R := ⟨c, [], .error⟩

/-- `relation_mgr_get` (relation_mgr.c:52-65) on each of the four lists -/
def findStor (c : Cat) (n : Name) : Option Stor := c.stors.find? fun s => same s.name n
def findDb (c : Cat) (n : Name) : Option Db := c.dbs.find? fun d => same d.name n
def findTab (c : Cat) (db n : Name) : Option Tab := c.tabs.find? fun t => same t.db db && same t.name n
def findUdf (c : Cat) (db n : Name) : Option Udf := c.udfs.find? fun u => same u.db db && same u.name n
/-- `columns_find` (columns.h:100-112) -/
def findCol (t : Tab) (n : Name) : Option Col := t.cols.find? fun x => !x.dropped && same x.name n
/-- `table_index_find` (table_index.c:205-219) -/
def findIdx (t : Tab) (n : Name) : Option Idx := t.idxs.find? fun x => same x.name n
/-- `tier_mgr_find` (tier_mgr.c:91-101): exact comparison -/
def findTier (t : Tab) (n : Name) : Option Tier := t.tiers.find? fun x => decide (x.name = n)
/-- `volume_mgr_find` (volume_mgr.h:101-111) -/
def findVol (x : Tier) (n : Name) : Option Vol := x.vols.find? fun v => decide (v.name = n)

/-- a fresh address -/
def bump (c : Cat) : Cat := { c with next := c.next + 1 }

/-- `storage_mgr_create` (storage_mgr.c:29-51) -/
def storCreate (c : Cat) (s : Stor) (ifNot : Bool) : R :=
  if (findStor c s.name).isSome then miss c ifNot
  else ⟨{ bump c with stors := put c.stors { s with oid := c.next } }, [.newStor c.next], .done⟩

/-- `storage_mgr_drop` (storage_mgr.c:53-79) -/
def storDrop (e : Env) (c : Cat) (n : Name) (ifEx : Bool) : R :=
  (findStor c n).elim (miss c ifEx) fun s =>
    if e.busy s.name || s.system then fail c
    else ⟨{ c with stors := del c.stors s.oid }, [.delStor s], .done⟩

/-- `storage_mgr_rename` (storage_mgr.c:107-146): what is saved is the name as typed -/
def storRename (e : Env) (c : Cat) (n new : Name) (ifEx : Bool) : R :=
  (findStor c n).elim (miss c ifEx) fun s =>
    if e.busy s.name || s.system then fail c
    else if (findStor c new).isSome then fail c
    else ⟨{ c with stors := upd c.stors s.oid fun s => { s with name := new } }, [.nameStor s.oid n], .done⟩

/-- `database_mgr_create` (database_mgr.c:36-58) -/
def dbCreate (c : Cat) (d : Db) (ifNot : Bool) : R :=
  if (findDb c d.name).isSome then miss c ifNot
  else ⟨{ bump c with dbs := put c.dbs { d with oid := c.next } }, [.newDb c.next], .done⟩

/-- `database_mgr_drop` (database_mgr.c:60-81), called with `if_exists` false -/
def dbDropOnly (c : Cat) (n : Name) : R :=
  (findDb c n).elim (fail c) fun d =>
    if d.system then fail c else ⟨{ c with dbs := del c.dbs d.oid }, [.delDb d], .done⟩

/-- `database_mgr_rename` (database_mgr.c:106-142): what is saved is the name as typed -/
def dbRenameOnly (c : Cat) (n new : Name) : R :=
  (findDb c n).elim (fail c) fun d =>
    if d.system then fail c
    else if (findDb c new).isSome then fail c
    else ⟨{ c with dbs := upd c.dbs d.oid fun d => { d with name := new } }, [.nameDb d.oid n], .done⟩

/-- an error leaves the function, otherwise continue; log entries accumulate -/
def R.next (r : R) (k : Cat → R) : R :=
  if r.reply = .error then r else ⟨(k r.cat).cat, (k r.cat).log ++ r.log, (k r.cat).reply⟩

/-- `relation_mgr_drop` of one table / function (relation_mgr.c:130-138) -/
def tabDropOf (c : Cat) (t : Tab) : R := ⟨{ c with tabs := del c.tabs t.oid }, [.delTab t], .done⟩
def udfDropOf (c : Cat) (u : Udf) : R := ⟨{ c with udfs := del c.udfs u.oid }, [.delUdf u], .done⟩

/-- a C loop whose body may raise an error -/
def loop {α : Type} (f : Cat → α → R) : List α → Cat → R
  | [], c => ⟨c, [], .done⟩
  | x :: l, c => (f c x).next (loop f l)

/-- `cascade_db_drop_execute` (cascade.c:23-55) -/
def dbDropObjects (c : Cat) (db : Name) (cascade : Bool) : R :=
  (loop (fun c t => if same t.db db then (if cascade then tabDropOf c t else fail c) else ⟨c, [], .done⟩) c.tabs c).next fun c =>
    loop (fun c u => if same u.db db then (if cascade then udfDropOf c u else fail c) else ⟨c, [], .done⟩) c.udfs c

/-- `cascade_db_drop` (cascade.c:57-80) -/
def dbDrop (c : Cat) (n : Name) (cascade ifEx : Bool) : R :=
  (findDb c n).elim (miss c ifEx) fun d =>
    if d.system then fail c else (dbDropObjects c n cascade).next fun c => dbDropOnly c n

/-- `if (! str_compare_case(field, new)) set(new)` -/
def respell (old new : Name) : Name := if same old new then old else new

/-- `table_mgr_rename` (table_mgr_alter.c:51-86) -/
def tabRename (c : Cat) (db n dbNew new : Name) (ifEx : Bool) : R :=
  (findTab c db n).elim (miss c ifEx) fun t =>
    if (findTab c dbNew new).isSome then fail c
    else ⟨onTab c t.oid fun t => { t with db := respell t.db dbNew, name := respell t.name new }, [.nameTab t.oid t.db t.name], .done⟩

/-- `cascade_db_rename_execute` (cascade.c:82-105) -/
def dbRenameObjects (c : Cat) (db new : Name) : R :=
  (loop (fun c t => if same t.db db then tabRename c t.db t.name new t.name false else ⟨c, [], .done⟩) c.tabs c).next fun c =>
    loop (fun c u => if same u.db db then fail c else ⟨c, [], .done⟩) c.udfs c

/-- `cascade_db_rename` (cascade.c:107-133) -/
def dbRename (c : Cat) (n new : Name) (ifEx : Bool) : R :=
  (findDb c n).elim (miss c ifEx) fun d =>
    if d.system then fail c else (dbRenameObjects c n new).next fun c => dbRenameOnly c n new

/-- addresses of the parts of a new table: `table_config_copy` allocates each of them -/
def renumber {α : Type} (f : Nat → α → α) : Nat → List α → List α
  | _, [] => []
  | k, x :: l => f k x :: renumber f (k + 1) l

/-- `column_copy` (column.h:79-87): `dropped` is not copied -/
def colCopy (k : Nat) (x : Col) : Col := { x with cid := k, dropped := false }
/-- `index_config_copy` (index_config.h:79-89) -/
def idxCopy (k : Nat) (x : Idx) : Idx := { x with iid := k }
/-- `volume_copy` (volume.h:82-90) -/
def volCopy (v : Vol) : Vol := { v with used := false }
/-- `tier_config_copy` (tier_config.h:76-85): the sizes pass through `int` -/
def tierCopy (k : Nat) (x : Tier) : Tier :=
  { x with tid := k, regionSize := toInt x.regionSize, objectSize := toInt x.objectSize, vols := x.vols.map volCopy }

/-- `table_config_copy` (table_config.h:121-155) and `table_allocate` (table.h:64-97) -/
def tabCopy (o : Nat) (t : Tab) : Tab :=
  { oid := o, db := t.db, name := t.name, id := t.id, unlogged := t.unlogged
    cols := renumber colCopy (o + 1) t.cols
    idxs := renumber idxCopy (o + 1) t.idxs
    parts := toInt t.parts
    vols := t.vols.map volCopy
    tiers := renumber tierCopy (o + 1) t.tiers
    seq := 0 }

/-- allocations made by `tabCopy` -/
def tabSpan (t : Tab) : Nat := 1 + t.cols.length + t.idxs.length + t.tiers.length

/-- `table_mgr_create` (table_mgr.c:40-67) -/
def tabCreate (e : Env) (c : Cat) (t : Tab) (ifNot : Bool) : R :=
  if (findTab c t.db t.name).isSome then miss c ifNot
  else ⟨{ c with tabs := put c.tabs (tabCopy c.next t), next := c.next + tabSpan t }, [.newTab c.next],
        if e.opens then .done else .error⟩

/-- `udf_depends` (system.c:75-84): the function's program uses this name.  (It is looked up together
with the function's own database, whatever the database of the table is.) -/
def udfUses (u : Udf) (n : Name) : Bool := u.uses.any fun x => same x n

/-- `catalog_validate_udfs` (catalog.c:152-164) succeeds -/
def noUses (c : Cat) (n : Name) : Bool := !c.udfs.any fun u => udfUses u n

/-- `DDL_TABLE_DROP` (catalog.c:234-247), `table_mgr_drop` (table_mgr.c:76-91) -/
def tabDrop (c : Cat) (db n : Name) (ifEx : Bool) : R :=
  if !noUses c n then fail c else (findTab c db n).elim (miss c ifEx) fun t => tabDropOf c t

/-- `DDL_TABLE_RENAME` (catalog.c:248-268) -/
def tabRenameTop (c : Cat) (db n dbNew new : Name) (ifEx : Bool) : R :=
  if (findDb c dbNew).isNone then fail c
  else if !noUses c n then fail c
  else tabRename c db n dbNew new ifEx

/-- `table_mgr_truncate` (table_mgr.c:119-143) -/
def tabTruncate (c : Cat) (db n : Name) (ifEx : Bool) : R :=
  (findTab c db n).elim (miss c ifEx) fun t => ⟨c, [.truncate t.oid], .done⟩

/-- `table_mgr_set_identity` (table_mgr_alter.c:111-137) -/
def tabIdentity (c : Cat) (db n : Name) (v : Int) (ifEx : Bool) : R :=
  (findTab c db n).elim (miss c ifEx) fun t => ⟨onTab c t.oid fun t => { t with seq := v }, [.identity t.oid t.seq], .done⟩

/-- `table_mgr_set_unlogged` (table_mgr_alter.c:160-183): nothing is saved -/
def tabUnlogged (c : Cat) (db n : Name) (v : Bool) (ifEx : Bool) : R :=
  (findTab c db n).elim (miss c ifEx) fun t => ⟨onTab c t.oid fun t => { t with unlogged := v }, [.unlogged t.oid], .done⟩

/-- `table_mgr_column_rename` (table_mgr_alter.c:210-256) with the check of catalog.c:331-332 -/
def colRename (c : Cat) (db n x new : Name) (ifEx ifCol : Bool) : R :=
  if !noUses c n then fail c
  else (findTab c db n).elim (miss c ifEx) fun t =>
    (findCol t x).elim (miss c ifCol) fun k =>
      if (findCol t new).isSome then fail c
      else ⟨onTab c t.oid (onCol k.cid fun x => { x with name := new }), [.colName t.oid k.cid k.name], .done⟩

/-- the identity column (`columns_sync`, columns.h:79-98) -/
def hasIdentity (t : Tab) : Bool := t.cols.any fun x => decide (x.cons.identity ≠ 0)

/-- `table_mgr_column_add` (table_mgr_alter.c:282-322) -/
def colAdd (c : Cat) (db n : Name) (x : Col) (ifEx ifNotCol : Bool) : R :=
  (findTab c db n).elim (miss c ifEx) fun t =>
    if (findCol t x.name).isSome then miss c ifNotCol
    else if decide (x.cons.identity ≠ 0) && hasIdentity t then fail c
    else ⟨onTab (bump c) t.oid fun t => { t with cols := put t.cols (colCopy c.next x) }, [.colNew t.oid c.next], .done⟩

/-- `column->refs > 0`: an index has this column among its keys (`keys_add`, keys.h:48-61) -/
def isKey (t : Tab) (k : Col) : Bool :=
  t.idxs.any fun i => i.keys.any fun r => decide ((t.cols[r.ref]?).map Col.cid = some k.cid)

/-- `table_mgr_column_drop` (table_mgr_alter.c:354-407) with the check of catalog.c:310-311 -/
def colDrop (c : Cat) (db n x : Name) (ifEx ifCol : Bool) : R :=
  if !noUses c n then fail c
  else (findTab c db n).elim (miss c ifEx) fun t =>
    (findCol t x).elim (miss c ifCol) fun k =>
      if isKey t k then fail c
      else ⟨onTab c t.oid (onCol k.cid fun x => { x with dropped := true, cons := Cons.init }), [.colDel t.oid k.cid k.cons], .done⟩

/-- which part of the constraints `ALTER TABLE ... SET COLUMN` replaces -/
inductive Set_ | default_ (v : Bytes) | stored (v : Bytes) | resolved (v : Bytes)
deriving DecidableEq, Repr

/-- table_mgr_alter.c:474-495 -/
def Set_.apply (s : Set_) (k : Cons) : Cons :=
  match s with
  | .default_ v => { k with value := v }
  | .stored v => { k with stored := v }
  | .resolved v => { k with resolved := v }

/-- `table_mgr_column_set` (table_mgr_alter.c:438-502) -/
def colSet (c : Cat) (db n x : Name) (s : Set_) (ifEx ifCol : Bool) : R :=
  (findTab c db n).elim (miss c ifEx) fun t =>
    (findCol t x).elim (miss c ifCol) fun k =>
      ⟨onTab c t.oid (onCol k.cid fun x => { x with cons := s.apply x.cons }), [.colSet t.oid k.cid k.cons], .done⟩

/-- `service_create_index` (db/service/op.c:130-187) and `table_index_add` (table_index.c:59-71) -/
def idxCreate (c : Cat) (db n : Name) (i : Idx) (ifNot : Bool) : R :=
  (findTab c db n).elim (fail c) fun t =>
    if (findIdx t i.name).isSome then miss c ifNot
    else ⟨onTab (bump c) t.oid fun t => { t with idxs := put t.idxs { i with iid := c.next } }, [.idxNew t.oid], .done⟩

/-- `table_index_drop` (table_index.c:94-115), `DDL_INDEX_DROP` (catalog.c:361-376) -/
def idxDrop (c : Cat) (db n i : Name) (ifEx : Bool) : R :=
  if !noUses c n then fail c
  else (findTab c db n).elim (fail c) fun t =>
    (findIdx t i).elim (miss c ifEx) fun x => ⟨c, [.idxDel t.oid x.iid], .done⟩

/-- `table_index_rename` (table_index.c:138-174), `DDL_INDEX_RENAME` (catalog.c:377-392) -/
def idxRename (c : Cat) (db n i new : Name) (ifEx : Bool) : R :=
  if !noUses c n then fail c
  else (findTab c db n).elim (fail c) fun t =>
    (findIdx t i).elim (miss c ifEx) fun x =>
      if (findIdx t new).isSome then fail c
      else ⟨onTab c t.oid (onIdx x.iid fun x => { x with name := new }), [.idxName t.oid x.iid x.name], .done⟩

/-- `table_tier_create` (table_tier.c:66-102) -/
def tierCreate (e : Env) (c : Cat) (db n : Name) (x : Tier) (ifNot : Bool) : R :=
  (findTab c db n).elim (fail c) fun t =>
    if (findTier t x.name).isSome then miss c ifNot
    else ⟨onTab (bump c) t.oid fun t => { t with tiers := put t.tiers (tierCopy c.next x) }, [.tierNew t.oid c.next],
          if e.opens then .done else .error⟩

/-- `table_tier_drop` (table_tier.c:125-145) -/
def tierDrop (c : Cat) (db n x : Name) (ifEx : Bool) : R :=
  (findTab c db n).elim (fail c) fun t =>
    (findTier t x).elim (miss c ifEx) fun k => ⟨c, [.tierDel t.oid k.tid], .done⟩

/-- `table_tier_rename` (table_tier.c:169-207) -/
def tierRename (c : Cat) (db n x new : Name) (ifEx : Bool) : R :=
  (findTab c db n).elim (fail c) fun t =>
    (findTier t x).elim (miss c ifEx) fun k =>
      if (findTier t new).isSome then fail c
      else ⟨onTab c t.oid (onTier k.tid fun x => { x with name := new }), [.tierName t.oid k.tid k.name], .done⟩

/-- `table_tier_storage_add` (table_tier.c:241-299) -/
def volAdd (e : Env) (c : Cat) (db n x : Name) (v : Vol) (ifEx ifNot : Bool) : R :=
  (findTab c db n).elim (fail c) fun t =>
    (findTier t x).elim (miss c ifEx) fun k =>
      if (findStor c v.name).isNone then fail c
      else if (findVol k v.name).isSome then miss c ifNot
      else ⟨onTab c t.oid (onTier k.tid fun x => { x with vols := put x.vols (volCopy v) }), [.volNew t.oid k.tid v.name],
            if e.opens then .done else .error⟩

/-- `table_tier_storage_drop` (table_tier.c:335-387) -/
def volDrop (c : Cat) (db n x v : Name) (ifEx ifSt : Bool) : R :=
  (findTab c db n).elim (fail c) fun t =>
    (findTier t x).elim (miss c ifEx) fun k =>
      (findVol k v).elim (miss c ifSt) fun w =>
        if w.used then fail c else ⟨c, [.volDel t.oid k.tid v], .done⟩

/-- `table_tier_storage_pause` (table_tier.c:415-472) -/
def volPause (c : Cat) (db n x v : Name) (pause ifEx ifSt : Bool) : R :=
  (findTab c db n).elim (fail c) fun t =>
    (findTier t x).elim (miss c ifEx) fun k =>
      (findVol k v).elim (miss c ifSt) fun w =>
        if w.pause = pause then ⟨c, [], .skip⟩
        else if pause && decide ((k.vols.filter fun v => !v.pause).length ≤ 1) then fail c
        else ⟨onTab c t.oid (onTier k.tid fun x => { x with vols := onVol v (fun v => { v with pause := pause }) x.vols }),
              [.volPause t.oid k.tid v], .done⟩

/-- `table_tier_set` (table_tier.c:494-526), `tier_config_set` (tier_config.h:87-95): `none` where the
mask leaves the setting alone -/
def tierSet (c : Cat) (db n x : Name) (region object : Option Int) (ifEx : Bool) : R :=
  (findTab c db n).elim (fail c) fun t =>
    (findTier t x).elim (miss c ifEx) fun k =>
      ⟨onTab c t.oid (onTier k.tid fun x =>
          { x with regionSize := region.elim x.regionSize toInt, objectSize := object.elim x.objectSize toInt }),
       [.tierSet t.oid k.tid k.regionSize k.objectSize], .done⟩

/-- `udf_allocate` (udf.h:58-62): `udf_config_copy` -/
def udfCopy (o : Nat) (u : Udf) : Udf :=
  { u with oid := o, args := renumber colCopy (o + 1) u.args, returning := renumber colCopy (o + 1) u.returning, uses := [] }

def udfSpan (u : Udf) : Nat := 1 + u.args.length + u.returning.length

/-- `DDL_UDF_CREATE` (catalog.c:508-522), `udf_mgr_create` (udf_mgr.c:37-58): registered, then compiled -/
def udfCreate (e : Env) (c : Cat) (u : Udf) : R :=
  if (findUdf c u.db u.name).isSome then fail c
  else
    let c' := { c with udfs := put c.udfs (udfCopy c.next u), next := c.next + udfSpan u }
    (e.compile c' (udfCopy c.next u)).elim ⟨c', [.newUdf c.next], .error⟩ fun uses =>
      ⟨{ c' with udfs := upd c'.udfs c.next fun x => { x with uses := uses } }, [.newUdf c.next], .done⟩

/-- `columns_compare` (columns.h:158-173): the types, in order -/
def sameTypes (a b : List Col) : Bool := decide (a.map Col.type = b.map Col.type)

/-- `DDL_UDF_REPLACE` (catalog.c:523-560), `udf_mgr_replace` (udf_mgr.c:125-153) -/
def udfReplace (e : Env) (c : Cat) (u : Udf) : R :=
  (findUdf c u.db u.name).elim (udfCreate e c u) fun old =>
    if !(sameTypes old.args u.args && decide (old.type = u.type) && sameTypes old.returning u.returning) then fail c
    else (e.compile c (udfCopy c.next u)).elim (fail c) fun uses =>
      ⟨{ c with udfs := upd c.udfs old.oid fun _ => { udfCopy c.next u with oid := old.oid, uses := uses }, next := c.next + udfSpan u },
       [.swapUdf old], .done⟩

/-- `DDL_UDF_DROP` (catalog.c:561-575) -/
def udfDrop (c : Cat) (db n : Name) (ifEx : Bool) : R :=
  if !noUses c n then fail c else (findUdf c db n).elim (miss c ifEx) fun u => udfDropOf c u

/-- `DDL_UDF_RENAME` (catalog.c:576-598), `udf_mgr_rename` (udf_mgr.c:206-244) -/
def udfRename (c : Cat) (db n dbNew new : Name) (ifEx : Bool) : R :=
  if (findDb c dbNew).isNone then fail c
  else if !noUses c n then fail c
  else (findUdf c db n).elim (miss c ifEx) fun u =>
    if (findUdf c dbNew new).isSome then fail c
    else ⟨{ c with udfs := upd c.udfs u.oid fun u => { u with db := respell u.db dbNew, name := respell u.name new } },
          [.nameUdf u.oid u.db u.name], .done⟩

/-- the statements -/
inductive Stmt
  | storCreate (s : Stor) (ifNot : Bool) | storDrop (n : Name) (ifEx : Bool) | storRename (n new : Name) (ifEx : Bool)
  | dbCreate (d : Db) (ifNot : Bool) | dbDrop (n : Name) (cascade ifEx : Bool) | dbRename (n new : Name) (ifEx : Bool)
  | tabCreate (t : Tab) (ifNot : Bool) | tabDrop (db n : Name) (ifEx : Bool) | tabRename (db n dbNew new : Name) (ifEx : Bool)
  | tabTruncate (db n : Name) (ifEx : Bool) | tabIdentity (db n : Name) (v : Int) (ifEx : Bool)
  | tabUnlogged (db n : Name) (v ifEx : Bool)
  | colAdd (db n : Name) (x : Col) (ifEx ifNotCol : Bool) | colDrop (db n x : Name) (ifEx ifCol : Bool)
  | colRename (db n x new : Name) (ifEx ifCol : Bool) | colSet (db n x : Name) (s : Set_) (ifEx ifCol : Bool)
  | idxCreate (db n : Name) (i : Idx) (ifNot : Bool) | idxDrop (db n i : Name) (ifEx : Bool) | idxRename (db n i new : Name) (ifEx : Bool)
  | tierCreate (db n : Name) (x : Tier) (ifNot : Bool) | tierDrop (db n x : Name) (ifEx : Bool)
  | tierRename (db n x new : Name) (ifEx : Bool) | volAdd (db n x : Name) (v : Vol) (ifEx ifNot : Bool)
  | volDrop (db n x v : Name) (ifEx ifSt : Bool) | volPause (db n x v : Name) (pause ifEx ifSt : Bool)
  | tierSet (db n x : Name) (region object : Option Int) (ifEx : Bool)
  | udfCreate (u : Udf) | udfReplace (u : Udf) | udfDrop (db n : Name) (ifEx : Bool) | udfRename (db n dbNew new : Name) (ifEx : Bool)
deriving DecidableEq, Repr

/-- `catalog_execute` (catalog.c:166-613) and `service_create_index` -/
def exec (e : Env) (c : Cat) : Stmt → R
  | .storCreate s i => storCreate c s i
  | .storDrop n i => storDrop e c n i
  | .storRename n m i => storRename e c n m i
  | .dbCreate d i => dbCreate c d i
  | .dbDrop n k i => dbDrop c n k i
  | .dbRename n m i => dbRename c n m i
  | .tabCreate t i => tabCreate e c t i
  | .tabDrop d n i => tabDrop c d n i
  | .tabRename d n d' m i => tabRenameTop c d n d' m i
  | .tabTruncate d n i => tabTruncate c d n i
  | .tabIdentity d n v i => tabIdentity c d n v i
  | .tabUnlogged d n v i => tabUnlogged c d n v i
  | .colAdd d n x i j => colAdd c d n x i j
  | .colDrop d n x i j => colDrop c d n x i j
  | .colRename d n x m i j => colRename c d n x m i j
  | .colSet d n x s i j => colSet c d n x s i j
  | .idxCreate d n x i => idxCreate c d n x i
  | .idxDrop d n x i => idxDrop c d n x i
  | .idxRename d n x m i => idxRename c d n x m i
  | .tierCreate d n x i => tierCreate e c d n x i
  | .tierDrop d n x i => tierDrop c d n x i
  | .tierRename d n x m i => tierRename c d n x m i
  | .volAdd d n x v i j => volAdd e c d n x v i j
  | .volDrop d n x v i j => volDrop c d n x v i j
  | .volPause d n x v p i j => volPause c d n x v p i j
  | .tierSet d n x r s i => tierSet c d n x r s i
  | .udfCreate u => udfCreate e c u
  | .udfReplace u => udfReplace e c u
  | .udfDrop d n i => udfDrop c d n i
  | .udfRename d n d' m i => udfRename c d n d' m i

/-- the statements of one transaction; the first error ends it.  Each statement with its environment. -/
def runTx : List (Env × Stmt) → Cat → R := loop fun c s => exec s.1 c s.2

/-- a transaction that ends with `tr_abort` (`recover_next`, db/db/recover.c:180-200, when the record
cannot be written; `session_execute_utility`, session.c:199-203, when it raised an error) -/
def aborted (r : R) : Cat := undoAll r.cat r.log
def committed (r : R) : Cat := finishAll r.cat r.log

/-- the conditions met after the statements have run -/
structure World where
  /-- `state()->read_only` -/
  readOnly : Bool
  /-- `wal_mgr_write` succeeds -/
  walOk    : Bool
deriving DecidableEq, Repr

/-- `session_execute_utility` (session.c:152-254): the catalog left behind and whether the client is
told of an error.  The two errors raised after the statements ran are outside of `error_catch`: nothing
calls `tr_abort`. -/
def session (w : World) (sts : List (Env × Stmt)) (c : Cat) : Cat × Bool :=
  let r := runTx sts c
  if r.reply = .error then (aborted r, true)
  else if r.log.isEmpty then (committed r, false)
  else if w.readOnly then (r.cat, true)
  else if !w.walOk then (r.cat, true)
  else (committed r, false)

/-- `recover_next` (recover.c:176-201) on a replica or at recovery: here the write is inside -/
def replay (walOk : Bool) (sts : List (Env × Stmt)) (c : Cat) : Cat × Bool :=
  let r := runTx sts c
  if r.reply = .error then (aborted r, true)
  else if !walOk then (aborted r, true)
  else (committed r, false)

end Verif.Catalog
