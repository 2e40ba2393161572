import Verif.Catalog.Reach
import Verif.Json.PropsText
import Verif.Codec.Uuid
import Verif.Codec.Base64
/-!
# The catalog file

`catalog.json` is the whole catalog as one JSON text.  Models `amelie/db/catalog/catalog_file.c`, the
`*_config_write` / `*_config_read` functions it calls and `decode_obj` of `amelie/runtime/json/decode.h`.

Simplifications: an identifier (`Uuid`) of a table or a volume is kept as its text; `encode_base64` writes a
string with a 4 byte size, here it has the shortest size field (the text made from it is the same); writing
and renaming the file is the area Recover (C58).
-/
namespace Verif.Catalog
open Verif.Json (J enc skip peek clsOf readRaw readInteger readBool readObj readObjEnd readArray readArrayEnd)
open Verif.Json.Text (Libc export_ parse)

/-- a C string constant -/
def lit (s : String) : Bytes := s.toList.map Char.toNat

/-! ## writing -/

/-- `storage_config_write` (storage_config.h:107-131) -/
def storJ (s : Stor) : J :=
  .obj [(lit "name", .str s.name), (lit "path", .str s.path), (lit "compression", .str s.compression),
        (lit "compression_level", .int s.level)]

/-- `database_config_write` (database_config.h:74-87) -/
def dbJ (d : Db) : J := .obj [(lit "name", .str d.name)]

/-- one constraint, `[name, value]` -/
def pairJ (p : Bool) (k : String) (v : J) : List J := if p then [.arr [.str (lit k), v]] else []

/-- `constraints_write` (constraints.h:140-206) -/
def consJ (k : Cons) : J :=
  .arr (pairJ k.notNull "not_null" (.bool k.notNull) ++
        pairJ (decide (k.identity ≠ 0)) "as_identity" (.int k.identity) ++
        pairJ (decide (k.modulo ≠ 9223372036854775807)) "as_identity_modulo" (.int k.modulo) ++
        pairJ (!k.stored.isEmpty) "as_stored" (.str k.stored) ++
        pairJ (!k.resolved.isEmpty) "as_resolved" (.str k.resolved) ++
        pairJ (!k.value.isEmpty) "default" (.str (Codec.encode Codec.url k.value)))

/-- `column_write` (column.h:111-137) -/
def colJ (x : Col) : J :=
  .obj [(lit "name", .str x.name), (lit "type", .int x.type), (lit "type_size", .int x.typeSize),
        (lit "dropped", .bool x.dropped), (lit "constraints", consJ x.cons)]

/-- `columns_write` (columns.h:208-219) -/
def colsJ (l : List Col) : J := .arr (l.map colJ)

/-- `key_write` (key.h:73-88) -/
def keyJ (k : KeyRef) : J := .obj [(lit "column", .int k.ref), (lit "asc", .bool k.asc)]

/-- `index_config_write` (index_config.h:110-137), `keys_write` (keys.h:138-149) -/
def idxJ (i : Idx) : J :=
  .obj [(lit "name", .str i.name), (lit "type", .int i.type), (lit "unique", .bool i.unique),
        (lit "primary", .bool i.primary), (lit "keys", .arr (i.keys.map keyJ))]

/-- `volume_write` (volume.h:107-129) -/
def volJ (v : Vol) : J := .obj [(lit "name", .str v.name), (lit "id", .str v.id), (lit "pause", .bool v.pause)]

/-- `volume_mgr_write` (volume_mgr.h:79-89) -/
def volsJ (l : List Vol) : J := .arr (l.map volJ)

/-- `tier_config_write` (tier_config.h:119-142) -/
def tierJ (x : Tier) : J :=
  .obj [(lit "name", .str x.name), (lit "region_size", .int x.regionSize), (lit "object_size", .int x.objectSize),
        (lit "volumes", volsJ x.vols)]

/-- `part_mgr_config_write` (part_mgr_config.h:64-78) -/
def partsJ (t : Tab) : J := .obj [(lit "partitions", .int t.parts), (lit "volumes", volsJ t.vols)]

/-- `table_config_write` (table_config.h:204-256) without `FMINIMAL` -/
def tabJ (t : Tab) : J :=
  .obj [(lit "db", .str t.db), (lit "name", .str t.name), (lit "id", .str t.id), (lit "unlogged", .bool t.unlogged),
        (lit "columns", colsJ t.cols), (lit "indexes", .arr (t.idxs.map idxJ)), (lit "partitions", partsJ t),
        (lit "tiers", .arr (t.tiers.map tierJ))]

/-- `udf_config_write` (udf_config.h:114-150) without `FMINIMAL` -/
def udfJ (u : Udf) : J :=
  .obj [(lit "db", .str u.db), (lit "name", .str u.name), (lit "text", .str u.text), (lit "type", .int u.type),
        (lit "args", colsJ u.args), (lit "returning", colsJ u.returning)]

/-- `catalog_write_prepare` (catalog_file.c:190-222) with `storage_mgr_dump` (storage_mgr.c:148-160),
`database_mgr_dump` (database_mgr.c:145-157), `table_mgr_dump`, `udf_mgr_dump`: the system storage and the
system database are not written -/
def catJ (lsn : Int) (c : Cat) : J :=
  .obj [(lit "lsn", .int lsn),
        (lit "storages", .arr ((c.stors.filter fun s => !s.system).map storJ)),
        (lit "databases", .arr ((c.dbs.filter fun d => !d.system).map dbJ)),
        (lit "tables", .arr (c.tabs.map tabJ)),
        (lit "udfs", .arr (c.udfs.map udfJ))]

/-- the text `catalog_write` puts in the file (catalog_file.c:224-249) -/
def fileText (L : Libc) (lsn : Int) (c : Cat) : Res Bytes := (export_ L true (enc (catJ lsn c))).bind fun p => .ok p.1

/-! ## reading -/

/-- the kinds of `Decode` used here (decode.h:18-31) -/
inductive Kind | uuid | str | int | bool | arr | obj
deriving DecidableEq, Repr

/-- what is stored for a key; for arrays and objects the position -/
inductive Val | str (s : Bytes) | int (i : Int) | bool (b : Bool) | pos (bs : Bytes)
deriving DecidableEq, Repr

/-- the `switch` of `decode_obj` (decode.h:57-149) -/
def readVal (k : Kind) (bs : Bytes) : Res (Val × Bytes) :=
  (peek bs).bind fun t =>
    match k with
    | .uuid =>
      if clsOf t = .str then (readRaw bs).bind fun p =>
        (Codec.uuidSet ⟨0, 0, 0, 0, 0, 0⟩ p.1).elim (.error .err) fun u => .ok (.str (Codec.uuidGet u), p.2)
      else .error .err
    | .str => if clsOf t = .str then (readRaw bs).bind fun p => .ok (.str p.1, p.2) else .error .err
    | .int => if clsOf t = .int then (readInteger bs).bind fun p => .ok (.int p.1, p.2) else .error .err
    | .bool => if clsOf t = .bool then (readBool bs).bind fun p => .ok (.bool p.1, p.2) else .error .err
    | .arr => if clsOf t = .arr then (skip bs).bind fun r => .ok (.pos bs, r) else .error .err
    | .obj => if clsOf t = .obj then (skip bs).bind fun r => .ok (.pos bs, r) else .error .err

abbrev Keys := List (Bytes × Kind)
abbrev Got := List (Bytes × Val)

/-- one field: the value of a wanted key, or `json_skip` (decode.h:49-160) -/
def readField (keys : Keys) (k : Bytes) (bs : Bytes) (got : Got) : Res (Got × Bytes) :=
  (keys.find? fun x => decide (x.1 = k)).elim ((skip bs).bind fun r => .ok (got, r)) fun x =>
    (readVal x.2 bs).bind fun p => .ok ((k, p.1) :: got, p.2)

/-- the loop of `decode_obj` (decode.h:44-161); the last value comes first in `got` -/
def objLoop (keys : Keys) : Nat → Got → Bytes → Res (Got × Bytes)
  | 0, _, _ => .error .ub
  | fuel + 1, got, bs =>
    (readObjEnd bs).bind fun e => e.elim
      ((readRaw bs).bind fun k => (readField keys k.1 k.2 got).bind fun p => objLoop keys fuel p.1 p.2)
      (fun r => .ok (got, r))

/-- `decode_obj` (decode.h:39-169) -/
def readKeys (keys : Keys) (bs : Bytes) : Res (Got × Bytes) :=
  (readObj bs).bind fun r => (objLoop keys (r.length + 1) [] r).bind fun p =>
    if keys.all fun k => p.1.any fun g => decide (g.1 = k.1) then .ok p else .error .err

/-- the variables the keys point to -/
def valOf (g : Got) (k : Bytes) : Option Val := (g.find? fun x => decide (x.1 = k)).map Prod.snd
def strAt (g : Got) (k : String) : Bytes := match valOf g (lit k) with | some (.str s) => s | _ => []
def intAt (g : Got) (k : String) : Int := match valOf g (lit k) with | some (.int i) => i | _ => 0
def boolAt (g : Got) (k : String) : Bool := match valOf g (lit k) with | some (.bool b) => b | _ => false
def posAt (g : Got) (k : String) : Bytes := match valOf g (lit k) with | some (.pos b) => b | _ => []

/-- `while (! json_read_array_end(pos))` -/
def listLoop {α : Type} (f : Bytes → Res (α × Bytes)) : Nat → Bytes → Res (List α × Bytes)
  | 0, _ => .error .ub
  | fuel + 1, bs => (readArrayEnd bs).bind fun e => e.elim
      ((f bs).bind fun p => (listLoop f fuel p.2).bind fun q => .ok (p.1 :: q.1, q.2))
      (fun r => .ok ([], r))

/-- a JSON array of objects -/
def readList {α : Type} (f : Bytes → Res (α × Bytes)) (bs : Bytes) : Res (List α × Bytes) :=
  (readArray bs).bind fun r => listLoop f (r.length + 1) r

/-- `storage_config_read` (storage_config.h:90-105) -/
def readStor (bs : Bytes) : Res (Stor × Bytes) :=
  (readKeys [(lit "name", .str), (lit "path", .str), (lit "compression", .str), (lit "compression_level", .int)] bs).bind fun p =>
    .ok (⟨0, strAt p.1 "name", strAt p.1 "path", strAt p.1 "compression", intAt p.1 "compression_level", false⟩, p.2)

/-- `database_config_read` (database_config.h:60-72) -/
def readDb (bs : Bytes) : Res (Db × Bytes) :=
  (readKeys [(lit "name", .str)] bs).bind fun p => .ok (⟨0, strAt p.1 "name", false⟩, p.2)

/-- one turn of `constraints_read` (constraints.h:103-136) -/
def readPair (k : Cons) (bs : Bytes) : Res (Cons × Bytes) :=
  (readArray bs).bind fun r => (readRaw r).bind fun n =>
    (if same n.1 (lit "not_null") then (readBool n.2).bind fun p => .ok ({ k with notNull := p.1 }, p.2)
     else if same n.1 (lit "as_identity") then (readInteger n.2).bind fun p => .ok ({ k with identity := p.1 }, p.2)
     else if same n.1 (lit "as_identity_modulo") then (readInteger n.2).bind fun p => .ok ({ k with modulo := p.1 }, p.2)
     else if same n.1 (lit "as_stored") then (readRaw n.2).bind fun p => .ok ({ k with stored := p.1 }, p.2)
     else if same n.1 (lit "as_resolved") then (readRaw n.2).bind fun p => .ok ({ k with resolved := p.1 }, p.2)
     else if same n.1 (lit "default") then (readRaw n.2).bind fun p =>
       (Codec.decode Codec.url p.1).bind fun v => .ok ({ k with value := v }, p.2)
     else .error .err).bind fun (q : Cons × Bytes) => (readArrayEnd q.2).bind fun e => .ok (q.1, e.getD q.2)

/-- `constraints_read` (constraints.h:99-138) -/
def consLoop : Nat → Cons → Bytes → Res (Cons × Bytes)
  | 0, _, _ => .error .ub
  | fuel + 1, k, bs => (readArrayEnd bs).bind fun e => e.elim
      ((readPair k bs).bind fun p => consLoop fuel p.1 p.2) (fun r => .ok (k, r))
def readCons (bs : Bytes) : Res (Cons × Bytes) := (readArray bs).bind fun r => consLoop (r.length + 1) Cons.init r

/-- `column_read` (column.h:89-109) -/
def readCol (bs : Bytes) : Res (Col × Bytes) :=
  (readKeys [(lit "name", .str), (lit "type", .int), (lit "type_size", .int), (lit "dropped", .bool), (lit "constraints", .arr)] bs).bind fun p =>
    (readCons (posAt p.1 "constraints")).bind fun k =>
      .ok (⟨0, strAt p.1 "name", intAt p.1 "type", intAt p.1 "type_size", boolAt p.1 "dropped", k.1⟩, p.2)

/-- `columns_read` (columns.h:196-206) -/
def readCols (bs : Bytes) : Res (List Col × Bytes) := readList readCol bs

/-- `key_read` (key.h:58-71), `keys_add` (keys.h:48-61): the column with this position, a NULL dereference
when there is none -/
def readKey (cols : Nat) (bs : Bytes) : Res (KeyRef × Bytes) :=
  (readKeys [(lit "column", .int), (lit "asc", .bool)] bs).bind fun p =>
    if 0 ≤ toInt (intAt p.1 "column") ∧ (toInt (intAt p.1 "column")).toNat < cols
    then .ok (⟨(toInt (intAt p.1 "column")).toNat, boolAt p.1 "asc"⟩, p.2) else .error .ub

/-- `index_config_read` (index_config.h:91-108), `keys_read` (keys.h:126-136) -/
def readIdx (cols : Nat) (bs : Bytes) : Res (Idx × Bytes) :=
  (readKeys [(lit "name", .str), (lit "type", .int), (lit "unique", .bool), (lit "primary", .bool), (lit "keys", .arr)] bs).bind fun p =>
    (readList (readKey cols) (posAt p.1 "keys")).bind fun k =>
      .ok (⟨0, strAt p.1 "name", intAt p.1 "type", boolAt p.1 "unique", boolAt p.1 "primary", k.1⟩, p.2)

/-- `volume_read` (volume.h:92-105) -/
def readVol (bs : Bytes) : Res (Vol × Bytes) :=
  (readKeys [(lit "name", .str), (lit "id", .uuid), (lit "pause", .bool)] bs).bind fun p =>
    .ok (⟨strAt p.1 "name", strAt p.1 "id", boolAt p.1 "pause", false⟩, p.2)

/-- `volume_mgr_read` (volume_mgr.h:68-77) -/
def readVols (bs : Bytes) : Res (List Vol × Bytes) := readList readVol bs

/-- `tier_config_read` (tier_config.h:97-117) -/
def readTier (bs : Bytes) : Res (Tier × Bytes) :=
  (readKeys [(lit "name", .str), (lit "region_size", .int), (lit "object_size", .int), (lit "volumes", .arr)] bs).bind fun p =>
    (readVols (posAt p.1 "volumes")).bind fun v =>
      .ok (⟨0, strAt p.1 "name", intAt p.1 "region_size", intAt p.1 "object_size", v.1⟩, p.2)

/-- `part_mgr_config_read` (part_mgr_config.h:48-62) -/
def readParts (bs : Bytes) : Res ((Int × List Vol) × Bytes) :=
  (readKeys [(lit "partitions", .int), (lit "volumes", .arr)] bs).bind fun p =>
    (readVols (posAt p.1 "volumes")).bind fun v => .ok ((intAt p.1 "partitions", v.1), p.2)

/-- `table_config_read` (table_config.h:157-202) -/
def readTab (bs : Bytes) : Res (Tab × Bytes) :=
  (readKeys [(lit "db", .str), (lit "name", .str), (lit "id", .uuid), (lit "unlogged", .bool), (lit "columns", .arr),
             (lit "indexes", .arr), (lit "partitions", .obj), (lit "tiers", .arr)] bs).bind fun p =>
    (readCols (posAt p.1 "columns")).bind fun cols =>
    (readList (readIdx cols.1.length) (posAt p.1 "indexes")).bind fun idxs =>
    (readParts (posAt p.1 "partitions")).bind fun parts =>
    (readList readTier (posAt p.1 "tiers")).bind fun tiers =>
      .ok (⟨0, strAt p.1 "db", strAt p.1 "name", strAt p.1 "id", boolAt p.1 "unlogged", cols.1, idxs.1, parts.1.1, parts.1.2, tiers.1, 0⟩, p.2)

/-- `udf_config_read` (udf_config.h:91-112) -/
def readUdf (bs : Bytes) : Res (Udf × Bytes) :=
  (readKeys [(lit "db", .str), (lit "name", .str), (lit "text", .str), (lit "args", .arr), (lit "type", .int), (lit "returning", .arr)] bs).bind fun p =>
    (readCols (posAt p.1 "args")).bind fun args => (readCols (posAt p.1 "returning")).bind fun ret =>
      .ok (⟨0, strAt p.1 "db", strAt p.1 "name", strAt p.1 "text", args.1, intAt p.1 "type", ret.1, []⟩, p.2)

/-- `catalog_restore_object` (catalog_file.c:81-100): one transaction, committed without a WAL record -/
def created (r : R) : Res Cat := if r.reply = .error then .error .err else .ok (committed r)

/-- the loops of `catalog_restore` (catalog_file.c:121-140): read an object, create it -/
def restoreLoop {α : Type} (f : Bytes → Res (α × Bytes)) (mk : Cat → α → R) : Nat → Cat → Bytes → Res Cat
  | 0, _, _ => .error .ub
  | fuel + 1, c, bs => (readArrayEnd bs).bind fun e => e.elim
      ((f bs).bind fun p => (created (mk c p.1)).bind fun c' => restoreLoop f mk fuel c' p.2)
      (fun _ => .ok c)
def restoreAll {α : Type} (f : Bytes → Res (α × Bytes)) (mk : Cat → α → R) (c : Cat) (bs : Bytes) : Res Cat :=
  (readArray bs).bind fun r => restoreLoop f mk (r.length + 1) c r

/-- `catalog_restore` (catalog_file.c:102-147) with `catalog_restore_relation` (catalog_file.c:32-79): the
catalog and its lsn -/
def restore (e : Env) (c : Cat) (bs : Bytes) : Res (Cat × Int) :=
  (readKeys [(lit "lsn", .int), (lit "storages", .arr), (lit "databases", .arr), (lit "tables", .arr), (lit "udfs", .arr)] bs).bind fun p =>
    (restoreAll readStor (fun c s => storCreate c s false) c (posAt p.1 "storages")).bind fun c =>
    (restoreAll readDb (fun c d => dbCreate c d false) c (posAt p.1 "databases")).bind fun c =>
    (restoreAll readTab (fun c t => tabCreate e c t false) c (posAt p.1 "tables")).bind fun c =>
    (restoreAll readUdf (fun c u => udfCreate e c u) c (posAt p.1 "udfs")).bind fun c => .ok (c, intAt p.1 "lsn")

/-- `catalog_open` at a restart: `catalog_prepare`, then `catalog_read` (catalog_file.c:149-188) -/
def restart (L : Libc) (e : Env) (text : Bytes) : Res (Cat × Int) := (parse L text).bind fun p => restore e boot p.2

end Verif.Catalog
