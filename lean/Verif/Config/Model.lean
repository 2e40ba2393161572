import Verif.Catalog.File
/-!
# Options, the state file and the users

runtime/runtime: opt.h, opts.c, config.c, state.c; sync/repl/repl.c; server/user: user_config.h, user_cache.h, user_mgr.c; system/system/repo.c.

A file is its bytes. An error leaves what was called: `.err`. Left out: the log and the pid file, the timezone data, TLS files, the lock of the directory,
the flags OPT_H and OPT_S (they only hide options from SHOW). The options `replicas` and `listen` hold documents, what the documents say is not looked at here.
-/
set_option autoImplicit false
namespace Verif.Config
open Verif.Json (J enc skip peek clsOf readRaw readInteger readBool readObj readObjEnd readArray readArrayEnd writeRaw writeInteger writeBool)
open Verif.Json.Text (Libc export_ parse)
open Verif.Catalog (lit readKeys readList strAt)
open scoped Verif.Json

/-- OptType, opt.h:30-36 -/
inductive Ty | bool | int | str | json
deriving DecidableEq, Repr

/-- OptsDef, and the flags of opt.h:16-28: `c` OPT_C can be set, `e` OPT_E excluded from the file, `z` OPT_Z cannot be zero -/
structure Def where
  name : Bytes
  ty : Ty
  c : Bool
  e : Bool
  z : Bool := false
  /-- default_int, default_string -/
  int : Nat := 0
  str : Bytes := []
deriving DecidableEq, Repr

/-- Opt, opt.h:38-49: `int` for bool and int (uint64), `str` for strings and (encoded) documents -/
structure Opt where
  d : Def
  int : Nat
  str : Bytes
deriving DecidableEq, Repr

/-- opts_define, opts.c:38-62 -/
def define (l : List Def) : List Opt := l.map fun d => ⟨d, d.int, d.str⟩

/-- opt_set_json, opt.h:189-236 -/
def setJson (o : Opt) (bs : Bytes) : Res (Opt × Bytes) :=
  (peek bs).bind fun t =>
    match o.d.ty with
    | .bool => if clsOf t = .bool then (readBool bs).bind fun p => .ok ({ o with int := if p.1 then 1 else 0 }, p.2) else .error .err
    | .int =>
      if clsOf t = .int then (readInteger bs).bind fun p =>
        if p.1 = 0 ∧ o.d.z = true then .error .err else .ok ({ o with int := toUnsigned 64 p.1 }, p.2)
      else .error .err
    | .str => if clsOf t = .str then (readRaw bs).bind fun p => .ok ({ o with str := p.1 }, p.2) else .error .err
    | .json => (skip bs).bind fun r => .ok ({ o with str := bs.take (bs.length - r.length) }, r)

/-- str_toint, str.h:273-288, with int64_mul_add_overflow -/
def toInt : Nat → Bytes → Option Nat
  | v, [] => some v
  | v, c :: t => if Verif.Json.Text.isDigit c then (if v * 10 + (c - 48) > 2 ^ 63 - 1 then none else toInt (v * 10 + (c - 48)) t) else none

/-- opt_set, opt.h:238-304 -/
def setText (L : Libc) (o : Opt) (v : Bytes) : Res Opt :=
  if o.d.ty ≠ .bool ∧ v = [] then .error .err
  else
    match o.d.ty with
    | .bool =>
      if v = [] then .ok { o with int := 1 }
      else if v = lit "true" then .ok { o with int := 1 }
      else if v = lit "false" then .ok { o with int := 0 }
      else .error .err
    | .int => (toInt 0 v).elim (.error .err) fun i => if i = 0 ∧ o.d.z = true then .error .err else .ok { o with int := i }
    | .str => .ok { o with str := v }
    | .json => (parse L v).bind fun p => .ok { o with str := p.2 }

/-- opt_encode, opt.h:306-328 -/
def encode (o : Opt) : Bytes :=
  match o.d.ty with
  | .str => writeRaw o.str
  | .json => if o.str ≠ [] then o.str else [tNULL]
  | .bool => writeBool (o.int ≠ 0)
  | .int => writeInteger o.int

/-- opts_find, opts.c:94-103, and what is done with the one that is found; none: there is no such option -/
def update (f : Opt → Res (Opt × Bytes)) (name : Bytes) : List Opt → Res (Option (List Opt × Bytes))
  | [] => .ok none
  | o :: l =>
    if o.d.name = name then (f o).bind fun p => .ok (some (p.1 :: l, p.2))
    else (update f name l).bind fun r => .ok (r.map fun q => (o :: q.1, q.2))

/-- the check of the flag before a change, opts.c:124-126, 181-183 -/
def guarded (f : Opt → Res (Opt × Bytes)) (o : Opt) : Res (Opt × Bytes) := if o.d.c then f o else .error .err

/-- the loop of opts_set_json, opts.c:110-134 -/
def setLoop : Nat → List Opt → Bytes → Res (List Opt)
  | 0, _, _ => .error .ub
  | fuel + 1, l, bs =>
    (readObjEnd bs).bind fun e => e.elim
      ((readRaw bs).bind fun k => (update (guarded fun o => setJson o k.2) k.1 l).bind fun r =>
        r.elim (.error .err) fun q => setLoop fuel q.1 q.2)
      (fun _ => .ok l)

/-- opts_set, opts.c:138-147, opts_set_json, opts.c:105-136. What follows the document in the text is not looked at. -/
def set (L : Libc) (l : List Opt) (text : Bytes) : Res (List Opt) :=
  (parse L text).bind fun p => (readObj p.2).bind fun r => setLoop (r.length + 1) l r

/-- arg_parse, arg.h:14-39: name and value -/
def argParse (a : Bytes) : Option (Bytes × Bytes) :=
  if a.take 2 ≠ [45, 45] then none
  else
    let name := (a.drop 2).takeWhile fun c => c ≠ 61
    if name = [] then none else some (name, ((a.drop 2).dropWhile fun c => c ≠ 61).drop 1)

/-- one turn of opts_set_argv, opts.c:152-189 -/
def setArg (L : Libc) (l : List Opt) (a : Bytes) : Res (List Opt) :=
  (argParse a).elim (.error .err) fun nv =>
    if nv.1 = lit "json" then (if nv.2 = [] then .error .err else set L l nv.2)
    else if nv.1 = lit "daemon=true" ∨ nv.1 = lit "daemon=false" then .ok l
    else (update (guarded fun o => (setText L o nv.2).bind fun o => .ok (o, [])) nv.1 l).bind fun r => r.elim (.error .err) fun q => .ok q.1

/-- opts_set_argv, opts.c:146-191 -/
def setArgv (L : Libc) : List Opt → List Bytes → Res (List Opt)
  | l, [] => .ok l
  | l, a :: as => (setArg L l a).bind fun l => setArgv L l as

/-- the fields of opts_list_persistent, opts.c:198-206 -/
def fieldsOf : List Opt → Bytes
  | [] => []
  | o :: l => if o.d.e then fieldsOf l else writeRaw o.d.name ++ (encode o ++ fieldsOf l)

/-- opts_list_persistent, opts.c:193-209 -/
def persistent (l : List Opt) : Bytes := tOBJ :: (fieldsOf l ++ [tOBJ_END])

/-- the text of config_save, config.c:79-90, and of state_save_to, state.c:66-77 -/
def saveText (L : Libc) (l : List Opt) : Res Bytes := (export_ L true (persistent l)).bind fun p => .ok p.1

/-- state_prepare, state.c:30-60; `directory` is set at the start -/
def stateDefs : List Def :=
  [⟨lit "version", .str, false, true, false, 0, lit "1.0.0-rc1"⟩, ⟨lit "directory", .str, false, true, false, 0, []⟩,
   ⟨lit "lsn", .int, false, true, false, 0, []⟩, ⟨lit "psn", .int, false, true, false, 0, []⟩, ⟨lit "rsn", .int, false, true, false, 0, []⟩,
   ⟨lit "catalog", .int, false, true, false, 0, []⟩, ⟨lit "catalog_pending", .int, false, true, false, 0, []⟩,
   ⟨lit "read_only", .bool, false, true, false, 0, []⟩, ⟨lit "repl", .bool, true, false, false, 0, []⟩,
   ⟨lit "repl_primary", .str, true, false, false, 0, []⟩, ⟨lit "replicas", .json, true, false, false, 0, []⟩,
   ⟨lit "users", .json, true, false, false, 0, []⟩, ⟨lit "connections", .int, false, true, false, 0, []⟩,
   ⟨lit "sent_bytes", .int, false, true, false, 0, []⟩, ⟨lit "recv_bytes", .int, false, true, false, 0, []⟩,
   ⟨lit "writes", .int, false, true, false, 0, []⟩, ⟨lit "writes_bytes", .int, false, true, false, 0, []⟩,
   ⟨lit "ops", .int, false, true, false, 0, []⟩]

def cstr (n s : String) : Def := ⟨lit n, .str, true, false, false, 0, lit s⟩
def cint (n : String) (i : Nat) : Def := ⟨lit n, .int, true, false, false, i, []⟩
def cintz (n : String) (i : Nat) : Def := ⟨lit n, .int, true, false, true, i, []⟩
def cbool (n : String) (b : Nat) : Def := ⟨lit n, .bool, true, false, false, b, []⟩

/-- config_prepare, config.c:30-75 -/
def configDefs : List Def :=
  [cstr "uuid" "", cstr "timezone" "", cstr "format" "pretty-minimal",
   cbool "log_enable" 1, cbool "log_to_file" 1, cbool "log_to_stdout" 1, cbool "log_connections" 1, cbool "log_options" 0,
   cstr "tls_capath" "", cstr "tls_ca" "", cstr "tls_cert" "", cstr "tls_key" "", ⟨lit "listen", .json, true, false, false, 0, []⟩,
   cint "limit_send" 3145728, cint "limit_recv" 1048576, cint "limit_write" 0,
   cintz "frontends" 4, cintz "backends" 6, cintz "jobs" 3, cbool "cpu_affinity" 1,
   cbool "wal_worker" 1, cbool "wal_crc" 1, cbool "wal_sync_on_create" 1, cbool "wal_sync_on_close" 1, cbool "wal_sync_on_write" 0,
   cstr "wal_sync_interval" "1 sec", cint "wal_size" 67108864, cint "wal_truncate" 0,
   cbool "storage_crc" 1, cbool "storage_sync" 1, cbool "catalog_sync" 1, cstr "checkpoint_interval" "5 min",
   cintz "repl_readahead" 262144, cint "repl_reconnect_ms" 3000]

/-! ## the directory -/

/-- the directory of a server: does it exist, and version.json, config.json, state.json, state.json.old -/
structure Dir where
  made : Bool := false
  version : Option Bytes := none
  config : Option Bytes := none
  state : Option Bytes := none
  old : Option Bytes := none
deriving DecidableEq, Repr

/-- file_open_as with O_CREAT | O_RDWR and file_write_buf: what the file holds after `k` bytes (there is no O_TRUNC) -/
def written (was : Option Bytes) (text : Bytes) (k : Nat) : Option Bytes := some (text.take k ++ (was.getD []).drop k)

/-- state_save_to, state.c:63-84: the directory after each step -/
def saveTo (text : Bytes) (d : Dir) : List Dir := (List.range (text.length + 1)).map fun k => { d with state := written d.state text k }

/-- the file is there, state.c:96-101: .old is removed, the file is renamed to .old -/
def rename (d : Dir) : List Dir :=
  (if d.old ≠ none then [{ d with old := none }] else []) ++ [{ d with old := d.state, state := none }]

/-- state_save, state.c:86-108: the directory after each step; the last one is the result -/
def saveSteps (text : Bytes) (d : Dir) : List Dir :=
  if d.state = none then saveTo text d
  else rename d ++ (saveTo text { d with old := d.state, state := none } ++ [{ d with state := some text, old := none }])

/-- the end of a list of steps -/
def lastOf (d : Dir) (l : List Dir) : Dir := l.getLast?.getD d

/-! ## users -/

/-- UserConfig, user_config.h:16-22 -/
structure User where
  name : Bytes
  secret : Bytes
deriving DecidableEq, Repr

/-- user_config_write with FSECRETS, user_config.h:79-92 -/
def userJ (u : User) : J := .obj [(lit "name", .str u.name), (lit "secret", .str u.secret)]

/-- user_cache_dump, user_cache.h:94-105 -/
def usersDoc (l : List User) : Bytes := enc (.arr (l.map userJ))

/-- user_config_read, user_config.h:64-77 -/
def readUser (bs : Bytes) : Res (User × Bytes) :=
  (readKeys [(lit "name", .str), (lit "secret", .str)] bs).bind fun p => .ok (⟨strAt p.1 "name", strAt p.1 "secret"⟩, p.2)

/-- the option of a name (only called for names of the list) -/
def valueAt (l : List Opt) (name : Bytes) : Bytes := ((l.find? fun o => decide (o.d.name = name)).map Opt.str).getD []

/-- the number of the option of a name -/
def numberAt (l : List Opt) (name : Bytes) : Nat := ((l.find? fun o => decide (o.d.name = name)).map Opt.int).getD 0

/-- user_mgr_open, user_mgr.c:40-59 -/
def openUsers (st : List Opt) : Res (List User) :=
  if valueAt st (lit "users") = [] then .ok []
  else (peek (valueAt st (lit "users"))).bind fun t =>
    if clsOf t = .null then .ok [] else (readList readUser (valueAt st (lit "users"))).bind fun p => .ok p.1

/-- opt_json_set_buf, opt_string_set, opt_int_set on the option of a name -/
def put (l : List Opt) (name : Bytes) (f : Opt → Opt) : List Opt := l.map fun o => if o.d.name = name then f o else o

/-- user_cache_find, user_cache.h:39-48 -/
def findUser (l : List User) (n : Bytes) : Option User := l.find? fun u => decide (u.name = n)

/-- new users, user_cache.h:82-89 -/
def addUser (l : List User) (u : User) : List User := if findUser l u.name = none then l ++ [u] else l

/-- user_cache_sync, user_cache.h:65-92, with user_config_sync, user_config.h:54-62: the users of a frontend are made those of the server -/
def sync (self with_ : List User) : List User :=
  with_.foldl addUser (self.filterMap fun u => (findUser with_ u.name).map fun w => if u.secret = w.secret then u else { u with secret := w.secret })

/-! ## the server -/

structure Server where
  config : List Opt
  state : List Opt
  users : List User
  dir : Dir
deriving DecidableEq, Repr

/-- control_save_state, global.h:19-24, system_save_state, system.c:160-168: the steps on the directory -/
def saveState (L : Libc) (s : Server) : Res (List Dir) := (saveText L s.state).bind fun t => .ok (saveSteps t s.dir)

/-- the statements that change the state: CREATE, DROP, ALTER USER and those of replication -/
inductive Stmt
  | createUser (u : User) (ifNotExists : Bool)
  | dropUser (name : Bytes) (ifExists : Bool)
  | alterUser (u : User)
  | replStart | replStop
  /-- REPL SUBSCRIBE with the id of a primary -/
  | subscribe (id : Bytes)
  | unsubscribe
  /-- CREATE REPLICA and DROP REPLICA: the document replica_mgr_save makes -/
  | replicas (doc : J)

/-- what a statement changes in memory; none: nothing is done -/
def effect (s : Server) : Stmt → Res (Option Server)
  /- user_mgr_create, user_mgr.c:62-77 -/
  | .createUser u ine =>
    if s.users.any fun x => decide (x.name = u.name) then (if ine then .ok none else .error .err)
    else .ok (some { s with users := s.users ++ [u] })
  /- user_mgr_drop, user_mgr.c:79-91: user_cache_find is the first of the name -/
  | .dropUser n ie =>
    if s.users.any fun x => decide (x.name = n) then .ok (some { s with users := s.users.eraseP fun x => decide (x.name = n) })
    else if ie then .ok none else .error .err
  /- user_mgr_alter, user_mgr.c:93-107 -/
  | .alterUser u =>
    if s.users.any fun x => decide (x.name = u.name) then
      .ok (some { s with users := s.users.map fun x => if x.name = u.name then { x with secret := u.secret } else x })
    else .error .err
  /- repl_start, repl_stop, repl.c:68-92, crepl_start, command_utility.c:142-158 -/
  | .replStart => .ok (some { s with state := put s.state (lit "repl") fun o => { o with int := 1 } })
  | .replStop => .ok (some { s with state := put s.state (lit "repl") fun o => { o with int := 0 } })
  /- repl_subscribe, repl.c:94-131, with repl_validate_primary, repl.c:41-46 -/
  | .subscribe id =>
    if numberAt s.state (lit "repl") = 0 then .error .err
    else if id = valueAt s.config (lit "uuid") then .error .err
    else .ok (some { s with state := put (put s.state (lit "read_only") fun o => { o with int := 1 }) (lit "repl_primary") fun o => { o with str := id } })
  | .unsubscribe =>
    if numberAt s.state (lit "repl") = 0 then .error .err
    else .ok (some { s with state := put (put s.state (lit "read_only") fun o => { o with int := 0 }) (lit "repl_primary") fun o => { o with str := [] } })
  /- replica_mgr_save, replica_mgr.c:37-55 -/
  | .replicas v => .ok (some { s with state := put s.state (lit "replicas") fun o => { o with str := enc v } })

/-- user_mgr_save, user_mgr.c:27-38: the document of the users is put into the state. The other statements leave the users as they are. -/
def dumpUsers (s : Server) : Stmt → Server
  | .createUser _ _ | .dropUser _ _ | .alterUser _ => { s with state := put s.state (lit "users") fun o => { o with str := usersDoc s.users } }
  | _ => s

/-- a statement: the server after it and the steps on the directory (vm/vm/command_utility.c:71-177) -/
def exec (L : Libc) (s : Server) (x : Stmt) : Res (Server × List Dir) :=
  (effect s x).bind fun r => r.elim (.ok (s, []))
    fun s' => (saveState L (dumpUsers s' x)).bind fun steps => .ok ({ dumpUsers s' x with dir := lastOf s.dir steps }, steps)

/-! ## start -/

/-- repo_version_create, repo.c:72-110 -/
def versionDoc (st : List Opt) : J := .obj [(lit "version", .str (valueAt st (lit "version")))]

/-- repo_version_open, repo.c:112-148 -/
def versionOpen (L : Libc) (st : List Opt) (text : Bytes) : Res Unit :=
  (parse L text).bind fun p => (readKeys [(lit "version", .str)] p.2).bind fun q =>
    if strAt q.1 "version" = valueAt st (lit "version") then .ok () else .error .err

/-- what the machine supplies: the path of the directory, the generated uuid, the system timezone -/
structure Env where
  path : Bytes
  uuid : Bytes
  timezone : Bytes

/-- repo_bootstrap_server, repo.c:150-173 -/
def listenDoc : J := .arr [.obj [(lit "host", .str (lit "*")), (lit "port", .int 3485)]]

/-- a value for an option that has none -/
def fill (l : List Opt) (name : Bytes) (v : Bytes) : List Opt := put l name fun o => if o.str = [] then { o with str := v } else o

/-- repo_bootstrap, repo.c:175-198 -/
def bootstrap (E : Env) (l : List Opt) : List Opt :=
  fill (fill (fill l (lit "uuid") E.uuid) (lit "timezone") E.timezone) (lit "listen") (enc listenDoc)

/-- the options of a new process: runtime_init, and `directory`, repo.c:25 -/
def fresh (E : Env) : List Opt := put (define stateDefs) (lit "directory") fun o => { o with str := E.path }

/-- config.json and version.json are written like state.json -/
def writeVersion (text : Bytes) (d : Dir) : List Dir := (List.range (text.length + 1)).map fun k => { d with version := written d.version text k }
def writeConfig (text : Bytes) (d : Dir) : List Dir := (List.range (text.length + 1)).map fun k => { d with config := written d.config text k }

/-- the texts of the three files at the first start: version.json, config.json, state.json; and the options -/
def bootTexts (L : Libc) (E : Env) (argv : List Bytes) : Res (Bytes × List Opt × Bytes × Bytes) :=
  (export_ L true (enc (versionDoc (fresh E)))).bind fun v =>
    (setArgv L (define configDefs) argv).bind fun c =>
      (saveText L (bootstrap E c)).bind fun ct => (saveText L (fresh E)).bind fun st => .ok (v.1, bootstrap E c, ct, st)

/-- the directory during the first start, repo.c:29-37, 257-302 -/
def bootDirs (v ct st : Bytes) (d : Dir) : List Dir :=
  let d0 := { d with made := true }
  let d1 := { d0 with version := some v }
  let d2 := { d1 with config := some ct }
  [d0] ++ (writeVersion v d0 ++ (writeConfig ct d1 ++ saveSteps st d2))

/-- repl_open, repl.c:48-66 (the replicas are left as a document) -/
def replOpen (config st : List Opt) : Res (List Opt) :=
  if valueAt st (lit "repl_primary") = [] then .ok st
  else if valueAt st (lit "repl_primary") = valueAt config (lit "uuid") then .error .err
  else .ok (put st (lit "read_only") fun o => { o with int := 1 })

/-- repo_open, repo.c:235-302, user_mgr_open and repl_open: the server and the steps on the directory -/
def start (L : Libc) (E : Env) (argv : List Bytes) (d : Dir) : Res (Server × List Dir) :=
  if d.made = false then
    (bootTexts L E argv).bind fun b =>
      (openUsers (fresh E)).bind fun us =>
        .ok (⟨b.2.1, fresh E, us, lastOf d (bootDirs b.1 b.2.2.1 b.2.2.2 d)⟩, bootDirs b.1 b.2.2.1 b.2.2.2 d)
  else
    /- file_import of a file that is not there is an error -/
    d.version.elim (.error .err) fun v => (versionOpen L (fresh E) v).bind fun _ =>
      d.config.elim (.error .err) fun ct => (set L (define configDefs) ct).bind fun c =>
        (setArgv L c argv).bind fun c =>
          d.state.elim (.error .err) fun st => (set L (fresh E) st).bind fun st =>
            (openUsers st).bind fun us => (replOpen c st).bind fun st => .ok (⟨c, st, us, d⟩, [])

end Verif.Config
