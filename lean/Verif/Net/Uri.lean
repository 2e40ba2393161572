import Verif.Net.Http
/-!
# server/http/uri.c: connection strings and request targets

The text is kept in a copy with a zero byte behind it (str_dup), so it ends at its first zero byte: `cut`.
-/
namespace Verif.Net.Uri
open Verif

def str (s : String) : Bytes := s.toList.map Char.toNat

/-- Endpoint, server/http/endpoint.h:23-57: the three numbers and the strings by the name of their option -/
structure Ep where
  proto : Int := 0
  port : Int := 3485
  debug : Int := 0
  s : Bytes → Bytes := fun _ => []

/-- opt_string_set, runtime/runtime/opt.h:128-135 -/
def Ep.set (e : Ep) (k v : Bytes) : Ep := { e with s := fun x => if x = k then v else e.s x }

/-- the string options, server/http/endpoint.c:21-52 -/
def strKeys : List Bytes :=
  [str "user", str "secret", str "token", str "host", str "path", str "tls_capath", str "tls_ca", str "tls_cert", str "tls_key",
   str "tls_server", str "uri", str "content_type", str "accept", str "db", str "relation", str "service", str "columns",
   str "timezone", str "format", str "name"]

/-- strncmp with a literal -/
def starts (p s : Bytes) : Bool := decide (s.take p.length = p)

/-- strstr(s, "://") != NULL -/
def hasScheme : Bytes → Bool
  | [] => false
  | c :: t => starts [58, 47, 47] (c :: t) || hasScheme t

/-- uri_parse_protocol, uri.c:29-53 -/
def parseProtocol (e : Ep) (s : Bytes) : Res (Ep × Bytes) :=
  if starts (str "http://") s then .ok ({ e with proto := 0 }, s.drop 7)
  else if starts (str "https://") s then .ok ({ e with proto := 1 }, s.drop 8)
  else if starts (str "amelie://") s then .ok ({ e with proto := 2 }, s.drop 9)
  else if hasScheme s then .error .err
  else .ok (e, s)

/-- what is before the first `c`, and from there on -/
def before (c : Nat) (s : Bytes) : Bytes := s.takeWhile (fun x => decide (x ≠ c))
def fromC (c : Nat) (s : Bytes) : Bytes := s.dropWhile (fun x => decide (x ≠ c))

/-- uri_parse_user, uri.c:55-81 -/
def parseUser (e : Ep) (s : Bytes) : Res (Ep × Bytes) :=
  let u := before 64 s
  let r := fromC 64 s
  if r = [] then .ok (e, s)
  else if u = [] then .error .err
  else if 58 ∈ u then .ok ((e.set (str "user") (before 58 u)).set (str "secret") ((fromC 58 u).drop 1), r.drop 1)
  else .ok (e.set (str "user") u, r.drop 1)

/-- the digits of a port with int32_mul_add_overflow, uri.c:128-137 -/
def portLoop : Nat → Bytes → Option (Nat × Bytes)
  | v, [] => some (v, [])
  | v, c :: t => if Json.Text.isDigit c then
      if v * 10 + (c - 48) < 2 ^ 31 then portLoop (v * 10 + (c - 48)) t else none
    else some (v, c :: t)

/-- [:port] and what may follow, uri.c:123-160 -/
def parsePort (e : Ep) (s : Bytes) : Res (Ep × Bytes) :=
  if s.headD 0 = 58 then
    match portLoop 0 (s.drop 1) with
    | none => .error .err
    | some (p, r) => if r.length = (s.drop 1).length then .error .err else .ok ({ e with port := p }, r)
  else .ok (e, s)

/-- the end of uri_parse_host, uri.c:144-160 -/
def hostEnd (s : Bytes) : Res Bytes :=
  if s.headD 0 = 63 then .ok s
  else if s.headD 0 = 47 then .ok (s.drop 1)
  else if s = [] then .ok s
  else .error .err

/-- a character of a host name without brackets -/
def hostChar (c : Nat) : Bool := decide (c ≠ 58 ∧ c ≠ 44 ∧ c ≠ 47 ∧ c ≠ 63)

/-- the host name, uri.c:88-118 -/
def parseName (s : Bytes) : Res (Bytes × Bytes) :=
  if s.headD 0 = 91 then
    let n := before 93 (s.drop 1)
    let r := fromC 93 (s.drop 1)
    if r = [] then .error .err else if n = [] then .error .err else .ok (n, r.drop 1)
  else
    let n := s.takeWhile hostChar
    if n = [] then .error .err else .ok (n, s.dropWhile hostChar)

/-- uri_parse_host, uri.c:83-160 -/
def parseHost (e : Ep) (s : Bytes) : Res (Ep × Bytes) :=
  (parseName s).bind fun p => (parsePort (e.set (str "host") p.1) p.2).bind fun q => (hostEnd q.2).bind fun r => .ok (q.1, r)

/-- a character of a part of the path -/
def pathChar (c : Nat) : Bool := decide (c ≠ 47 ∧ c ≠ 63)
/-- the end of the path -/
def atEnd (s : Bytes) : Bool := decide (s = [] ∨ s.headD 0 = 63)

/-- uri_parse_path, uri.c:172-209 -/
def parsePath (e : Ep) (s : Bytes) : Res (Ep × Bytes) :=
  if atEnd s then .ok (e, s)
  else
    let db := s.takeWhile pathChar
    let r := s.dropWhile pathChar
    if db = [] then .ok (e, s)
    else if atEnd r then .ok (e.set (str "db") db, r)
    else if atEnd (r.drop 1) then .ok (e.set (str "db") db, r.drop 1)
    else
      let rel := (r.drop 1).takeWhile pathChar
      let r2 := (r.drop 1).dropWhile pathChar
      if rel = [] then .error .err
      else if atEnd r2 then .ok ((e.set (str "db") db).set (str "relation") rel, r2)
      else .ok ((e.set (str "db") db).set (str "relation") rel, r2.drop 1)

/-- decode_hex, uri.c:211-224 -/
def hexVal (c : Nat) : Option Nat :=
  if 48 ≤ c ∧ c ≤ 57 then some (c - 48)
  else if 65 ≤ c ∧ c ≤ 70 then some (c - 65 + 10)
  else if 97 ≤ c ∧ c ≤ 102 then some (c - 97 + 10)
  else none

def hexByte (a b : Nat) : Res Nat :=
  match hexVal a, hexVal b with
  | some x, some y => .ok (x * 16 + y)
  | _, _ => .error .err

/-- decode, uri.c:226-247 -/
def pctDecode : Bytes → Res Bytes
  | [] => .ok []
  | [c] => if c = 37 then .error .err else .ok [c]
  | [c, d] => if c = 37 then .error .err else (pctDecode [d]).bind fun r => .ok (c :: r)
  | c :: a :: b :: t =>
    if c = 37 then (hexByte a b).bind fun v => (pctDecode t).bind fun r => .ok (v :: r)
    else (pctDecode (a :: b :: t)).bind fun r => .ok (c :: r)

/-- uri_parse_args_set, uri.c:249-294.  The option `uri` holds the text that is being parsed: setting it frees the text. -/
def argSet (e : Ep) (name value : Bytes) : Res Ep :=
  if name = str "uri" then .error .ub
  else if name ∈ strKeys then .ok (e.set name value)
  else if name = str "debug" then
    if value = [] ∨ isCase value (str "true") then .ok { e with debug := 1 }
    else if isCase value (str "false") then .ok { e with debug := 0 }
    else .error .err
  else if name = str "proto" then (if value = [] then .error .err else match toint 0 value with
    | some n => .ok { e with proto := n }
    | none => .error .err)
  else if name = str "port" then (if value = [] then .error .err else match toint 0 value with
    | some n => .ok { e with port := n }
    | none => .error .err)
  else .error .err

/-- the loop of uri_parse_args, uri.c:306-345 -/
def argsLoop : Nat → Ep → Bytes → Res Ep
  | 0, _, _ => .error .ub
  | f + 1, e, s =>
    let n := before 61 s
    let r := fromC 61 s
    if r = [] then .error .err
    else if n = [] then .error .err
    else
      let v := before 38 (r.drop 1)
      let r2 := fromC 38 (r.drop 1)
      (pctDecode n).bind fun n => (pctDecode v).bind fun v => (argSet e n v).bind fun e =>
        if r2 = [] then .ok e else argsLoop f e (r2.drop 1)

/-- uri_parse_args, uri.c:296-346 -/
def parseArgs (e : Ep) (s : Bytes) : Res Ep :=
  if s = [] then .ok e
  else if s.headD 0 ≠ 63 then .error .err
  else argsLoop s.length e (s.drop 1)

/-- the text up to its first zero byte -/
def cut (s : Bytes) : Bytes := before 0 s

/-- uri_parse, uri.c:348-374.  An empty text is not copied: the position is NULL and is read. -/
def uriParse (e : Ep) (spec : Bytes) : Res Ep :=
  if spec = [] then .error .ub
  else
    (parseProtocol (e.set (str "uri") spec) (cut spec)).bind fun p => (parseUser p.1 p.2).bind fun p =>
    (if p.1.proto ≠ 2 then parseHost p.1 p.2 else .ok p).bind fun p =>
    (parsePath p.1 p.2).bind fun p => parseArgs p.1 p.2

/-- uri_parse_endpoint, uri.c:376-416 -/
def uriParseEndpoint (e : Ep) (spec : Bytes) : Res Ep :=
  let e := e.set (str "uri") spec
  if starts (str "/v1/db/") spec then (parsePath e ((cut spec).drop 7)).bind fun p => parseArgs p.1 p.2
  else if spec = str "/v1/backup" then .ok (e.set (str "service") (str "backup"))
  else if spec = str "/v1/repl" then .ok (e.set (str "service") (str "repl"))
  else .error .err

/-- the arguments of a text: uri_export_arg over the options with these names, uri.c:418-429 -/
def exportArgs (e : Ep) (keys : List Bytes) : Bytes :=
  (keys.foldl (fun p k => exportArg k (e.s k) p) ([], true)).1

/-- (int) of a 64 bit number -/
def asInt (i : Int) : Int := (i + 2 ^ 31) % 2 ^ 32 - 2 ^ 31

/-- uri_export, uri.c:431-497 (strings are printed whole; printf would stop at a zero byte in an argument) -/
def uriExport (e : Ep) : Bytes :=
  (if e.proto = 0 then str "http://" else if e.proto = 1 then str "https://" else if e.proto = 2 then str "amelie://" else [])
  ++ (if e.s (str "user") ≠ [] then
        e.s (str "user") ++ (if e.s (str "secret") ≠ [] then 58 :: e.s (str "user") else []) ++ [64] else [])
  ++ (if e.proto ≠ 2 then
        (if e.s (str "host") ≠ [] then e.s (str "host") ++ [58] ++ Json.Text.intText (asInt e.port) else []) ++ [47] else [])
  ++ (if e.s (str "db") ≠ [] then
        e.s (str "db") ++ (if e.s (str "relation") ≠ [] then 47 :: e.s (str "relation") else []) else [])
  ++ exportArgs e ((if e.proto = 2 then
        [str "content_type", str "accept", str "tls_capath", str "tls_ca", str "tls_cert", str "tls_key", str "tls_server"] else [])
      ++ [str "columns", str "timezone", str "format"])

end Verif.Net.Uri
