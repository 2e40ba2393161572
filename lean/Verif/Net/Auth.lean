import Verif.Net.Http
import Verif.Net.Table
import Verif.Codec.Base64
import Verif.Json.TextModel
import Verif.Row.Model
/-!
# server/auth: tokens, the authentication cache, users

HMAC-SHA256 is a parameter `hmac secret text` (OpenSSL); strtod and printf are the parameter `L`.
A user is its name and its secret (server/user/user_config.h:16-20).
-/
namespace Verif.Net.Auth
open Verif Verif.Json Verif.Net.Table

structure User where
  name : Bytes
  secret : Bytes
deriving DecidableEq, Repr

/-- AuthCacheNode, auth_cache.h:17-23 -/
structure Entry where
  digest : Bytes
  user : User
  expire : Int

/-- Auth, auth.h:16-21: the cache (`none`: not created yet) and the users of this frontend -/
structure Auth where
  cache : Option (Ht Entry)
  users : List User

def str (s : String) : Bytes := s.toList.map Char.toNat

/-- str_split at a point, runtime/base/str.h:194-206: the part before it and the rest after it -/
def splitDot : Bytes → Option (Bytes × Bytes)
  | [] => none
  | c :: t => if c = 46 then some ([], t) else (splitDot t).map fun p => (c :: p.1, p.2)

structure Parts where
  header : Bytes
  payload : Bytes
  digest : Bytes
  origin : Bytes

/-- jwt_decode, jwt_decode.c:48-86 -/
def jwtDecode (token : Bytes) : Res Parts :=
  if token.take 7 ≠ str "Bearer " then .error .err
  else match splitDot (token.drop 7) with
    | none => .error .err
    | some (header, rest) =>
      if header = [] then .error .err
      else match splitDot rest with
        | none => .error .err
        | some (payload, digest) =>
          if payload = [] then .error .err
          else if digest = [] then .error .err
          else .ok ⟨header, payload, digest, header ++ 46 :: payload⟩

/-- what decode_obj reads for a key: DECODE_STRING_READ or DECODE_INT -/
inductive Want | str | int
deriving DecidableEq

inductive Got | str (s : Bytes) | int (i : Int)
deriving DecidableEq

/-- the cases DECODE_STRING_READ and DECODE_INT of decode_obj, runtime/json/decode.h:76-94 -/
def readWant (w : Want) (bs : Bytes) : Res (Got × Bytes) :=
  match w with
  | .str => (peek bs).bind fun t => if clsOf t = .str then (readRaw bs).bind fun p => .ok (.str p.1, p.2) else .error .err
  | .int => (peek bs).bind fun t => if clsOf t = .int then (readInteger bs).bind fun p => .ok (.int p.1, p.2) else .error .err

/-- what decode_obj does with one field: `some` value of a wanted key, or json_skip -/
def readField (keys : List (Bytes × Want)) (k : Bytes) (bs : Bytes) : Res (Option (Bytes × Got) × Bytes) :=
  match keys.find? fun x => decide (x.1 = k) with
  | some x => (readWant x.2 bs).bind fun p => .ok (some (k, p.1), p.2)
  | none => (skip bs).bind fun r => .ok (none, r)

/-- the loop of decode_obj, decode.h:44-160, for these two kinds.  `got`: the values that were stored, the last one first. -/
def decodeLoop (keys : List (Bytes × Want)) : Nat → List (Bytes × Got) → Bytes → Res (List (Bytes × Got))
  | 0, _, _ => .error .ub
  | fuel + 1, got, bs =>
    (readObjEnd bs).bind fun e => e.elim
      ((readRaw bs).bind fun k => (readField keys k.1 k.2).bind fun p => decodeLoop keys fuel (p.1.toList ++ got) p.2)
      (fun _ => .ok got)

/-- decode_obj, decode.h:39-167 -/
def decodeObj (keys : List (Bytes × Want)) (bs : Bytes) : Res (List (Bytes × Got)) :=
  (readObj bs).bind fun r => (decodeLoop keys (r.length + 1) [] r).bind fun got =>
    if keys.all fun k => got.any fun g => decide (g.1 = k.1) then .ok got else .error .err

/-- the variable that belongs to a key -/
def strOf (got : List (Bytes × Got)) (k : Bytes) : Bytes :=
  match got.find? fun g => decide (g.1 = k) with
  | some (_, .str s) => s
  | _ => []
def intOf (got : List (Bytes × Got)) (k : Bytes) : Int :=
  match got.find? fun g => decide (g.1 = k) with
  | some (_, .int i) => i
  | _ => 0

/-- the checks on the header, jwt_decode.c:98-122 and jwt_encode.c:38-66 -/
def checkHeader (L : Text.Libc) (text : Bytes) : Res Unit :=
  (Text.parse L text).bind fun p => (decodeObj [(str "alg", .str), (str "typ", .str)] p.2).bind fun got =>
    if isCase (strOf got (str "alg")) (str "HS256") = false then .error .err
    else if isCase (strOf got (str "typ")) (str "JWT") = false then .error .err
    else .ok ()

/-- jwt_decode_header, jwt_decode.c:88-123 -/
def decodeHeader (L : Text.Libc) (header : Bytes) : Res Unit := (Codec.decode Codec.url header).bind (checkHeader L)

structure Claims where
  sub : Bytes
  iat : Int
  exp : Int

/-- jwt_decode_payload, jwt_decode.c:125-149 -/
def decodePayload (L : Text.Libc) (payload : Bytes) : Res Claims :=
  (Codec.decode Codec.url payload).bind fun text => (Text.parse L text).bind fun p =>
    (decodeObj [(str "sub", .str), (str "iat", .int), (str "exp", .int)] p.2).bind fun got =>
      .ok ⟨strOf got (str "sub"), intOf got (str "iat"), intOf got (str "exp")⟩

/-- jwt_decode_validate, jwt_decode.c:160-179 -/
def validate (hmac : Bytes → Bytes → Bytes) (p : Parts) (secret : Bytes) : Res Unit :=
  (Codec.decode Codec.url p.digest).bind fun mac =>
    if mac.length ≠ 32 then .error .err else if mac ≠ hmac secret p.origin then .error .err else .ok ()

/-- user_cache_find, server/user/user_cache.h:39-48 -/
def findUser (users : List User) (name : Bytes) : Option User := users.find? fun u => decide (u.name = name)

/-- the part of auth_run after the cache, auth.c:70-103: the user and the expiration time -/
def check (hmac : Bytes → Bytes → Bytes) (L : Text.Libc) (users : List User) (now : Int) (p : Parts) : Res (User × Int) :=
  (decodeHeader L p.header).bind fun _ => (decodePayload L p.payload).bind fun c =>
    if c.iat = 0 ∨ c.exp = 0 ∨ c.iat > c.exp then .error .err
    else if now ≥ c.exp then .error .err
    else match findUser users c.sub with
      | none => .error .err
      | some u => (validate hmac p u.secret).bind fun _ => .ok (u, c.exp)

/-- auth_cache_find, auth_cache.c:88-96 -/
def cacheFind (t : Ht Entry) (digest : Bytes) : Option (Option (Nat × Entry)) :=
  htGet t (Row.murmur digest 0) fun e => decide (e.digest = digest)

/-- auth_cache_add, auth_cache.c:57-71 -/
def cacheAdd (t : Ht Entry) (e : Entry) : Option (Ht Entry) := htAdd t (Row.murmur e.digest 0, e)

/-- auth_cache_prepare, auth_cache.c:45-49 -/
def prepare (c : Option (Ht Entry)) : Ht Entry := c.getD (Index.Hash.Store.create 256)

/-- auth_run with error_catch of auth, auth.c:41-118.  A loop of the table that does not end is `.ub`. -/
def authRun (hmac : Bytes → Bytes → Bytes) (L : Text.Libc) (now : Int) (a : Auth) (token : Bytes) : Res User × Auth :=
  let cache := prepare a.cache
  let a' := { a with cache := some cache }
  match jwtDecode token with
  | .error e => (.error e, a')
  | .ok p =>
    match cacheFind cache p.digest with
    | none => (.error .ub, a')
    | some (some (pos, e)) =>
      if now < e.expire then (.ok e.user, a') else (.error .err, { a with cache := some (htDelete cache pos) })
    | some none =>
      match check hmac L a.users now p with
      | .error e => (.error e, a')
      | .ok (u, exp) =>
        match cacheAdd cache ⟨p.digest, u, exp⟩ with
        | none => (.error .ub, a')
        | some c => (.ok u, { a with cache := some c })

/-- user_cache_sync, user_cache.h:67-93 -/
def userSync (self with_ : List User) : List User :=
  let kept := self.filterMap fun u => (findUser with_ u.name).map fun w => ⟨u.name, w.secret⟩
  with_.foldl (fun l w => if (findUser l w.name).isNone then l ++ [w] else l) kept

/-- auth_sync, auth.c:32-37 -/
def authSync (a : Auth) (with_ : List User) : Auth := ⟨none, userSync a.users with_⟩

/-- frontend_auth, system/frontend/frontend_client.c:40-60: `true` is 403 Forbidden.  `trusted` is `! client->auth`. -/
def refused (hmac : Bytes → Bytes → Bytes) (L : Text.Libc) (now : Int) (a : Auth) (trusted : Bool)
    (headers : List (Bytes × Bytes)) : Bool × Auth :=
  match httpFind headers (str "Authorization") with
  | none => (!trusted, a)
  | some v =>
    let r := authRun hmac L now a v
    (match r.1 with | .ok _ => false | .error _ => true, r.2)

/-! ## tokens the server makes -/

/-- jwt_encode, jwt_encode.c:70-98 -/
def jwtEncode (hmac : Bytes → Bytes → Bytes) (L : Text.Libc) (header payload secret : Bytes) : Res Bytes :=
  (checkHeader L header).bind fun _ => (Text.parse L payload).bind fun _ =>
    let text := Codec.encode Codec.url header ++ 46 :: Codec.encode Codec.url payload
    .ok (text ++ 46 :: Codec.encode Codec.url (hmac secret text))

/-- the header of jwt_create, jwt.c:27-29 -/
def headerText : Bytes := str "{\"alg\":\"HS256\",\"typ\":\"JWT\"}"

/-- jwt_create, jwt.c:16-67, with an expiration time (both callers give one: command_utility.c:63, main_configure.c:138);
`iat` and `exp` are seconds -/
def jwtCreate (hmac : Bytes → Bytes → Bytes) (L : Text.Libc) (user secret : Bytes) (iat exp : Int) : Res Bytes :=
  if secret = [] then .error .err
  else
    (Text.export_ L false (enc (.obj [(str "sub", .str user), (str "iat", .int iat), (str "exp", .int exp)]))).bind fun p =>
      jwtEncode hmac L headerText p.1 secret

end Verif.Net.Auth
