import Verif.Net.Auth
/-!
# What a valid token is

Independent of the reader: a token is text in three parts, its header and its payload are JSON objects with certain
fields, and its last part is the code of the first two under the secret of the user it names.
-/
namespace Verif.Net.Auth
open Verif Verif.Json

/-- the value of a JSON text (what follows the value is ignored) -/
def jsonOf (L : Text.Libc) (text : Bytes) : Option J :=
  match Text.parse L text with
  | .ok (_, doc) => match Json.decode doc with
    | .ok (v, _) => some v
    | .error _ => none
  | .error _ => none

/-- the fields with this name are strings, and the last one is `s` -/
def StrClaim (fs : List (Bytes × J)) (name s : Bytes) : Prop :=
  (∀ v, (name, v) ∈ fs → ∃ x, v = .str x) ∧ ∃ pre post, fs = pre ++ (name, .str s) :: post ∧ ∀ v, (name, v) ∉ post

/-- the fields with this name are integers, and the last one is `i` -/
def IntClaim (fs : List (Bytes × J)) (name : Bytes) (i : Int) : Prop :=
  (∀ v, (name, v) ∈ fs → ∃ x, v = .int x) ∧ ∃ pre post, fs = pre ++ (name, .int i) :: post ∧ ∀ v, (name, v) ∉ post

/-- `header` is the base64url text of a JSON object that says HS256 and JWT, in any case -/
def HeaderOk (L : Text.Libc) (header : Bytes) : Prop :=
  ∃ text fs alg typ, Codec.decode Codec.url header = .ok text ∧ jsonOf L text = some (.obj fs) ∧
    StrClaim fs (str "alg") alg ∧ StrClaim fs (str "typ") typ ∧
    alg.map lowerC = str "hs256" ∧ typ.map lowerC = str "jwt"

/-- `payload` is the base64url text of a JSON object with these claims -/
def PayloadIs (L : Text.Libc) (payload : Bytes) (sub : Bytes) (iat exp : Int) : Prop :=
  ∃ text fs, Codec.decode Codec.url payload = .ok text ∧ jsonOf L text = some (.obj fs) ∧
    StrClaim fs (str "sub") sub ∧ IntClaim fs (str "iat") iat ∧ IntClaim fs (str "exp") exp

/-- the token has this last part -/
def HasDigest (token digest : Bytes) : Prop :=
  ∃ h p, token = str "Bearer " ++ h ++ [46] ++ p ++ [46] ++ digest ∧ h ≠ [] ∧ p ≠ [] ∧ digest ≠ [] ∧ 46 ∉ h ∧ 46 ∉ p

/-- at the time `now`, `token` is a valid token of the user `u` that expires at `exp` -/
def Valid (hmac : Bytes → Bytes → Bytes) (L : Text.Libc) (users : List User) (now : Int) (token : Bytes) (u : User)
    (exp : Int) : Prop :=
  ∃ h p digest iat, token = str "Bearer " ++ h ++ [46] ++ p ++ [46] ++ digest ∧ h ≠ [] ∧ p ≠ [] ∧ digest ≠ [] ∧
    46 ∉ h ∧ 46 ∉ p ∧ HeaderOk L h ∧ PayloadIs L p u.name iat exp ∧
    iat ≠ 0 ∧ exp ≠ 0 ∧ iat ≤ exp ∧ now < exp ∧
    users.find? (fun w => decide (w.name = u.name)) = some u ∧
    Codec.decode Codec.url digest = .ok (hmac u.secret (h ++ [46] ++ p))

/-- what happens to one frontend: a request with a token, or new users -/
inductive Op
  | login (now : Int) (token : Bytes)
  | sync (users : List User)

/-- the state after a history -/
def after (hmac : Bytes → Bytes → Bytes) (L : Text.Libc) (a : Auth) : List Op → Auth
  | [] => a
  | .login now token :: t => after hmac L (authRun hmac L now a token).2 t
  | .sync users :: t => after hmac L (authSync a users) t

/-- the state of a new frontend, auth_init -/
def start : Auth := ⟨none, []⟩

/-- the logins since the users were last sent -/
def recent : List (Int × Bytes) → List Op → List (Int × Bytes)
  | l, [] => l
  | l, .login now token :: t => recent (l ++ [(now, token)]) t
  | _, .sync _ :: t => recent [] t

/-- the users that were last sent -/
def current : List User → List Op → List User
  | us, [] => us
  | us, .login _ _ :: t => current us t
  | _, .sync us :: t => current us t

end Verif.Net.Auth
