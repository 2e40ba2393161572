import Verif.Net.Uri
/-!
# How an address is written
-/
namespace Verif.Net.Uri
open Verif

/-- letters, digits and `-._~` (RFC 3986, 2.3) -/
def unreserved (c : Nat) : Prop :=
  (65 ≤ c ∧ c ≤ 90) ∨ (97 ≤ c ∧ c ≤ 122) ∨ (48 ≤ c ∧ c ≤ 57) ∨ c = 45 ∨ c = 46 ∨ c = 95 ∨ c = 126
instance (c : Nat) : Decidable (unreserved c) := by unfold unreserved; infer_instance

/-- 0123456789ABCDEF -/
def hexDigit (n : Nat) : Nat := if n < 10 then 48 + n else 55 + n

/-- percent-encoding (RFC 3986, 2.1) -/
def pctEncode (s : Bytes) : Bytes :=
  s.flatMap fun c => if unreserved c then [c] else [37, hexDigit (c / 16), hexDigit (c % 16)]

/-- a hexadecimal digit of either case and its value -/
inductive HexDigit : Nat → Nat → Prop
  | digit (n : Nat) : n < 10 → HexDigit (48 + n) n
  | upper (n : Nat) : n < 6 → HexDigit (65 + n) (10 + n)
  | lower (n : Nat) : n < 6 → HexDigit (97 + n) (10 + n)

/-- a text with percent-encoded bytes (RFC 3986, 2.1; digits of either case, any byte may be encoded) and what it stands for -/
inductive Pct : Bytes → Bytes → Prop
  | nil : Pct [] []
  | plain {c : Nat} {t s : Bytes} : c ≠ 37 → Pct t s → Pct (c :: t) (c :: s)
  | coded {a b x y : Nat} {t s : Bytes} : HexDigit a x → HexDigit b y → Pct t s → Pct (37 :: a :: b :: t) ((16 * x + y) :: s)

inductive Host
  /-- a name or an address -/
  | plain (name : Bytes)
  /-- an address in brackets -/
  | bracket (name : Bytes)

def Host.name : Host → Bytes
  | .plain n | .bracket n => n
def Host.text : Host → Bytes
  | .plain n => n
  | .bracket n => [91] ++ n ++ [93]

/-- what an address says -/
structure Address where
  scheme : Option Nat            -- 0 http, 1 https
  user : Option (Bytes × Option Bytes)
  host : Host
  port : Option Nat
  /-- the database, and the relation -/
  path : Option (Bytes × Option Bytes)
  args : List (Bytes × Bytes)

def argText (a : Bytes × Bytes) : Bytes := pctEncode a.1 ++ [61] ++ pctEncode a.2

/-- name=value&name=value -/
def argsText : List (Bytes × Bytes) → Bytes
  | [] => []
  | [a] => argText a
  | a :: t => argText a ++ [38] ++ argsText t

def pathText : Option (Bytes × Option Bytes) → Bytes
  | none => []
  | some (db, none) => db
  | some (db, some rel) => db ++ [47] ++ rel

def argsPart (l : List (Bytes × Bytes)) : Bytes := if l = [] then [] else [63] ++ argsText l

def userText : Option (Bytes × Option Bytes) → Bytes
  | none => []
  | some (u, none) => u ++ [64]
  | some (u, some p) => u ++ [58] ++ p ++ [64]

def schemeText : Option Nat → Bytes
  | none => []
  | some 0 => str "http://"
  | some _ => str "https://"

def portText : Option Nat → Bytes
  | none => []
  | some p => [58] ++ Json.Text.decDigits p

/-- [scheme://][user[:secret]@]host[:port]/[db[/relation]][?name=value[&...]] -/
def Address.text (a : Address) : Bytes :=
  schemeText a.scheme ++ userText a.user ++ a.host.text ++ portText a.port ++ [47] ++ pathText a.path ++ argsPart a.args

/-- none of these characters -/
def Without (cs s : Bytes) : Prop := ∀ c ∈ s, c ∉ cs

/-- a database or a relation name that can be written -/
def PathOk : Option (Bytes × Option Bytes) → Prop
  | none => True
  | some (db, none) => db ≠ [] ∧ Without [0, 47, 63] db
  | some (db, some rel) => db ≠ [] ∧ Without [0, 47, 63] db ∧ rel ≠ [] ∧ Without [0, 47, 63] rel

/-- string options, other than the text itself -/
def ArgsOk (l : List (Bytes × Bytes)) : Prop :=
  ∀ a ∈ l, a.1 ∈ strKeys ∧ a.1 ≠ str "uri" ∧ IsBytes a.2

/-- the parts do not contain the characters that separate them; without a user there is no `@` and without a scheme no `:` outside
of the port -/
structure Address.Ok (a : Address) : Prop where
  scheme : ∀ x, a.scheme = some x → x = 0 ∨ x = 1
  user : ∀ u p, a.user = some (u, p) → u ≠ [] ∧ Without [0, 64, 58] u ∧ ∀ s, p = some s → Without [0, 64] s
  host : a.host.name ≠ [] ∧ (∀ n, a.host = .plain n → Without [0, 58, 44, 47, 63, 91] n) ∧ (∀ n, a.host = .bracket n → Without [0, 93] n)
  port : ∀ p, a.port = some p → p < 2 ^ 31
  path : PathOk a.path
  args : ArgsOk a.args
  noAt : a.user = none → 64 ∉ a.host.name ∧ 64 ∉ pathText a.path
  noScheme : a.scheme = none → hasScheme a.text = false

/-- what is assigned to the strings, in order -/
def pathSets : Option (Bytes × Option Bytes) → List (Bytes × Bytes)
  | none => []
  | some (db, none) => [(str "db", db)]
  | some (db, some rel) => [(str "db", db), (str "relation", rel)]

def userSets : Option (Bytes × Option Bytes) → List (Bytes × Bytes)
  | none => []
  | some (u, none) => [(str "user", u)]
  | some (u, some p) => [(str "user", u), (str "secret", p)]

def Address.sets (a : Address) : List (Bytes × Bytes) :=
  [(str "uri", a.text)] ++ userSets a.user ++ [(str "host", a.host.name)] ++ pathSets a.path ++ a.args

/-- the last value that was assigned to a name -/
def lastOf (l : List (Bytes × Bytes)) (k : Bytes) : Option Bytes := (l.reverse.find? fun a => decide (a.1 = k)).map (·.2)

end Verif.Net.Uri
