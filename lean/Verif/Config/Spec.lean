import Verif.Config.Model
/-!
# What an option says, what a start has to bring back
-/
set_option autoImplicit false
namespace Verif.Config
open Verif Verif.Json Verif.Json.Text
open Verif.Catalog (lit)

/-- what an option says to a user; a document that was never set is null -/
def value (o : Opt) : J :=
  match o.d.ty with
  | .bool => .bool (o.int ≠ 0)
  | .int => .int (toSigned 64 o.int)
  | .str => .str o.str
  | .json => if o.str = [] then .null else match decode o.str with | .ok p => p.1 | .error _ => .null

/-- name and value of the options that are kept in the file -/
def fields : List Opt → List (Bytes × J)
  | [] => []
  | o :: l => if o.d.e then fields l else (o.d.name, value o) :: fields l

/-- Values that a text can carry: strings are UTF-8 and shorter than 2 GB, numbers are not -2^63, and not zero where zero is refused, documents have no reals. -/
def Good (o : Opt) : Prop :=
  match o.d.ty with
  | .bool => True
  | .int => o.int < 2 ^ 64 ∧ o.int ≠ 2 ^ 63 ∧ (o.d.z = true → o.int ≠ 0)
  | .str => Utf8 o.str ∧ o.str.length < 2 ^ 31
  | .json => o.str = [] ∨ ∃ v, TextOK v ∧ (o.str = enc v ∨ o.str = encP v)

/-- all that is kept can be written as text -/
def GoodL (l : List Opt) : Prop := ∀ o ∈ l, o.d.e = false → Good o

/-- the definitions: every name once, as text, and what is kept can be set -/
def Sound (l : List Def) : Prop :=
  (l.map Def.name).Nodup ∧ ∀ d ∈ l, (Utf8 d.name ∧ d.name.length < 2 ^ 31) ∧ (d.e = false → d.c = true)

/-- a user whose name and secret are texts -/
def GoodUser (u : User) : Prop := (Utf8 u.name ∧ u.name.length < 2 ^ 31) ∧ (Utf8 u.secret ∧ u.secret.length < 2 ^ 31)

/-- statements with texts (and an id that is not empty, see C102_subscribe_empty_false) -/
def GoodStmt : Stmt → Prop
  | .createUser u _ | .alterUser u => GoodUser u
  | .subscribe id => Utf8 id ∧ id.length < 2 ^ 31 ∧ id ≠ []
  | .replicas v => TextOK v
  | _ => True

end Verif.Config
