import Verif.Net.Http
/-!
# What an HTTP message is, independently of the reader
-/
namespace Verif.Net
open Verif

/-- one header line -/
def hline (h : Bytes × Bytes) : Bytes := h.1 ++ [58, 32] ++ h.2 ++ [13, 10]

/-- a head as it is sent -/
def wire (h : Head) : Bytes := h.a ++ [32] ++ h.b ++ [32] ++ h.c ++ [13, 10] ++ h.headers.flatMap hline ++ [13, 10]

/-- what a head must look like: no field is empty, no blank inside of the first two fields, no carriage return
anywhere, no colon in a header name -/
structure HeadOk (h : Head) : Prop where
  a0 : h.a ≠ []
  b0 : h.b ≠ []
  c0 : h.c ≠ []
  a : 32 ∉ h.a ∧ 13 ∉ h.a
  b : 32 ∉ h.b ∧ 13 ∉ h.b
  c : 13 ∉ h.c
  hs : ∀ x ∈ h.headers, 58 ∉ x.1 ∧ 13 ∉ x.1 ∧ 13 ∉ x.2

/-- two header names are the same up to the case of ASCII letters -/
def SameName (x y : Bytes) : Prop :=
  x.map (fun c => if 65 ≤ c ∧ c ≤ 90 then c + 32 else c) = y.map (fun c => if 65 ≤ c ∧ c ≤ 90 then c + 32 else c)

instance (x y : Bytes) : Decidable (SameName x y) := inferInstanceAs (Decidable (_ = _))

/-- the name of the header with the size of the body -/
def lengthName : Bytes := "Content-Length".toList.map (·.toNat)

/-- the headers announce a body of `n` bytes: the first Content-Length header is `n` in decimal, or there is none and
`n` is zero -/
inductive Announces : List (Bytes × Bytes) → Nat → Prop
  | absent (hs) : (∀ x ∈ hs, ¬ SameName x.1 lengthName) → Announces hs 0
  | present (pre name n post) : (∀ x ∈ pre, ¬ SameName x.1 lengthName) → SameName name lengthName →
      Announces (pre ++ (name, Json.Text.decDigits n) :: post) n

/-- a message that the server is expected to take: well formed, head within 512 bytes, body as announced and below
the limit -/
structure MessageOk (limit : Nat) (m : Head × Bytes) : Prop where
  head : HeadOk m.1
  size : (wire m.1).length ≤ 512
  body : Announces m.1.headers m.2.length
  below : m.2.length < limit

/-- a message as it is sent -/
def sent (m : Head × Bytes) : Bytes := wire m.1 ++ m.2

/-- a way to cut a stream into non-empty pieces -/
def Cuts (chunks : List Bytes) (stream : Bytes) : Prop := chunks.flatten = stream ∧ ∀ ch ∈ chunks, ch ≠ []

/-- a fresh connection over these pieces -/
def conn (chunks : List Bytes) : Conn := ⟨[], 0, chunks⟩

end Verif.Net
