import Verif.Json.Model
/-!
# Specification vocabulary for JSON documents

What the properties are stated against; independent of how documents are laid out in bytes.
-/
namespace Verif.Json
open Verif

mutual
/-- A value the database can be given: 64-bit integers, 64-bit float patterns, strings of bytes shorter
than 2^31 (string sizes are C `int`s). -/
def WF : J → Prop
  | .null   => True
  | .bool _ => True
  | .int i  => -(2 ^ 63) ≤ i ∧ i < 2 ^ 63
  | .real r => r < 2 ^ 64
  | .str s  => IsBytes s ∧ s.length < 2 ^ 31
  | .arr l  => WFList l
  | .obj l  => WFFields l
def WFList : List J → Prop
  | []     => True
  | v :: t => WF v ∧ WFList t
def WFFields : List (Bytes × J) → Prop
  | []          => True
  | (k, v) :: t => (IsBytes k ∧ k.length < 2 ^ 31) ∧ WF v ∧ WFFields t
end

/-- What a stored real reads back as: values between FLT_MIN and FLT_MAX are kept in single precision. -/
def storedReal (bits : Nat) : Nat :=
  if inFloatRange bits then f64OfF32 (f32OfF64 bits) else bits

mutual
/-- The value with every real replaced by what its stored form reads back as. -/
def stored : J → J
  | .null   => .null
  | .bool b => .bool b
  | .int i  => .int i
  | .real r => .real (storedReal r)
  | .str s  => .str s
  | .arr l  => .arr (storedList l)
  | .obj l  => .obj (storedFields l)
def storedList : List J → List J
  | []     => []
  | v :: t => stored v :: storedList t
def storedFields : List (Bytes × J) → List (Bytes × J)
  | []          => []
  | (k, v) :: t => (k, stored v) :: storedFields t
end

/-- A real that single precision represents exactly, or that is stored in double precision:
outside of [FLT_MIN, FLT_MAX], or with the low 29 bits of the fraction zero. -/
def ExactReal (bits : Nat) : Prop := inFloatRange bits = true → bits % 2 ^ 29 = 0

mutual
/-- all reals inside the value are exact -/
def Exact : J → Prop
  | .real r => ExactReal r
  | .arr l  => ExactList l
  | .obj l  => ExactFields l
  | .null | .bool _ | .int _ | .str _ => True
def ExactList : List J → Prop
  | []     => True
  | v :: t => Exact v ∧ ExactList t
def ExactFields : List (Bytes × J) → Prop
  | []          => True
  | (_, v) :: t => Exact v ∧ ExactFields t
end

/-- the first field with the key -/
def fieldOf (name : Bytes) : List (Bytes × J) → Option J
  | []          => none
  | (k, v) :: t => if k = name then some v else fieldOf name t

end Verif.Json
