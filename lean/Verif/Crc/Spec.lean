import Verif.Common
/-!
# What the checksum is and what it finds (C101)
-/
set_option autoImplicit false
namespace Verif.Crc
open Verif

/-- The multiples of the polynomial x^32 + x^28 + x^27 + x^26 + x^25 + x^23 + x^22 + x^20 + x^19 + x^18 + x^14 + x^13 + x^11 + x^10 + x^9 + x^8 + x^6 + 1 (CRC-32C) over GF(2); bit `i` is the coefficient of x^i. -/
inductive Multiple : Nat → Prop
  | zero : Multiple 0
  | step {x : Nat} (k : Nat) : Multiple x → Multiple (x ^^^ (0x11EDC6F41 <<< k))

/-- the bit `i` of a text: bytes in order, the lowest bit of each first -/
def bitAt (bs : Bytes) (i : Nat) : Bool := (bs.getD (i / 8) 0).testBit (i % 8)

/-- two different texts of the same length; all bits in which they differ are among 32 bits in a row -/
def Burst (x y : Bytes) : Prop := x.length = y.length ∧ x ≠ y ∧ ∃ j, ∀ i, bitAt x i ≠ bitAt y i → j ≤ i ∧ i < j + 32

/-- the text as a polynomial: the first bit is the highest coefficient -/
def polyOf (bs : Bytes) : Nat := (List.range (8 * bs.length)).foldl (fun a i => 2 * a + (bitAt bs i).toNat) 0

/-- the checksum as a polynomial: bit `31 - i` of the number is the coefficient of x^i -/
def polyOfCrc (c : Nat) : Nat := (List.range 32).foldl (fun a i => 2 * a + (c.testBit i).toNat) 0

end Verif.Crc
