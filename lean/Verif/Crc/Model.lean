import Verif.Crc.Tables
import Verif.Wal.Model
/-!
# Checksums

runtime/lib/crc.c: crc32 with its tables, eight bytes at a time, and crc32_sse with the CRC32 instruction of the processor (x86_64). runtime.c:23 takes one or the other at the start.

Numbers are unsigned. `& 0xff` is `% 256`, `>> 8` is `/ 256`.
-/
set_option autoImplicit false
namespace Verif.Crc
open Verif

/-- `*p_buf++` is a signed char that is widened to 32 bits -/
def sext (b : Nat) : Nat := if b < 128 then b else b + 0xffffff00

/-- `crc_tableil8_o32[(crc ^ *p_buf++) & 0xff] ^ (crc >> 8)`, crc.c:336 and 361 -/
def softByte (c b : Nat) : Nat := t32.getD ((c ^^^ sext b) % 256) 0 ^^^ c / 256

/-- eight bytes, two words read with align32, crc.c:343-357 -/
def soft8 (c w0 w1 : Nat) : Nat :=
  let c := c ^^^ w0
  let term1 := t88.getD (c % 256) 0 ^^^ t80.getD (c / 256 % 256) 0
  let term2 := c / 65536
  let c := term1 ^^^ t72.getD (term2 % 256) 0 ^^^ t64.getD (term2 / 256 % 256) 0
  let term1 := t56.getD (w1 % 256) 0 ^^^ t48.getD (w1 / 256 % 256) 0
  let term2 := w1 / 65536
  c ^^^ term1 ^^^ t40.getD (term2 % 256) 0 ^^^ t32.getD (term2 / 256 % 256) 0

/-- the loop over eight bytes, crc.c:341-358 -/
def soft8s : Nat → Nat → Bytes → Nat
  | 0, c, _ => c
  | k + 1, c, bs => soft8s k (soft8 c (leNat (bs.take 4)) (leNat ((bs.drop 4).take 4))) (bs.drop 8)

/-- crc32, crc.c:326-364, of the bytes at the address `addr` -/
def soft (addr c : Nat) (bs : Bytes) : Nat :=
  let i := min ((4 - addr % 4) % 4) bs.length
  let c1 := (bs.take i).foldl softByte c
  let rest := bs.drop i
  let k := rest.length / 8
  (rest.drop (8 * k)).foldl softByte (soft8s k c1 rest)

/-! ## the instruction, as in the manual of the processor (Intel SDM volume 2A, CRC32) -/

/-- BIT_REFLECT of `w` bits: bit `i` of the result is bit `w - 1 - i` -/
def reflect : Nat → Nat → Nat
  | 0, _ => 0
  | w + 1, x => 2 * reflect w (x % 2 ^ w) + x / 2 ^ w % 2

/-- MOD2 11EDC6F41H: the remainder of the division of polynomials over GF(2), of a number of `n + 32` bits -/
def mod2 : Nat → Nat → Nat
  | 0, x => x
  | n + 1, x => mod2 n (if x.testBit (n + 32) then x ^^^ (0x11EDC6F41 <<< n) else x)

/-- CRC32 with a source of `w` bits -/
def instr (w dest src : Nat) : Nat := reflect 32 (mod2 w ((reflect w src <<< 32) ^^^ (reflect 32 dest <<< w)))

/-- the loop over eight bytes, crc.c:412-420 -/
def sse8s : Nat → Nat → Bytes → Nat
  | 0, c, _ => c
  | k + 1, c, bs => sse8s k (instr 64 c (leNat (bs.take 8))) (bs.drop 8)

/-- crc32_sse and crc32_sse_byte, crc.c:382-394, 406-423 -/
def sse (c : Nat) (bs : Bytes) : Nat :=
  let k := bs.length / 8
  (bs.drop (8 * k)).foldl (instr 8) (sse8s k c bs)

end Verif.Crc
