import Verif.Crc.Link
import Verif.Wal.Props
/-!
# C101: checksums are the same on every machine, and find damage
-/
set_option autoImplicit false
set_option linter.unusedVariables false
namespace Verif.Crc
open Verif Verif.Wal

/-- For all bytes at any address: the function with tables and the function with the CRC32 instruction give the same checksum. -/
theorem C101_same (addr c : Nat) (bs : Bytes) (hb : IsBytes bs) (hc : c < 2 ^ 32) : soft addr c bs = sse c bs := by
  rw [soft_crc addr c bs hb hc, sse_crc c bs hb hc]

/-- The checksum does not depend on the address of the bytes, and the checksum of pieces, each beginning with the checksum of the pieces before it, is that of the whole, whichever function is used for each. -/
theorem C101_pieces (a1 a2 a3 c : Nat) (x y : Bytes) (hx : IsBytes x) (hy : IsBytes y) (hc : c < 2 ^ 32) :
    soft a2 (soft a1 c x) y = soft a3 c (x ++ y) ∧ sse (soft a1 c x) y = soft a3 c (x ++ y) ∧ soft a2 (sse c x) y = sse c (x ++ y) := by
  have hxy : IsBytes (x ++ y) := fun b h => (List.mem_append.1 h).elim (hx b) (hy b)
  have h1 := crc32_lt x c hc hx
  rw [soft_crc a1 c x hx hc, sse_crc c x hx hc, soft_crc a3 c _ hxy hc, sse_crc c _ hxy hc, soft_crc a2 _ y hy h1, sse_crc _ y hy h1, crc32_append]
  exact ⟨rfl, rfl, rfl⟩

/-- The checksum is the remainder of the text, as a polynomial, divided by the polynomial of CRC-32C: the one number below x^32 that differs from the text by a multiple. -/
theorem C101_remainder (addr c : Nat) (bs : Bytes) (hb : IsBytes bs) (hc : c < 2 ^ 32) (r : Nat) (hr : r < 2 ^ 32) :
    Multiple ((polyOf bs <<< 32) ^^^ (polyOfCrc c <<< (8 * bs.length)) ^^^ r) ↔ r = polyOfCrc (soft addr c bs) := by
  rw [soft_crc addr c bs hb hc]
  obtain ⟨h1, h2⟩ := crc_multiple hb hc
  constructor
  · intro h; exact rem_unique h h1 hr h2
  · rintro rfl; exact h1

/-- The checksum is a number of 32 bits. -/
theorem C101_range (addr c : Nat) (bs : Bytes) (hb : IsBytes bs) (hc : c < 2 ^ 32) : soft addr c bs < 2 ^ 32 ∧ sse c bs < 2 ^ 32 := by
  rw [soft_crc addr c bs hb hc, sse_crc c bs hb hc]
  exact ⟨crc32_lt bs c hc hb, crc32_lt bs c hc hb⟩

/-- Damage in at most 32 bits in a row changes the checksum, at any place of a text of any length. -/
theorem C101_burst (a1 a2 c : Nat) (x y : Bytes) (hx : IsBytes x) (hy : IsBytes y) (hc : c < 2 ^ 32) (h : Burst x y) : soft a1 c x ≠ soft a2 c y ∧ sse c x ≠ sse c y := by
  rw [soft_crc a1 c x hx hc, soft_crc a2 c y hy hc, sse_crc c x hx hc, sse_crc c y hy hc]
  exact ⟨crc_burst hx hy h, crc_burst hx hy h⟩

/-- One to four bytes in a row that are replaced change the checksum. -/
theorem C101_bytes (a1 a2 c : Nat) (a u v b : Bytes) (hx : IsBytes (a ++ u ++ b)) (hy : IsBytes (a ++ v ++ b)) (hc : c < 2 ^ 32) (hl : u.length = v.length) (h4 : u.length ≤ 4) (hne : u ≠ v) :
    soft a1 c (a ++ u ++ b) ≠ soft a2 c (a ++ v ++ b) :=
  (C101_burst a1 a2 c _ _ hx hy hc (burst_bytes hl h4 hne)).1

/-- A record of the log whose header and commands were damaged in at most 32 bits in a row, other than the checksum itself and the number of commands, is refused. -/
theorem C101_record (r r' : Bytes) (hr : IsBytes r) (hr' : IsBytes r') (hv : validate r = true) (hcrc : slice r' 0 4 = slice r 0 4) (hcount : (Hdr.read r').count = (Hdr.read r).count)
    (h : Burst (slice r 24 (25 * (Hdr.read r).count) ++ slice r 4 20) (slice r' 24 (25 * (Hdr.read r).count) ++ slice r' 4 20)) : validate r' = false := by
  have sl : ∀ (b : Bytes) (o n : Nat), IsBytes b → IsBytes (slice b o n) := fun b o n hb => isBytes_take (isBytes_drop hb o) n
  have ap : ∀ x y : Bytes, IsBytes x → IsBytes y → IsBytes (x ++ y) := fun x y hx hy b h => (List.mem_append.1 h).elim (hx b) (hy b)
  unfold validate at hv ⊢
  dsimp only at hv ⊢
  rw [hcount]
  rw [← crc32_append] at hv ⊢
  have he : (Hdr.read r').crc = (Hdr.read r).crc := by show leNat (slice r' 0 4) = leNat (slice r 0 4); rw [hcrc]
  rw [he]
  simp only [decide_eq_true_eq] at hv
  rw [← hv]
  have := crc_burst (c := 0) (ap _ _ (sl r 24 _ hr) (sl r 4 20 hr)) (ap _ _ (sl r' 24 _ hr') (sl r' 4 20 hr')) h
  exact decide_eq_false (fun e => this e.symm)

/-- The rows of a command that were damaged in at most 32 bits in a row are refused. -/
theorem C101_rows (cmd : Cmd) (r r' : Bytes) (pos : Nat) (hr : IsBytes r) (hr' : IsBytes r') (hv : validateCmd cmd r pos = true) (h : Burst (slice r pos cmd.size) (slice r' pos cmd.size)) :
    validateCmd cmd r' pos = false := by
  unfold validateCmd at hv ⊢
  simp only [decide_eq_true_eq] at hv
  rw [← hv]
  have := crc_burst (c := 0) (isBytes_take (isBytes_drop hr pos) cmd.size) (isBytes_take (isBytes_drop hr' pos) cmd.size) h
  exact decide_eq_false (fun e => this e.symm)

/-! ## what is not found -/

theorem crc_zero_bytes (n : Nat) : crc32 0 (List.replicate n 0) = 0 := by
  induction n with
  | zero => rfl
  | succ n ih => rw [List.replicate_succ]; show crc32 (crcByte 0 0) _ = 0; rw [show crcByte 0 0 = 0 by decide]; exact ih

/-- Zero bytes before a text are not seen, as the checksum begins with 0: any number of them may be lost or added. -/
theorem C101_zeros_false (addr n : Nat) (bs : Bytes) (hb : IsBytes bs) : soft addr 0 (List.replicate n 0 ++ bs) = soft addr 0 bs := by
  have hz : IsBytes (List.replicate n 0) := fun b h => by rw [List.eq_of_mem_replicate h]; decide
  have hzb : IsBytes (List.replicate n 0 ++ bs) := fun b h => (List.mem_append.1 h).elim (hz b) (hb b)
  rw [soft_crc addr 0 _ hzb (by decide), soft_crc addr 0 _ hb (by decide), crc32_append, crc_zero_bytes]

/-- A record of zero bytes only, such as a hole left in a file by a crash, has a valid checksum. -/
theorem C101_zero_record_false : validate (List.replicate 24 0) = true := by decide +kernel

/-- write_log.h:77, 95 and write.h:70, 91 with wal_crc off: the record is written with checksums 0 -/
def recordOff (lsn : Nat) (logs : List WLog) : Bytes :=
  ({ header logs with lsn := lsn, crc := 0 } : Hdr).bytes ++ (logs.map fun l => (l.cmds.map fun c => ({ c with crc := 0 } : Cmd).bytes).flatten).flatten ++ (logs.map WLog.data).flatten

/-- A record that was written with wal_crc off is refused after a restart with wal_crc on (the default): the database does not start. -/
theorem C101_wal_crc_false : validate (recordOff 1 [WLog.ofChanges [.row REPLACE 7 0 sampleRow]]) = false ∧ validate (record 1 [WLog.ofChanges [.row REPLACE 7 0 sampleRow]]) = true := by decide +kernel

/-! ## cases -/

/-- the check value of CRC-32C (with the usual inversions before and after): "123456789" gives e3069283 -/
example : soft 3 0xffffffff [49, 50, 51, 52, 53, 54, 55, 56, 57] ^^^ 0xffffffff = 0xe3069283 ∧ sse 0xffffffff [49, 50, 51, 52, 53, 54, 55, 56, 57] ^^^ 0xffffffff = 0xe3069283 := by decide +kernel

/-- 20 bytes at an odd address: bytes before the first word, a block of eight and bytes after it -/
example : soft 1 5 (List.range 20) = sse 5 (List.range 20) := C101_same 1 5 _ (fun b h => by have := List.mem_range.1 h; omega) (by decide)

example : soft 0 0 ([7, 7] ++ [1, 2] ++ [9]) ≠ soft 2 0 ([7, 7] ++ [3, 2] ++ [9]) :=
  C101_bytes 0 2 0 [7, 7] [1, 2] [3, 2] [9] (by unfold IsBytes; decide) (by unfold IsBytes; decide) (by decide) rfl (by decide) (by decide)

/-- a burst that crosses bytes: the last bit of the first byte and the first bit of the second -/
theorem sample_burst : Burst [1, 0x80, 0x01, 7] [1, 0x00, 0x00, 7] := by
  refine ⟨rfl, by decide, 15, ?_⟩
  intro i hi
  by_cases h : i < 32
  · have : ∀ i : Fin 32, bitAt [1, 0x80, 0x01, 7] i.1 ≠ bitAt [1, 0x00, 0x00, 7] i.1 → 15 ≤ i.1 ∧ i.1 < 15 + 32 := by decide +kernel
    exact this ⟨i, h⟩ hi
  · exfalso
    apply hi
    unfold bitAt
    rw [List.getD_eq_getElem?_getD, List.getD_eq_getElem?_getD, List.getElem?_eq_none (by simp; omega), List.getElem?_eq_none (by simp; omega)]

example : sse 9 [1, 0x80, 0x01, 7] ≠ sse 9 [1, 0x00, 0x00, 7] :=
  (C101_burst 0 0 9 _ _ (by unfold IsBytes; decide) (by unfold IsBytes; decide) (by decide) sample_burst).2

/-- a record with a row in it, its last byte damaged -/
example : ∃ r r' : Bytes, ∃ c : Cmd, validate r = true ∧ c = Cmd.read r 0 ∧ validateCmd c r 49 = true ∧ r' = r.take 53 ++ [8] ∧ r' ≠ r ∧ validateCmd c r' 49 = false := by
  refine ⟨record 1 [WLog.ofChanges [.row REPLACE 7 0 sampleRow]], _, _, by decide +kernel, rfl, by decide +kernel, rfl, by decide +kernel, ?_⟩
  have e1 : slice (record 1 [WLog.ofChanges [.row REPLACE 7 0 sampleRow]]) 49 (Cmd.read (record 1 [WLog.ofChanges [.row REPLACE 7 0 sampleRow]]) 0).size = [0, 0, 0, 5] ++ [9] ++ [] := by decide +kernel
  have e2 : slice ((record 1 [WLog.ofChanges [.row REPLACE 7 0 sampleRow]]).take 53 ++ [8]) 49 (Cmd.read (record 1 [WLog.ofChanges [.row REPLACE 7 0 sampleRow]]) 0).size = [0, 0, 0, 5] ++ [8] ++ [] := by decide +kernel
  refine C101_rows _ (record 1 [WLog.ofChanges [.row REPLACE 7 0 sampleRow]]) _ 49 ?_ ?_ (by decide +kernel) ?_
  · have : (record 1 [WLog.ofChanges [.row REPLACE 7 0 sampleRow]]).all (fun b => decide (b < 256)) = true := by decide +kernel
    intro b hb; exact of_decide_eq_true (List.all_eq_true.1 this b hb)
  · have : ((record 1 [WLog.ofChanges [.row REPLACE 7 0 sampleRow]]).take 53 ++ [8]).all (fun b => decide (b < 256)) = true := by decide +kernel
    intro b hb; exact of_decide_eq_true (List.all_eq_true.1 this b hb)
  · rw [e1, e2]; exact burst_bytes rfl (by decide) (by decide)

/-- the lsn of a record damaged -/
example : ∃ r r' : Bytes, validate r = true ∧ r' = r.take 4 ++ [2] ++ r.drop 5 ∧ r' ≠ r ∧ validate r' = false := by
  have hb : ∀ x : Bytes, x.all (fun b => decide (b < 256)) = true → IsBytes x := fun x h b hb => of_decide_eq_true (List.all_eq_true.1 h b hb)
  refine ⟨record 1 [WLog.ofChanges [.row REPLACE 7 0 sampleRow]], _, by decide +kernel, rfl, by decide +kernel, ?_⟩
  refine C101_record (record 1 [WLog.ofChanges [.row REPLACE 7 0 sampleRow]]) _ (hb _ (by decide +kernel)) (hb _ (by decide +kernel)) (by decide +kernel) (by decide +kernel) (by decide +kernel) ?_
  have hc : (Hdr.read (record 1 [WLog.ofChanges [.row REPLACE 7 0 sampleRow]])).count = 1 := by decide +kernel
  rw [hc]
  have e1 : slice (record 1 [WLog.ofChanges [.row REPLACE 7 0 sampleRow]]) 24 (25 * 1) ++ slice (record 1 [WLog.ofChanges [.row REPLACE 7 0 sampleRow]]) 4 20 =
      slice (record 1 [WLog.ofChanges [.row REPLACE 7 0 sampleRow]]) 24 25 ++ [1] ++ slice (record 1 [WLog.ofChanges [.row REPLACE 7 0 sampleRow]]) 5 19 := by decide +kernel
  have e2 : slice ((record 1 [WLog.ofChanges [.row REPLACE 7 0 sampleRow]]).take 4 ++ [2] ++ (record 1 [WLog.ofChanges [.row REPLACE 7 0 sampleRow]]).drop 5) 24 (25 * 1) ++
      slice ((record 1 [WLog.ofChanges [.row REPLACE 7 0 sampleRow]]).take 4 ++ [2] ++ (record 1 [WLog.ofChanges [.row REPLACE 7 0 sampleRow]]).drop 5) 4 20 =
      slice (record 1 [WLog.ofChanges [.row REPLACE 7 0 sampleRow]]) 24 25 ++ [2] ++ slice (record 1 [WLog.ofChanges [.row REPLACE 7 0 sampleRow]]) 5 19 := by decide +kernel
  rw [e1, e2]
  exact burst_bytes rfl (by decide) (by decide)

end Verif.Crc
