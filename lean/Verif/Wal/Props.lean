import Verif.Wal.GcProofs
import Verif.Wal.LogProofs
import Verif.Row.Props
set_option linter.unusedSimpArgs false
set_option linter.unusedVariables false
/-!
# Write-ahead log: properties C23, C24, C25, C27, C37

`Call`, `runCalls`, `logged`, `fromLsn`, `complete`, `Sized` are defined in `Wal/Spec.lean`.
-/
namespace Verif.Wal
open Verif Verif.Store

/-! ## sample transactions -/

def txA : List WLog := [WLog.ofChanges [.op DDL [1]]]
def txB : List WLog := [WLog.ofChanges [.op DDL [2]]]
def txC : List WLog := [WLog.ofChanges [.op DDL [3]]]
/-- everything works, no rotation / with rotation -/
def fine : Outcome := ⟨none, false, false, false⟩
def rotate : Outcome := ⟨none, false, true, false⟩
/-- the write fails after 10 bytes -/
def broken : Outcome := ⟨some 10, false, false, false⟩
/-- the data is written, the sync after it fails -/
def unsynced : Outcome := ⟨none, true, false, false⟩

/-- three transactions in two files, with a failed request in between -/
def history : List Call := [⟨[txA], rotate⟩, ⟨[txB, txB], broken⟩, ⟨[txB, txC], fine⟩]

instance (w : Wal) (txs : List (Nat × List WLog)) : Decidable (Sized w txs) :=
  decidable_of_iff ((∀ f ∈ w.files, f.bytes.length + 24 < 2 ^ 32) ∧
    (∀ t ∈ txs, 24 < (bytesOf t).length ∧ (bytesOf t).length < 2 ^ 31) ∧ w.lsn < 2 ^ 64 - 2)
    ⟨fun ⟨a, b, c⟩ => ⟨a, b, c⟩, fun ⟨a, b, c⟩ => ⟨a, b, c⟩⟩

theorem run_s (calls : List Call) (hz : Sized (runCalls Wal.init calls) (logged 0 calls)) :
    ∃ A, S (runCalls Wal.init calls) A ∧ Sz (runCalls Wal.init calls) A ∧ A.flatMap LEnt.txs = logged 0 calls ∧ ∃ a ∈ A, a.id = 1 := by
  obtain ⟨A, h1, h2, h3⟩ := s_run calls s_init
  have e : A.flatMap LEnt.txs = logged 0 calls := by simpa [Wal.init] using h2
  refine ⟨A, h1, sz_of h1 (by rw [e]; exact hz), e, ?_⟩
  cases A with
  | nil => exact absurd rfl h1.ne
  | cons a t => simp at h3; exact ⟨a, by simp, h3⟩

/-! ## C23 -/

/-- **C23.** After any sequence of requests to append transactions (of which some may fail in any way), with the log going on to the next file at
any of them, reading from position `l` returns exactly the transactions numbered `l` and above, in order, and then stops; this holds with and
without checking of checksums. Sizes are those for which the 32 bit arithmetic of the code does not overflow (`Sized`), and rotation is atomic:
see `C23_4gib_false` and `C23_rotation_race_false` for what happens otherwise. -/
theorem C23_read_partial (calls : List Call) (hz : Sized (runCalls Wal.init calls) (logged 0 calls)) (check : Bool) (l fuel : Nat)
    (hf : (logged 0 calls).length ≤ fuel) :
    readFrom (runCalls Wal.init calls).files true check fuel l = .ok ((fromLsn l (logged 0 calls)).map bytesOf) := by
  obtain ⟨A, h1, h2, e, a, ha, hid⟩ := run_s calls hz
  rw [← e]
  exact read_s h1 h2 check fuel l (by rw [e]; exact hf) (fun h0 => ⟨a, ha, by omega⟩)

/-- **C23**, for recovery: all transactions are found, in order. -/
theorem C23_recover_partial (calls : List Call) (hz : Sized (runCalls Wal.init calls) (logged 0 calls)) (check : Bool) (fuel : Nat)
    (hf : (logged 0 calls).length ≤ fuel) :
    recover (runCalls Wal.init calls).files check fuel = .ok ((logged 0 calls).map bytesOf) := by
  obtain ⟨A, h1, h2, e, _⟩ := run_s calls hz
  rw [← e]
  exact recover_s h1 h2 check fuel (by rw [e]; exact hf)

example : Sized (runCalls Wal.init history) (logged 0 history) ∧ (runCalls Wal.init history).files.length = 2 ∧
    (fromLsn 2 (logged 0 history)).map Prod.fst = [2, 3] := by decide +kernel

/-- **C23 does not hold for large files**: positions in a file are 32 bit in the check for its end (wal_file.h:79-83), so that reading at the end
of any file of 4 GiB is an error instead of the end of the log. -/
theorem C23_4gib_false (file : Bytes) (h : 2 ^ 32 - 24 ≤ file.length ∧ file.length < 2 ^ 32 + 2 ^ 31) : pread file file.length = .error .err := by
  have e : eof file.length 24 file.length = false := by
    unfold eof; simp only [decide_eq_false_iff_not]; omega
  unfold pread
  rw [e]
  have p : preadBuf file file.length 24 = .error .err := by
    unfold preadBuf; rw [if_neg (by omega), if_pos (by omega)]
  simp only [Bool.false_eq_true, if_false, p, bind, Except.bind]

/-- the background worker creates the next file (wal_worker.c:51 computes its number before, and without the lock of, the writers) -/
def raceLog : Wal :=
  let w1 := runCalls Wal.init [⟨[txA], fine⟩]
  let next := w1.lsn + 1
  let w2 := runCalls w1 [⟨[txB], fine⟩]
  let w3 := w2.create next
  runCalls w3 [⟨[txC], fine⟩]

/-- **C23 does not hold when a transaction is written while the worker creates the next file**: reading from position 2 misses transaction 2. -/
theorem C23_rotation_race_false : readFrom raceLog.files true true 10 2 = .ok [record 3 txC] ∧
    recover raceLog.files true 10 = .ok [record 1 txA, record 2 txB, record 3 txC] := by decide +kernel

/-! ## C24 -/

/-- **C24**, for failures of the write itself: whatever was written of the batch, the log (every byte of every file, and the number of the last
transaction) is as it was before, and the failure is reported. -/
theorem C24_write_partial (w : Wal) (ws : List (List WLog)) (hne : ws ≠ []) (n : Nat) (o : Outcome) (ho : o.writeFails = some n) :
    w.mgrWrite ws o = (w, false) := by
  have hl : ¬ ws.length = 0 := fun h => hne (List.length_eq_zero_iff.mp h)
  unfold Wal.mgrWrite
  rw [if_neg hl, ho]
  simp only [Wal.write, undo, Bool.not_false, if_true]

example : ([txB, txB] : List (List WLog)) ≠ [] ∧ broken.writeFails = some 10 ∧ (batch 0 [txB, txB]).length = 100 := by decide +kernel

/-- **C24** for sequences: no transaction of a request whose write failed is found by recovery. -/
theorem C24_history_partial (before after : List Call) (c : Call) (n : Nat) (hc : c.o.writeFails = some n) (check : Bool) (fuel : Nat)
    (hz : Sized (runCalls Wal.init (before ++ c :: after)) (logged 0 (before ++ c :: after))) (hf : (logged 0 (before ++ c :: after)).length ≤ fuel) :
    recover (runCalls Wal.init (before ++ c :: after)).files check fuel = .ok ((logged 0 (before ++ after)).map bytesOf) := by
  rw [C23_recover_partial _ hz check fuel hf]
  congr 2
  have : ∀ (bs : List Call) (k : Nat), logged k (bs ++ c :: after) = logged k (bs ++ after) := by
    intro bs
    induction bs with
    | nil => intro k; simp [logged, hc]
    | cons b t ih => intro k; simp only [List.cons_append, logged]; split <;> simp [ih]
  exact this before 0

/-- **C24 does not hold for a failing sync (or a failing creation of the next file) after the write**: the transaction is reported as aborted
(wal_mgr.c:103-113, commit.c: batch_abort), but it is in the log and recovery applies it. -/
theorem C24_false : ((runCalls Wal.init [⟨[txA], fine⟩]).mgrWrite [txB] unsynced).2 = false ∧
    recover ((runCalls Wal.init [⟨[txA], fine⟩]).mgrWrite [txB] unsynced).1.files true 10 = .ok [record 1 txA, record 2 txB] := by decide +kernel

/-- the same for every log and every batch: the records are appended although the failure is reported -/
theorem C24_false_always (w : Wal) (ws : List (List WLog)) (hne : ws ≠ []) (o : Outcome) (h1 : o.writeFails = none) (h2 : o.syncFails = true) :
    w.mgrWrite ws o = (⟨appendLast w.files (batch w.lsn ws), w.lsn + ws.length⟩, false) := by
  have hl : ¬ ws.length = 0 := fun h => hne (List.length_eq_zero_iff.mp h)
  unfold Wal.mgrWrite
  rw [if_neg hl, h1]
  simp only [Wal.write, Bool.not_true, Bool.false_eq_true, if_false, h2, if_true]

/-! ## C25 -/

/-- **C25**, first part: the last file is cut at any byte `n`. Recovery returns exactly the transactions that are complete in what is left of the
log, in order, and no error. -/
theorem C25_recover_partial (calls : List Call) (hz : Sized (runCalls Wal.init calls) (logged 0 calls)) (n : Nat) (check : Bool) (fuel : Nat)
    (hf : (logged 0 calls).length ≤ fuel) :
    recover (truncateLast (runCalls Wal.init calls).files n) check fuel =
      .ok (complete (totalBytes (truncateLast (runCalls Wal.init calls).files n)) ((logged 0 calls).map bytesOf)) := by
  obtain ⟨A, h1, h2, e, _⟩ := run_s calls hz
  obtain ⟨B, tail, ⟨w', s1, s2, _⟩, hfiles, htail, hcomp, hpre, _⟩ := cut_split h1 h2 n
  rw [← e, ← hcomp, hfiles]
  have hfl : ∀ B : List LEnt, (B.map fun a => (⟨a.id, a.txs.map bytesOf, tail a⟩ : Ent)).flatMap Ent.recs = (B.flatMap LEnt.txs).map bytesOf := by
    intro B
    induction B with
    | nil => rfl
    | cons a t ih => simp only [List.map_cons, List.flatMap_cons, List.map_append, ih]
  have := recover_ok (lok_of s1 s2 tail htail) check fuel (by
    rw [hfl, List.length_map]
    have := hpre.length_le
    rw [e] at this
    omega)
  rw [hfl] at this
  exact this

/-- `complete` keeps every record that fits and drops only what follows the last of them -/
theorem C25_complete_spec (recs : List Bytes) (n : Nat) : complete n recs <+: recs ∧ (complete n recs).flatten.length ≤ n ∧
    ∀ r rest, recs = complete n recs ++ r :: rest → n < (complete n recs).flatten.length + r.length := by
  refine ⟨complete_prefix recs n, ?_, ?_⟩
  · induction recs generalizing n with
    | nil => simp [complete]
    | cons r t ih =>
      simp only [complete]
      split
      · have := ih (n - r.length)
        simp only [List.flatten_cons, List.length_append]; omega
      · simp
  · induction recs generalizing n with
    | nil => intro r rest h; simp [complete] at h
    | cons x t ih =>
      intro r rest h
      simp only [complete] at h ⊢
      split at h
      · next hle =>
        simp only [List.cons_append, List.cons.injEq, true_and] at h
        have := ih (n - x.length) r rest h
        rw [if_pos hle]
        simp only [List.flatten_cons, List.length_append]
        omega
      · next hle =>
        rw [if_neg hle]
        simp only [List.nil_append, List.cons.injEq] at h
        rw [← h.1]
        simp; omega

example : complete (totalBytes (truncateLast (runCalls Wal.init history).files 60)) ((logged 0 history).map bytesOf) =
    [record 1 txA, record 2 txB] := by decide +kernel

/-- **C25**, second part, with the option that truncates the log at start (wal_truncate, wal.c:180-246): set to the number of the last complete
transaction, it removes the torn tail, and everything appended afterwards is read back after what was recovered. -/
theorem C25_append_partial (calls after : List Call) (hz : Sized (runCalls Wal.init calls) (logged 0 calls)) (n : Nat) (check : Bool) (fuel : Nat)
    (hf : (logged 0 calls).length < fuel) (left : List (Nat × List WLog)) (t : Nat × List WLog)
    (hleft : left.map bytesOf = complete (totalBytes (truncateLast (runCalls Wal.init calls).files n)) ((logged 0 calls).map bytesOf))
    (hpre : left <+: logged 0 calls) (ht : left.getLast? = some t) :
    ∃ w : Wal, w.lsn = t.1 ∧ truncate (truncateLast (runCalls Wal.init calls).files n) t.1 fuel = .ok w.files ∧
      (Sized (runCalls w after) (left ++ logged t.1 after) → ∀ fuel', (left ++ logged t.1 after).length ≤ fuel' →
        recover (runCalls w after).files check fuel' = .ok ((left ++ logged t.1 after).map bytesOf) ∧
        ∀ l, readFrom (runCalls w after).files true check fuel' l = .ok ((fromLsn l (left ++ logged t.1 after)).map bytesOf)) := by
  obtain ⟨A, h1, h2, e, a, ha, hid⟩ := run_s calls hz
  obtain ⟨B, tail, ⟨w', s1, s2, _⟩, hfiles, htail, hcomp, hpreB, hlast, hhead⟩ := cut_split h1 h2 n
  have hlen : left.length = (B.flatMap LEnt.txs).length := by
    have e1 : (left.map bytesOf).length = ((B.flatMap LEnt.txs).map bytesOf).length := by rw [hleft, hcomp, e]
    simpa using e1
  have hBl : B.flatMap LEnt.txs = left := by
    rw [e] at hpreB
    exact List.prefix_of_prefix_length_le hpreB hpre (by omega) |>.eq_of_length (by omega)
  have htm : t ∈ B.flatMap LEnt.txs := by rw [hBl]; exact List.mem_of_getLast? ht
  have hhid : A.head?.map LEnt.id = some 1 := by
    cases hA : A with
    | nil => exact absurd hA h1.ne
    | cons x xs =>
      rw [hA] at ha
      have hxi : x.id ≤ 1 := by
        rcases List.mem_cons.mp ha with h | h
        · subst h; omega
        · have := (List.pairwise_cons.mp (hA ▸ h1.sort)).1 a h; omega
      simp
      obtain ⟨A', q1, q2, q3⟩ := s_run calls s_init
      have hids : A.map LEnt.id = A'.map LEnt.id := by rw [← ids_s h1, ← ids_s q1]
      have : (A.map LEnt.id).head? = (A'.map LEnt.id).head? := by rw [hids]
      rw [List.head?_map, List.head?_map, q3, hA] at this
      simpa using this
  have ht1 : 1 ≤ t.1 := by
    obtain ⟨b, hb, htb⟩ := List.mem_flatMap.mp htm
    have hge := s1.ge b hb t htb
    rw [← hhead] at hhid
    have : 1 ≤ b.id := by
      cases hB : B with
      | nil => rw [hB] at hb; simp at hb
      | cons x xs =>
        rw [hB] at hb hhid
        simp at hhid
        rcases List.mem_cons.mp hb with h | h
        · subst h; omega
        · have := (List.pairwise_cons.mp (hB ▸ s1.sort)).1 b h; omega
    omega
  obtain ⟨C, w, c1, c2, c3, c4, c5⟩ := truncate_s s1 s2 tail htail hlast t (by rw [hBl]; exact ht) fuel (by
    have := hpreB.length_le; rw [e] at this; omega) ht1
  refine ⟨w, c3, by rw [hfiles]; exact c1, ?_⟩
  intro hz2 fuel' hf'
  obtain ⟨D, d1, d2, d3⟩ := s_run after c2
  have ed : D.flatMap LEnt.txs = left ++ logged t.1 after := by rw [d2, c4, hBl, c3]
  have dz := sz_of d1 (by rw [ed]; exact hz2)
  refine ⟨by rw [← ed]; exact recover_s d1 dz check fuel' (by rw [ed]; exact hf'), fun l => ?_⟩
  rw [← ed]
  refine read_s d1 dz check fuel' l (by rw [ed]; exact hf') (fun h0 => ?_)
  have hd : D.head?.map LEnt.id = some 1 := by rw [d3, c5, hhead]; exact hhid
  cases hD : D with
  | nil => rw [hD] at hd; simp at hd
  | cons x xs => rw [hD] at hd; simp at hd; exact ⟨x, by simp, by omega⟩

example : ∃ left t, left.map bytesOf = complete (totalBytes (truncateLast (runCalls Wal.init history).files 60)) ((logged 0 history).map bytesOf) ∧
    left = (logged 0 history).take 2 ∧ left.getLast? = some t ∧ t.1 = 2 :=
  ⟨(logged 0 history).take 2, (2, txB), by decide +kernel, rfl, rfl, rfl⟩

/-- two transactions are written, the machine stops when the second is partly on disk, the log is opened again (wal.c:270-279: at its end, with the
torn tail left in place) and a third one is committed -/
def tornLog : Wal :=
  let w1 := runCalls Wal.init [⟨[txA, txB], fine⟩]
  runCalls ⟨truncateLast w1.files 60, 1⟩ [⟨[txC], fine⟩]

/-- **C25 does not hold without that option**: the transaction committed after the first recovery is not found by the next one, with no error. -/
theorem C25_append_false : recover (truncateLast (runCalls Wal.init [⟨[txA, txB], fine⟩]).files 60) true 10 = .ok [record 1 txA] ∧
    tornLog.lsn = 2 ∧ recover tornLog.files true 10 = .ok [record 1 txA] ∧ recover tornLog.files false 10 = .ok [record 1 txA] := by decide +kernel

/-! ## C27 -/

/-- **C27.** The changes of a transaction, made in any number of partitions (one list of changes for each), are decoded from its record exactly as
they were made: command, table and bytes of the row, or DDL operation, in order; and the record and all its commands pass their checksums. -/
theorem C27_changes (lsn : Nat) (hl : lsn < 2 ^ 64) (parts : List (List Change)) (hv : ∀ cs ∈ parts, ∀ c ∈ cs, c.Valid)
    (hs : (record lsn (parts.map WLog.ofChanges)).length < 2 ^ 32) :
    decode (record lsn (parts.map WLog.ofChanges)) = .ok parts.flatten ∧ validate (record lsn (parts.map WLog.ofChanges)) = true := by
  refine ⟨decode_ok lsn parts hl hv hs, ?_⟩
  have := record_validate lsn (parts.map WLog.ofChanges) hl hs []
  rwa [List.append_nil] at this

/-- rows made by the row encoder are valid: their size is in them -/
theorem C27_rows_valid (fresh : Nat → Bytes) (hfr : ∀ n, (fresh n).length = n) (refs : List Row.Val) (identity : Row.Val)
    (cols : List (Row.Column × Row.Val)) (h : ∀ cv ∈ cols, Row.Acceptable refs identity cv) (row : Bytes)
    (hrow : Row.rowCreate fresh refs identity cols = .ok row) (hn : cols.length < 65536) (hsz : row.length < 2 ^ 31) (hb : IsBytes row)
    (a b : Nat) (ha : a < 2 ^ 64) (hb2 : b < 2 ^ 64) : (Change.row REPLACE a b row).Valid ∧ (Change.row DELETE a b row).Valid := by
  have key : ∀ rest, Row.rowSize (row ++ rest) = .ok row.length := fun rest =>
    (Row.C08_size fresh hfr refs identity cols h row rest hrow hn hsz).1
  have hpos : 0 < row.length := by
    rcases Nat.eq_zero_or_pos row.length with h0 | h0
    · have hk := key []
      rw [List.length_eq_zero_iff.mp h0] at hk
      exact absurd hk (by decide)
    · exact h0
  exact ⟨⟨Or.inl rfl, ha, hb2, hb, hpos, key⟩, ⟨Or.inr rfl, ha, hb2, hb, hpos, key⟩⟩

/-- adjacent changes of a table are merged into one command: two commands and two operations for the four changes -/
def sampleRow : Bytes := [0, 0, 0, 5, 9]

theorem sampleRow_valid (cmd a : Nat) (hc : cmd = REPLACE ∨ cmd = DELETE) (ha : a < 2 ^ 64) : (Change.row cmd a 0 sampleRow).Valid := by
  refine ⟨hc, ha, by decide, by unfold IsBytes; decide, by decide, fun rest => ?_⟩
  simp [Row.rowSize, Row.rowFactor, Row.readAt, sampleRow, Row.width, leNat, bind, Except.bind]

example : let cs : List Change := [.row REPLACE 7 0 sampleRow, .row REPLACE 7 0 sampleRow, .row DELETE 7 0 sampleRow, .op DDL [1, 2]]
    (WLog.ofChanges cs).cmds.length = 3 ∧ decode (record 5 [WLog.ofChanges cs]) = .ok cs := by decide +kernel

/-! ## C37 -/

/-- **C37**, for slots that are not ahead of what recovery needs: everything at or above `min` can still be read as before. -/
theorem C37_keep_partial (calls : List Call) (hz : Sized (runCalls Wal.init calls) (logged 0 calls)) (slots : List Nat) (min : Nat)
    (hslots : ∀ s ∈ slots, s ≤ min) (l : Nat) (hl : min ≤ l) (h0 : 0 < l) (check : Bool) (fuel : Nat) (hf : (logged 0 calls).length ≤ fuel) :
    readFrom ((runCalls Wal.init calls).gc slots min).files true check fuel l = .ok ((fromLsn l (logged 0 calls)).map bytesOf) := by
  obtain ⟨A, h1, h2, e, a, ha, hid⟩ := run_s calls hz
  rw [← e]
  exact gc_read h1 h2 slots min l fuel check (by rw [slotsMin_le slots min hslots]; exact hl) (by omega) ⟨a, ha, by omega⟩ (by rw [e]; exact hf)

/-- three files with one transaction each -/
def threeFiles : List Call := [⟨[txA], rotate⟩, ⟨[txB], rotate⟩, ⟨[txC], fine⟩]

example : Sized (runCalls Wal.init threeFiles) (logged 0 threeFiles) ∧
    ids ((runCalls Wal.init threeFiles).gc [1] 2).files = [2, 3] := by decide +kernel

/-- **C37 does not hold**: wal_slots (wal.c:41-57) takes the largest position of the slots. A replica that still needs transaction 1 is
registered at 1 while recovery needs nothing below 3: the file with transaction 1 is removed. -/
theorem C37_false : ids (runCalls Wal.init threeFiles).files = [1, 2, 3] ∧ ids ((runCalls Wal.init threeFiles).gc [1] 3).files = [3] ∧
    readFrom ((runCalls Wal.init threeFiles).gc [1] 3).files true true 10 1 = .ok [] := by decide +kernel

/-- a replica that is ahead even makes the collector remove what recovery itself needs (`min` = 1) -/
theorem C37_recovery_false : recover ((runCalls Wal.init threeFiles).gc [3] 1).files true 10 = .ok [record 3 txC] := by decide +kernel

end Verif.Wal
