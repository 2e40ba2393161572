import Verif.Wal.Model
set_option linter.unusedSimpArgs false
set_option linter.unusedVariables false
/-! # Encoding of log records -/
namespace Verif.Wal
open Verif

/-! ## slices -/

theorem slice_mid (a b c : Bytes) : slice (a ++ (b ++ c)) a.length b.length = b := by
  simp [slice]

theorem slice_at {r a b c : Bytes} {off n : Nat} (h : r = a ++ (b ++ c)) (ho : off = a.length) (hn : n = b.length) : slice r off n = b := by
  subst h; subst ho; subst hn; exact slice_mid a b c

/-! ## checksum bounds -/

theorem crcBit_lt {x : Nat} (h : x < 2 ^ 32) : crcBit x < 2 ^ 32 := by
  unfold crcBit
  split
  · exact Nat.xor_lt_two_pow (by omega) (by decide)
  · omega

theorem crcByte_lt {c b : Nat} (hc : c < 2 ^ 32) (hb : b < 256) : crcByte c b < 2 ^ 32 := by
  unfold crcByte
  exact crcBit_lt (crcBit_lt (crcBit_lt (crcBit_lt (crcBit_lt (crcBit_lt (crcBit_lt (crcBit_lt (Nat.xor_lt_two_pow hc (by omega)))))))))

theorem crc32_lt (bs : Bytes) : ∀ c, c < 2 ^ 32 → IsBytes bs → crc32 c bs < 2 ^ 32 := by
  induction bs with
  | nil => intro c hc _; exact hc
  | cons b t ih =>
    intro c hc hb
    show crc32 (crcByte c b) t < _
    exact ih _ (crcByte_lt hc (hb b (by simp))) (fun x hx => hb x (by simp [hx]))

theorem crc32_append (c : Nat) (a b : Bytes) : crc32 c (a ++ b) = crc32 (crc32 c a) b := by
  simp [crc32]

theorem isBytes_append {a b : Bytes} (ha : IsBytes a) (hb : IsBytes b) : IsBytes (a ++ b) := by
  intro x hx
  rcases List.mem_append.mp hx with h | h
  · exact ha x h
  · exact hb x h

theorem isBytes_flatten {l : List Bytes} (h : ∀ b ∈ l, IsBytes b) : IsBytes l.flatten := by
  intro x hx
  obtain ⟨b, hb, hx⟩ := List.mem_flatten.mp hx
  exact h b hb x hx

/-! ## commands -/

theorem Cmd.bytes_length (c : Cmd) : c.bytes.length = 25 := by simp [Cmd.bytes, leBytes_length]

theorem Cmd.isBytes (c : Cmd) : IsBytes c.bytes := by
  unfold Cmd.bytes
  exact isBytes_append (isBytes_append (isBytes_append (isBytes_append (leBytes_isBytes _ _) (leBytes_isBytes _ _)) (leBytes_isBytes _ _))
    (leBytes_isBytes _ _)) (leBytes_isBytes _ _)

theorem meta_length (l : WLog) : l.meta.length = 25 * l.cmds.length := by
  unfold WLog.meta
  generalize l.cmds = cs
  induction cs with
  | nil => rfl
  | cons c t ih => simp only [List.map_cons, List.flatten_cons, List.length_append, ih, Cmd.bytes_length, List.length_cons]; omega

theorem metas_length (logs : List WLog) : ((logs.map WLog.meta).flatten).length = 25 * (logs.flatMap WLog.cmds).length := by
  induction logs with
  | nil => rfl
  | cons l t ih =>
    simp only [List.map_cons, List.flatten_cons, List.length_append, ih, meta_length, List.flatMap_cons]
    omega

theorem metas_isBytes (logs : List WLog) : IsBytes ((logs.map WLog.meta).flatten) := by
  apply isBytes_flatten
  intro b hb
  obtain ⟨l, _, rfl⟩ := List.mem_map.mp hb
  apply isBytes_flatten
  intro b hb
  obtain ⟨c, _, rfl⟩ := List.mem_map.mp hb
  exact c.isBytes

theorem metas_eq (logs : List WLog) : (logs.map WLog.meta).flatten = ((logs.flatMap WLog.cmds).map Cmd.bytes).flatten := by
  induction logs with
  | nil => rfl
  | cons l t ih => simp only [List.map_cons, List.flatten_cons, ih, List.flatMap_cons, List.map_append, List.flatten_append, WLog.meta]

/-! ## header -/

theorem header_fold (logs : List WLog) : ∀ h : Hdr,
    let h' := logs.foldl (fun h l => (⟨crc32 h.crc l.meta, h.lsn, (h.size + l.meta.length + l.data.length) % 2 ^ 32,
      (h.count + l.cmds.length) % 2 ^ 32, (h.ops + l.iov.length) % 2 ^ 32⟩ : Hdr)) h
    h'.crc = crc32 h.crc (logs.map WLog.meta).flatten ∧
    h'.lsn = h.lsn ∧
    (h.size + ((logs.map WLog.meta).flatten).length + ((logs.map WLog.data).flatten).length < 2 ^ 32 →
      h'.size = h.size + ((logs.map WLog.meta).flatten).length + ((logs.map WLog.data).flatten).length) ∧
    (h.count + (logs.flatMap WLog.cmds).length < 2 ^ 32 → h'.count = h.count + (logs.flatMap WLog.cmds).length) := by
  induction logs with
  | nil => intro h; simp [crc32]
  | cons l t ih =>
    intro h
    obtain ⟨h1, h2, h3, h4⟩ := ih ⟨crc32 h.crc l.meta, h.lsn, (h.size + l.meta.length + l.data.length) % 2 ^ 32,
      (h.count + l.cmds.length) % 2 ^ 32, (h.ops + l.iov.length) % 2 ^ 32⟩
    simp only [List.foldl_cons, List.map_cons, List.flatten_cons, List.length_append, List.flatMap_cons] at *
    refine ⟨?_, h2, ?_, ?_⟩
    · rw [h1, crc32_append]
    · intro hs
      have := h3 (by omega)
      omega
    · intro hs
      have := h4 (by omega)
      omega

theorem Hdr.tail_length (h : Hdr) : h.tail.length = 20 := by simp [Hdr.tail, leBytes_length]
theorem Hdr.bytes_length (h : Hdr) : h.bytes.length = 24 := by simp [Hdr.bytes, Hdr.tail_length, leBytes_length]

theorem record_length (lsn : Nat) (logs : List WLog) :
    (record lsn logs).length = 24 + ((logs.map WLog.meta).flatten).length + ((logs.map WLog.data).flatten).length := by
  simp only [record, List.length_append, Hdr.bytes_length]

/-- reading the fields of a header back -/
theorem Hdr.read_bytes (h : Hdr) (rest : Bytes) : Hdr.read (h.bytes ++ rest) =
    ⟨h.crc % 2 ^ 32, h.lsn % 2 ^ 64, h.size % 2 ^ 32, h.count % 2 ^ 32, h.ops % 2 ^ 32⟩ := by
  unfold Hdr.read
  rw [slice_at (r := h.bytes ++ rest) (off := 0) (n := 4) (a := []) (b := leBytes 4 h.crc) (c := h.tail ++ rest)
        (by simp [Hdr.bytes]) rfl (by simp [leBytes_length]),
      slice_at (r := h.bytes ++ rest) (off := 4) (n := 8) (a := leBytes 4 h.crc) (b := leBytes 8 h.lsn)
        (c := leBytes 4 h.size ++ leBytes 4 h.count ++ leBytes 4 h.ops ++ rest)
        (by simp [Hdr.bytes, Hdr.tail]) (by simp [leBytes_length]) (by simp [leBytes_length]),
      slice_at (r := h.bytes ++ rest) (off := 12) (n := 4) (a := leBytes 4 h.crc ++ leBytes 8 h.lsn) (b := leBytes 4 h.size)
        (c := leBytes 4 h.count ++ leBytes 4 h.ops ++ rest)
        (by simp [Hdr.bytes, Hdr.tail]) (by simp [leBytes_length]) (by simp [leBytes_length]),
      slice_at (r := h.bytes ++ rest) (off := 16) (n := 4) (a := leBytes 4 h.crc ++ leBytes 8 h.lsn ++ leBytes 4 h.size)
        (b := leBytes 4 h.count) (c := leBytes 4 h.ops ++ rest)
        (by simp [Hdr.bytes, Hdr.tail]) (by simp [leBytes_length]) (by simp [leBytes_length]),
      slice_at (r := h.bytes ++ rest) (off := 20) (n := 4) (a := leBytes 4 h.crc ++ leBytes 8 h.lsn ++ leBytes 4 h.size ++ leBytes 4 h.count)
        (b := leBytes 4 h.ops) (c := rest)
        (by simp [Hdr.bytes, Hdr.tail]) (by simp [leBytes_length]) (by simp [leBytes_length])]
  simp only [leNat_leBytes, Nat.reducePow]

/-- the header of a record that was written -/
theorem record_read (lsn : Nat) (logs : List WLog) (hl : lsn < 2 ^ 64) (hs : (record lsn logs).length < 2 ^ 32) (rest : Bytes) :
    (Hdr.read (record lsn logs ++ rest)).lsn = lsn ∧ (Hdr.read (record lsn logs ++ rest)).size = (record lsn logs).length ∧
    (Hdr.read (record lsn logs ++ rest)).count = (logs.flatMap WLog.cmds).length ∧
    (Hdr.read (record lsn logs ++ rest)).crc = crc32 (crc32 0 (logs.map WLog.meta).flatten) ((header logs).finish lsn).tail := by
  have hlen := record_length lsn logs
  have hm := metas_length logs
  obtain ⟨h1, h2, h3, h4⟩ := header_fold logs ⟨0, 0, 24, 0, 0⟩
  change (header logs).crc = _ at h1
  change (header logs).lsn = _ at h2
  change _ → (header logs).size = _ at h3
  change _ → (header logs).count = _ at h4
  simp only at h1 h2 h3 h4
  have e : record lsn logs ++ rest = ((header logs).finish lsn).bytes ++ ((logs.map WLog.meta).flatten ++ (logs.map WLog.data).flatten ++ rest) := by
    simp [record]
  have hcb : crc32 (crc32 0 (logs.map WLog.meta).flatten) ((header logs).finish lsn).tail < 2 ^ 32 := by
    apply crc32_lt _ _ (crc32_lt _ _ (by decide) (metas_isBytes logs))
    unfold Hdr.tail
    exact isBytes_append (isBytes_append (isBytes_append (leBytes_isBytes _ _) (leBytes_isBytes _ _)) (leBytes_isBytes _ _)) (leBytes_isBytes _ _)
  rw [e, Hdr.read_bytes]
  refine ⟨?_, ?_, ?_, ?_⟩
  · show lsn % 2 ^ 64 = lsn
    exact Nat.mod_eq_of_lt hl
  · show (header logs).size % 2 ^ 32 = _
    rw [h3 (by omega), Nat.mod_eq_of_lt (by omega)]
    omega
  · show (header logs).count % 2 ^ 32 = _
    rw [h4 (by omega), Nat.mod_eq_of_lt (by omega)]
    omega
  · show (crc32 (header logs).crc ((header logs).finish lsn).tail) % 2 ^ 32 = _
    rw [h1, Nat.mod_eq_of_lt hcb]

/-- a record that was written passes the check of its checksum -/
theorem record_validate (lsn : Nat) (logs : List WLog) (hl : lsn < 2 ^ 64) (hs : (record lsn logs).length < 2 ^ 32) (rest : Bytes) :
    validate (record lsn logs ++ rest) = true := by
  obtain ⟨_, _, h3, h4⟩ := record_read lsn logs hl hs rest
  unfold validate
  simp only [h3, h4, decide_eq_true_eq]
  rw [slice_at (r := record lsn logs ++ rest) (off := 24) (a := ((header logs).finish lsn).bytes) (b := (logs.map WLog.meta).flatten)
        (c := (logs.map WLog.data).flatten ++ rest) (by simp [record]) (by simp [Hdr.bytes_length]) (metas_length logs).symm,
      slice_at (r := record lsn logs ++ rest) (off := 4) (n := 20) (a := leBytes 4 ((header logs).finish lsn).crc) (b := ((header logs).finish lsn).tail)
        (c := (logs.map WLog.meta).flatten ++ (logs.map WLog.data).flatten ++ rest) (by simp [record, Hdr.bytes]) (by simp [leBytes_length])
        (by simp [Hdr.tail_length])]

/-- the i-th command of a record -/
theorem record_cmd (lsn : Nat) (logs : List WLog) (c1 c2 : List Cmd) (c : Cmd) (rest : Bytes)
    (h : logs.flatMap WLog.cmds = c1 ++ c :: c2) (hc : c.cmd < 256 ∧ c.size < 2 ^ 32 ∧ c.crc < 2 ^ 32 ∧ c.a < 2 ^ 64 ∧ c.b < 2 ^ 64) :
    Cmd.read (record lsn logs ++ rest) c1.length = c := by
  obtain ⟨k1, k2, k3, k4, k5⟩ := hc
  have hc1 : ((c1.map Cmd.bytes).flatten).length = 25 * c1.length := by
    have := metas_length [⟨c1, []⟩]
    simpa [WLog.meta] using this
  have e : record lsn logs ++ rest = (((header logs).finish lsn).bytes ++ (c1.map Cmd.bytes).flatten) ++
      (c.bytes ++ ((c2.map Cmd.bytes).flatten ++ (logs.map WLog.data).flatten ++ rest)) := by
    simp [record, metas_eq, h]
  generalize hA : ((header logs).finish lsn).bytes ++ (c1.map Cmd.bytes).flatten = A at e
  have hAl : A.length = 24 + 25 * c1.length := by rw [← hA]; simp [Hdr.bytes_length, hc1]
  generalize (c2.map Cmd.bytes).flatten ++ (logs.map WLog.data).flatten ++ rest = C at e
  rw [e]
  unfold Cmd.read
  simp only
  rw [slice_at (off := 24 + 25 * c1.length) (n := 1) (a := A) (b := leBytes 1 c.cmd)
        (c := leBytes 4 c.size ++ leBytes 4 c.crc ++ leBytes 8 c.a ++ leBytes 8 c.b ++ C) (by simp [Cmd.bytes]) (by omega) (by simp [leBytes_length]),
      slice_at (off := 24 + 25 * c1.length + 1) (n := 4) (a := A ++ leBytes 1 c.cmd) (b := leBytes 4 c.size)
        (c := leBytes 4 c.crc ++ leBytes 8 c.a ++ leBytes 8 c.b ++ C) (by simp [Cmd.bytes]) (by simp [leBytes_length]; omega) (by simp [leBytes_length]),
      slice_at (off := 24 + 25 * c1.length + 5) (n := 4) (a := A ++ leBytes 1 c.cmd ++ leBytes 4 c.size) (b := leBytes 4 c.crc)
        (c := leBytes 8 c.a ++ leBytes 8 c.b ++ C) (by simp [Cmd.bytes]) (by simp [leBytes_length]; omega) (by simp [leBytes_length]),
      slice_at (off := 24 + 25 * c1.length + 9) (n := 8) (a := A ++ leBytes 1 c.cmd ++ leBytes 4 c.size ++ leBytes 4 c.crc) (b := leBytes 8 c.a)
        (c := leBytes 8 c.b ++ C) (by simp [Cmd.bytes]) (by simp [leBytes_length]; omega) (by simp [leBytes_length]),
      slice_at (off := 24 + 25 * c1.length + 17) (n := 8) (a := A ++ leBytes 1 c.cmd ++ leBytes 4 c.size ++ leBytes 4 c.crc ++ leBytes 8 c.a)
        (b := leBytes 8 c.b) (c := C) (by simp [Cmd.bytes]) (by simp [leBytes_length]; omega) (by simp [leBytes_length])]
  rw [leNat_leBytes_of_lt (by simpa using k1), leNat_leBytes_of_lt (by simpa using k2), leNat_leBytes_of_lt (by simpa using k3),
    leNat_leBytes_of_lt (by simpa using k4), leNat_leBytes_of_lt (by simpa using k5)]

end Verif.Wal
