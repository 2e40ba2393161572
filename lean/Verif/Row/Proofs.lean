import Verif.Row.Model
import Verif.Json.Skip
set_option linter.unusedSimpArgs false
namespace Verif.Row
open Verif

/-! ### memory -/

theorem writeAt_mid (a b c bs : Bytes) (h : b.length = bs.length) (pos : Nat) (hp : pos = a.length) :
    writeAt (a ++ (b ++ c)) pos bs = .ok (a ++ (bs ++ c)) := by
  subst hp
  unfold writeAt
  rw [if_pos (by simp; omega)]
  have : a.length + bs.length = (a ++ b).length := by simp [h]
  rw [this, ← List.append_assoc a b c, List.drop_left]
  simp

theorem readAt_mid (a b c : Bytes) (pos n : Nat) (hp : pos = a.length) (hn : n = b.length) :
    readAt (a ++ (b ++ c)) pos n = .ok b := by
  subst hp; subst hn
  unfold readAt
  rw [if_pos (by simp)]
  simp

theorem split_len (l : Bytes) (n m : Nat) (h : l.length = n + m) :
    ∃ a b, l = a ++ b ∧ a.length = n ∧ b.length = m :=
  ⟨l.take n, l.drop n, by simp, by simp; omega, by simp; omega⟩

/-! ### the specification of the byte layout -/

/-- bytes of a cell -/
def cellLen (c : Option Bytes) : Nat := (c.getD []).length

/-- the index: offset of each column, 0 for NULL -/
def tbl (w : Nat) : List (Option Bytes) → Nat → Bytes
  | [], _ => []
  | some bs :: cs, pos => leBytes w pos ++ tbl w cs (pos + bs.length)
  | none :: cs, pos => leBytes w 0 ++ tbl w cs pos

/-- the data area -/
def dat : List (Option Bytes) → Bytes
  | [] => []
  | some bs :: cs => bs ++ dat cs
  | none :: cs => dat cs

theorem tbl_length (w : Nat) (cs : List (Option Bytes)) (pos : Nat) : (tbl w cs pos).length = cs.length * w := by
  induction cs generalizing pos with
  | nil => simp [tbl]
  | cons c cs ih =>
    cases c <;> simp [tbl, ih, leBytes_length, Nat.add_mul] <;> omega

theorem dat_length (cs : List (Option Bytes)) : (dat cs).length = (cs.map cellLen).sum := by
  induction cs with
  | nil => simp [dat]
  | cons c cs ih => cases c <;> simp [dat, ih, cellLen]

theorem fillLoop_eq (factor : Nat) (cells : List (Option Bytes)) (i pos : Nat) (hdr T jT D jD : Bytes)
    (hh : hdr.length = 3 + width factor) (hT : T.length = i * width factor)
    (hjT : jT.length = cells.length * width factor) (hjD : jD.length = (dat cells).length)
    (hp : pos = (hdr ++ (T ++ (jT ++ D))).length) :
    fillLoop factor cells i pos (hdr ++ (T ++ (jT ++ (D ++ jD)))) =
      .ok (hdr ++ (T ++ (tbl (width factor) cells pos ++ (D ++ dat cells)))) := by
  induction cells generalizing i pos T jT D jD with
  | nil =>
    have h1 : jT = [] := by simpa using hjT
    have h2 : jD = [] := by simpa [dat] using hjD
    simp [fillLoop, tbl, dat, h1, h2]
  | cons c cs ih =>
    obtain ⟨e, jT', rfl, he, hjT'⟩ := split_len jT (width factor) (cs.length * width factor)
      (by rw [hjT]; simp [Nat.add_mul]; omega)
    cases c with
    | none =>
      unfold fillLoop rowSet
      have hw : writeAt (hdr ++ (T ++ (e ++ jT' ++ (D ++ jD)))) (3 + (1 + i) * width factor) (leBytes (width factor) 0)
          = .ok (hdr ++ ((T ++ leBytes (width factor) 0) ++ (jT' ++ (D ++ jD)))) := by
        have := writeAt_mid (hdr ++ T) e (jT' ++ (D ++ jD)) (leBytes (width factor) 0)
          (by rw [he, leBytes_length]) (3 + (1 + i) * width factor) (by simp [hh, hT, Nat.add_mul]; omega)
        simpa [List.append_assoc] using this
      rw [hw]
      simp only [bind, Except.bind]
      rw [ih (i + 1) pos (T ++ leBytes (width factor) 0) jT' D jD
        (by simp [hT, leBytes_length, Nat.add_mul]) hjT' (by simpa [dat] using hjD)
        (by rw [hp]; simp [leBytes_length, he])]
      simp [tbl, dat, List.append_assoc]
    | some bs =>
      obtain ⟨d, jD', rfl, hd, hjD'⟩ := split_len jD bs.length (dat cs).length (by rw [hjD]; simp [dat])
      unfold fillLoop rowSet
      have hw1 : writeAt (hdr ++ (T ++ (e ++ jT' ++ (D ++ (d ++ jD'))))) pos bs
          = .ok (hdr ++ (T ++ (e ++ jT' ++ (D ++ (bs ++ jD'))))) := by
        have := writeAt_mid (hdr ++ (T ++ (e ++ jT' ++ D))) d jD' bs hd pos (by rw [hp])
        simpa [List.append_assoc] using this
      rw [hw1]
      simp only [bind, Except.bind]
      have hw : writeAt (hdr ++ (T ++ (e ++ jT' ++ (D ++ (bs ++ jD'))))) (3 + (1 + i) * width factor) (leBytes (width factor) pos)
          = .ok (hdr ++ ((T ++ leBytes (width factor) pos) ++ (jT' ++ ((D ++ bs) ++ jD')))) := by
        have := writeAt_mid (hdr ++ T) e (jT' ++ (D ++ (bs ++ jD'))) (leBytes (width factor) pos)
          (by rw [he, leBytes_length]) (3 + (1 + i) * width factor) (by simp [hh, hT, Nat.add_mul]; omega)
        simpa [List.append_assoc] using this
      rw [hw]
      simp only
      rw [ih (i + 1) (pos + bs.length) (T ++ leBytes (width factor) pos) jT' (D ++ bs) jD'
        (by simp [hT, leBytes_length, Nat.add_mul]) hjT' hjD'
        (by rw [hp]; simp [leBytes_length, he]; omega)]
      simp [tbl, dat, List.append_assoc]

/-- header bytes of a row -/
def rowHdr (columns factor size : Nat) : Bytes := [factor] ++ (leBytes 2 columns ++ leBytes (width factor) size)

theorem rowInit_eq (b : Bytes) (columns factor size : Nat) (hf : factor < 4) (rest : Bytes)
    (h0 : b.length = 3 + width factor) :
    rowInit (b ++ rest) columns factor size = .ok (rowHdr columns factor size ++ rest) := by
  obtain ⟨b0, b', rfl, h1, h2⟩ := split_len b 1 (2 + width factor) (by omega)
  obtain ⟨b1, b2, rfl, h3, h4⟩ := split_len b' 2 (width factor) h2
  unfold rowInit
  have e1 := writeAt_mid [] b0 (b1 ++ (b2 ++ rest)) [factor % 4] (by simp [h1]) 0 rfl
  simp only [List.nil_append] at e1
  have e2 := writeAt_mid [factor % 4] b1 (b2 ++ rest) (leBytes 2 columns) (by simp [h3, leBytes_length]) 1 rfl
  have e3 := writeAt_mid ([factor % 4] ++ leBytes 2 columns) b2 rest (leBytes (width factor) size)
    (by simp [h4, leBytes_length]) 3 (by simp [leBytes_length])
  simp only [List.append_assoc] at e1 e2 e3 ⊢
  rw [e1]
  simp only [bind, Except.bind]
  rw [e2]
  simp only
  rw [e3, Nat.mod_eq_of_lt hf]
  simp [rowHdr]

theorem rowHdr_length (c f s : Nat) : (rowHdr c f s).length = 3 + width f := by
  simp [rowHdr, leBytes_length]; omega

/-- what row_measure guarantees -/
theorem rowMeasure_spec (n d : Nat) : ∀ f s, rowMeasure n d = (f, s) →
    s = 3 + (1 + n) * width f + d ∧ width f = f + 1 ∧ f < 4 ∧ (s < 2 ^ 31 → s < 256 ^ width f) := by
  intro f s h
  unfold rowMeasure at h
  simp only at h
  split at h
  · split at h
    · injection h with h1 h2
      subst h1 h2
      simp [width]
      constructor
      · omega
      · intro; omega
    · injection h with h1 h2
      subst h1 h2
      simp [width]
      omega
  · injection h with h1 h2
    subst h1 h2
    simp [width]
    omega

/-- the bytes of a row with the given cells -/
def layout (cells : List (Option Bytes)) : Bytes :=
  let f := (rowMeasure cells.length (dat cells).length).1
  let s := (rowMeasure cells.length (dat cells).length).2
  rowHdr cells.length f s ++ (tbl (width f) cells (3 + (1 + cells.length) * width f) ++ dat cells)

theorem rowBuild_eq (fresh : Nat → Bytes) (hfr : ∀ n, (fresh n).length = n) (cells : List (Option Bytes)) :
    rowBuild fresh (dat cells).length cells = .ok (layout cells) := by
  unfold rowBuild layout
  rcases hm : rowMeasure cells.length (dat cells).length with ⟨f, s⟩
  obtain ⟨hs, hw, hf, _⟩ := rowMeasure_spec _ _ _ _ hm
  simp only
  obtain ⟨b, r, hb, hb1, hb2⟩ := split_len (fresh s) (3 + width f) (cells.length * width f + (dat cells).length)
    (by rw [hfr, hs]; simp [Nat.add_mul]; omega)
  obtain ⟨jT, jD, rfl, h1, h2⟩ := split_len r _ _ hb2
  rw [hb, rowInit_eq b cells.length f s hf (jT ++ jD) hb1]
  simp only [bind, Except.bind]
  have := fillLoop_eq f cells 0 (3 + (1 + cells.length) * (f + 1)) (rowHdr cells.length f s) [] jT [] jD
    (rowHdr_length _ _ _) (by simp) h1 h2 (by simp [rowHdr_length, h1, ← hw, Nat.add_mul]; omega)
  simp only [List.nil_append] at this
  rw [this, hw]

/-! ### reading -/

theorem layout_length (cells : List (Option Bytes)) :
    (layout cells).length = (rowMeasure cells.length (dat cells).length).2 := by
  unfold layout
  rcases hm : rowMeasure cells.length (dat cells).length with ⟨f, s⟩
  obtain ⟨hs, hw, hf, _⟩ := rowMeasure_spec _ _ _ _ hm
  simp [rowHdr_length, tbl_length, hs, Nat.add_mul]
  omega

theorem rowFactor_hdr (c f s : Nat) (hf : f < 4) (rest : Bytes) : rowFactor (rowHdr c f s ++ rest) = .ok f := by
  unfold rowFactor rowHdr
  have := readAt_mid [] [f] (leBytes 2 c ++ leBytes (width f) s ++ rest) 0 1 rfl rfl
  simp only [List.append_assoc, List.nil_append] at this ⊢
  rw [this]
  simp [bind, Except.bind, leNat, Nat.mod_eq_of_lt hf]

theorem rowIsDelete_hdr (c f s : Nat) (hf : f < 4) (rest : Bytes) : rowIsDelete (rowHdr c f s ++ rest) = .ok false := by
  unfold rowIsDelete rowHdr
  have := readAt_mid [] [f] (leBytes 2 c ++ leBytes (width f) s ++ rest) 0 1 rfl rfl
  simp only [List.append_assoc, List.nil_append] at this ⊢
  rw [this]
  simp [bind, Except.bind, leNat, Nat.div_eq_of_lt hf]

theorem rowColumns_hdr (c f s : Nat) (hc : c < 65536) (rest : Bytes) : rowColumns (rowHdr c f s ++ rest) = .ok c := by
  unfold rowColumns rowHdr
  have := readAt_mid [f] (leBytes 2 c) (leBytes (width f) s ++ rest) 1 2 rfl (by simp [leBytes_length])
  simp only [List.append_assoc] at this ⊢
  rw [this]
  simp [bind, Except.bind, leNat_leBytes_of_lt (w := 2) (n := c) (by omega)]

theorem rowSize_hdr (c f s : Nat) (hf : f < 4) (hs : s < 256 ^ width f) (rest : Bytes) :
    rowSize (rowHdr c f s ++ rest) = .ok s := by
  unfold rowSize
  rw [rowFactor_hdr c f s hf]
  simp only [bind, Except.bind]
  unfold rowHdr
  have := readAt_mid ([f] ++ leBytes 2 c) (leBytes (width f) s) rest 3 (width f) (by simp [leBytes_length]) (by simp [leBytes_length])
  simp only [List.append_assoc] at this ⊢
  rw [this]
  simp [leNat_leBytes_of_lt hs]

/-- offset of cell i in the data that starts at `pos` -/
def offOf (cells : List (Option Bytes)) (pos i : Nat) : Nat := pos + (dat (cells.take i)).length

theorem tbl_split (w : Nat) (cells : List (Option Bytes)) (pos i : Nat) (c : Option Bytes) (h : cells[i]? = some c) :
    ∃ a r, tbl w cells pos = a ++ (leBytes w (if c.isSome then offOf cells pos i else 0) ++ r) ∧ a.length = i * w := by
  induction cells generalizing pos i with
  | nil => simp at h
  | cons x cs ih =>
    cases i with
    | zero =>
      simp at h; subst h
      cases x with
      | none => exact ⟨[], tbl w cs pos, by simp [tbl], by simp⟩
      | some bs => exact ⟨[], tbl w cs (pos + bs.length), by simp [tbl, offOf, dat], by simp⟩
    | succ i =>
      simp at h
      cases x with
      | none =>
        obtain ⟨a, r, h1, h2⟩ := ih pos i h
        exact ⟨leBytes w 0 ++ a, r, by simp [tbl, h1, offOf, dat], by simp [leBytes_length, h2, Nat.add_mul]; omega⟩
      | some bs =>
        obtain ⟨a, r, h1, h2⟩ := ih (pos + bs.length) i h
        refine ⟨leBytes w pos ++ a, r, ?_, by simp [leBytes_length, h2, Nat.add_mul]; omega⟩
        simp [tbl, h1, offOf, dat, Nat.add_assoc]

theorem dat_split (cells : List (Option Bytes)) (i : Nat) (bs : Bytes) (h : cells[i]? = some (some bs)) :
    dat cells = dat (cells.take i) ++ (bs ++ dat (cells.drop (i + 1))) := by
  induction cells generalizing i with
  | nil => simp at h
  | cons x cs ih =>
    cases i with
    | zero => simp at h; subst h; simp [dat]
    | succ i =>
      simp at h
      have := ih i h
      cases x with
      | none => simp [dat, ← this]
      | some b => simp [dat]; exact this

theorem rowAt_layout (cells : List (Option Bytes)) (hc : cells.length < 65536) (hs : (layout cells).length < 2 ^ 31)
    (rest : Bytes) (i : Nat) (c : Option Bytes) (h : cells[i]? = some c) :
    rowAt (layout cells ++ rest) i = .ok (if c.isSome then
      some (offOf cells (3 + (1 + cells.length) * width (rowMeasure cells.length (dat cells).length).1) i) else none) := by
  have hi : i < cells.length := by
    rcases Nat.lt_or_ge i cells.length with h' | h'
    · exact h'
    · rw [List.getElem?_eq_none h'] at h; simp at h
  rw [layout_length] at hs
  unfold layout
  rcases hm : rowMeasure cells.length (dat cells).length with ⟨f, s⟩
  rw [hm] at hs
  obtain ⟨hs', hw, hf, hlt⟩ := rowMeasure_spec _ _ _ _ hm
  have hlt := hlt hs
  simp only
  unfold rowAt
  rw [List.append_assoc, rowColumns_hdr _ _ _ hc]
  simp only [bind, Except.bind]
  rw [if_neg (by omega), rowFactor_hdr _ _ _ hf]
  simp only
  obtain ⟨a, r, h1, h2⟩ := tbl_split (width f) cells (3 + (1 + cells.length) * width f) i c h
  rw [h1]
  have := readAt_mid (rowHdr cells.length f s ++ a)
    (leBytes (width f) (if c.isSome then offOf cells (3 + (1 + cells.length) * width f) i else 0))
    (r ++ (dat cells ++ rest)) (3 + (1 + i) * width f) (width f)
    (by simp [rowHdr_length, h2, Nat.add_mul]; omega) (by simp [leBytes_length])
  simp only [List.append_assoc] at this ⊢
  rw [this]
  simp only
  cases c with
  | none =>
    simp [leNat_leBytes]
  | some bs =>
    have hd := congrArg List.length (dat_split cells i bs h)
    simp only [List.length_append] at hd
    have hoff : offOf cells (3 + (1 + cells.length) * width f) i ≤ s := by
      unfold offOf; omega
    simp only [Option.isSome_some, if_true]
    rw [leNat_leBytes_of_lt (by omega)]
    rw [if_neg (by unfold offOf; omega)]

theorem drop_layout (cells : List (Option Bytes)) (rest : Bytes) (i : Nat) (bs : Bytes) (h : cells[i]? = some (some bs)) :
    (layout cells ++ rest).drop (offOf cells (3 + (1 + cells.length) * width (rowMeasure cells.length (dat cells).length).1) i)
      = bs ++ (dat (cells.drop (i + 1)) ++ rest) := by
  unfold layout
  rcases hm : rowMeasure cells.length (dat cells).length with ⟨f, s⟩
  simp only
  rw [dat_split cells i bs h]
  have hl : offOf cells (3 + (1 + cells.length) * width f) i =
      (rowHdr cells.length f s ++ (tbl (width f) cells (3 + (1 + cells.length) * width f) ++ dat (cells.take i))).length := by
    simp [offOf, rowHdr_length, tbl_length, Nat.add_mul]; omega
  have he : rowHdr cells.length f s ++ (tbl (width f) cells (3 + (1 + cells.length) * width f) ++
      (dat (cells.take i) ++ (bs ++ dat (cells.drop (i + 1))))) ++ rest =
      (rowHdr cells.length f s ++ (tbl (width f) cells (3 + (1 + cells.length) * width f) ++ dat (cells.take i))) ++
      (bs ++ (dat (cells.drop (i + 1)) ++ rest)) := by simp [List.append_assoc]
  rw [he, hl, List.drop_left]

theorem rowAt_out (cells : List (Option Bytes)) (hc : cells.length < 65536) (rest : Bytes) (i : Nat) (h : cells.length ≤ i) :
    rowAt (layout cells ++ rest) i = .ok none := by
  unfold layout
  rcases hm : rowMeasure cells.length (dat cells).length with ⟨f, s⟩
  simp only
  unfold rowAt
  rw [List.append_assoc, rowColumns_hdr _ _ _ hc]
  simp only [bind, Except.bind]
  rw [if_pos h]

end Verif.Row
