import Verif.Row.Proofs
set_option linter.unusedSimpArgs false
namespace Verif.Row
open Verif

/-! ### Specification: which values a column takes, and what it stores -/

/-- The value has the type of the column (and is a value of the C types involved: 64-bit integers,
IEEE patterns, strings shorter than 2^31 bytes, well-formed documents). -/
def Typed : Ty → Val → Prop
  | .bool, .int i => i = 0 ∨ i = 1
  | .int8, .int i | .int16, .int i | .int32, .int i | .int64, .int i | .timestamp, .int i =>
      -(2 ^ 63) ≤ i ∧ i < 2 ^ 63
  | .date, .int i => -(2 ^ 31) ≤ i ∧ i < 2 ^ 31
  | .float, .real r => r < 2 ^ 32
  | .double, .real r => r < 2 ^ 64
  | .interval, .interval m d us =>
      (-(2 ^ 31) ≤ m ∧ m < 2 ^ 31) ∧ (-(2 ^ 31) ≤ d ∧ d < 2 ^ 31) ∧ (-(2 ^ 63) ≤ us ∧ us < 2 ^ 63)
  | .string, .str s => IsBytes s ∧ s.length < 2 ^ 31
  | .json, .json d => ∃ j, Json.WF j ∧ d = Json.enc j
  | .vector, .vector l => l.length < 2 ^ 32 ∧ ∀ x ∈ l, x < 2 ^ 32
  | .uuid, .uuid a b => a < 2 ^ 64 ∧ b < 2 ^ 64
  | _, _ => False

/-- the integer is in the range of the column type -/
def InRange : Ty → Val → Prop
  | .int8, .int i => -128 ≤ i ∧ i < 128
  | .int16, .int i => -32768 ≤ i ∧ i < 32768
  | .int32, .int i => -2147483648 ≤ i ∧ i < 2147483648
  | _, _ => True

/-- what the column holds: integers reduced to the width of the column (balanced residue) -/
def narrow : Ty → Val → Val
  | .int8, .int i => .int (Int.bmod i 256)
  | .int16, .int i => .int (Int.bmod i 65536)
  | .int32, .int i => .int (Int.bmod i 4294967296)
  | _, v => v

theorem narrow_inRange (ty : Ty) (v : Val) (h : InRange ty v) : narrow ty v = v := by
  cases ty <;> cases v <;> simp_all [narrow, InRange, Int.bmod] <;> split <;> omega

/-! ### integer codec -/

theorem signed8 (i : Int) : toSigned 8 (leNat (leBytes 1 (toUnsigned 8 i))) = Int.bmod i 256 := by
  rw [leNat_leBytes_of_lt (by have := toUnsigned_lt 8 i; omega)]
  unfold toSigned toUnsigned Int.bmod
  simp only [Nat.reducePow, Nat.reduceSub]
  split <;> split <;> omega

theorem signed16 (i : Int) : toSigned 16 (leNat (leBytes 2 (toUnsigned 16 i))) = Int.bmod i 65536 := by
  rw [leNat_leBytes_of_lt (by have := toUnsigned_lt 16 i; omega)]
  unfold toSigned toUnsigned Int.bmod
  simp only [Nat.reducePow, Nat.reduceSub]
  split <;> split <;> omega

theorem signed32 (i : Int) : toSigned 32 (leNat (leBytes 4 (toUnsigned 32 i))) = Int.bmod i 4294967296 := by
  rw [leNat_leBytes_of_lt (by have := toUnsigned_lt 32 i; omega)]
  unfold toSigned toUnsigned Int.bmod
  simp only [Nat.reducePow, Nat.reduceSub]
  split <;> split <;> omega

theorem signed64 (i : Int) (h1 : -(2 ^ 63) ≤ i) (h2 : i < 2 ^ 63) :
    toSigned 64 (leNat (leBytes 8 (toUnsigned 64 i))) = i := by
  rw [leNat_leBytes_of_lt (by have := toUnsigned_lt 64 i; omega)]
  exact toSigned_toUnsigned_64 i h1 h2

theorem signed32' (i : Int) (h1 : -(2 ^ 31) ≤ i) (h2 : i < 2 ^ 31) :
    toSigned 32 (leNat (leBytes 4 (toUnsigned 32 i))) = i := by
  rw [signed32]; unfold Int.bmod; simp only; split <;> omega

theorem readWords_eq (l : List Nat) (h : ∀ x ∈ l, x < 2 ^ 32) (rest : Bytes) :
    readWords l.length ((l.map (leBytes 4)).flatten ++ rest) = .ok l := by
  induction l with
  | nil => simp [readWords]
  | cons x l ih =>
    have ih := ih (fun y hy => h y (by simp [hy]))
    have hx := h x (by simp)
    simp only [List.length_cons, readWords, List.map_cons, List.flatten_cons, List.append_assoc, readN_le,
      bind, Except.bind]
    rw [ih]
    simp only
    rw [leNat_leBytes_of_lt (by omega)]

/-- reading the bytes written for a value gives what the column holds, whatever follows -/
theorem decode_encode (ty : Ty) (v : Val) (h : Typed ty v) :
    ∃ bs, encodeTy ty v = .ok bs ∧ ∀ rest, decodeTy ty (bs ++ rest) = .ok (narrow ty v) := by
  cases ty <;> cases v <;> simp only [Typed] at h <;> simp only [encodeTy, narrow] <;>
    refine ⟨_, rfl, fun rest => ?_⟩ <;>
    simp only [decodeTy, vectorBytes, List.append_assoc, readN_le, bind, Except.bind, signed8, signed16, signed32]
  · rcases h with h | h <;> subst h <;> rfl
  · rw [signed64 _ h.1 h.2]
  · rw [signed64 _ h.1 h.2]
  · have := signed32' _ h.1 h.2
    rw [signed32] at this
    rw [this]
  · rw [leNat_leBytes_of_lt (by omega)]
  · rw [leNat_leBytes_of_lt (by omega)]
  · have e1 := signed32' _ h.1.1 h.1.2
    have e2 := signed32' _ h.2.1.1 h.2.1.2
    rw [signed32] at e1 e2
    rw [e1, e2, signed64 _ h.2.2.1 h.2.2.2]
  · rw [Json.readRaw_write _ h.2]
  · obtain ⟨j, hj, rfl⟩ := h
    unfold Json.sizeof
    rw [Json.skip_enc j hj rest]
    simp [bind, Except.bind]
  · rw [leNat_leBytes_of_lt (by omega), readWords_eq _ h.2]
  · rw [leNat_leBytes_of_lt (by omega), leNat_leBytes_of_lt (by omega)]

theorem encodeTy_size (ty : Ty) (v : Val) (bs : Bytes) (h : encodeTy ty v = .ok bs) (hs : ty.size > 0) :
    bs.length = ty.size := by
  cases ty <;> cases v <;> simp_all [encodeTy, Ty.size] <;> subst h <;> simp [leBytes_length]

/-! ### row_create -/

/-- The value a column receives: the referenced argument for a placeholder, the generated identity for an
identity column. -/
def given (refs : List Val) (identity : Val) (c : Column) (v : Val) : Res Val :=
  match deref refs v with
  | .ok x => .ok (if c.identity then identity else x)
  | .error e => .error e

/-- Values acceptable for a row: each resolves to NULL (in a column that accepts NULL) or to a value of the
column's type; identity columns get a value and are integers (compiler/parser/parse_table.c:180-190). -/
def Acceptable (refs : List Val) (identity : Val) (cv : Column × Val) : Prop :=
  ∃ x, given refs identity cv.1 cv.2 = .ok x ∧
    ((x = .null ∧ cv.1.notNull = false ∧ cv.1.identity = false) ∨ Typed cv.1.ty x) ∧
    (cv.1.identity = true → 0 < cv.1.ty.size)

theorem typed_ne_null (ty : Ty) (v : Val) (h : Typed ty v) : v ≠ .null := by
  intro e; subst e; cases ty <;> simp [Typed] at h

/-- the cell of a value -/
def CellOf (ty : Ty) (x : Val) (cell : Option Bytes) : Prop :=
  (x = .null ∧ cell = none) ∨ (∃ bs, Typed ty x ∧ encodeTy ty x = .ok bs ∧ cell = some bs)

theorem encode_acceptable (refs : List Val) (identity : Val) (c : Column) (v : Val)
    (h : Acceptable refs identity (c, v)) :
    ∃ x cell, given refs identity c v = .ok x ∧ encode refs (some identity) c v = .ok cell ∧
      CellOf c.ty x cell ∧ dataSize refs c v = .ok (cellLen cell) := by
  obtain ⟨x, hx, hc, hid⟩ := h
  simp only at hx hc hid
  unfold given at hx
  cases hd : deref refs v with
  | error e => rw [hd] at hx; simp at hx
  | ok y =>
    rw [hd] at hx
    simp only [Except.ok.injEq] at hx
    rcases hc with ⟨rfl, hn, hi⟩ | ht
    · refine ⟨.null, none, by simp [given, hd, hx], ?_, Or.inl ⟨rfl, rfl⟩, ?_⟩
      · rw [hi] at hx
        simp at hx
        subst hx
        simp [encode, hd, hi, hn, bind, Except.bind]
      · rw [hi] at hx
        simp at hx
        subst hx
        simp [dataSize, hd, hi, bind, Except.bind, cellLen]
    · obtain ⟨bs, hb, _⟩ := decode_encode _ _ ht
      have hnn := typed_ne_null _ _ ht
      refine ⟨x, some bs, by simp [given, hd, hx], ?_, Or.inr ⟨bs, ht, hb, rfl⟩, ?_⟩
      · unfold encode
        rw [hd]
        simp only [bind, Except.bind]
        cases hi : c.identity
        · rw [hi] at hx; simp at hx; subst hx
          simp [hnn, hb]
        · rw [hi] at hx; simp at hx; subst hx
          simp [hnn, hb]
      · unfold dataSize
        cases hi : c.identity
        · rw [hi] at hx; simp at hx; subst hx
          simp only [Bool.false_eq_true, if_false, hd, bind, Except.bind, if_neg hnn]
          by_cases hs : c.ty.size > 0
          · rw [if_pos hs]
            simp [cellLen, encodeTy_size _ _ _ hb hs]
          · rw [if_neg hs]
            obtain ⟨ty, nn, idn⟩ := c
            simp only at hs ht hb ⊢
            cases ty <;> simp [Ty.size] at hs <;> cases y <;> simp [Typed] at ht <;> simp [encodeTy] at hb <;>
              simp [cellLen, ← hb]
        · simp only [if_true]
          simp [cellLen, encodeTy_size _ _ _ hb (hid hi)]

theorem encodeAll_ok (refs : List Val) (identity : Val) (cols : List (Column × Val))
    (h : ∀ cv ∈ cols, Acceptable refs identity cv) :
    ∃ cells, encodeAll refs (some identity) cols = .ok cells ∧ totalSize refs cols = .ok (dat cells).length ∧
      cells.length = cols.length ∧
      ∀ (i : Nat) (c : Column) (v x : Val), cols[i]? = some (c, v) → given refs identity c v = .ok x →
        ∃ cell, cells[i]? = some cell ∧ CellOf c.ty x cell := by
  induction cols with
  | nil => exact ⟨[], rfl, rfl, rfl, by simp⟩
  | cons cv t ih =>
    obtain ⟨cells, h1, h2, h3, h4⟩ := ih (fun y hy => h y (by simp [hy]))
    obtain ⟨c, v⟩ := cv
    obtain ⟨x, cell, e1, e2, e3, e4⟩ := encode_acceptable refs identity c v (h _ (by simp))
    refine ⟨cell :: cells, by simp [encodeAll, e2, h1, bind, Except.bind], ?_, by simp [h3], ?_⟩
    · simp only [totalSize, e4, h2, bind, Except.bind]
      cases cell <;> simp [dat, cellLen]
    · intro i c' v' x' hi hg
      cases i with
      | zero =>
        simp at hi
        obtain ⟨rfl, rfl⟩ := hi
        rw [e1] at hg
        simp at hg
        subst hg
        exact ⟨cell, by simp, e3⟩
      | succ i => simp at hi; simpa using h4 i c' v' x' hi hg

theorem readColumn_layout (cells : List (Option Bytes)) (hc : cells.length < 65536) (hs : (layout cells).length < 2 ^ 31)
    (rest : Bytes) (i : Nat) (cell : Option Bytes) (h : cells[i]? = some cell) (ty : Ty) (x : Val)
    (hcell : CellOf ty x cell) :
    readColumn (layout cells ++ rest) i ty = .ok (narrow ty x) := by
  unfold readColumn
  rw [rowAt_layout cells hc hs rest i cell h]
  rcases hcell with ⟨rfl, rfl⟩ | ⟨bs, ht, hb, rfl⟩
  · simp [bind, Except.bind, narrow]
  · simp only [Option.isSome_some, if_true, bind, Except.bind]
    rw [drop_layout cells rest i bs h]
    obtain ⟨bs', hb', hd⟩ := decode_encode ty x ht
    rw [hb] at hb'
    simp at hb'
    subst hb'
    exact hd _

/-! ### row_update -/

theorem storedSize_eq (ty : Ty) (x : Val) (bs rest : Bytes) (h : Typed ty x) (hb : encodeTy ty x = .ok bs) :
    storedSize ty (bs ++ rest) = .ok bs.length := by
  unfold storedSize
  by_cases hs : ty.size > 0
  · rw [if_pos hs, encodeTy_size _ _ _ hb hs]
  · rw [if_neg hs]
    cases ty <;> simp [Ty.size] at hs <;> cases x <;> simp only [Typed] at h <;> simp [encodeTy] at hb
    · rename_i s
      have := Json.skip_enc (.str s) (by simpa [Json.WF] using h) rest
      subst hb
      simp only [Json.enc] at this
      simp [Json.sizeof, this, bind, Except.bind]
    · obtain ⟨j, hj, rfl⟩ := h
      subst hb
      simp [Json.sizeof, Json.skip_enc j hj rest, bind, Except.bind]
    · subst hb
      rename_i l
      simp only [vectorBytes, List.append_assoc, readN_le, bind, Except.bind]
      rw [leNat_leBytes_of_lt (by omega)]
      have : ∀ m : List Nat, (m.map (leBytes 4)).flatten.length = m.length * 4 := by
        intro m
        induction m with
        | nil => simp
        | cons a m ih => simp only [List.map_cons, List.flatten_cons, List.length_append, leBytes_length, ih, List.length_cons]; omega
      simp only [List.length_append, leBytes_length, this]

theorem readAt_drop (mem : Bytes) (off : Nat) (bs rest : Bytes) (h : mem.drop off = bs ++ rest) (ho : off ≤ mem.length) :
    readAt mem off bs.length = .ok bs := by
  have hl := congrArg List.length h
  simp at hl
  unfold readAt
  rw [if_pos (by omega), h]
  simp

/-- an entry of the SET list that may be stored: NULL where allowed or a value of the column's type, and not
an identity column -/
def Updatable (c : Column) (v : Val) : Prop :=
  c.identity = false ∧ ((v = .null ∧ c.notNull = false) ∨ Typed c.ty v)

theorem typed_not_ref (ty : Ty) (v : Val) (h : Typed ty v) (refs : List Val) : deref refs v = .ok v := by
  cases v <;> simp [deref]
  cases ty <;> simp [Typed] at h

theorem encode_updatable (c : Column) (v : Val) (h : Updatable c v) :
    ∃ cell, encode [] none c v = .ok cell ∧ CellOf c.ty v cell := by
  obtain ⟨hi, h⟩ := h
  rcases h with ⟨rfl, hn⟩ | ht
  · exact ⟨none, by simp [encode, deref, hi, hn, bind, Except.bind], Or.inl ⟨rfl, rfl⟩⟩
  · obtain ⟨bs, hb, _⟩ := decode_encode _ _ ht
    exact ⟨some bs, by simp [encode, typed_not_ref _ _ ht, hi, hb, typed_ne_null _ _ ht, bind, Except.bind],
      Or.inr ⟨bs, ht, hb, rfl⟩⟩

theorem updateCells_eq (cells : List (Option Bytes)) (hc : cells.length < 65536) (hs : (layout cells).length < 2 ^ 31)
    (rest : Bytes) (cs : List Column) (k : Nat) (upd : List (Nat × Val))
    (hcell : ∀ (j : Nat) (c : Column), cs[j]? = some c → ∃ cell x, cells[k + j]? = some cell ∧ CellOf c.ty x cell)
    (hsort : upd.Pairwise (fun a b => a.1 < b.1)) (hk : ∀ p ∈ upd, k ≤ p.1)
    (hu : ∀ (j : Nat) (c : Column) (v : Val), cs[j]? = some c → (k + j, v) ∈ upd → Updatable c v) :
    ∃ out, updateCells (layout cells ++ rest) cs k upd = .ok out ∧ out.length = cs.length ∧
      ∀ (j : Nat) (c : Column), cs[j]? = some c → ∃ cell, out[j]? = some cell ∧
        ((∃ v, (k + j, v) ∈ upd ∧ CellOf c.ty v cell) ∨ ((∀ v, (k + j, v) ∉ upd) ∧ cells[k + j]? = some cell)) := by
  induction cs generalizing k upd with
  | nil => exact ⟨[], by simp [updateCells], rfl, by simp⟩
  | cons c cs ih =>
    have hcell' : ∀ (j : Nat) (d : Column), cs[j]? = some d → ∃ cell x, cells[k + 1 + j]? = some cell ∧ CellOf d.ty x cell := by
      intro j d hj
      have := hcell (j + 1) d (by simpa using hj)
      rwa [show k + 1 + j = k + (j + 1) by omega]
    -- the step when the current column is not updated
    have hkeep : (∀ v, (k, v) ∉ upd) → ∃ out, updateCells.keep (layout cells ++ rest) c cs k upd = .ok out ∧
        out.length = cs.length + 1 ∧
        ∀ (j : Nat) (d : Column), (c :: cs)[j]? = some d → ∃ cell, out[j]? = some cell ∧
        ((∃ v, (k + j, v) ∈ upd ∧ CellOf d.ty v cell) ∨ ((∀ v, (k + j, v) ∉ upd) ∧ cells[k + j]? = some cell)) := by
      intro hnot
      have hk' : ∀ p ∈ upd, k + 1 ≤ p.1 := by
        intro p hp
        have h1 := hk p hp
        rcases Nat.lt_or_ge k p.1 with h2 | h2
        · exact h2
        · exact absurd (show (k, p.2) ∈ upd by have : p = (k, p.2) := by ext <;> simp; omega
                                               rw [← this]; exact hp) (hnot _)
      obtain ⟨out, ho, hol, hoj⟩ := ih (k + 1) upd hcell' hsort hk' (by
        intro j d v hj hm
        exact hu (j + 1) d v (by simpa using hj) (by rwa [show k + (j + 1) = k + 1 + j by omega]))
      obtain ⟨cell, x, hcl, hcx⟩ := hcell 0 c (by simp)
      simp only [Nat.add_zero] at hcl
      refine ⟨cell :: out, ?_, by simp [hol], ?_⟩
      · unfold updateCells.keep
        rw [rowAt_layout cells hc hs rest k cell hcl]
        rcases hcx with ⟨rfl, rfl⟩ | ⟨bs, ht, hb, rfl⟩
        · simp [bind, Except.bind, ho]
        · simp only [Option.isSome_some, if_true, bind, Except.bind]
          have hd := drop_layout cells rest k bs hcl
          rw [hd, storedSize_eq _ _ _ _ ht hb]
          simp only
          rw [readAt_drop _ _ _ _ hd (by
            have hl := congrArg List.length hd
            have hb1 : 1 ≤ bs.length := by
              by_cases hs' : c.ty.size > 0
              · rw [encodeTy_size _ _ _ hb hs']; exact hs'
              · obtain ⟨ty, _, _⟩ := c
                simp only at hs' ht hb
                cases ty <;> simp [Ty.size] at hs' <;> cases x <;> simp only [Typed] at ht <;> simp [encodeTy] at hb
                · rw [← hb]; exact Json.writeRaw_length_pos _
                · obtain ⟨j, _, rfl⟩ := ht
                  rw [← hb]; exact Json.enc_length_pos j
                · rw [← hb]; simp [vectorBytes, leBytes_length]; omega
            simp only [List.length_drop, List.length_append] at hl
            simp only [List.length_append]
            omega)]
          simp only [ho]
      · intro j d hj
        cases j with
        | zero =>
          simp at hj; subst hj
          exact ⟨cell, by simp, Or.inr ⟨hnot, hcl⟩⟩
        | succ j =>
          simp at hj
          obtain ⟨cell', h1, h2⟩ := hoj j d hj
          refine ⟨cell', by simpa using h1, ?_⟩
          rwa [show k + (j + 1) = k + 1 + j by omega]
    cases upd with
    | nil =>
      obtain ⟨out, h1, h2, h3⟩ := hkeep (by simp)
      exact ⟨out, by unfold updateCells; simpa using h1, by simpa using h2, h3⟩
    | cons p upd' =>
      obtain ⟨o, v⟩ := p
      by_cases ho : o = k
      · subst ho
        have hlt : ∀ p ∈ upd', o < p.1 := by
          intro p hp
          exact (List.pairwise_cons.1 hsort).1 p hp
        obtain ⟨cell, he, hcx⟩ := encode_updatable c v (hu 0 c v (by simp) (by simp))
        obtain ⟨out, ho, hol, hoj⟩ := ih (o + 1) upd' hcell' (List.pairwise_cons.1 hsort).2
          (fun p hp => hlt p hp) (by
            intro j d w hj hm
            refine hu (j + 1) d w (by simpa using hj) ?_
            rw [show o + (j + 1) = o + 1 + j by omega]
            simp [hm])
        refine ⟨cell :: out, by unfold updateCells; simp [he, ho, bind, Except.bind], by simp [hol], ?_⟩
        intro j d hj
        cases j with
        | zero =>
          simp at hj; subst hj
          exact ⟨cell, by simp, Or.inl ⟨v, by simp, hcx⟩⟩
        | succ j =>
          simp at hj
          obtain ⟨cell', h1, h2⟩ := hoj j d hj
          refine ⟨cell', by simpa using h1, ?_⟩
          rw [show o + (j + 1) = o + 1 + j by omega]
          rcases h2 with ⟨w, hw, hcw⟩ | ⟨hn, hcl⟩
          · exact Or.inl ⟨w, by simp [hw], hcw⟩
          · refine Or.inr ⟨?_, hcl⟩
            intro w hw
            simp only [List.mem_cons, Prod.mk.injEq] at hw
            rcases hw with ⟨hw, _⟩ | hw
            · omega
            · exact hn w hw
      · obtain ⟨out, h1, h2, h3⟩ := hkeep (by
          intro w hw
          simp only [List.mem_cons, Prod.mk.injEq] at hw
          rcases hw with ⟨hw, _⟩ | hw
          · exact ho hw.symm
          · have h1 := (List.pairwise_cons.1 hsort).1 _ hw
            have h2 := hk (o, v) (by simp)
            simp at h1 h2
            omega)
        exact ⟨out, by unfold updateCells; simp only [if_neg ho]; exact h1, by simpa using h2, h3⟩

end Verif.Row
