import Verif.Object.FileProofs
import Verif.Object.Props
import Verif.Row.Props
import Verif.Crc.Props
/-!
# C103: what is written into an object file is what is read from it
-/
set_option autoImplicit false
set_option linter.unusedSimpArgs false
set_option linter.unusedVariables false
namespace Verif.Object.File
open Verif Verif.Index
open Verif.Row (rowSize)

theorem stored_flat (gs : List (List Bytes)) : (gs.map storedOf).flatMap Stored.rows = gs.flatten := by
  induction gs with
  | nil => rfl
  | cons g gs ih => rw [List.map_cons, List.flatMap_cons, ih]; rfl

theorem headD_some {g : List Bytes} (h : g ≠ []) : g.head? = some (g.headD []) := by cases g with | nil => exact absurd rfl h | cons a b => rfl
theorem lastD_some {g : List Bytes} (h : g ≠ []) : g.getLast? = some (g.getLastD []) := by
  rw [List.getLastD_eq_getLast?]
  cases hx : g.getLast? with
  | none => exact absurd (List.getLast?_eq_none_iff.1 hx) h
  | some x => rfl

theorem writeAll_eq (crc : Nat → Bytes → Nat) (c : Codec) (limit : Int) (on : Bool) (f0 : Bytes) (rows : List Bytes) {B : Nat} (hB : 28 + limit.toNat + B < 2 ^ 31) (hr : ∀ x ∈ rows, x.length ≤ B) :
    ∃ groups : List (List Bytes), groups.flatten = rows ∧ (∀ g ∈ groups, Cut limit g) ∧ (∀ g ∈ groups.dropLast, limit ≤ (regionSize g : Int)) ∧
      (writeAll crc (some c) limit on f0 rows).refs = refsFrom crc (some c) on (f0.length + 85) groups ∧
      ∃ w : Writer, w.crc = crc ∧ w.codec = some c ∧ w.refs = refsFrom crc (some c) on (f0.length + 85) groups ∧
        (writeAll crc (some c) limit on f0 rows).file =
          f0 ++ ((header w [c.enc [indexOffsets w.refs, indexData w.refs]]).bytes ++ ((groups.map (regionFile (some c))).flatten ++ c.enc [indexOffsets w.refs, indexData w.refs])) := by
  obtain ⟨groups, h1, h2, h3, h4, h5, h6, h7⟩ := written crc (some c) limit on f0 rows hB hr
  obtain ⟨e1, e2⟩ := stop_compressed crc c f0 (rows.foldl add (start crc (some c) limit on f0)) _ h5 h7 (by rw [h6, refsFrom_sizes])
  exact ⟨groups, h1, h2, h3, e1.trans h6, _, h4, h5, h6, e2⟩

theorem group_rows {gs : List (List Bytes)} {rows : List Bytes} (h : gs.flatten = rows) {g : List Bytes} (hg : g ∈ gs) {r : Bytes} (hr : r ∈ g) : r ∈ rows := by
  rw [← h]; exact List.mem_flatten.2 ⟨g, hg, hr⟩

/-- Rows that are written into an object with compression are read from it, through the index that the writer leaves: all of them, in their order, whatever is written after them.
Every region has rows; its reference says how many, and holds copies of the first and of the last; a region is ended by the row with which it reaches the size limit. -/
theorem C103_read_partial (crc : Nat → Bytes → Nat) (c : Codec) (hl : c.Lawful) (limit : Int) (on : Bool) (f0 more : Bytes) (rows : List Bytes) (B : Nat)
    (hB : 28 + limit.toNat + B < 2 ^ 31) (hr : ∀ r ∈ rows, r.length ≤ B) (hrow : ∀ r ∈ rows, IsRow r)
    (hfile : (writeAll crc (some c) limit on f0 rows).file.length < 2 ^ 32) (hidx : (index (writeAll crc (some c) limit on f0 rows).refs).length < 2 ^ 32) :
    ∃ regions : List (Stored Bytes),
      readBranch (some c) ((writeAll crc (some c) limit on f0 rows).file ++ more) (index (writeAll crc (some c) limit on f0 rows).refs)
        (writeAll crc (some c) limit on f0 rows).refs.length (writeAll crc (some c) limit on f0 rows).refs.length 0 = .ok regions ∧
      regions.flatMap Stored.rows = rows ∧
      (∀ s ∈ regions, s.count = s.rows.length ∧ s.rows.head? = some s.min ∧ s.rows.getLast? = some s.max) ∧
      (∀ s ∈ regions, s.rows.dropLast = [] ∨ (regionSize s.rows.dropLast : Int) < limit) ∧ (∀ s ∈ regions.dropLast, limit ≤ (regionSize s.rows : Int)) := by
  obtain ⟨gs, h1, h2, h3, h4, w, w1, w2, w3, h5⟩ := writeAll_eq crc c limit on f0 rows hB hr
  rw [h5] at hfile
  rw [h4] at hidx
  rw [h4, h5, refsFrom_length]
  have hh := Meta.length_bytes (header w [c.enc [indexOffsets w.refs, indexData w.refs]])
  generalize (header w [c.enc [indexOffsets w.refs, indexData w.refs]]).bytes = h at *
  generalize c.enc [indexOffsets w.refs, indexData w.refs] = I at *
  have hsz : (f0 ++ (h ++ (gs.map (regionFile (some c))).flatten)).length < 2 ^ 32 := by
    simp only [List.length_append] at hfile ⊢; omega
  have hg : ∀ g ∈ gs, regionSize g < 2 ^ 32 := fun g hg => by
    have := cut_size (h2 g hg) hB (fun r hx => hr r (group_rows h1 hg hx))
    omega
  have key := readBranch_spec crc c hl on f0 h (I ++ more) hh gs hsz hidx hg (fun g hg r hx => hrow r (group_rows h1 hg hx)) gs.length 0 (by omega)
  have e : f0 ++ (h ++ ((gs.map (regionFile (some c))).flatten ++ I)) ++ more = f0 ++ (h ++ (gs.map (regionFile (some c))).flatten) ++ (I ++ more) := by simp
  rw [e]
  refine ⟨_, key, by rw [List.drop_zero, stored_flat, h1], ?_, ?_, ?_⟩
  · intro s hs
    obtain ⟨g, hg, rfl⟩ := List.mem_map.1 hs
    have hne := (h2 g hg).1
    exact ⟨rfl, headD_some hne, lastD_some hne⟩
  · intro s hs
    obtain ⟨g, hg, rfl⟩ := List.mem_map.1 hs
    exact (h2 g hg).2
  · intro s hs
    rw [List.drop_zero, ← List.map_dropLast] at hs
    obtain ⟨g, hg, rfl⟩ := List.mem_map.1 hs
    exact h3 g hg

/-- A query on the branch, from a key or from the beginning, gets the rows that were written, from the key on and in order, and hears whether the key is there. -/
theorem C103_query_partial (crc : Nat → Bytes → Nat) (c : Codec) (hl : c.Lawful) (limit : Int) (on : Bool) (f0 more : Bytes) (rows : List Bytes) (B : Nat)
    (hB : 28 + limit.toNat + B < 2 ^ 31) (hr : ∀ r ∈ rows, r.length ≤ B) (hrow : ∀ r ∈ rows, IsRow r)
    (hfile : (writeAll crc (some c) limit on f0 rows).file.length < 2 ^ 32) (hidx : (index (writeAll crc (some c) limit on f0 rows).refs).length < 2 ^ 32)
    (cmp : Bytes → Bytes → Int) (L : CmpLaws cmp) (key : Option Bytes) (hsorted : rows.Pairwise fun a b => cmp a b < 0) :
    ∃ regions it hit,
      readBranch (some c) ((writeAll crc (some c) limit on f0 rows).file ++ more) (index (writeAll crc (some c) limit on f0 rows).refs)
        (writeAll crc (some c) limit on f0 rows).refs.length (writeAll crc (some c) limit on f0 rows).refs.length 0 = .ok regions ∧
      branchOpen cmp regions key = .ok (it, hit) ∧ Reads BranchIt.at (BranchIt.next cmp) it (atOrAbove cmp key rows) ∧
      (hit = true ↔ ∃ k, key = some k ∧ ∃ r ∈ rows, cmp r k = 0) := by
  obtain ⟨regions, h1, h2, h3, _, _⟩ := C103_read_partial crc c hl limit on f0 more rows B hB hr hrow hfile hidx
  obtain ⟨it, hit, h4, h5, h6⟩ := C16_object cmp L regions key (fun s hs => (h3 s hs).1) (fun s hs => (h3 s hs).2.2) (by rw [h2]; exact hsorted)
  rw [h2] at h5 h6
  exact ⟨regions, it, hit, h1, h4, h5, h6⟩

/-- What was in the file before is kept, byte for byte. -/
theorem C103_append (crc : Nat → Bytes → Nat) (c : Codec) (limit : Int) (on : Bool) (f0 : Bytes) (rows : List Bytes) (B : Nat) (hB : 28 + limit.toNat + B < 2 ^ 31) (hr : ∀ r ∈ rows, r.length ≤ B) :
    f0 <+: (writeAll crc (some c) limit on f0 rows).file := by
  obtain ⟨gs, h1, h2, h3, h4, w, w1, w2, w3, h5⟩ := writeAll_eq crc c limit on f0 rows hB hr
  rw [h5]
  exact List.prefix_append _ _

/-! ## opening -/

theorem sizes_le (crc : Nat → Bytes → Nat) (c : Option Codec) (on : Bool) (at_ : Nat) (gs : List (List Bytes)) (h : ∀ g ∈ gs, g ≠ []) :
    ((refsFrom crc c on at_ gs).map Ref.sizeOrigin).sum ≤ 28 * gs.flatten.length + gs.flatten.flatten.length ∧ ((refsFrom crc c on at_ gs).map Ref.rows).sum = gs.flatten.length := by
  induction gs generalizing at_ with
  | nil => exact ⟨by simp [refsFrom], rfl⟩
  | cons g gs ih =>
    obtain ⟨i1, i2⟩ := ih (at_ + (regionFile c g).length) (fun x hx => h x (List.mem_cons_of_mem _ hx))
    have hp := List.length_pos_iff.2 (h g (List.mem_cons_self ..))
    simp only [refsFrom, List.map_cons, List.sum_cons, List.flatten_cons, List.length_append, List.flatten_append, i2, refAt, regionSize, and_true]
    omega

theorem readHeader (crc : Nat → Bytes → Nat) (zstd : Codec) (hcrc : CrcOk crc) (f0 rest : Bytes) (m : Meta) (hm : m.Fits) (hmagic : m.magic = 0x20849615) (hv : m.version = 0)
    (hself : m.crc = crc 0 ({ m with crc := 0 } : Meta).bytes) (hst : m.sizeTotal ≤ 85 + rest.length) :
    objectRead crc zstd (f0 ++ (m.bytes ++ rest)) f0.length =
      (readIndex crc zstd (f0 ++ (m.bytes ++ rest)) m (f0.length + m.sizeTotal)).bind fun data => .ok (m, data, f0.length + m.sizeTotal) := by
  have hlen := Meta.length_bytes m
  unfold objectRead
  rw [if_neg (by simp only [List.length_append, hlen]; omega), pread_mid f0 m.bytes rest 85 f0.length rfl hlen.symm (by intro e; rw [e] at hlen; simp at hlen)]
  simp only [Except.bind]
  rw [readMeta_bytes m hm]
  simp only [Except.bind]
  have hd : m.bytes.drop 4 = m.tail := by
    unfold Meta.bytes
    exact List.drop_left' (leBytes_length 4 m.crc)
  rw [if_neg (by rw [hmagic]; simp), hd, if_neg (by
    rw [hself]
    show ¬ crc 0 m.tail ≠ crc 0 (leBytes 4 0 ++ m.tail)
    rw [(hcrc m.tail (tail_isBytes m)).2]
    simp), if_neg (by rw [hv]; simp), if_neg (by simp only [List.length_append, hlen]; omega)]

theorem readCompressed (crc : Nat → Bytes → Nat) (c : Codec) (hl : c.Lawful) (hcrc : CrcOk crc) (limit : Int) (on : Bool) (f0 more : Bytes) (rows : List Bytes) (B : Nat)
    (hB : 28 + limit.toNat + B < 2 ^ 31) (hr : ∀ r ∈ rows, r.length ≤ B)
    (hfile : (writeAll crc (some c) limit on f0 rows).file.length < 2 ^ 32) (hidx : (index (writeAll crc (some c) limit on f0 rows).refs).length < 2 ^ 32)
    (hrows : 28 * rows.length + rows.flatten.length < 2 ^ 32)
    (hb : IsBytes (c.enc [indexOffsets (writeAll crc (some c) limit on f0 rows).refs, indexData (writeAll crc (some c) limit on f0 rows).refs])) :
    ∃ m : Meta, m.regions = (writeAll crc (some c) limit on f0 rows).refs.length ∧ m.rows = rows.length ∧
      objectRead crc c ((writeAll crc (some c) limit on f0 rows).file ++ more) f0.length =
        if crc 0 [] ≠ crc 0 (c.enc [indexOffsets (writeAll crc (some c) limit on f0 rows).refs, indexData (writeAll crc (some c) limit on f0 rows).refs]) then .error .err
        else .ok (m, index (writeAll crc (some c) limit on f0 rows).refs, (writeAll crc (some c) limit on f0 rows).file.length) := by
  obtain ⟨gs, h1, h2, h3, h4, w, w1, w2, w3, h5⟩ := writeAll_eq crc c limit on f0 rows hB hr
  rw [h4] at hidx hb
  have hs := sizes_le crc (some c) on (f0.length + 85) gs (fun g hg => (h2 g hg).1)
  have hz := refsFrom_sizes crc c on (f0.length + 85) gs
  have hn := refsFrom_length crc (some c) on (f0.length + 85) gs
  have hil := index_length (refsFrom crc (some c) on (f0.length + 85) gs)
  rw [h1] at hs
  rw [h5] at hfile
  rw [h5, h4, w3]
  rw [w3] at hfile
  obtain ⟨hne, hdec⟩ := hl [indexOffsets (refsFrom crc (some c) on (f0.length + 85) gs), indexData (refsFrom crc (some c) on (f0.length + 85) gs)]
  have e0 : [indexOffsets (refsFrom crc (some c) on (f0.length + 85) gs), indexData (refsFrom crc (some c) on (f0.length + 85) gs)].flatten = index (refsFrom crc (some c) on (f0.length + 85) gs) := by simp [index]
  rw [e0] at hdec
  generalize c.enc [indexOffsets (refsFrom crc (some c) on (f0.length + 85) gs), indexData (refsFrom crc (some c) on (f0.length + 85) gs)] = I at *
  generalize hR : (gs.map (regionFile (some c))).flatten = R at *
  generalize hm : header w [I] = m at *
  have m1 : m = ⟨m.crc, crc 0 I, 0x20849615, 0, I.length, (index w.refs).length, (w.refs.map Ref.size).sum, (w.refs.map Ref.sizeOrigin).sum, (w.refs.map Ref.size).sum + I.length + 85,
      (w.refs.map Ref.sizeOrigin).sum + (index w.refs).length + 85, w.refs.length, (w.refs.map Ref.rows).sum, 1⟩ := by
    rw [← hm]; unfold header; rw [w1, w2]; rfl
  have m2 : m.crc = crc 0 ({ m with crc := 0 } : Meta).bytes := by
    rw [← hm]; unfold header; rw [w1, w2]
  have m3 : m.crc < 2 ^ 32 := by
    rw [m2]
    show crc 0 (leBytes 4 0 ++ m.tail) < _
    rw [(hcrc m.tail (tail_isBytes m)).2]
    exact (hcrc _ (tail_isBytes m)).1
  have m4 := (hcrc I hb).1
  rw [w3, hz, hs.2, hn] at m1
  rw [hn]
  have hlen := Meta.length_bytes m
  simp only [List.length_append, hlen] at hfile
  have hfits : m.Fits := by
    rw [m1]
    refine ⟨m3, m4, ?_, ?_, ?_, ?_, ?_, ?_, ?_, ?_, ?_, ?_, ?_⟩ <;> dsimp only <;> omega
  have mT : m.sizeTotal = 85 + (R ++ I).length := by rw [m1]; simp only [List.length_append]; omega
  refine ⟨m, by rw [m1], by rw [m1], ?_⟩
  have key := readHeader crc c hcrc f0 ((R ++ I) ++ more) m hfits (by rw [m1]) (by rw [m1]) m2 (by rw [mT]; simp only [List.length_append]; omega)
  have e1 : f0 ++ (m.bytes ++ (R ++ I)) ++ more = f0 ++ (m.bytes ++ ((R ++ I) ++ more)) := by simp
  rw [e1, key, mT]
  have e2 : (f0 ++ (m.bytes ++ (R ++ I))).length = f0.length + (85 + (R ++ I).length) := by simp only [List.length_append, hlen]
  rw [e2]
  have mc : m.compression = 1 := by rw [m1]
  have ms : m.size = I.length := by rw [m1]
  have mo : m.sizeOrigin = (index (refsFrom crc (some c) on (f0.length + 85) gs)).length := by rw [m1]
  have md : m.crcData = crc 0 I := by rw [m1]
  unfold readIndex codecOf
  rw [mc, if_neg (by decide), if_pos rfl]
  simp only [Except.bind, Option.elim]
  have e3 : f0 ++ (m.bytes ++ ((R ++ I) ++ more)) = (f0 ++ m.bytes ++ R) ++ (I ++ more) := by simp
  rw [e3, pread_mid (f0 ++ m.bytes ++ R) I more m.size _ (by rw [ms]; simp only [List.length_append, hlen]; omega) ms hne, md, mo]
  simp only [Except.bind]
  rw [hdec]
  by_cases hc : crc 0 [] ≠ crc 0 I
  · simp only [Except.bind, if_pos hc]
  · simp only [Except.bind, if_neg hc]

/-- An object with compression can be opened again, and then has the index that its writer left, if the checksum of the compressed index is that of no bytes. -/
theorem C103_open_partial (crc : Nat → Bytes → Nat) (c : Codec) (hl : c.Lawful) (hcrc : CrcOk crc) (limit : Int) (on : Bool) (f0 more : Bytes) (rows : List Bytes) (B : Nat)
    (hB : 28 + limit.toNat + B < 2 ^ 31) (hr : ∀ r ∈ rows, r.length ≤ B)
    (hfile : (writeAll crc (some c) limit on f0 rows).file.length < 2 ^ 32) (hidx : (index (writeAll crc (some c) limit on f0 rows).refs).length < 2 ^ 32)
    (hrows : 28 * rows.length + rows.flatten.length < 2 ^ 32)
    (hb : IsBytes (c.enc [indexOffsets (writeAll crc (some c) limit on f0 rows).refs, indexData (writeAll crc (some c) limit on f0 rows).refs]))
    (hsum : crc 0 (c.enc [indexOffsets (writeAll crc (some c) limit on f0 rows).refs, indexData (writeAll crc (some c) limit on f0 rows).refs]) = crc 0 []) :
    ∃ m : Meta, m.regions = (writeAll crc (some c) limit on f0 rows).refs.length ∧ m.rows = rows.length ∧
      objectRead crc c ((writeAll crc (some c) limit on f0 rows).file ++ more) f0.length =
        .ok (m, index (writeAll crc (some c) limit on f0 rows).refs, (writeAll crc (some c) limit on f0 rows).file.length) := by
  obtain ⟨m, h1, h2, h3⟩ := readCompressed crc c hl hcrc limit on f0 more rows B hB hr hfile hidx hrows hb
  exact ⟨m, h1, h2, by rw [h3, if_neg (by rw [hsum]; simp)]⟩

/-- In every other case it cannot be opened: the checksum that is compared is that of the buffer the index has not been decompressed to yet. -/
theorem C103_open_false (crc : Nat → Bytes → Nat) (c : Codec) (hl : c.Lawful) (hcrc : CrcOk crc) (limit : Int) (on : Bool) (f0 more : Bytes) (rows : List Bytes) (B : Nat)
    (hB : 28 + limit.toNat + B < 2 ^ 31) (hr : ∀ r ∈ rows, r.length ≤ B)
    (hfile : (writeAll crc (some c) limit on f0 rows).file.length < 2 ^ 32) (hidx : (index (writeAll crc (some c) limit on f0 rows).refs).length < 2 ^ 32)
    (hrows : 28 * rows.length + rows.flatten.length < 2 ^ 32)
    (hb : IsBytes (c.enc [indexOffsets (writeAll crc (some c) limit on f0 rows).refs, indexData (writeAll crc (some c) limit on f0 rows).refs]))
    (hsum : crc 0 (c.enc [indexOffsets (writeAll crc (some c) limit on f0 rows).refs, indexData (writeAll crc (some c) limit on f0 rows).refs]) ≠ crc 0 []) :
    objectRead crc c ((writeAll crc (some c) limit on f0 rows).file ++ more) f0.length = .error .err := by
  obtain ⟨m, h1, h2, h3⟩ := readCompressed crc c hl hcrc limit on f0 more rows B hB hr hfile hidx hrows hb
  rw [h3, if_pos (fun e => hsum e.symm)]

/-- The checksum of the program is one of 32 bits that does not see zero bytes at the beginning. -/
theorem C103_crc (addr : Nat) : CrcOk (Verif.Crc.soft addr) ∧ Verif.Crc.soft addr 0 [] = 0 := by
  refine ⟨fun bs hb => ⟨(Verif.Crc.C101_range addr 0 bs hb (by decide)).1, ?_⟩, ?_⟩
  · exact Verif.Crc.C101_zeros_false addr 4 bs hb
  · rw [Verif.Crc.soft_crc addr 0 [] (by intro b h; simp at h) (by decide)]; rfl

/-! ## several branches -/

/-- a branch of these rows at the end of this file can be opened again: it is below 4 GB, and the checksum of its compressed index is that of no bytes -/
structure Opens (crc : Nat → Bytes → Nat) (c : Codec) (limit : Int) (on : Bool) (B : Nat) (f0 : Bytes) (rows : List Bytes) : Prop where
  small : ∀ r ∈ rows, r.length ≤ B
  file : (writeAll crc (some c) limit on f0 rows).file.length < 2 ^ 32
  index : (index (writeAll crc (some c) limit on f0 rows).refs).length < 2 ^ 32
  size : 28 * rows.length + rows.flatten.length < 2 ^ 32
  bytes : IsBytes (c.enc [indexOffsets (writeAll crc (some c) limit on f0 rows).refs, indexData (writeAll crc (some c) limit on f0 rows).refs])
  sum : crc 0 (c.enc [indexOffsets (writeAll crc (some c) limit on f0 rows).refs, indexData (writeAll crc (some c) limit on f0 rows).refs]) = crc 0 []

/-- one branch is written after the other: the file `f` before, the file after, and the indexes of the branches -/
inductive Branches (crc : Nat → Bytes → Nat) (c : Codec) (limit : Int) (on : Bool) (B : Nat) : Bytes → List (List Bytes) → Bytes → List Bytes → Prop where
  | done (f : Bytes) : Branches crc c limit on B f [] f []
  | write {f : Bytes} {rows : List Bytes} {l : List (List Bytes)} {f' : Bytes} {is : List Bytes} (h : Opens crc c limit on B f rows)
      (rest : Branches crc c limit on B (writeAll crc (some c) limit on f rows).file l f' is) :
      Branches crc c limit on B f (rows :: l) f' (index (writeAll crc (some c) limit on f rows).refs :: is)

theorem branches_prefix {crc : Nat → Bytes → Nat} {c : Codec} {limit : Int} {on : Bool} {B : Nat} (hB : 28 + limit.toNat + B < 2 ^ 31) {f f' : Bytes} {l : List (List Bytes)} {is : List Bytes}
    (h : Branches crc c limit on B f l f' is) : f <+: f' := by
  induction h with
  | done f => exact List.prefix_refl f
  | write h rest ih => exact (C103_append crc c limit on _ _ B hB h.small).trans ih

/-- A file with branches that were written one after the other is opened with these branches, in their order, each with its index; whatever is behind them. -/
theorem C103_branches_partial {crc : Nat → Bytes → Nat} {c : Codec} (hl : c.Lawful) (hcrc : CrcOk crc) {limit : Int} {on : Bool} {B : Nat} (hB : 28 + limit.toNat + B < 2 ^ 31) {f f' : Bytes}
    {l : List (List Bytes)} {is : List Bytes} (h : Branches crc c limit on B f l f' is) (more : Bytes) :
    ∃ bs : List (Meta × Bytes), objectBranches crc c (f' ++ more) l.length f.length = .ok (bs, f'.length) ∧ bs.map (fun b => b.2) = is ∧ bs.map (fun b => b.1.rows) = l.map List.length := by
  induction h with
  | done f => exact ⟨[], rfl, rfl, rfl⟩
  | @write f rows l f' is ho rest ih =>
    obtain ⟨z, hz⟩ := branches_prefix hB rest
    obtain ⟨m, h1, h2, h3⟩ := C103_open_partial crc c hl hcrc limit on f (z ++ more) rows B hB ho.small ho.file ho.index ho.size ho.bytes ho.sum
    obtain ⟨bs, h4, h5, h6⟩ := ih
    rw [← List.append_assoc, hz] at h3
    refine ⟨(m, index (writeAll crc (some c) limit on f rows).refs) :: bs, ?_, by rw [List.map_cons, h5], by rw [List.map_cons, h6, List.map_cons, h2]⟩
    rw [List.length_cons, objectBranches, h3]
    simp only [Except.bind]
    rw [h4]

/-! ## without compression -/

theorem readMeta_total (bs : Bytes) (h : bs.length = 85) :
    ∃ m, readMeta bs = .ok m ∧ m.magic = leNat ((bs.drop 8).take 4) := by
  have f : ∀ p w, p + w ≤ 85 → field bs p w = .ok (leNat ((bs.drop p).take w)) := by
    intro p w hp
    unfold field Verif.Row.readAt
    rw [if_pos (by omega)]; rfl
  refine ⟨⟨leNat ((bs.drop 0).take 4), leNat ((bs.drop 4).take 4), leNat ((bs.drop 8).take 4), leNat ((bs.drop 12).take 4), leNat ((bs.drop 16).take 4), leNat ((bs.drop 20).take 4),
    leNat ((bs.drop 24).take 8), leNat ((bs.drop 32).take 8), leNat ((bs.drop 40).take 8), leNat ((bs.drop 48).take 8), leNat ((bs.drop 56).take 4), leNat ((bs.drop 60).take 8), leNat ((bs.drop 68).take 1)⟩, ?_, rfl⟩
  unfold readMeta
  rw [f 0 4 (by omega), f 4 4 (by omega), f 8 4 (by omega), f 12 4 (by omega), f 16 4 (by omega), f 20 4 (by omega), f 24 8 (by omega), f 32 8 (by omega), f 40 8 (by omega), f 48 8 (by omega),
    f 56 4 (by omega), f 60 8 (by omega), f 68 1 (by omega)]
  rfl

/-- a header whose magic bytes are zero is refused -/
theorem readZero (crc : Nat → Bytes → Nat) (zstd : Codec) (file f0 z : Bytes) (hf : file = f0 ++ (List.replicate 12 0 ++ z)) : objectRead crc zstd file f0.length = .error .err := by
  unfold objectRead
  by_cases hl : (file.length - f0.length : Int) < 85
  · rw [if_pos hl]
  rw [if_neg hl]
  subst hf
  simp only [List.length_append, List.length_replicate] at hl
  have hz : 73 ≤ z.length := by omega
  have e : f0 ++ (List.replicate 12 0 ++ z) = f0 ++ ((List.replicate 12 0 ++ z.take 73) ++ z.drop 73) := by
    rw [List.append_assoc, List.take_append_drop]
  have hb : (List.replicate 12 0 ++ z.take 73 : Bytes).length = 85 := by simp; omega
  rw [e, pread_mid f0 _ (z.drop 73) 85 f0.length rfl hb.symm (by intro h; rw [h] at hb; simp at hb)]
  obtain ⟨m, h1, h2⟩ := readMeta_total _ hb
  simp only [Except.bind]
  rw [h1]
  simp only [Except.bind]
  have h3 : ((List.replicate 12 0 ++ z.take 73 : Bytes).drop 8).take 4 = [0, 0, 0, 0] := rfl
  rw [h3] at h2
  rw [if_pos (by rw [h2]; decide)]

theorem firstLen_none (g : List Bytes) : firstLen (encode none [regionMeta g, g.flatten]) = (regionMeta g).length := rfl

theorem raw_sizes (crc : Nat → Bytes → Nat) (on : Bool) (at_ : Nat) (gs : List (List Bytes)) :
    ((refsFrom crc none on at_ gs).map Ref.size).sum + gs.flatten.flatten.length = (gs.map (regionFile none)).flatten.length := by
  induction gs generalizing at_ with
  | nil => rfl
  | cons g gs ih =>
    have := ih (at_ + (regionFile none g).length)
    have e : (regionFile none g).length = (regionMeta g).length + g.flatten.length := by simp [regionFile, encode]
    have e2 : (refAt crc none on at_ g).size = (regionMeta g).length := rfl
    simp only [refsFrom, List.map_cons, List.sum_cons, List.flatten_cons, List.length_append, List.flatten_append, e2, e]
    rw [e] at this
    omega

theorem raw_empty (crc : Nat → Bytes → Nat) (limit : Int) (on : Bool) (f0 : Bytes) :
    (writeAll crc none limit on f0 []).file = f0 ++ ((header (start crc none limit on f0) [[], []]).bytes ++ []) := by
  have e1 : encode none [indexOffsets [], indexData []] = [[], []] := rfl
  unfold writeAll stop
  have e0 : stopRegion (List.foldl add (start crc none limit on f0) []) = start crc none limit on f0 := rfl
  rw [e0]
  dsimp only
  have e2 : (start crc none limit on f0).codec = none := rfl
  have e3 : (start crc none limit on f0).refs = [] := rfl
  have e4 : (start crc none limit on f0).file = f0 ++ ({} : Meta).bytes := rfl
  have e5 : (header (start crc none limit on f0) [[], []]).sizeTotal = 85 := rfl
  rw [e2, e3, e1, e4, e5]
  generalize hH : (header (start crc none limit on f0) [[], []]).bytes = H
  have e6 : f0 ++ ({} : Meta).bytes ++ ([[], []] : List Bytes).flatten = f0 ++ (({} : Meta).bytes ++ []) := by simp
  rw [e6]
  have e7 : (f0 ++ (({} : Meta).bytes ++ [])).length - 85 = f0.length := by simp only [List.length_append, Meta.length_bytes, List.length_nil]; omega
  rw [e7, pwrite_mid f0 _ [] _ (by rw [← hH, Meta.length_bytes, Meta.length_bytes])]

theorem raw_none (crc : Nat → Bytes → Nat) (zstd : Codec) (hcrc : CrcOk crc) (hnil : ∀ c, crc c [] = c) (limit : Int) (on : Bool) (f0 more : Bytes) :
    objectRead crc zstd ((writeAll crc none limit on f0 []).file ++ more) f0.length = .error .err := by
  rw [raw_empty]
  generalize hm : header (start crc none limit on f0) [[], []] = m
  have m1 : m = ⟨m.crc, crc (crc 0 []) [], 0x20849615, 0, 0, 0, 0, 0, 85, 85, 0, 0, 0⟩ := by rw [← hm]; rfl
  have m2 : m.crc = crc 0 ({ m with crc := 0 } : Meta).bytes := by rw [← hm]; rfl
  have m3 : m.crc < 2 ^ 32 := by
    rw [m2]
    show crc 0 (leBytes 4 0 ++ m.tail) < _
    rw [(hcrc m.tail (tail_isBytes m)).2]
    exact (hcrc _ (tail_isBytes m)).1
  rw [hnil, hnil] at m1
  have hfits : m.Fits := by
    rw [m1]; refine ⟨m3, ?_, ?_, ?_, ?_, ?_, ?_, ?_, ?_, ?_, ?_, ?_, ?_⟩ <;> dsimp only <;> omega
  have e : f0 ++ (m.bytes ++ []) ++ more = f0 ++ (m.bytes ++ more) := by simp
  rw [e, readHeader crc zstd hcrc f0 more m hfits (by rw [m1]) (by rw [m1]) m2 (by rw [m1]; dsimp only; omega)]
  have mc : m.compression = 0 := by rw [m1]
  have ms : m.size = 0 := by rw [m1]
  unfold readIndex codecOf
  rw [mc, ms]
  rfl

/-- An object that was written without compression is never opened again, whatever its rows are: only the first of the two buffers of a region and of the index is counted, so that the header
is written in the wrong place; and with no rows the index has no bytes, which is an error on reading. -/
theorem C103_raw_false (crc : Nat → Bytes → Nat) (zstd : Codec) (hcrc : CrcOk crc) (hnil : ∀ c, crc c [] = c) (limit : Int) (on : Bool) (f0 more : Bytes) (rows : List Bytes) (B : Nat)
    (hB : 28 + limit.toNat + B < 2 ^ 31) (hr : ∀ r ∈ rows, r.length ≤ B) :
    objectRead crc zstd ((writeAll crc none limit on f0 rows).file ++ more) f0.length = .error .err := by
  by_cases hne : rows = []
  · subst hne
    exact raw_none crc zstd hcrc hnil limit on f0 more
  obtain ⟨gs, h1, h2, h3, h4, h5, h6, h7⟩ := written crc none limit on f0 rows hB hr
  have hs := raw_sizes crc on (f0.length + 85) gs
  have hn := refsFrom_length crc none on (f0.length + 85) gs
  unfold writeAll stop
  dsimp only
  generalize stopRegion (rows.foldl add (start crc none limit on f0)) = w at *
  rw [h5]
  show objectRead crc zstd (pwrite (w.file ++ [indexOffsets w.refs, indexData w.refs].flatten) (header w [indexOffsets w.refs, indexData w.refs]).bytes _ ++ more) _ = _
  have hT : (header w (encode none [indexOffsets w.refs, indexData w.refs])).sizeTotal = (w.refs.map Ref.size).sum + (indexOffsets w.refs).length + 85 := rfl
  rw [hT, show encode none [indexOffsets w.refs, indexData w.refs] = [indexOffsets w.refs, indexData w.refs] from rfl, h7]
  generalize (header w [indexOffsets w.refs, indexData w.refs]).bytes = H
  rw [h6]
  generalize hX : refsFrom crc none on (f0.length + 85) gs = X at *
  rw [h1] at hs
  cases gs with
  | nil =>
    exact absurd h1.symm hne
  | cons g gs =>
    have hi := index_length X
    have hd : 44 ≤ (indexData X).length := by
      rw [← hX]
      unfold indexData
      simp only [refsFrom, List.map_cons, List.flatten_cons, List.length_append, Ref.length_bytes]
      omega
    have ho : (indexOffsets X).length = 4 * X.length := by simp [indexOffsets, offsets_length]
    generalize hfile : (f0 ++ (({} : Meta).bytes ++ (List.map (regionFile none) (g :: gs)).flatten) ++ [indexOffsets X, indexData X].flatten) = F
    have hF : F = f0 ++ (List.replicate 12 0 ++ (({} : Meta).bytes.drop 12 ++ ((List.map (regionFile none) (g :: gs)).flatten ++ [indexOffsets X, indexData X].flatten))) := by
      rw [← hfile]
      have : (({} : Meta).bytes) = List.replicate 12 0 ++ ({} : Meta).bytes.drop 12 := by decide +kernel
      conv => lhs; rw [this]
      simp
    generalize (({} : Meta).bytes.drop 12 ++ ((List.map (regionFile none) (g :: gs)).flatten ++ [indexOffsets X, indexData X].flatten)) = Z at *
    generalize hO : F.length - ((X.map Ref.size).sum + (indexOffsets X).length + 85) = O
    have hge : f0.length + 12 ≤ O := by
      rw [← hO, ← hfile]
      simp only [List.length_append, Meta.length_bytes, List.flatten_cons, List.flatten_nil, List.length_nil] at hs ⊢
      simp only [List.map_cons, List.flatten_cons, List.length_append] at hs ⊢
      omega
    apply readZero crc zstd _ f0 (Z.take (O - f0.length - 12) ++ (H ++ (F.drop (O + H.length) ++ more)))
    unfold pwrite
    have ht : F.take O = f0 ++ (List.replicate 12 0 ++ Z.take (O - f0.length - 12)) := by
      rw [hF, List.take_append, List.take_of_length_le (by omega), List.take_append, List.take_of_length_le (by simp; omega)]
      simp
    rw [ht]
    simp

/-! ## large files, files with more than was asked for -/

/-- Beyond 4 GB the place of a region is kept modulo 2^32: with a file of at least 4 GB less the header, the first region is read from bytes that were in the file before. -/
theorem C103_4gb_false (crc : Nat → Bytes → Nat) (c : Codec) (limit : Int) (on : Bool) (f0 : Bytes) (rows : List Bytes) (B : Nat)
    (hB : 28 + limit.toNat + B < 2 ^ 31) (hr : ∀ r ∈ rows, r.length ≤ B) (hne : rows ≠ []) (hidx : (index (writeAll crc (some c) limit on f0 rows).refs).length < 2 ^ 32)
    (hbig : 2 ^ 32 ≤ f0.length + 85) :
    ∃ r0 r, (writeAll crc (some c) limit on f0 rows).refs[0]? = some r0 ∧ r0.offset = f0.length + 85 ∧
      readRef (index (writeAll crc (some c) limit on f0 rows).refs) (writeAll crc (some c) limit on f0 rows).refs.length 0 = .ok r ∧ r.offset = (f0.length + 85) % 2 ^ 32 ∧ r.offset < f0.length := by
  obtain ⟨gs, h1, h2, h3, h4, w, w1, w2, w3, h5⟩ := writeAll_eq crc c limit on f0 rows hB hr
  rw [h4] at hidx ⊢
  have hlen := refsFrom_length crc (some c) on (f0.length + 85) gs
  have hpos : 0 < gs.length := by
    cases gs with
    | nil => exact absurd h1.symm (by simpa using hne)
    | cons a b => simp
  have hR := readRef_any (refsFrom crc (some c) on (f0.length + 85) gs) 0 (by omega) hidx
  rw [refsFrom_get _ _ _ _ _ 0 hpos] at hR
  refine ⟨refAt crc (some c) on (f0.length + 85) gs[0], _, ?_, ?_, hR, ?_, ?_⟩
  · rw [List.getElem?_eq_getElem (by omega), refsFrom_get _ _ _ _ _ 0 hpos]; simp
  · simp [refAt]
  · simp [refAt]
  · have : (f0.length + 85) % 2 ^ 32 < 2 ^ 32 := Nat.mod_lt _ (by decide)
    simp only [refAt, List.take_zero, List.map_nil, List.flatten_nil, List.length_nil, Nat.add_zero]
    omega

/-- What is in the file after the branches its version stands for is never cut off. -/
theorem C103_truncate_false (crc : Nat → Bytes → Nat) (zstd : Codec) (file file' : Bytes) (version : Nat) (bs : List (Meta × Bytes)) (h : objectOpen crc zstd file version = .ok (bs, file')) : file' = file := by
  unfold objectOpen at h
  cases hb : objectBranches crc zstd file version 0 with
  | error e => rw [hb] at h; simp [Except.bind] at h
  | ok r =>
    rw [hb] at h
    simp only [Except.bind, Except.ok.injEq, Prod.mk.injEq] at h
    rw [← h.2]
    by_cases he : r.2 = file.length
    · rw [if_pos he, he, List.take_length]
    · rw [if_neg he]

/-! ## rows, and examples -/

/-- The rows that are created for a table are of the kind that is asked for. -/
theorem C103_row (fresh : Nat → Bytes) (hfr : ∀ n, (fresh n).length = n) (refs : List Verif.Row.Val) (identity : Verif.Row.Val) (cols : List (Verif.Row.Column × Verif.Row.Val))
    (h : ∀ cv ∈ cols, Verif.Row.Acceptable refs identity cv) (row : Bytes) (hrow : Verif.Row.rowCreate fresh refs identity cols = .ok row) (hn : cols.length < 65536) (hsz : row.length < 2 ^ 31) :
    IsRow row :=
  fun rest => (Verif.Row.C08_size fresh hfr refs identity cols h row rest hrow hn hsz).1

/-- a compression that only marks what it has been given -/
def toy : Codec := ⟨fun ps => 0 :: ps.flatten, fun bs _ => .ok (bs.drop 1)⟩

theorem toy_lawful : toy.Lawful := fun ps => ⟨by simp [toy], rfl⟩

/-- rows of five bytes: the length is the fourth -/
def tiny (a : Nat) : Bytes := [0, 1, 0, 5, a]

theorem tiny_row (a : Nat) : IsRow (tiny a) := by intro rest; rfl

/-- the hypotheses are met: three rows in two regions, after bytes that were there -/
example : (writeAll Verif.Wal.crc32 (some toy) 40 true [9, 9] [tiny 1, tiny 2, tiny 3]).file.length < 2 ^ 32 ∧
    (index (writeAll Verif.Wal.crc32 (some toy) 40 true [9, 9] [tiny 1, tiny 2, tiny 3]).refs).length < 2 ^ 32 ∧
    (writeAll Verif.Wal.crc32 (some toy) 40 true [9, 9] [tiny 1, tiny 2, tiny 3]).refs.length = 2 ∧
    readBranch (some toy) ((writeAll Verif.Wal.crc32 (some toy) 40 true [9, 9] [tiny 1, tiny 2, tiny 3]).file ++ [7])
      (index (writeAll Verif.Wal.crc32 (some toy) 40 true [9, 9] [tiny 1, tiny 2, tiny 3]).refs) 2 2 0 =
      .ok [⟨2, tiny 1, tiny 2, [tiny 1, tiny 2]⟩, ⟨1, tiny 3, tiny 3, [tiny 3]⟩] := by decide +kernel

/-- the checksum of its index is not 0: the file cannot be opened -/
example : Verif.Wal.crc32 0 (toy.enc [indexOffsets (writeAll Verif.Wal.crc32 (some toy) 40 true [] [tiny 1]).refs, indexData (writeAll Verif.Wal.crc32 (some toy) 40 true [] [tiny 1]).refs]) ≠ 0 ∧
    objectRead Verif.Wal.crc32 toy (writeAll Verif.Wal.crc32 (some toy) 40 true [] [tiny 1]).file 0 = .error .err := by decide +kernel

/-- with a checksum that is always 0 it can -/
example : ∃ m, objectRead (fun _ _ => 0) toy (writeAll (fun _ _ => 0) (some toy) 40 true [] [tiny 1]).file 0 =
    .ok (m, index (writeAll (fun _ _ => 0) (some toy) 40 true [] [tiny 1]).refs, (writeAll (fun _ _ => 0) (some toy) 40 true [] [tiny 1]).file.length) := by
  obtain ⟨m, _, _, h⟩ := C103_open_partial (fun _ _ => 0) toy toy_lawful (fun _ _ => ⟨(by show 0 < 2 ^ 32; decide), rfl⟩) 40 true [] [] [tiny 1] 5 (by decide) (by decide)
    (by decide +kernel) (by decide +kernel) (by decide) (by intro b hb; revert b hb; decide +kernel) rfl
  exact ⟨m, by simpa using h⟩

/-- two branches, the second without rows -/
example : ∃ f' is, Branches (fun _ _ => 0) toy 40 true 5 [] [[tiny 1, tiny 2, tiny 3], []] f' is ∧ is.length = 2 := by
  have b : ∀ (f : Bytes) (rows : List Bytes) (h : ((writeAll (fun _ _ => 0) (some toy) 40 true f rows).refs.map Ref.bytes).flatten.all (fun x => decide (x < 256)) = true)
      (h2 : (indexOffsets (writeAll (fun _ _ => 0) (some toy) 40 true f rows).refs).all (fun x => decide (x < 256)) = true),
      IsBytes (toy.enc [indexOffsets (writeAll (fun _ _ => 0) (some toy) 40 true f rows).refs, indexData (writeAll (fun _ _ => 0) (some toy) 40 true f rows).refs]) := by
    intro f rows h h2 x hx
    simp only [toy, List.flatten_cons, List.flatten_nil, List.append_nil, List.mem_cons, List.mem_append] at hx
    rcases hx with rfl | hx | hx
    · decide
    · exact of_decide_eq_true (List.all_eq_true.1 h2 x hx)
    · exact of_decide_eq_true (List.all_eq_true.1 h x hx)
  exact ⟨_, _, .write ⟨by decide, by decide +kernel, by decide +kernel, by decide, b _ _ (by decide +kernel) (by decide +kernel), rfl⟩
    (.write ⟨by decide, by decide +kernel, by decide +kernel, by decide, b _ _ (by decide +kernel) (by decide +kernel), rfl⟩ (.done _)), rfl⟩

/-- without compression the rows of a region are not in what is read of it -/
theorem C103_raw_read_false : readBranch none (writeAll Verif.Wal.crc32 none 1024 true [] [[0, 1, 0, 64] ++ List.replicate 60 7]).file
    (index (writeAll Verif.Wal.crc32 none 1024 true [] [[0, 1, 0, 64] ++ List.replicate 60 7]).refs) 1 1 0 = .error .ub := by decide +kernel

end Verif.Object.File
