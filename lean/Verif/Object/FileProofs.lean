import Verif.Object.File
import Verif.Row.Proofs
/-!
# Object files: lemmas
-/
set_option autoImplicit false
set_option linter.unusedSimpArgs false
set_option linter.unusedVariables false
namespace Verif.Object.File
open Verif
open Verif.Row (rowSize readAt_mid)

theorem field_mod (a c : Bytes) (pos w n : Nat) (hp : pos = a.length) : field (a ++ (leBytes w n ++ c)) pos w = .ok (n % 256 ^ w) := by
  unfold field
  rw [readAt_mid a (leBytes w n) c pos w hp (leBytes_length w n).symm]
  simp only [Except.bind, leNat_leBytes]

theorem field_mid (a c : Bytes) (pos w n : Nat) (hp : pos = a.length) (hn : n < 256 ^ w) : field (a ++ (leBytes w n ++ c)) pos w = .ok n := by
  rw [field_mod a c pos w n hp, Nat.mod_eq_of_lt hn]

theorem offsets_length (at_ : Nat) (ps : List Bytes) : (offsets at_ ps).length = 4 * ps.length := by
  induction ps generalizing at_ with
  | nil => rfl
  | cons p ps ih => simp only [offsets, List.length_append, leBytes_length, ih, List.length_cons]; omega

theorem offsets_split (at_ : Nat) (ps : List Bytes) (i : Nat) (h : i < ps.length) :
    ∃ a c, offsets at_ ps = a ++ (leBytes 4 (at_ + (ps.take i).flatten.length) ++ c) ∧ a.length = 4 * i := by
  induction ps generalizing at_ i with
  | nil => exact absurd h (by simp)
  | cons p ps ih =>
    cases i with
    | zero => exact ⟨[], offsets (at_ + p.length) ps, by simp [offsets], rfl⟩
    | succ i =>
      obtain ⟨a, c, h1, h2⟩ := ih (at_ + p.length) i (by simpa using h)
      refine ⟨leBytes 4 at_ ++ a, c, ?_, by simp [leBytes_length, h2]; omega⟩
      rw [offsets, h1]
      simp [Nat.add_assoc]

theorem flatten_split (ps : List Bytes) (i : Nat) (h : i < ps.length) : ps.flatten = (ps.take i).flatten ++ (ps[i] ++ (ps.drop (i + 1)).flatten) := by
  induction ps generalizing i with
  | nil => exact absurd h (by simp)
  | cons p ps ih =>
    cases i with
    | zero => simp
    | succ i =>
      have := ih i (by simpa using h)
      simp only [List.flatten_cons, List.take_succ_cons, List.drop_succ_cons, List.getElem_cons_succ, List.append_assoc]
      rw [← this]

theorem take_flatten_le (ps : List Bytes) (i : Nat) : (ps.take i).flatten.length ≤ ps.flatten.length := by
  have : ps.flatten = (ps.take i).flatten ++ (ps.drop i).flatten := by rw [← List.flatten_append, List.take_append_drop]
  rw [this, List.length_append]; omega

/-! ## references -/

/-- the numbers of a reference fit their fields (the checksum need not) -/
def Ref.Fits (r : Ref) : Prop := r.offset < 2 ^ 32 ∧ r.size < 2 ^ 32 ∧ r.sizeOrigin < 2 ^ 32 ∧ r.rows < 2 ^ 32 ∧ r.min.length < 2 ^ 32 ∧ r.max.length < 2 ^ 32

theorem Ref.length_bytes (r : Ref) : r.bytes.length = 44 + r.min.length + r.max.length := by
  simp only [Ref.bytes, List.length_append, leBytes_length, List.length_replicate]

theorem index_length (refs : List Ref) : (index refs).length = 4 * refs.length + (indexData refs).length := by
  simp [index, indexOffsets, offsets_length]

theorem readRef_any (refs : List Ref) (i : Nat) (h : i < refs.length) (hi : (index refs).length < 2 ^ 32) :
    readRef (index refs) refs.length i = .ok ⟨refs[i].offset % 2 ^ 32, refs[i].crc % 2 ^ 32, refs[i].size % 2 ^ 32, refs[i].sizeOrigin % 2 ^ 32, refs[i].rows % 2 ^ 32, refs[i].min, refs[i].max⟩ := by
  have hm : i < (refs.map Ref.bytes).length := by simpa using h
  obtain ⟨a, c, h1, h2⟩ := offsets_split 0 (refs.map Ref.bytes) i hm
  have h3 := flatten_split (refs.map Ref.bytes) i hm
  have h4 := take_flatten_le (refs.map Ref.bytes) i
  have hl := index_length refs
  have hd : (indexData refs).length < 2 ^ 32 := by omega
  have ho : ((refs.map Ref.bytes).take i).flatten.length < 2 ^ 32 := Nat.lt_of_le_of_lt h4 hd
  have hb : (refs[i].bytes).length ≤ (indexData refs).length := by
    unfold indexData; rw [h3]; simp; omega
  rw [Ref.length_bytes] at hb
  simp only [List.getElem_map] at h3
  generalize hpre : ((refs.map Ref.bytes).take i).flatten = pre at *
  generalize ((refs.map Ref.bytes).drop (i + 1)).flatten = post at *
  generalize refs[i] = r at *
  obtain ⟨off, crc, size, so, rows, mn, mx⟩ := r
  unfold readRef
  have e0 : index refs = a ++ (leBytes 4 (0 + pre.length) ++ (c ++ indexData refs)) := by
    unfold index indexOffsets; rw [h1]; simp
  rw [show field (index refs) (4 * i) 4 = .ok pre.length by rw [e0, field_mid a _ (4 * i) 4 (0 + pre.length) h2.symm (by omega)]; simp]
  simp only [Except.bind]
  have hL : (offsets 0 (refs.map Ref.bytes)).length = 4 * refs.length := by simp [offsets_length]
  have e1 : index refs = (offsets 0 (refs.map Ref.bytes) ++ pre) ++ ((Ref.mk off crc size so rows mn mx).bytes ++ post) := by
    unfold index indexOffsets indexData; rw [h3]; simp
  have hp : (offsets 0 (refs.map Ref.bytes) ++ pre).length = 4 * refs.length + pre.length := by simp [hL]
  generalize offsets 0 (refs.map Ref.bytes) ++ pre = P at *
  simp only [Ref.bytes, List.append_assoc] at e1
  have f0 : field (index refs) (4 * refs.length + pre.length) 4 = .ok (off % 2 ^ 32) := by
    rw [e1]; exact field_mod P _ _ 4 off hp.symm
  have f1 : field (index refs) (4 * refs.length + pre.length + 4) 4 = .ok (crc % 2 ^ 32) := by
    have : index refs = (P ++ leBytes 4 off) ++ (leBytes 4 crc ++ (leBytes 4 size ++ (leBytes 4 so ++ (leBytes 4 mn.length ++ (leBytes 4 mx.length ++ (leBytes 4 rows ++ (List.replicate 16 0 ++ (mn ++ (mx ++ post))))))))) := by rw [e1]; simp
    rw [this]; exact field_mod _ _ _ 4 crc (by simp [leBytes_length]; omega)
  have f2 : field (index refs) (4 * refs.length + pre.length + 8) 4 = .ok (size % 2 ^ 32) := by
    have : index refs = (P ++ leBytes 4 off ++ leBytes 4 crc) ++ (leBytes 4 size ++ (leBytes 4 so ++ (leBytes 4 mn.length ++ (leBytes 4 mx.length ++ (leBytes 4 rows ++ (List.replicate 16 0 ++ (mn ++ (mx ++ post)))))))) := by rw [e1]; simp
    rw [this]; exact field_mod _ _ _ 4 size (by simp [leBytes_length]; omega)
  have f3 : field (index refs) (4 * refs.length + pre.length + 12) 4 = .ok (so % 2 ^ 32) := by
    have : index refs = (P ++ leBytes 4 off ++ leBytes 4 crc ++ leBytes 4 size) ++ (leBytes 4 so ++ (leBytes 4 mn.length ++ (leBytes 4 mx.length ++ (leBytes 4 rows ++ (List.replicate 16 0 ++ (mn ++ (mx ++ post))))))) := by rw [e1]; simp
    rw [this]; exact field_mod _ _ _ 4 so (by simp [leBytes_length]; omega)
  have f4 : field (index refs) (4 * refs.length + pre.length + 16) 4 = .ok mn.length := by
    have : index refs = (P ++ leBytes 4 off ++ leBytes 4 crc ++ leBytes 4 size ++ leBytes 4 so) ++ (leBytes 4 mn.length ++ (leBytes 4 mx.length ++ (leBytes 4 rows ++ (List.replicate 16 0 ++ (mn ++ (mx ++ post)))))) := by rw [e1]; simp
    rw [this]; exact field_mid _ _ _ 4 mn.length (by simp [leBytes_length]; omega) (by dsimp only at hb; omega)
  have f5 : field (index refs) (4 * refs.length + pre.length + 20) 4 = .ok mx.length := by
    have : index refs = (P ++ leBytes 4 off ++ leBytes 4 crc ++ leBytes 4 size ++ leBytes 4 so ++ leBytes 4 mn.length) ++ (leBytes 4 mx.length ++ (leBytes 4 rows ++ (List.replicate 16 0 ++ (mn ++ (mx ++ post))))) := by rw [e1]; simp
    rw [this]; exact field_mid _ _ _ 4 mx.length (by simp [leBytes_length]; omega) (by dsimp only at hb; omega)
  have f6 : field (index refs) (4 * refs.length + pre.length + 24) 4 = .ok (rows % 2 ^ 32) := by
    have : index refs = (P ++ leBytes 4 off ++ leBytes 4 crc ++ leBytes 4 size ++ leBytes 4 so ++ leBytes 4 mn.length ++ leBytes 4 mx.length) ++ (leBytes 4 rows ++ (List.replicate 16 0 ++ (mn ++ (mx ++ post)))) := by rw [e1]; simp
    rw [this]; exact field_mod _ _ _ 4 rows (by simp [leBytes_length]; omega)
  have f7 : Verif.Row.readAt (index refs) (4 * refs.length + pre.length + 44) mn.length = .ok mn := by
    have : index refs = (P ++ leBytes 4 off ++ leBytes 4 crc ++ leBytes 4 size ++ leBytes 4 so ++ leBytes 4 mn.length ++ leBytes 4 mx.length ++ leBytes 4 rows ++ List.replicate 16 0) ++ (mn ++ (mx ++ post)) := by rw [e1]; simp
    rw [this]; exact readAt_mid _ _ _ _ _ (by simp [leBytes_length]; omega) rfl
  have f8 : Verif.Row.readAt (index refs) (4 * refs.length + pre.length + 44 + mn.length) mx.length = .ok mx := by
    have : index refs = (P ++ leBytes 4 off ++ leBytes 4 crc ++ leBytes 4 size ++ leBytes 4 so ++ leBytes 4 mn.length ++ leBytes 4 mx.length ++ leBytes 4 rows ++ List.replicate 16 0 ++ mn) ++ (mx ++ post) := by rw [e1]; simp
    rw [this]; exact readAt_mid _ _ _ _ _ (by simp [leBytes_length]; omega) rfl
  rw [f0, f1, f2, f3, f4, f5, f6]
  simp only [f7, f8]

/-! ## regions -/

/-- the bytes of a region before compression -/
def regionBytes (rows : List Bytes) : Bytes := regionMeta rows ++ rows.flatten

theorem regionMeta_length (rows : List Bytes) : (regionMeta rows).length = 24 + 4 * rows.length := by
  simp only [regionMeta, List.length_append, leBytes_length, List.length_replicate, offsets_length]

theorem regionBytes_length (rows : List Bytes) : (regionBytes rows).length = regionSize rows := by
  simp only [regionBytes, List.length_append, regionMeta_length, regionSize]

theorem region_size (rows : List Bytes) (tail : Bytes) (h : regionSize rows < 2 ^ 32) : field (regionMeta rows ++ tail) 0 4 = .ok (regionSize rows) := by
  have : regionMeta rows ++ tail = [] ++ (leBytes 4 (regionSize rows) ++ (leBytes 4 rows.length ++ (List.replicate 16 0 ++ (offsets 0 rows ++ tail)))) := by simp [regionMeta, regionSize]
  rw [this]; exact field_mid _ _ _ 4 _ rfl (by omega)

theorem region_count (rows : List Bytes) (tail : Bytes) (h : regionSize rows < 2 ^ 32) : field (regionMeta rows ++ tail) 4 4 = .ok rows.length := by
  have : regionMeta rows ++ tail = leBytes 4 (regionSize rows) ++ (leBytes 4 rows.length ++ (List.replicate 16 0 ++ (offsets 0 rows ++ tail))) := by simp [regionMeta, regionSize]
  rw [this]; exact field_mid _ _ _ 4 _ (by simp [leBytes_length]) (by unfold regionSize at h; omega)

theorem region_offset (rows : List Bytes) (tail : Bytes) (i : Nat) (hi : i < rows.length) (h : regionSize rows < 2 ^ 32) :
    field (regionMeta rows ++ tail) (24 + 4 * i) 4 = .ok ((rows.take i).flatten.length) := by
  obtain ⟨a, c, h1, h2⟩ := offsets_split 0 rows i hi
  have h3 := take_flatten_le rows i
  have : regionMeta rows ++ tail = (leBytes 4 (regionSize rows) ++ leBytes 4 rows.length ++ List.replicate 16 0 ++ a) ++ (leBytes 4 (0 + (rows.take i).flatten.length) ++ (c ++ tail)) := by
    simp [regionMeta, regionSize, h1]
  rw [this, field_mid _ _ _ 4 _ (by simp [leBytes_length]; omega) (by unfold regionSize at h; omega), Nat.zero_add]

/-- a stored row: its size can be read from it, wherever it is -/
def IsRow (r : Bytes) : Prop := ∀ rest, rowSize (r ++ rest) = .ok r.length

theorem regionRow_spec (rows : List Bytes) (i : Nat) (hi : i < rows.length) (h : regionSize rows < 2 ^ 32) (hr : ∀ r ∈ rows, IsRow r) :
    regionRow (regionBytes rows) i = .ok rows[i] := by
  unfold regionRow regionBytes
  rw [region_count rows _ h, region_offset rows _ i hi h]
  simp only [Except.bind]
  have h3 := flatten_split rows i hi
  have e : regionMeta rows ++ rows.flatten = (regionMeta rows ++ (rows.take i).flatten) ++ (rows[i] ++ (rows.drop (i + 1)).flatten) := by
    rw [h3]; simp
  have hl : 24 + 4 * rows.length + (rows.take i).flatten.length = (regionMeta rows ++ (rows.take i).flatten).length := by
    rw [List.length_append, regionMeta_length]
  rw [e, hl, List.drop_left, hr _ (List.getElem_mem hi) _]
  exact readAt_mid _ _ _ _ _ rfl rfl

theorem regionRows_spec (rows : List Bytes) (h : regionSize rows < 2 ^ 32) (hr : ∀ r ∈ rows, IsRow r) (k pos : Nat) (hk : pos + k = rows.length) :
    regionRows (regionBytes rows) k pos = .ok (rows.drop pos) := by
  induction k generalizing pos with
  | zero => rw [regionRows, List.drop_eq_nil_of_le (by omega)]
  | succ k ih =>
    rw [regionRows, regionRow_spec rows pos (by omega) h hr]
    simp only [Except.bind]
    rw [ih (pos + 1) (by omega)]
    simp only [Except.bind]
    rw [List.drop_eq_getElem_cons (show pos < rows.length by omega)]

theorem pread_mid (a b c : Bytes) (size offset : Nat) (ho : offset = a.length) (hs : size = b.length) (hb : b ≠ []) : pread (a ++ (b ++ c)) size offset = .ok b := by
  subst ho; subst hs
  unfold pread
  rw [if_neg (by simpa using hb), if_pos (by simp), List.drop_left, List.take_left]

/-! ## the writer -/

/-- the bytes of a region in the file -/
def regionFile (c : Option Codec) (g : List Bytes) : Bytes := (encode c [regionMeta g, g.flatten]).flatten

/-- the reference of a region that begins at `at_` -/
def refAt (crc : Nat → Bytes → Nat) (c : Option Codec) (on : Bool) (at_ : Nat) (g : List Bytes) : Ref :=
  ⟨at_, if on then crcOf crc (encode c [regionMeta g, g.flatten]) else 0, firstLen (encode c [regionMeta g, g.flatten]), regionSize g, g.length, g.headD [], g.getLastD []⟩

def refsFrom (crc : Nat → Bytes → Nat) (c : Option Codec) (on : Bool) : Nat → List (List Bytes) → List Ref
  | _, [] => []
  | at_, g :: gs => refAt crc c on at_ g :: refsFrom crc c on (at_ + (regionFile c g).length) gs

theorem refsFrom_append (crc : Nat → Bytes → Nat) (c : Option Codec) (on : Bool) (at_ : Nat) (gs : List (List Bytes)) (g : List Bytes) :
    refsFrom crc c on at_ (gs ++ [g]) = refsFrom crc c on at_ gs ++ [refAt crc c on (at_ + (gs.map (regionFile c)).flatten.length) g] := by
  induction gs generalizing at_ with
  | nil => simp [refsFrom]
  | cons x gs ih => simp only [List.cons_append, refsFrom, ih, List.map_cons, List.flatten_cons, List.length_append, Nat.add_assoc]

theorem refsFrom_length (crc : Nat → Bytes → Nat) (c : Option Codec) (on : Bool) (at_ : Nat) (gs : List (List Bytes)) : (refsFrom crc c on at_ gs).length = gs.length := by
  induction gs generalizing at_ with
  | nil => rfl
  | cons x gs ih => simp only [refsFrom, List.length_cons, ih]

theorem refsFrom_get (crc : Nat → Bytes → Nat) (c : Option Codec) (on : Bool) (at_ : Nat) (gs : List (List Bytes)) (i : Nat) (h : i < gs.length) :
    (refsFrom crc c on at_ gs)[i]'(by rw [refsFrom_length]; exact h) = refAt crc c on (at_ + ((gs.take i).map (regionFile c)).flatten.length) gs[i] := by
  induction gs generalizing at_ i with
  | nil => exact absurd h (by simp)
  | cons x gs ih =>
    cases i with
    | zero => simp [refsFrom]
    | succ i =>
      simp only [refsFrom, List.getElem_cons_succ, List.take_succ_cons, List.map_cons, List.flatten_cons, List.length_append]
      rw [ih _ i (by simpa using h), Nat.add_assoc]

/-- a region as it is cut: not empty, and without its last row below the limit -/
def Cut (limit : Int) (g : List Bytes) : Prop := g ≠ [] ∧ (g.dropLast = [] ∨ (regionSize g.dropLast : Int) < limit)

/-- what the writer has done with these rows -/
structure Wrote (crc : Nat → Bytes → Nat) (codec : Option Codec) (limit : Int) (on : Bool) (f0 : Bytes) (rows : List Bytes) (w : Writer) (groups : List (List Bytes)) : Prop where
  static : w.crc = crc ∧ w.codec = codec ∧ w.limit = limit ∧ w.crcOn = on
  rows : groups.flatten ++ w.region.getD [] = rows
  full : ∀ g ∈ groups, Cut limit g ∧ limit ≤ (regionSize g : Int)
  last : ∀ g, w.region = some g → Cut limit g
  none : w.region = none → groups = []
  refs : w.refs = refsFrom crc codec on (f0.length + 85) groups
  file : w.file = f0 ++ (({} : Meta).bytes ++ (groups.map (regionFile codec)).flatten)

theorem Meta.length_bytes (m : Meta) : m.bytes.length = 85 := by
  simp only [Meta.bytes, Meta.tail, List.length_append, leBytes_length, List.length_replicate]

theorem cut_size {limit : Int} {g : List Bytes} (h : Cut limit g) {B : Nat} (hB : 28 + limit.toNat + B < 2 ^ 31) (hr : ∀ r ∈ g, r.length ≤ B) : regionSize g < 2 ^ 31 := by
  obtain ⟨h1, h2⟩ := h
  have e : g = g.dropLast ++ [g.getLast h1] := (List.dropLast_concat_getLast h1).symm
  have hl := hr _ (List.getLast_mem h1)
  have hs : regionSize g = regionSize g.dropLast + 4 + (g.getLast h1).length := by
    conv => lhs; rw [e]
    simp [regionSize]
    have := List.length_pos_iff.2 h1
    omega
  rcases h2 with h2 | h2
  · have : regionSize g.dropLast = 24 := by rw [h2]; rfl
    omega
  · omega

theorem stopRegion_spec {crc : Nat → Bytes → Nat} {codec : Option Codec} {limit : Int} {on : Bool} {f0 : Bytes} {rows : List Bytes} {w : Writer} {groups : List (List Bytes)}
    (h : Wrote crc codec limit on f0 rows w groups) (g : List Bytes) (hg : w.region = some g) :
    (stopRegion w).refs = refsFrom crc codec on (f0.length + 85) (groups ++ [g]) ∧
      (stopRegion w).file = f0 ++ (({} : Meta).bytes ++ ((groups ++ [g]).map (regionFile codec)).flatten) ∧
      (stopRegion w).crc = crc ∧ (stopRegion w).codec = codec ∧ (stopRegion w).limit = limit ∧ (stopRegion w).crcOn = on ∧ (stopRegion w).region = some g := by
  obtain ⟨h1, h2, h3, h4⟩ := h.static
  unfold stopRegion
  rw [hg]
  dsimp only [Option.elim]
  refine ⟨?_, ?_, h1, h2, h3, h4, rfl⟩
  · rw [h.refs, refsFrom_append]
    congr 1
    unfold refOf refAt
    rw [h1, h2, h4, h.file]
    simp only [List.length_append, Meta.length_bytes, Nat.add_assoc]
  · rw [h.file, h2]
    simp [regionFile]

theorem toSigned_small (n : Nat) (h : n < 2 ^ 31) : toSigned 32 (n % 2 ^ 32) = (n : Int) := by
  rw [Nat.mod_eq_of_lt (by omega)]
  unfold toSigned
  rw [if_pos (by omega)]

theorem add_spec {crc : Nat → Bytes → Nat} {codec : Option Codec} {limit : Int} {on : Bool} {f0 : Bytes} {rows : List Bytes} {w : Writer} {groups : List (List Bytes)}
    (h : Wrote crc codec limit on f0 rows w groups) (r : Bytes) {B : Nat} (hB : 28 + limit.toNat + B < 2 ^ 31) (hr : ∀ x ∈ rows, x.length ≤ B) :
    ∃ groups', Wrote crc codec limit on f0 (rows ++ [r]) (add w r) groups' := by
  obtain ⟨h1, h2, h3, h4⟩ := h.static
  cases hg : w.region with
  | none =>
    refine ⟨[], ?_⟩
    have hn := h.none hg
    subst hn
    have he : add w r = { w with region := some [r] } := by
      unfold add isLimit stopRegion
      rw [hg]; rfl
    rw [he]
    exact ⟨⟨h1, h2, h3, h4⟩, by have := h.rows; rw [hg] at this; simp at this; simp [← this], (by simp), (by intro g e; cases e; exact ⟨by simp, .inl rfl⟩), (by intro e; cases e), h.refs, h.file⟩
  | some g =>
    have hc := h.last g hg
    have hsub : ∀ x ∈ g, x.length ≤ B := by
      intro x hx
      apply hr
      rw [← h.rows, hg]
      exact List.mem_append_right _ hx
    have hsz := cut_size hc hB hsub
    have hlim : isLimit w = decide ((regionSize g : Int) ≥ limit) := by
      unfold isLimit; rw [hg]; dsimp only [Option.elim]; rw [h3, toSigned_small _ hsz]
    by_cases hL : (regionSize g : Int) ≥ limit
    · obtain ⟨e1, e2, e3, e4, e5, e6, e7⟩ := stopRegion_spec h g hg
      refine ⟨groups ++ [g], ?_⟩
      have he : add w r = { stopRegion w with region := some [r] } := by
        unfold add; rw [hlim, decide_eq_true hL]; rfl
      rw [he]
      refine ⟨⟨e3, e4, e5, e6⟩, ?_, ?_, (by intro g e; cases e; exact ⟨by simp, .inl rfl⟩), (by intro e; cases e), e1, e2⟩
      · have := h.rows
        rw [hg] at this
        simp at this ⊢
        rw [← this]; simp
      · intro x hx
        rcases List.mem_append.1 hx with hx | hx
        · exact h.full x hx
        · rw [List.mem_singleton.1 hx]; exact ⟨hc, hL⟩
    · refine ⟨groups, ?_⟩
      have he : add w r = { w with region := some (g ++ [r]) } := by
        unfold add; rw [hlim, decide_eq_false hL]; simp [hg]
      rw [he]
      refine ⟨⟨h1, h2, h3, h4⟩, ?_, h.full, ?_, (by intro e; cases e), h.refs, h.file⟩
      · have := h.rows
        rw [hg] at this
        simp at this ⊢
        rw [← this]; simp
      · intro g' e
        cases e
        refine ⟨by simp, .inr ?_⟩
        rw [List.dropLast_concat]; omega

theorem fold_spec (crc : Nat → Bytes → Nat) (codec : Option Codec) (limit : Int) (on : Bool) (f0 : Bytes) {B : Nat} (hB : 28 + limit.toNat + B < 2 ^ 31) (todo : List Bytes) :
    ∀ (rows : List Bytes) (w : Writer) (groups : List (List Bytes)), Wrote crc codec limit on f0 rows w groups → (∀ x ∈ rows ++ todo, x.length ≤ B) →
      ∃ groups', Wrote crc codec limit on f0 (rows ++ todo) (todo.foldl add w) groups' := by
  induction todo with
  | nil => intro rows w groups h _; exact ⟨groups, by simpa using h⟩
  | cons r todo ih =>
    intro rows w groups h hr
    obtain ⟨g1, h1⟩ := add_spec h r hB (fun x hx => hr x (List.mem_append_left _ hx))
    obtain ⟨g2, h2⟩ := ih (rows ++ [r]) (add w r) g1 h1 (by simpa using hr)
    exact ⟨g2, by simpa using h2⟩

/-- writer_start, writer_add of each row, and the last region -/
theorem written (crc : Nat → Bytes → Nat) (codec : Option Codec) (limit : Int) (on : Bool) (f0 : Bytes) (rows : List Bytes) {B : Nat} (hB : 28 + limit.toNat + B < 2 ^ 31) (hr : ∀ x ∈ rows, x.length ≤ B) :
    ∃ groups : List (List Bytes), groups.flatten = rows ∧ (∀ g ∈ groups, Cut limit g) ∧ (∀ g ∈ groups.dropLast, limit ≤ (regionSize g : Int)) ∧
      (let w := stopRegion (rows.foldl add (start crc codec limit on f0))
       w.crc = crc ∧ w.codec = codec ∧ w.refs = refsFrom crc codec on (f0.length + 85) groups ∧ w.file = f0 ++ (({} : Meta).bytes ++ (groups.map (regionFile codec)).flatten)) := by
  have h0 : Wrote crc codec limit on f0 [] (start crc codec limit on f0) [] :=
    ⟨⟨rfl, rfl, rfl, rfl⟩, rfl, by simp, (by intro g e; cases e), fun _ => rfl, rfl, by simp [start]⟩
  obtain ⟨groups, h⟩ := fold_spec crc codec limit on f0 hB rows [] _ [] h0 (by simpa using hr)
  rw [List.nil_append] at h
  generalize rows.foldl add (start crc codec limit on f0) = w at h ⊢
  cases hg : w.region with
  | none =>
    have hn := h.none hg
    have he : stopRegion w = w := by unfold stopRegion; rw [hg]; rfl
    refine ⟨[], ?_, by simp, by simp, ?_⟩
    · have := h.rows; rw [hn, hg] at this; simpa using this
    · dsimp only; rw [he]
      exact ⟨h.static.1, h.static.2.1, by rw [h.refs, hn], by rw [h.file, hn]⟩
  | some g =>
    obtain ⟨e1, e2, e3, e4, e5, e6, e7⟩ := stopRegion_spec h g hg
    refine ⟨groups ++ [g], ?_, ?_, ?_, e3, e4, e1, e2⟩
    · have := h.rows; rw [hg] at this; simpa using this
    · intro x hx
      rcases List.mem_append.1 hx with hx | hx
      · exact (h.full x hx).1
      · rw [List.mem_singleton.1 hx]; exact h.last g hg
    · intro x hx
      rw [List.dropLast_concat] at hx
      exact (h.full x hx).2

/-! ## with compression -/

/-- what the library gives back is what it was given, and what it makes of something is not empty -/
def Codec.Lawful (c : Codec) : Prop := ∀ ps : List Bytes, c.enc ps ≠ [] ∧ c.dec (c.enc ps) ps.flatten.length = .ok ps.flatten

theorem regionFile_some (c : Codec) (g : List Bytes) : regionFile (some c) g = c.enc [regionMeta g, g.flatten] := by simp [regionFile, encode]

theorem refAt_size (crc : Nat → Bytes → Nat) (c : Codec) (on : Bool) (at_ : Nat) (g : List Bytes) : (refAt crc (some c) on at_ g).size = (regionFile (some c) g).length := by
  rw [regionFile_some]; rfl

theorem refsFrom_sizes (crc : Nat → Bytes → Nat) (c : Codec) (on : Bool) (at_ : Nat) (gs : List (List Bytes)) :
    ((refsFrom crc (some c) on at_ gs).map Ref.size).sum = (gs.map (regionFile (some c))).flatten.length := by
  induction gs generalizing at_ with
  | nil => rfl
  | cons x gs ih => simp only [refsFrom, List.map_cons, List.sum_cons, List.flatten_cons, List.length_append, ih, refAt_size]

theorem pwrite_mid (a b c bs : Bytes) (h : bs.length = b.length) : pwrite (a ++ (b ++ c)) bs a.length = a ++ (bs ++ c) := by
  unfold pwrite
  rw [List.take_left, h, show a.length + b.length = (a ++ b).length by simp, ← List.append_assoc a b c, List.drop_left, List.append_assoc]

theorem stop_compressed (crc : Nat → Bytes → Nat) (c : Codec) (f0 : Bytes) (w : Writer) (R : Bytes) (hc : (stopRegion w).codec = some c)
    (hf : (stopRegion w).file = f0 ++ (({} : Meta).bytes ++ R)) (hs : ((stopRegion w).refs.map Ref.size).sum = R.length) :
    (stop w).refs = (stopRegion w).refs ∧
      (stop w).file = f0 ++ ((header (stopRegion w) [c.enc [indexOffsets (stopRegion w).refs, indexData (stopRegion w).refs]]).bytes ++ (R ++ c.enc [indexOffsets (stopRegion w).refs, indexData (stopRegion w).refs])) := by
  refine ⟨rfl, ?_⟩
  unfold stop
  dsimp only
  generalize stopRegion w = v at *
  rw [hc]
  show pwrite (v.file ++ [c.enc [indexOffsets v.refs, indexData v.refs]].flatten) _ _ = _
  have e1 : v.file ++ [c.enc [indexOffsets v.refs, indexData v.refs]].flatten = f0 ++ (({} : Meta).bytes ++ (R ++ c.enc [indexOffsets v.refs, indexData v.refs])) := by rw [hf]; simp
  rw [show (encode (some c) [indexOffsets v.refs, indexData v.refs]) = [c.enc [indexOffsets v.refs, indexData v.refs]] from rfl, e1]
  have e2 : (f0 ++ (({} : Meta).bytes ++ (R ++ c.enc [indexOffsets v.refs, indexData v.refs]))).length - (header v [c.enc [indexOffsets v.refs, indexData v.refs]]).sizeTotal = f0.length := by
    show _ - ((v.refs.map Ref.size).sum + (c.enc [indexOffsets v.refs, indexData v.refs]).length + 85) = _
    rw [hs]
    simp only [List.length_append, Meta.length_bytes]
    omega
  rw [e2]
  exact pwrite_mid _ _ _ _ (by rw [Meta.length_bytes, Meta.length_bytes])

/-- the rows of a region with its reference, as a branch is read -/
def storedOf (g : List Bytes) : Stored Bytes := ⟨g.length, g.headD [], g.getLastD [], g⟩

theorem readRegion_spec (c : Codec) (hl : c.Lawful) (file a z : Bytes) (r : Ref) (g : List Bytes) (hf : file = a ++ (regionFile (some c) g ++ z)) (ho : r.offset = a.length)
    (hs : r.size = (regionFile (some c) g).length) (hso : r.sizeOrigin = regionSize g) (hr : r.rows = g.length) (hb : regionSize g < 2 ^ 32) :
    readRegion (some c) file r = .ok (regionBytes g) := by
  obtain ⟨h1, h2⟩ := hl [regionMeta g, g.flatten]
  unfold readRegion
  rw [hf, pread_mid a _ z r.size r.offset ho hs (by rw [regionFile_some]; exact h1), regionFile_some]
  have e : [regionMeta g, g.flatten].flatten = regionBytes g := by simp [regionBytes]
  rw [e, regionBytes_length] at h2
  simp only [Except.bind, Option.elim, hso, h2]
  have f1 := region_size g g.flatten hb
  have f2 := region_count g g.flatten hb
  unfold regionBytes at *
  rw [f1, f2]
  simp only [hr, and_self, if_true]

theorem headD_le (g : List Bytes) : (g.headD []).length ≤ g.flatten.length := by cases g <;> simp

theorem readStored_spec (crc : Nat → Bytes → Nat) (c : Codec) (hl : c.Lawful) (on : Bool) (f0 h z : Bytes) (hh : h.length = 85) (gs : List (List Bytes))
    (hsz : (f0 ++ (h ++ (gs.map (regionFile (some c))).flatten)).length < 2 ^ 32) (hi : (index (refsFrom crc (some c) on (f0.length + 85) gs)).length < 2 ^ 32)
    (hg : ∀ g ∈ gs, regionSize g < 2 ^ 32) (hrow : ∀ g ∈ gs, ∀ r ∈ g, IsRow r) (i : Nat) (hlt : i < gs.length) :
    readStored (some c) (f0 ++ (h ++ (gs.map (regionFile (some c))).flatten) ++ z) (index (refsFrom crc (some c) on (f0.length + 85) gs)) gs.length i = .ok (storedOf gs[i]) := by
  have hlen := refsFrom_length crc (some c) on (f0.length + 85) gs
  have hR := readRef_any (refsFrom crc (some c) on (f0.length + 85) gs) i (by rw [hlen]; exact hlt) hi
  rw [refsFrom_get _ _ _ _ _ i hlt, hlen] at hR
  have hsp := flatten_split (gs.map (regionFile (some c))) i (by simpa using hlt)
  have hm := List.getElem_mem hlt
  have hgi := hg _ hm
  have hri := hrow _ hm
  simp only [List.getElem_map] at hsp
  generalize index (refsFrom crc (some c) on (f0.length + 85) gs) = data at *
  rw [← List.map_take] at hsp
  generalize gs[i] = g at *
  generalize hP : ((gs.take i).map (regionFile (some c))).flatten = P at *
  generalize (List.drop (i + 1) (List.map (regionFile (some c)) gs)).flatten = Q at *
  have hn : g.length < 2 ^ 32 := by unfold regionSize at hgi; omega
  have e : f0 ++ (h ++ (gs.map (regionFile (some c))).flatten) ++ z = (f0 ++ h ++ P) ++ (regionFile (some c) g ++ (Q ++ z)) := by rw [hsp]; simp
  rw [hsp] at hsz
  simp only [List.length_append] at hsz
  unfold readStored
  rw [hR]
  simp only [Except.bind]
  rw [readRegion_spec c hl _ (f0 ++ h ++ P) (Q ++ z) _ g e (by simp only [refAt, List.length_append, hh]; rw [Nat.mod_eq_of_lt (by omega)])
    (by dsimp only; rw [refAt_size, Nat.mod_eq_of_lt (by omega)]) (by simp only [refAt]; rw [Nat.mod_eq_of_lt hgi]) (by simp only [refAt]; rw [Nat.mod_eq_of_lt hn]) hgi]
  simp only [Except.bind, refAt]
  rw [Nat.mod_eq_of_lt hn, regionRows_spec g hgi hri g.length 0 (by omega)]
  rfl

theorem readBranch_spec (crc : Nat → Bytes → Nat) (c : Codec) (hl : c.Lawful) (on : Bool) (f0 h z : Bytes) (hh : h.length = 85) (gs : List (List Bytes))
    (hsz : (f0 ++ (h ++ (gs.map (regionFile (some c))).flatten)).length < 2 ^ 32) (hi : (index (refsFrom crc (some c) on (f0.length + 85) gs)).length < 2 ^ 32)
    (hg : ∀ g ∈ gs, regionSize g < 2 ^ 32) (hrow : ∀ g ∈ gs, ∀ r ∈ g, IsRow r) (k i : Nat) (hk : i + k = gs.length) :
    readBranch (some c) (f0 ++ (h ++ (gs.map (regionFile (some c))).flatten) ++ z) (index (refsFrom crc (some c) on (f0.length + 85) gs)) gs.length k i = .ok ((gs.drop i).map storedOf) := by
  induction k generalizing i with
  | zero => rw [readBranch, List.drop_eq_nil_of_le (by omega)]; rfl
  | succ k ih =>
    rw [readBranch, readStored_spec crc c hl on f0 h z hh gs hsz hi hg hrow i (by omega)]
    simp only [Except.bind]
    rw [ih (i + 1) (by omega)]
    simp only [Except.bind]
    rw [List.drop_eq_getElem_cons (show i < gs.length by omega)]
    rfl

/-! ## the header -/

/-- the numbers of a header fit their fields -/
def Meta.Fits (m : Meta) : Prop :=
  m.crc < 2 ^ 32 ∧ m.crcData < 2 ^ 32 ∧ m.magic < 2 ^ 32 ∧ m.version < 2 ^ 32 ∧ m.size < 2 ^ 32 ∧ m.sizeOrigin < 2 ^ 32 ∧ m.sizeRegions < 2 ^ 64 ∧ m.sizeRegionsOrigin < 2 ^ 64 ∧
    m.sizeTotal < 2 ^ 64 ∧ m.sizeTotalOrigin < 2 ^ 64 ∧ m.regions < 2 ^ 32 ∧ m.rows < 2 ^ 64 ∧ m.compression < 256

theorem readMeta_bytes (m : Meta) (h : m.Fits) : readMeta m.bytes = .ok m := by
  obtain ⟨crc, cd, mg, ve, sz, so, sr, sro, st, sto, rg, rw_, cp⟩ := m
  obtain ⟨h1, h2, h3, h4, h5, h6, h7, h8, h9, h10, h11, h12, h13⟩ := h
  dsimp only at h1 h2 h3 h4 h5 h6 h7 h8 h9 h10 h11 h12 h13
  generalize hz : List.replicate 16 0 = Z
  have e : Meta.bytes ⟨crc, cd, mg, ve, sz, so, sr, sro, st, sto, rg, rw_, cp⟩ = leBytes 4 crc ++ (leBytes 4 cd ++ (leBytes 4 mg ++ (leBytes 4 ve ++ (leBytes 4 sz ++ (leBytes 4 so ++
      (leBytes 8 sr ++ (leBytes 8 sro ++ (leBytes 8 st ++ (leBytes 8 sto ++ (leBytes 4 rg ++ (leBytes 8 rw_ ++ (leBytes 1 cp ++ List.replicate 16 0)))))))))))) := by simp [Meta.bytes, Meta.tail]
  rw [hz] at e
  unfold readMeta
  rw [e]
  have a1 := field_mid [] (leBytes 4 cd ++ (leBytes 4 mg ++ (leBytes 4 ve ++ (leBytes 4 sz ++ (leBytes 4 so ++ (leBytes 8 sr ++ (leBytes 8 sro ++ (leBytes 8 st ++ (leBytes 8 sto ++ (leBytes 4 rg ++ (leBytes 8 rw_ ++ (leBytes 1 cp ++ Z)))))))))))) 0 4 crc rfl h1
  have a2 := field_mid (leBytes 4 crc) (leBytes 4 mg ++ (leBytes 4 ve ++ (leBytes 4 sz ++ (leBytes 4 so ++ (leBytes 8 sr ++ (leBytes 8 sro ++ (leBytes 8 st ++ (leBytes 8 sto ++ (leBytes 4 rg ++ (leBytes 8 rw_ ++ (leBytes 1 cp ++ Z))))))))))) 4 4 cd (by simp [leBytes_length]) h2
  have a3 := field_mid (leBytes 4 crc ++ leBytes 4 cd) (leBytes 4 ve ++ (leBytes 4 sz ++ (leBytes 4 so ++ (leBytes 8 sr ++ (leBytes 8 sro ++ (leBytes 8 st ++ (leBytes 8 sto ++ (leBytes 4 rg ++ (leBytes 8 rw_ ++ (leBytes 1 cp ++ Z)))))))))) 8 4 mg (by simp [leBytes_length]) h3
  have a4 := field_mid (leBytes 4 crc ++ leBytes 4 cd ++ leBytes 4 mg) (leBytes 4 sz ++ (leBytes 4 so ++ (leBytes 8 sr ++ (leBytes 8 sro ++ (leBytes 8 st ++ (leBytes 8 sto ++ (leBytes 4 rg ++ (leBytes 8 rw_ ++ (leBytes 1 cp ++ Z))))))))) 12 4 ve (by simp [leBytes_length]) h4
  have a5 := field_mid (leBytes 4 crc ++ leBytes 4 cd ++ leBytes 4 mg ++ leBytes 4 ve) (leBytes 4 so ++ (leBytes 8 sr ++ (leBytes 8 sro ++ (leBytes 8 st ++ (leBytes 8 sto ++ (leBytes 4 rg ++ (leBytes 8 rw_ ++ (leBytes 1 cp ++ Z)))))))) 16 4 sz (by simp [leBytes_length]) h5
  have a6 := field_mid (leBytes 4 crc ++ leBytes 4 cd ++ leBytes 4 mg ++ leBytes 4 ve ++ leBytes 4 sz) (leBytes 8 sr ++ (leBytes 8 sro ++ (leBytes 8 st ++ (leBytes 8 sto ++ (leBytes 4 rg ++ (leBytes 8 rw_ ++ (leBytes 1 cp ++ Z))))))) 20 4 so (by simp [leBytes_length]) h6
  have a7 := field_mid (leBytes 4 crc ++ leBytes 4 cd ++ leBytes 4 mg ++ leBytes 4 ve ++ leBytes 4 sz ++ leBytes 4 so) (leBytes 8 sro ++ (leBytes 8 st ++ (leBytes 8 sto ++ (leBytes 4 rg ++ (leBytes 8 rw_ ++ (leBytes 1 cp ++ Z)))))) 24 8 sr (by simp [leBytes_length]) h7
  have a8 := field_mid (leBytes 4 crc ++ leBytes 4 cd ++ leBytes 4 mg ++ leBytes 4 ve ++ leBytes 4 sz ++ leBytes 4 so ++ leBytes 8 sr) (leBytes 8 st ++ (leBytes 8 sto ++ (leBytes 4 rg ++ (leBytes 8 rw_ ++ (leBytes 1 cp ++ Z))))) 32 8 sro (by simp [leBytes_length]) h8
  have a9 := field_mid (leBytes 4 crc ++ leBytes 4 cd ++ leBytes 4 mg ++ leBytes 4 ve ++ leBytes 4 sz ++ leBytes 4 so ++ leBytes 8 sr ++ leBytes 8 sro) (leBytes 8 sto ++ (leBytes 4 rg ++ (leBytes 8 rw_ ++ (leBytes 1 cp ++ Z)))) 40 8 st (by simp [leBytes_length]) h9
  have a10 := field_mid (leBytes 4 crc ++ leBytes 4 cd ++ leBytes 4 mg ++ leBytes 4 ve ++ leBytes 4 sz ++ leBytes 4 so ++ leBytes 8 sr ++ leBytes 8 sro ++ leBytes 8 st) (leBytes 4 rg ++ (leBytes 8 rw_ ++ (leBytes 1 cp ++ Z))) 48 8 sto (by simp [leBytes_length]) h10
  have a11 := field_mid (leBytes 4 crc ++ leBytes 4 cd ++ leBytes 4 mg ++ leBytes 4 ve ++ leBytes 4 sz ++ leBytes 4 so ++ leBytes 8 sr ++ leBytes 8 sro ++ leBytes 8 st ++ leBytes 8 sto) (leBytes 8 rw_ ++ (leBytes 1 cp ++ Z)) 56 4 rg (by simp [leBytes_length]) h11
  have a12 := field_mid (leBytes 4 crc ++ leBytes 4 cd ++ leBytes 4 mg ++ leBytes 4 ve ++ leBytes 4 sz ++ leBytes 4 so ++ leBytes 8 sr ++ leBytes 8 sro ++ leBytes 8 st ++ leBytes 8 sto ++ leBytes 4 rg) (leBytes 1 cp ++ Z) 60 8 rw_ (by simp [leBytes_length]) h12
  have a13 := field_mid (leBytes 4 crc ++ leBytes 4 cd ++ leBytes 4 mg ++ leBytes 4 ve ++ leBytes 4 sz ++ leBytes 4 so ++ leBytes 8 sr ++ leBytes 8 sro ++ leBytes 8 st ++ leBytes 8 sto ++ leBytes 4 rg ++ leBytes 8 rw_) Z 68 1 cp (by simp [leBytes_length]) (by omega)
  simp only [List.append_assoc, List.nil_append] at a1 a2 a3 a4 a5 a6 a7 a8 a9 a10 a11 a12 a13
  rw [a1, a2, a3, a4, a5, a6, a7, a8, a9, a10, a11, a12, a13]
  rfl

/-- what is used of the checksum: it is a number of 32 bits, and does not see zero bytes at the beginning -/
def CrcOk (crc : Nat → Bytes → Nat) : Prop := ∀ bs, IsBytes bs → crc 0 bs < 2 ^ 32 ∧ crc 0 (leBytes 4 0 ++ bs) = crc 0 bs

theorem tail_isBytes (m : Meta) : IsBytes m.tail := by
  have ap : ∀ x y : Bytes, IsBytes x → IsBytes y → IsBytes (x ++ y) := fun x y hx hy b h => (List.mem_append.1 h).elim (hx b) (hy b)
  unfold Meta.tail
  repeat' apply ap
  all_goals first
    | exact leBytes_isBytes _ _
    | exact fun b h => by rw [List.eq_of_mem_replicate h]; decide

end Verif.Object.File
