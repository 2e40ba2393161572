import Verif.Row.Keys
set_option linter.unusedSimpArgs false
/-!
# Property theorems: rows and keys (C08, C09, C41 - C44)
-/
namespace Verif.Row
open Verif
open Verif.Json (ordInt)

/-! ## C08 -/

/-- a schema and values used to show that hypotheses are met: int64 key, nullable int16, text, uuid, vector;
one value is a placeholder and the key is an identity column -/
def sampleSchema : List Column :=
  [⟨.int64, true, true⟩, ⟨.int16, false, false⟩, ⟨.string, true, false⟩, ⟨.json, false, false⟩, ⟨.timestamp, true, false⟩]
def sampleVals : List Val := [.null, .null, .ref 0, .json (Json.enc (.arr [.int 5])), .int (-7)]
def sampleRefs : List Val := [.str [104, 105]]
def sampleXs : List Val := [.int 42, .null, .str [104, 105], .json (Json.enc (.arr [.int 5])), .int (-7)]

theorem sample_acceptable : ∀ cv ∈ sampleSchema.zip sampleVals, Acceptable sampleRefs (.int 42) cv := by
  intro cv h
  simp only [sampleSchema, sampleVals, List.zip_cons_cons, List.zip_nil_right, List.mem_cons, List.not_mem_nil, or_false] at h
  rcases h with rfl | rfl | rfl | rfl | rfl
  · exact ⟨.int 42, rfl, Or.inr (by simp [Typed]), by simp [Ty.size]⟩
  · exact ⟨.null, rfl, Or.inl ⟨rfl, rfl, rfl⟩, by simp⟩
  · exact ⟨.str [104, 105], rfl, Or.inr (by simp [Typed, IsBytes]), by simp⟩
  · exact ⟨_, rfl, Or.inr ⟨.arr [.int 5], by simp [Json.WF, Json.WFList], rfl⟩, by simp⟩
  · exact ⟨_, rfl, Or.inr (by simp [Typed]), by simp⟩

/-- **C08**: creating a row from acceptable values always succeeds (no matter what the allocated memory held
before), never touching memory outside of the block. -/
theorem C08_create (fresh : Nat → Bytes) (hfr : ∀ n, (fresh n).length = n) (refs : List Val) (identity : Val)
    (cols : List (Column × Val)) (h : ∀ cv ∈ cols, Acceptable refs identity cv) :
    ∃ row, rowCreate fresh refs identity cols = .ok row := by
  obtain ⟨cells, h1, _⟩ := rowCreate_ok fresh hfr refs identity cols h
  exact ⟨_, h1⟩

/-- **C08**: a NULL for a NOT NULL column is rejected. -/
theorem C08_not_null (refs : List Val) (identity : Option Val) (c : Column) (v : Val)
    (hv : deref refs v = .ok .null) (hn : c.notNull = true) (hi : c.identity = false) :
    encode refs identity c v = .error .err := by
  simp [encode, hv, hn, hi, bind, Except.bind]

/-- **C08**: column i of a stored row holds exactly the bytes of its value, or is NULL exactly when the value
is NULL, whatever memory follows the row. -/
theorem C08_column (schema : List Column) (xs : List Val) (mem : Bytes) (h : StoredRow schema xs mem)
    (i : Nat) (c : Column) (x : Val) (hc : schema[i]? = some c) (hx : xs[i]? = some x) :
    (x = .null → rowAt mem i = .ok none) ∧
    (x ≠ .null → ∃ off bs rest, encodeTy c.ty x = .ok bs ∧ rowAt mem i = .ok (some off) ∧ mem.drop off = bs ++ rest) := by
  obtain ⟨cells, rest, hm, hl, hl2, hsz, hcells⟩ := storedRow_cells schema xs mem h
  obtain ⟨cell, h1, h2⟩ := hcells i c x hc hx
  have hr := rowAt_layout cells hl2 hsz rest i cell h1
  rw [← hm] at hr
  rcases h2 with ⟨rfl, rfl⟩ | ⟨bs, ht, he, rfl⟩
  · exact ⟨fun _ => hr, fun hne => absurd rfl hne⟩
  · have hd := drop_layout cells rest i bs h1
    rw [← hm] at hd
    exact ⟨fun e => absurd e (typed_ne_null _ _ ht), fun _ => ⟨_, bs, _, he, hr, hd⟩⟩

/-- **C08**: reading column i of a stored row gives the value it was built from.  (`narrow` is the identity
except for integers outside of the range of an int8/int16/int32 column: see C42.) -/
theorem C08_read_back (schema : List Column) (xs : List Val) (mem : Bytes) (h : StoredRow schema xs mem)
    (i : Nat) (c : Column) (x : Val) (hc : schema[i]? = some c) (hx : xs[i]? = some x) :
    readColumn mem i c.ty = .ok (narrow c.ty x) := by
  obtain ⟨cells, rest, hm, hl, hl2, hsz, hcells⟩ := storedRow_cells schema xs mem h
  obtain ⟨cell, h1, h2⟩ := hcells i c x hc hx
  rw [hm]
  exact readColumn_layout cells hl2 hsz rest i cell h1 c.ty x h2

/-- **C08**: a column beyond the stored ones (added to the table later) reads as NULL. -/
theorem C08_missing_column (schema : List Column) (xs : List Val) (mem : Bytes) (h : StoredRow schema xs mem)
    (i : Nat) (hi : schema.length ≤ i) (ty : Ty) : readColumn mem i ty = .ok .null := by
  obtain ⟨cells, rest, hm, hl, hl2, hsz, hcells⟩ := storedRow_cells schema xs mem h
  unfold readColumn
  rw [hm, rowAt_out cells hl2 rest i (by omega)]
  rfl

/-- **C08**: the recorded size is the number of bytes of the row, the column count is the schema's, and the
row is not marked as deleted. -/
theorem C08_size (fresh : Nat → Bytes) (hfr : ∀ n, (fresh n).length = n) (refs : List Val) (identity : Val)
    (cols : List (Column × Val)) (h : ∀ cv ∈ cols, Acceptable refs identity cv) (row rest : Bytes)
    (hrow : rowCreate fresh refs identity cols = .ok row) (hn : cols.length < 65536) (hsz : row.length < 2 ^ 31) :
    rowSize (row ++ rest) = .ok row.length ∧ rowColumns (row ++ rest) = .ok cols.length ∧
      rowIsDelete (row ++ rest) = .ok false := by
  obtain ⟨cells, h1, h2, _⟩ := rowCreate_ok fresh hfr refs identity cols h
  rw [h1] at hrow
  simp at hrow
  subst hrow
  rw [layout_length] at hsz
  rw [layout_length]
  unfold layout
  rcases hm : rowMeasure cells.length (dat cells).length with ⟨f, s⟩
  obtain ⟨hs', hw, hf, hlt⟩ := rowMeasure_spec _ _ _ _ hm
  rw [hm] at hsz
  simp only [List.append_assoc]
  exact ⟨rowSize_hdr _ _ _ hf (hlt hsz) _, by rw [rowColumns_hdr _ _ _ (by omega), h2], rowIsDelete_hdr _ _ _ hf _⟩

/-- the sample row exists: hypotheses of the C08 theorems are met -/
theorem sample_stored : ∃ mem, StoredRow sampleSchema sampleXs mem := by
  obtain ⟨row, hrow⟩ := C08_create (fun n => List.replicate n 255) (by simp) sampleRefs (.int 42)
    (sampleSchema.zip sampleVals) sample_acceptable
  refine ⟨row ++ [1, 2, 3], _, sampleRefs, .int 42, sampleVals, row, [1, 2, 3], ?_, rfl, sample_acceptable, hrow, rfl, by decide, ?_, rfl, ?_⟩
  · simp
  · have : rowCreate (fun n => List.replicate n 255) sampleRefs (.int 42) (sampleSchema.zip sampleVals) =
      .ok [0, 5, 0, 31, 9, 0, 17, 20, 23, 42, 0, 0, 0, 0, 0, 0, 0, 44, 104, 105, 80, 10, 81, 249, 255, 255, 255, 255, 255, 255, 255] := by
      decide
    rw [this] at hrow
    simp at hrow
    subst hrow
    decide
  · intro i c v x hc hv hx
    match i with
    | 0 => simp [sampleSchema, sampleVals, sampleXs] at hc hv hx; subst hc hv hx; rfl
    | 1 => simp [sampleSchema, sampleVals, sampleXs] at hc hv hx; subst hc hv hx; rfl
    | 2 => simp [sampleSchema, sampleVals, sampleXs] at hc hv hx; subst hc hv hx; rfl
    | 3 => simp [sampleSchema, sampleVals, sampleXs] at hc hv hx; subst hc hv hx; rfl
    | 4 => simp [sampleSchema, sampleVals, sampleXs] at hc hv hx; subst hc hv hx; rfl
    | n + 5 => simp [sampleSchema] at hc

/-! ## C42: integer columns -/

/-- **C42**, what holds: an integer in the range of its column type is stored and read back unchanged, and so
are all values of the other types.  Missing: integers outside of the range are not rejected (next theorem). -/
theorem C42_in_range_partial (schema : List Column) (xs : List Val) (mem : Bytes) (h : StoredRow schema xs mem)
    (i : Nat) (c : Column) (x : Val) (hc : schema[i]? = some c) (hx : xs[i]? = some x) (hr : InRange c.ty x) :
    readColumn mem i c.ty = .ok x := by
  rw [C08_read_back schema xs mem h i c x hc hx, narrow_inRange _ _ hr]

/-- a single int8 column -/
theorem int8_row (v : Int) (hv : -(2 ^ 63) ≤ v ∧ v < 2 ^ 63) :
    ∃ row, rowCreate (fun n => List.replicate n 0) [] (.int 0) [(⟨.int8, false, false⟩, .int v)] = .ok row ∧
      StoredRow [⟨.int8, false, false⟩] [.int v] row := by
  have hacc : ∀ cv ∈ [(⟨.int8, false, false⟩, Val.int v)], Acceptable [] (.int 0) cv := by
    intro cv h
    simp at h
    subst h
    exact ⟨.int v, rfl, Or.inr (by simpa [Typed] using hv), by simp⟩
  obtain ⟨cells, h1, h2, h3⟩ := rowCreate_ok (fun n => List.replicate n 0) (by simp) [] (.int 0) _ hacc
  refine ⟨_, h1, (fun n => List.replicate n 0), [], .int 0, [.int v], layout cells, [], by simp, rfl, hacc, h1, by simp, by simp, ?_, rfl, ?_⟩
  · obtain ⟨cell, e1, e2⟩ := h3 0 _ _ (.int v) rfl rfl
    rcases e2 with ⟨e, _⟩ | ⟨bs, _, e, rfl⟩
    · simp at e
    · simp [encodeTy] at e
      match cells, h2 with
      | [c], _ =>
        simp at e1
        subst e1 e
        rw [layout_length]
        simp [dat, leBytes_length, rowMeasure]
  · intro i c w x hc hw hx
    match i with
    | 0 => simp at hc hw hx; subst hc hw hx; rfl
    | n + 1 => simp at hc

/-- **C42** (violated): INSERT of an integer that does not fit in the column is neither rejected nor kept:
300 stored in a TINYINT column reads back as 44 (value_data.h:84 truncates silently). -/
theorem C42_no_silent_truncation_false :
    ∃ (schema : List Column) (xs : List Val) (mem : Bytes) (x y : Int), StoredRow schema xs mem ∧
      xs[0]? = some (.int x) ∧ readColumn mem 0 .int8 = .ok (.int y) ∧ x ≠ y := by
  obtain ⟨row, _, h⟩ := int8_row 300 (by omega)
  refine ⟨_, _, row, 300, 44, h, rfl, ?_, by decide⟩
  have := C08_read_back _ _ _ h 0 _ _ rfl rfl
  simpa [narrow, Int.bmod] using this

/-! ## C44: UPDATE of a row -/

/-- **C44**: for a row update with the SET list in column order (as the compiler emits it,
compiler/compiler/emit_update.c:50-80), a column in the list reads as its new value and every other column
reads exactly as before.  Missing: identity columns (see `C44_identity_false`). -/
theorem C44_update_partial (fresh : Nat → Bytes) (hfr : ∀ n, (fresh n).length = n)
    (schema : List Column) (xs : List Val) (mem : Bytes) (h : StoredRow schema xs mem) (upd : List (Nat × Val))
    (hsort : upd.Pairwise (fun a b => a.1 < b.1))
    (hu : ∀ (i : Nat) (c : Column) (v : Val), schema[i]? = some c → (i, v) ∈ upd → Updatable c v) :
    ∃ row, rowUpdate fresh mem schema upd = .ok row ∧
      (row.length < 2 ^ 31 → ∀ (rest : Bytes) (i : Nat) (c : Column), schema[i]? = some c →
        (∀ v, (i, v) ∈ upd → readColumn (row ++ rest) i c.ty = .ok (narrow c.ty v)) ∧
        ((∀ v, (i, v) ∉ upd) → readColumn (row ++ rest) i c.ty = readColumn mem i c.ty)) := by
  obtain ⟨cells, rest0, hm, hl, hl2, hsz, hcells⟩ := storedRow_cells schema xs mem h
  have hxl : xs.length = schema.length := by
    obtain ⟨_, _, _, _, _, _, _, _, _, _, _, _, _, hxl, _⟩ := h
    exact hxl
  have hx : ∀ (i : Nat) (c : Column), schema[i]? = some c → ∃ x, xs[i]? = some x := by
    intro i c hc
    have := (List.getElem?_eq_some_iff.1 hc).1
    exact ⟨xs[i], List.getElem?_eq_getElem (by omega)⟩
  obtain ⟨out, h1, h2, h3⟩ := updateCells_eq cells hl2 hsz rest0 schema 0 upd (by
      intro j c hc
      obtain ⟨x, hx⟩ := hx j c hc
      obtain ⟨cell, e1, e2⟩ := hcells j c x hc hx
      exact ⟨cell, x, by simpa using e1, e2⟩) hsort (by simp) (by
      intro j c v hc hm
      exact hu j c v hc (by simpa using hm))
  refine ⟨layout out, ?_, ?_⟩
  · unfold rowUpdate
    rw [hm, h1]
    simp only [bind, Except.bind]
    have := rowBuild_eq fresh hfr out
    rw [dat_length] at this
    exact this
  · intro hlen rest i c hc
    obtain ⟨cell, e1, e2⟩ := h3 i c hc
    simp only [Nat.zero_add] at e2
    obtain ⟨x, hx⟩ := hx i c hc
    constructor
    · intro v hv
      rcases e2 with ⟨w, hw, hcw⟩ | ⟨hn, _⟩
      · have hvw : v = w := by
          rcases List.getElem_of_mem hv with ⟨a, ha, hav⟩
          rcases List.getElem_of_mem hw with ⟨b, hb, hbw⟩
          rcases Nat.lt_trichotomy a b with hab | hab | hab
          · have := List.pairwise_iff_getElem.1 hsort a b ha hb hab
            rw [hav, hbw] at this; simp at this
          · subst hab; rw [hav] at hbw; simpa using hbw
          · have := List.pairwise_iff_getElem.1 hsort b a hb ha hab
            rw [hav, hbw] at this; simp at this
        subst hvw
        exact readColumn_layout out (by omega) hlen rest i cell e1 c.ty v hcw
      · exact absurd hv (hn v)
    · intro hn
      rcases e2 with ⟨w, hw, _⟩ | ⟨_, hcl⟩
      · exact absurd hw (hn w)
      · obtain ⟨cell', g1, g2⟩ := hcells i c x hc hx
        rw [hcl] at g1
        simp at g1
        subst g1
        rw [readColumn_layout out (by omega) hlen rest i cell e1 c.ty x g2, hm,
          readColumn_layout cells hl2 hsz rest0 i cell hcl c.ty x g2]

/-- the hypotheses are met by the sample row and `SET c1 = 9, c3 = NULL` -/
example : ∃ mem, StoredRow sampleSchema sampleXs mem ∧
    [(1, Val.int 9), (3, Val.null)].Pairwise (fun a b => a.1 < b.1) ∧
    ∀ (i : Nat) (c : Column) (v : Val), sampleSchema[i]? = some c → (i, v) ∈ [(1, Val.int 9), (3, Val.null)] → Updatable c v := by
  obtain ⟨mem, h⟩ := sample_stored
  refine ⟨mem, h, by simp, ?_⟩
  intro i c v hc hm
  simp at hm
  rcases hm with ⟨rfl, rfl⟩ | ⟨rfl, rfl⟩
  · simp [sampleSchema] at hc; subst hc; exact ⟨rfl, Or.inr (by simp [Typed])⟩
  · simp [sampleSchema] at hc; subst hc; exact ⟨rfl, Or.inl ⟨rfl, rfl⟩⟩

/-- **C44** (violated): `UPDATE ... SET id = 5` on an identity column (that is no key, so the compiler accepts
it) follows the NULL identity pointer (vm/value/row.c:246, value_data.h:62): undefined behaviour. -/
theorem C44_identity_false (fresh : Nat → Bytes) (mem : Bytes) (ty : Ty) :
    rowUpdate fresh mem [⟨ty, true, true⟩] [(0, .int 5)] = .error .ub := by
  simp [rowUpdate, updateCells, encode, deref, bind, Except.bind]

/-! ## C09: key comparison -/

/-- **C09**: comparing two stored rows by key columns gives the lexicographic order of their key values:
negative, zero or positive as the first row's key is less, equal or greater. -/
theorem C09_lexicographic (schema : List Column) (keys : List Key) (hk : KeysOf schema keys) (xs ys : List Val)
    (a b : Bytes) (ha : StoredRow schema xs a) (hb : StoredRow schema ys b) :
    compare keys a b = .ok (ordInt (keyOrder (narrowKeys keys (keyVals keys xs)) (narrowKeys keys (keyVals keys ys)))) :=
  compare_eq keys _ _ a b (keyRow_stored schema keys hk xs a ha) (keyRow_stored schema keys hk ys b hb)

/-- **C09**: the comparison is defined on all stored rows and is a total preorder: reflexive, antisymmetric in
sign (swapping the rows negates the result) and transitive. -/
theorem C09_total_order (schema : List Column) (keys : List Key) (hk : KeysOf schema keys) (xs ys zs : List Val)
    (a b c : Bytes) (ha : StoredRow schema xs a) (hb : StoredRow schema ys b) (hc : StoredRow schema zs c) :
    compare keys a a = .ok 0 ∧
    (∃ n, compare keys a b = .ok n ∧ compare keys b a = .ok (-n)) ∧
    (∀ n m, compare keys a b = .ok n → compare keys b c = .ok m → n ≤ 0 → m ≤ 0 →
      ∃ k, compare keys a c = .ok k ∧ k ≤ 0 ∧ (k = 0 → n = 0 ∧ m = 0)) := by
  have ka := keyRow_stored schema keys hk xs a ha
  have kb := keyRow_stored schema keys hk ys b hb
  have kc := keyRow_stored schema keys hk zs c hc
  refine ⟨?_, ?_, ?_⟩
  · rw [compare_eq keys _ _ a a ka ka, keyOrder_eq keys _ _ a a ka ka]
    simp [Std.compare_self, ordInt]
  · refine ⟨_, compare_eq keys _ _ a b ka kb, ?_⟩
    rw [compare_eq keys _ _ b a kb ka, keyOrder_eq keys _ _ a b ka kb, keyOrder_eq keys _ _ b a kb ka]
    have hs : Ord.compare ((narrowKeys keys (keyVals keys ys)).map sortKey) ((narrowKeys keys (keyVals keys xs)).map sortKey) =
      (Ord.compare ((narrowKeys keys (keyVals keys xs)).map sortKey) ((narrowKeys keys (keyVals keys ys)).map sortKey)).swap :=
      Std.OrientedOrd.eq_swap
    rw [hs]
    generalize Ord.compare ((narrowKeys keys (keyVals keys xs)).map sortKey) ((narrowKeys keys (keyVals keys ys)).map sortKey) = o
    cases o <;> simp [ordInt]
  · intro n m h1 h2 hn hm
    rw [compare_eq keys _ _ a b ka kb, keyOrder_eq keys _ _ a b ka kb] at h1
    rw [compare_eq keys _ _ b c kb kc, keyOrder_eq keys _ _ b c kb kc] at h2
    rw [compare_eq keys _ _ a c ka kc, keyOrder_eq keys _ _ a c ka kc]
    refine ⟨_, rfl, ?_⟩
    generalize (narrowKeys keys (keyVals keys xs)).map sortKey = p at *
    generalize (narrowKeys keys (keyVals keys ys)).map sortKey = q at *
    generalize (narrowKeys keys (keyVals keys zs)).map sortKey = r at *
    simp only [Except.ok.injEq] at h1 h2
    have l1 : (Ord.compare p q).isLE := by
      cases h : Ord.compare p q <;> simp_all [ordInt, Ordering.isLE]; omega
    have l2 : (Ord.compare q r).isLE := by
      cases h : Ord.compare q r <;> simp_all [ordInt, Ordering.isLE]; omega
    have l3 := Std.TransOrd.isLE_trans l1 l2
    constructor
    · cases h : Ord.compare p r <;> simp_all [ordInt, Ordering.isLE]
    · intro h0
      have hpr : p = r := Std.LawfulEqOrd.eq_of_compare ((Json.ordInt_zero _).1 h0)
      subst hpr
      have hs : Ord.compare q p = (Ord.compare p q).swap := Std.OrientedOrd.eq_swap
      rw [← h1, ← h2, hs]
      rw [hs] at l2
      cases h : Ord.compare p q <;> simp_all [ordInt, Ordering.isLE]

/-- **C09**: two stored rows compare equal exactly when all their key columns hold the same values. -/
theorem C09_equal_iff (schema : List Column) (keys : List Key) (hk : KeysOf schema keys) (xs ys : List Val)
    (a b : Bytes) (ha : StoredRow schema xs a) (hb : StoredRow schema ys b) :
    compare keys a b = .ok 0 ↔ ∀ k ∈ keys, readColumn a k.col k.ty = readColumn b k.col k.ty := by
  have ka := keyRow_stored schema keys hk xs a ha
  have kb := keyRow_stored schema keys hk ys b hb
  rw [compare_eq keys _ _ a b ka kb]
  simp only [Except.ok.injEq, Json.ordInt_zero]
  rw [keyOrder_eq_iff keys _ _ a b ka kb]
  have hread : ∀ (zs : List Val) (m : Bytes), StoredRow schema zs m → ∀ k ∈ keys,
      readColumn m k.col k.ty = .ok (narrow k.ty ((zs[k.col]?).getD .null)) := by
    intro zs m hm k hkk
    obtain ⟨_, c, hc, hct, _⟩ := hk k hkk
    have hzl : zs.length = schema.length := by
      obtain ⟨_, _, _, _, _, _, _, _, _, _, _, _, _, hxl, _⟩ := hm
      exact hxl
    have hi := (List.getElem?_eq_some_iff.1 hc).1
    have hz : zs[k.col]? = some zs[k.col] := List.getElem?_eq_getElem (by omega)
    have := C08_read_back schema zs m hm k.col c _ hc hz
    rw [hct] at this
    rw [this, hz]; rfl
  have hn : ∀ (l : List Key) (zs : List Val), narrowKeys l (keyVals l zs) = l.map (fun k => narrow k.ty ((zs[k.col]?).getD .null)) := by
    intro l zs
    induction l with
    | nil => rfl
    | cons k ks ih => simp only [narrowKeys, keyVals, List.map_cons, List.zip_cons_cons] at ih ⊢; rw [ih]
  rw [hn, hn, List.map_inj_left]
  constructor
  · intro h k hkk
    rw [hread xs a ha k hkk, hread ys b hb k hkk, h k hkk]
  · intro h k hkk
    have := h k hkk
    rw [hread xs a ha k hkk, hread ys b hb k hkk] at this
    simpa using this

/-- a composite key (text, timestamp) of the sample schema -/
def sampleKeys : List Key := [⟨2, .string⟩, ⟨4, .timestamp⟩, ⟨0, .int64⟩]

example : KeysOf sampleSchema sampleKeys := by
  intro k hk
  simp [sampleKeys] at hk
  rcases hk with rfl | rfl | rfl
  · exact ⟨by simp [KeyTy], _, rfl, rfl, by simp⟩
  · exact ⟨by simp [KeyTy], _, rfl, rfl, by simp⟩
  · exact ⟨by simp [KeyTy], _, rfl, rfl, by simp⟩

/-! ## C41: routing -/

/-- **C41**: the hash by which an INSERT is routed (computed from the values, placeholders and identity), the
hash of the stored row, and the hash by which a lookup with the key's values is routed are the same number;
so (with C31) all three go to the same partition. -/
theorem C41_routing (fresh : Nat → Bytes) (hfr : ∀ n, (fresh n).length = n) (refs : List Val) (identity : Val)
    (schema : List Column) (vals xs : List Val) (keys : List Key) (row rest : Bytes)
    (hacc : ∀ cv ∈ schema.zip vals, Acceptable refs identity cv) (hl : vals.length = schema.length)
    (hrow : rowCreate fresh refs identity (schema.zip vals) = .ok row) (hn : schema.length < 65536)
    (hsz : row.length < 2 ^ 31) (hxl : xs.length = schema.length)
    (hx : ∀ (i : Nat) (c : Column) (v x : Val), schema[i]? = some c → vals[i]? = some v → xs[i]? = some x →
      given refs identity c v = .ok x)
    (hid : ∀ (i : Nat) (c : Column) (v w : Val), schema[i]? = some c → vals[i]? = some v → c.identity = true →
      deref refs v = .ok w → w ≠ .null → identity = w)
    (hk : KeysOf schema keys) (seed : Nat) :
    ∃ n, valueHashRow refs identity keys (schema.zip vals) seed = .ok n ∧
      rowHash keys (row ++ rest) seed = .ok n ∧ valueHashKeys keys (keyVals keys xs) seed = .ok n := by
  have hst : StoredRow schema xs (row ++ rest) :=
    ⟨fresh, refs, identity, vals, row, rest, hfr, hl, hacc, hrow, rfl, hn, hsz, hxl, hx⟩
  obtain ⟨n, h1, h2⟩ := rowHash_eq keys _ _ (keyRow_stored schema keys hk xs _ hst) seed
  refine ⟨n, ?_, h1, h2⟩
  clear h1
  induction keys generalizing seed with
  | nil => simpa [valueHashRow, valueHashKeys] using h2
  | cons k ks ih =>
    obtain ⟨hty, c, hc, hct, hnn⟩ := hk k (by simp)
    have hi := (List.getElem?_eq_some_iff.1 hc).1
    have hv : vals[k.col]? = some vals[k.col] := List.getElem?_eq_getElem (by omega)
    have hxx : xs[k.col]? = some xs[k.col] := List.getElem?_eq_getElem (by omega)
    have hg := hx _ _ _ _ hc hv hxx
    have hz : (schema.zip vals)[k.col]? = some (c, vals[k.col]) := by simp [List.getElem?_zip_eq_some, hc, hv]
    simp only [keyVals, List.map_cons, valueHashKeys, hxx, Option.getD_some, bind, Except.bind] at h2
    simp only [valueHashRow, hz, valueHashRefs, bind, Except.bind]
    unfold given at hg
    cases hd : deref refs vals[k.col] with
    | error e => rw [hd] at hg; simp at hg
    | ok w =>
      rw [hd] at hg
      simp only [Except.ok.injEq] at hg
      have hw : (if w = .null ∧ c.identity = true then identity else w) = xs[k.col] := by
        rw [← hg]
        cases hci : c.identity
        · simp
        · by_cases hwn : w = .null
          · simp [hwn]
          · simp [hwn, hid _ _ _ _ hc hv hci hd hwn]
      simp only [hw, hct]
      cases hb : valueHashBytes k.ty xs[k.col] with
      | error e => rw [hb] at h2; simp at h2
      | ok b =>
        rw [hb] at h2
        simp only at h2 ⊢
        exact ih (fun k hk' => hk k (by simp [hk'])) _ h2

/-! ## C43: search keys -/

/-- **C43**: a search key made of values for the first key columns compares with a stored row as those
values compare with the row's, when values for all key columns are given. -/
theorem C43_full_key (fresh : Nat → Bytes) (hfr : ∀ n, (fresh n).length = n) (schema : List Column) (keys : List Key)
    (hk : KeysOf schema keys) (hnd : (keys.map Key.col).Nodup) (hn : schema.length < 65536) (values : List Val)
    (hl : values.length = keys.length)
    (hv : ∀ (o : Nat) (k : Key) (v : Val), keys[o]? = some k → values[o]? = some v → Typed k.ty v)
    (xs : List Val) (mem : Bytes) (h : StoredRow schema xs mem) :
    ∃ key, rowCreateKey fresh schema.length keys values = .ok key ∧ (key.length < 2 ^ 31 →
      compare keys key mem = .ok (ordInt (keyOrder (narrowKeys keys values) (narrowKeys keys (keyVals keys xs))))) := by
  have hkl : KeyList schema.length keys := ⟨fun k hkk => by
    obtain ⟨h1, c, hc, _⟩ := hk k hkk
    exact ⟨h1, (List.getElem?_eq_some_iff.1 hc).1⟩, hnd⟩
  obtain ⟨row, h1, h2⟩ := rowCreateKey_ok fresh hfr schema.length keys hkl values (by omega) hv hn
  refine ⟨row, h1, fun hlen => ?_⟩
  have hp : padKeys keys values = values := by simp [padKeys, hl]
  have := h2 hlen []
  rw [hp, List.append_nil] at this
  exact compare_eq keys _ _ _ _ this (keyRow_stored schema keys hk xs mem h)

theorem prefix_le (ks : List Key) (vs xs : List Val) (hk : ∀ k ∈ ks, KeyTy k.ty)
    (hx : xs.length = ks.length) (hl : vs.length ≤ ks.length)
    (ht : ∀ (o : Nat) (k : Key) (x : Val), ks[o]? = some k → xs[o]? = some x → Typed k.ty x ∧
      (k.ty = .timestamp → ∀ i, x = .int i → 0 ≤ i))
    (heq : ∀ (o : Nat) (k : Key) (v x : Val), ks[o]? = some k → vs[o]? = some v → xs[o]? = some x →
      narrow k.ty v = narrow k.ty x) :
    keyOrder (narrowKeys ks (padKeys ks vs)) (narrowKeys ks xs) ≠ .gt := by
  induction ks generalizing vs xs with
  | nil => simp [narrowKeys, keyOrder]
  | cons k ks ih =>
    cases xs with
    | nil => simp at hx
    | cons x xs =>
      cases vs with
      | nil =>
        have ih := ih [] xs (fun k hk' => hk k (by simp [hk'])) (by simpa using hx) (by simp)
          (fun o k x h1 h2 => ht (o + 1) k x (by simpa using h1) (by simpa using h2)) (by simp)
        simp only [padKeys, List.length_nil, List.drop_zero, List.nil_append, List.map_cons, narrowKeys,
          List.zip_cons_cons, keyOrder] at ih ⊢
        obtain ⟨t1, t2⟩ := ht 0 k x rfl rfl
        have hm := min_le k.ty (hk k (by simp)) x t1 t2
        have hnm : narrow k.ty (minVal k.ty) = minVal k.ty := by
          rcases hk k (by simp) with e | e | e | e | e <;> rw [e] <;> simp [narrow, minVal, Int.bmod]
        rw [hnm]
        cases hv : valOrder (minVal k.ty) (narrow k.ty x) <;> simp_all [Ordering.then]
      | cons v vs =>
        have ih := ih vs xs (fun k hk' => hk k (by simp [hk'])) (by simpa using hx) (by simpa using hl)
          (fun o k x h1 h2 => ht (o + 1) k x (by simpa using h1) (by simpa using h2))
          (fun o k v x h1 h2 h3 => heq (o + 1) k v x (by simpa using h1) (by simpa using h2) (by simpa using h3))
        have e0 := heq 0 k v x rfl rfl rfl
        simp only [padKeys, List.length_cons, List.drop_succ_cons, List.cons_append, narrowKeys,
          List.zip_cons_cons, List.map_cons, keyOrder] at ih ⊢
        have ht0 := (ht 0 k x rfl rfl).1
        have hty := hk k (by simp)
        have hs := valOrder_eq _ _ (typed_sameKind k.ty _ _ hty (typed_narrow _ _ hty ht0) (typed_narrow _ _ hty ht0))
        rw [e0, hs, Std.compare_self]
        simpa [Ordering.then] using ih

/-- **C43**, what holds: a search key for a prefix of the key columns is at or before every stored row with
those prefix values, so a range scan started there misses none of them - provided that the timestamp key
columns of the row are not before 1970.  Missing: timestamps before the epoch (next theorem). -/
theorem C43_prefix_partial (fresh : Nat → Bytes) (hfr : ∀ n, (fresh n).length = n) (schema : List Column) (keys : List Key)
    (hk : KeysOf schema keys) (hnd : (keys.map Key.col).Nodup) (hn : schema.length < 65536) (values : List Val)
    (hl : values.length ≤ keys.length)
    (hv : ∀ (o : Nat) (k : Key) (v : Val), keys[o]? = some k → values[o]? = some v → Typed k.ty v)
    (xs : List Val) (mem : Bytes) (h : StoredRow schema xs mem)
    (heq : ∀ (o : Nat) (k : Key) (v : Val), keys[o]? = some k → values[o]? = some v →
      readColumn mem k.col k.ty = .ok (narrow k.ty v))
    (hts : ∀ k ∈ keys, k.ty = .timestamp → ∀ i, readColumn mem k.col k.ty = .ok (.int i) → 0 ≤ i) :
    ∃ key, rowCreateKey fresh schema.length keys values = .ok key ∧
      (key.length < 2 ^ 31 → ∃ n, compare keys key mem = .ok n ∧ n ≤ 0) := by
  have hkl : KeyList schema.length keys := ⟨fun k hkk => by
    obtain ⟨h1, c, hc, _⟩ := hk k hkk
    exact ⟨h1, (List.getElem?_eq_some_iff.1 hc).1⟩, hnd⟩
  obtain ⟨row, h1, h2⟩ := rowCreateKey_ok fresh hfr schema.length keys hkl values hl hv hn
  refine ⟨row, h1, fun hlen => ?_⟩
  have hkr := h2 hlen []
  rw [List.append_nil] at hkr
  have hks := keyRow_stored schema keys hk xs mem h
  refine ⟨_, compare_eq keys _ _ _ _ hkr hks, ?_⟩
  have hread : ∀ (o : Nat) (k : Key) (x : Val), keys[o]? = some k → (keyVals keys xs)[o]? = some x →
      Typed k.ty x ∧ readColumn mem k.col k.ty = .ok (narrow k.ty x) := by
    intro o k x ho hxo
    have hkk := List.mem_of_getElem? ho
    obtain ⟨hty, c, hc, hct, hnn⟩ := hk k hkk
    have hzl : xs.length = schema.length := by
      obtain ⟨_, _, _, _, _, _, _, _, _, _, _, _, _, hxl, _⟩ := h
      exact hxl
    have hi := (List.getElem?_eq_some_iff.1 hc).1
    have hz : xs[k.col]? = some xs[k.col] := List.getElem?_eq_getElem (by omega)
    have hxe : x = xs[k.col] := by
      simp only [keyVals, List.getElem?_map, ho, Option.map_some, hz, Option.getD_some, Option.some.injEq] at hxo
      exact hxo.symm
    subst hxe
    have hr := C08_read_back schema xs mem h k.col c _ hc hz
    obtain ⟨cells, rest, hm, _, _, _, hcells⟩ := storedRow_cells schema xs mem h
    obtain ⟨cell, _, e2⟩ := hcells k.col c _ hc hz
    obtain ⟨bs, ht, _⟩ := cellOf_typed _ _ _ e2 (storedRow_ne_null schema xs mem h k.col c _ hc hz hnn)
    rw [hct] at hr ht
    exact ⟨ht, hr⟩
  have := prefix_le keys values (keyVals keys xs) (fun k hk' => (hk k hk').1) (by simp [keyVals]) hl
    (by
      intro o k x ho hxo
      obtain ⟨t1, t2⟩ := hread o k x ho hxo
      refine ⟨t1, fun e i hi => ?_⟩
      subst hi
      refine hts k (List.mem_of_getElem? ho) e i ?_
      rw [t2, e]; rfl)
    (by
      intro o k v x ho hvo hxo
      have e1 := heq o k v ho hvo
      rw [(hread o k x ho hxo).2] at e1
      simpa using e1.symm)
  cases hc : keyOrder (narrowKeys keys (padKeys keys values)) (narrowKeys keys (keyVals keys xs)) <;>
    simp_all [ordInt]

/-- **C43** (violated): the sample row has the timestamp key column -7 (before 1970); the search key for its
text value alone starts after the row (row.c:129-132 pads timestamps with 0), so a scan misses it. -/
theorem C43_prefix_false : ∃ (mem key : Bytes), StoredRow sampleSchema sampleXs mem ∧
    rowCreateKey (fun n => List.replicate n 0) 5 [⟨2, .string⟩, ⟨4, .timestamp⟩] [.str [104, 105]] = .ok key ∧
    readColumn mem 2 .string = .ok (.str [104, 105]) ∧
    compare [⟨2, .string⟩, ⟨4, .timestamp⟩] key mem = .ok 1 := by
  obtain ⟨mem, h⟩ := sample_stored
  have hk : KeysOf sampleSchema [⟨2, .string⟩, ⟨4, .timestamp⟩] := by
    intro k hk
    simp at hk
    rcases hk with rfl | rfl
    · exact ⟨by simp [KeyTy], _, rfl, rfl, by simp⟩
    · exact ⟨by simp [KeyTy], _, rfl, rfl, by simp⟩
  have hkl : KeyList 5 [⟨2, .string⟩, ⟨4, .timestamp⟩] := by
    constructor
    · intro k hk
      simp at hk
      rcases hk with rfl | rfl <;> simp [KeyTy]
    · simp
  have hr : rowCreateKey (fun n => List.replicate n 0) 5 [⟨2, .string⟩, ⟨4, .timestamp⟩] [.str [104, 105]] =
      .ok [0, 5, 0, 20, 0, 0, 9, 0, 12, 44, 104, 105, 0, 0, 0, 0, 0, 0, 0, 0] := by decide
  obtain ⟨row, h1, h2⟩ := rowCreateKey_ok (fun n => List.replicate n 0) (by simp) 5 [⟨2, .string⟩, ⟨4, .timestamp⟩] hkl
    [.str [104, 105]] (by simp) (by
      intro o k v ho hv
      match o with
      | 0 => simp at ho hv; subst ho hv; simp [Typed, IsBytes]
      | n + 1 => simp at hv) (by simp)
  rw [hr] at h1
  simp at h1
  subst h1
  refine ⟨mem, _, h, hr, C08_read_back _ _ _ h 2 _ _ rfl rfl, ?_⟩
  have hkr := h2 (by decide) []
  rw [List.append_nil] at hkr
  rw [compare_eq _ _ _ _ _ hkr (keyRow_stored sampleSchema _ hk sampleXs mem h)]
  decide

end Verif.Row
