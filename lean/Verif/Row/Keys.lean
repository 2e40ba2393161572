import Verif.Row.Values
import Verif.Json.Compare
set_option linter.unusedSimpArgs false
namespace Verif.Row
open Verif
open Verif.Json (ordInt cmpInt_eq cmpStr_eq ordInt_zero)

/-! ### Specification of the key order -/

/-- types a key column can have, compiler/parser/parse_table.c:35-41 and 141-147 -/
def KeyTy (ty : Ty) : Prop := ty = .int32 ∨ ty = .int64 ∨ ty = .timestamp ∨ ty = .string ∨ ty = .uuid

/-- order of two values of one key type: numeric, bytewise lexicographic, uuid as a 128-bit pair -/
def valOrder : Val → Val → Ordering
  | .int i, .int j => Ord.compare i j
  | .str s, .str t => Ord.compare s t
  | .uuid a b, .uuid c d => (Ord.compare a c).then (Ord.compare b d)
  | _, _ => .eq

/-- lexicographic order of key tuples -/
def keyOrder : List Val → List Val → Ordering
  | x :: xs, y :: ys => (valOrder x y).then (keyOrder xs ys)
  | _, _ => .eq

/-! ### proofs -/

def sortKey : Val → List Int
  | .int i => [i]
  | .str s => s.map Int.ofNat
  | .uuid a b => [(a : Int), (b : Int)]
  | _ => []

theorem cmp_map (s t : Bytes) : Ord.compare (s.map Int.ofNat) (t.map Int.ofNat) = Ord.compare s t := by
  induction s generalizing t with
  | nil => cases t <;> rfl
  | cons x s ih =>
    cases t with
    | nil => rfl
    | cons y t =>
      simp only [List.map_cons, Json.cmp_cons, ih]
      congr 1
      rcases Nat.lt_trichotomy x y with h | h | h
      · rw [Json.cmpInt_lt (by simpa using h), Nat.compare_eq_lt.2 h]
      · subst h; simp [Std.compare_self]
      · rw [Json.cmpInt_gt (by simpa using h), Nat.compare_eq_gt.2 h]

theorem cmp_nat (x y : Nat) : Ord.compare (x : Int) (y : Int) = Ord.compare x y := by
  rcases Nat.lt_trichotomy x y with h | h | h
  · rw [Json.cmpInt_lt (by omega), Nat.compare_eq_lt.2 h]
  · subst h; simp [Std.compare_self]
  · rw [Json.cmpInt_gt (by omega), Nat.compare_eq_gt.2 h]

/-- same kind of value -/
def SameKind (x y : Val) : Prop :=
  (∃ i j, x = .int i ∧ y = .int j) ∨ (∃ s t, x = .str s ∧ y = .str t) ∨ (∃ a b c d, x = .uuid a b ∧ y = .uuid c d)

theorem valOrder_eq (x y : Val) (h : SameKind x y) : valOrder x y = Ord.compare (sortKey x) (sortKey y) := by
  rcases h with ⟨i, j, rfl, rfl⟩ | ⟨s, t, rfl, rfl⟩ | ⟨a, b, c, d, rfl, rfl⟩
  · simp [valOrder, sortKey, Json.cmp_cons]
  · simp only [valOrder, sortKey, cmp_map]
  · simp only [valOrder, sortKey, Json.cmp_cons, cmp_nat]
    cases Ord.compare a c <;> cases Ord.compare b d <;> rfl

theorem typed_narrow (ty : Ty) (x : Val) (hk : KeyTy ty) (h : Typed ty x) :
    Typed ty (narrow ty x) := by
  rcases hk with rfl | rfl | rfl | rfl | rfl <;> cases x <;> simp only [Typed] at h ⊢ <;>
    simp only [narrow, Typed] <;> try exact h
  rename_i i
  have h1 := Int.bmod_lt (x := i) (m := 4294967296) (by omega)
  have h2 := Int.le_bmod (x := i) (m := 4294967296) (by omega)
  simp at h1 h2
  omega

theorem typed_sameKind (ty : Ty) (x y : Val) (hk : KeyTy ty) (hx : Typed ty x) (hy : Typed ty y) : SameKind x y := by
  rcases hk with rfl | rfl | rfl | rfl | rfl <;> cases x <;> simp only [Typed] at hx <;> cases y <;>
    simp only [Typed] at hy <;> simp [SameKind]

theorem cmpKey_eq (ty : Ty) (hk : KeyTy ty) (x y : Val) (hx : Typed ty x) (hy : Typed ty y) (bx by' r s : Bytes)
    (ex : encodeTy ty x = .ok bx) (ey : encodeTy ty y = .ok by') :
    cmpKey ty (bx ++ r) (by' ++ s) = .ok (ordInt (valOrder (narrow ty x) (narrow ty y))) := by
  rcases hk with rfl | rfl | rfl | rfl | rfl <;> cases x <;> simp only [Typed] at hx <;> cases y <;>
    simp only [Typed] at hy <;> simp [encodeTy] at ex ey <;> subst ex <;> subst ey <;>
    simp only [cmpKey, Ty.size, if_pos, if_neg, narrow, valOrder, loadInt, readN_le, bind, Except.bind,
      List.append_assoc, reduceIte, Nat.reduceEqDiff, Nat.reduceMul, signed32, cmpInt_eq]
  · rw [signed64 _ hx.1 hx.2, signed64 _ hy.1 hy.2]
  · rw [signed64 _ hx.1 hx.2, signed64 _ hy.1 hy.2]
  · rw [Json.readRaw_write _ hx.2, Json.readRaw_write _ hy.2]
    simp only [cmpStr_eq, cmp_map]
  · rw [leNat_leBytes_of_lt (by omega), leNat_leBytes_of_lt (by omega)]
    simp only [cmp_nat, ne_eq, ordInt_zero]
    split
    · rename_i h
      rename_i p q u _
      revert h
      cases hc : Ord.compare p u <;> simp [Ordering.then]
    · rename_i h
      simp at h
      rw [h, leNat_leBytes_of_lt (by omega), leNat_leBytes_of_lt (by omega)]
      simp [Std.compare_self]

/-- `mem` starts with a row whose key columns hold `xs` (one value per key) -/
def KeyRow : List Key → List Val → Bytes → Prop
  | [], [], _ => True
  | k :: ks, x :: xs, mem =>
      (KeyTy k.ty ∧ Typed k.ty x ∧ ∃ off bs rest, rowAt mem k.col = .ok (some off) ∧ mem.drop off = bs ++ rest ∧
        encodeTy k.ty x = .ok bs) ∧ KeyRow ks xs mem
  | _, _, _ => False

/-- the values as the key columns hold them -/
def narrowKeys (keys : List Key) (xs : List Val) : List Val := (keys.zip xs).map (fun p => narrow p.1.ty p.2)

theorem compare_eq (keys : List Key) (xs ys : List Val) (a b : Bytes) (ha : KeyRow keys xs a) (hb : KeyRow keys ys b) :
    compare keys a b = .ok (ordInt (keyOrder (narrowKeys keys xs) (narrowKeys keys ys))) := by
  induction keys generalizing xs ys with
  | nil => simp [compare, narrowKeys, keyOrder, ordInt]
  | cons k ks ih =>
    cases xs with
    | nil => simp [KeyRow] at ha
    | cons x xs =>
      cases ys with
      | nil => simp [KeyRow] at hb
      | cons y ys =>
        obtain ⟨⟨hk, hx, off, bx, r, h1, h2, h3⟩, ha'⟩ := ha
        obtain ⟨⟨_, hy, off', by', s, g1, g2, g3⟩, hb'⟩ := hb
        simp only [compare, keyPtr, h1, g1, bind, Except.bind, h2, g2]
        rw [cmpKey_eq k.ty hk x y hx hy bx by' r s h3 g3]
        simp only [ih xs ys ha' hb', narrowKeys, List.zip_cons_cons, List.map_cons, keyOrder, ne_eq, ordInt_zero]
        split
        · rename_i h
          cases hc : valOrder (narrow k.ty x) (narrow k.ty y) <;> simp_all [Ordering.then]
        · rename_i h
          simp at h
          rw [h]; rfl

/-! order laws -/

theorem keyOrder_eq (keys : List Key) (xs ys : List Val) (a b : Bytes) (ha : KeyRow keys xs a) (hb : KeyRow keys ys b) :
    keyOrder (narrowKeys keys xs) (narrowKeys keys ys) =
      Ord.compare ((narrowKeys keys xs).map sortKey) ((narrowKeys keys ys).map sortKey) := by
  induction keys generalizing xs ys with
  | nil => simp [narrowKeys, keyOrder, Std.compare_self]
  | cons k ks ih =>
    cases xs with
    | nil => simp [KeyRow] at ha
    | cons x xs =>
      cases ys with
      | nil => simp [KeyRow] at hb
      | cons y ys =>
        obtain ⟨⟨hk, hx, _⟩, ha'⟩ := ha
        obtain ⟨⟨_, hy, _⟩, hb'⟩ := hb
        have := ih xs ys ha' hb'
        simp only [narrowKeys, List.zip_cons_cons, List.map_cons, keyOrder, Json.cmp_cons] at this ⊢
        rw [this, valOrder_eq _ _ (typed_sameKind k.ty _ _ hk (typed_narrow _ _ hk hx) (typed_narrow _ _ hk hy))]

theorem sortKey_inj (x y : Val) (h : SameKind x y) (e : sortKey x = sortKey y) : x = y := by
  rcases h with ⟨i, j, rfl, rfl⟩ | ⟨s, t, rfl, rfl⟩ | ⟨a, b, c, d, rfl, rfl⟩
  · simpa [sortKey] using e
  · simp [sortKey] at e
    congr 1
    exact (List.map_inj_right (by intro a b; exact Int.ofNat.inj)).1 e
  · simp [sortKey] at e
    simp; omega

theorem keyOrder_eq_iff (keys : List Key) (xs ys : List Val) (a b : Bytes) (ha : KeyRow keys xs a) (hb : KeyRow keys ys b) :
    keyOrder (narrowKeys keys xs) (narrowKeys keys ys) = .eq ↔ narrowKeys keys xs = narrowKeys keys ys := by
  induction keys generalizing xs ys with
  | nil => simp [narrowKeys, keyOrder]
  | cons k ks ih =>
    cases xs with
    | nil => simp [KeyRow] at ha
    | cons x xs =>
      cases ys with
      | nil => simp [KeyRow] at hb
      | cons y ys =>
        obtain ⟨⟨hk, hx, _⟩, ha'⟩ := ha
        obtain ⟨⟨_, hy, _⟩, hb'⟩ := hb
        have ih := ih xs ys ha' hb'
        have hsk := typed_sameKind k.ty _ _ hk (typed_narrow _ _ hk hx) (typed_narrow _ _ hk hy)
        simp only [narrowKeys, List.zip_cons_cons, List.map_cons, keyOrder, List.cons.injEq] at ih ⊢
        rw [Ordering.then_eq_eq, ih, valOrder_eq _ _ hsk]
        constructor
        · rintro ⟨h1, h2⟩
          exact ⟨sortKey_inj _ _ hsk (Std.LawfulEqOrd.eq_of_compare h1), h2⟩
        · rintro ⟨h1, h2⟩
          exact ⟨by rw [h1]; simp [Std.compare_self], h2⟩

/-! ### stored rows and search keys present their key values -/

/-- A row as INSERT stores it: built from values acceptable for the schema; `xs` are the resolved values
(placeholders and identity replaced); `mem` is the memory from the row on. -/
def StoredRow (schema : List Column) (xs : List Val) (mem : Bytes) : Prop :=
  ∃ (fresh : Nat → Bytes) (refs : List Val) (identity : Val) (vals : List Val) (row rest : Bytes),
    (∀ n, (fresh n).length = n) ∧ vals.length = schema.length ∧
    (∀ cv ∈ schema.zip vals, Acceptable refs identity cv) ∧
    rowCreate fresh refs identity (schema.zip vals) = .ok row ∧ mem = row ++ rest ∧
    schema.length < 65536 ∧ row.length < 2 ^ 31 ∧ xs.length = schema.length ∧
    ∀ (i : Nat) (c : Column) (v x : Val), schema[i]? = some c → vals[i]? = some v → xs[i]? = some x →
      given refs identity c v = .ok x

theorem rowCreate_ok (fresh : Nat → Bytes) (hfr : ∀ n, (fresh n).length = n) (refs : List Val) (identity : Val)
    (cols : List (Column × Val)) (h : ∀ cv ∈ cols, Acceptable refs identity cv) :
    ∃ cells, rowCreate fresh refs identity cols = .ok (layout cells) ∧ cells.length = cols.length ∧
      ∀ (i : Nat) (c : Column) (v x : Val), cols[i]? = some (c, v) → given refs identity c v = .ok x →
        ∃ cell, cells[i]? = some cell ∧ CellOf c.ty x cell := by
  obtain ⟨cells, h1, h2, h3, h4⟩ := encodeAll_ok refs identity cols h
  refine ⟨cells, ?_, h3, h4⟩
  unfold rowCreate
  rw [h2, h1]
  simp only [bind, Except.bind]
  exact rowBuild_eq fresh hfr cells

theorem storedRow_cells (schema : List Column) (xs : List Val) (mem : Bytes) (h : StoredRow schema xs mem) :
    ∃ cells rest, mem = layout cells ++ rest ∧ cells.length = schema.length ∧ cells.length < 65536 ∧
      (layout cells).length < 2 ^ 31 ∧
      ∀ (i : Nat) (c : Column) (x : Val), schema[i]? = some c → xs[i]? = some x →
        ∃ cell, cells[i]? = some cell ∧ CellOf c.ty x cell := by
  obtain ⟨fresh, refs, identity, vals, row, rest, hfr, hl, hacc, hrow, rfl, hn, hsz, hxl, hx⟩ := h
  obtain ⟨cells, h1, h2, h3⟩ := rowCreate_ok fresh hfr refs identity (schema.zip vals) hacc
  rw [h1] at hrow
  simp at hrow
  subst hrow
  have hlen : cells.length = schema.length := by rw [h2]; simp [hl]
  refine ⟨cells, rest, rfl, hlen, by omega, hsz, ?_⟩
  intro i c x hc hxi
  have hi : i < vals.length := by
    rw [hl]
    exact (List.getElem?_eq_some_iff.1 hc).1
  have hv : vals[i]? = some vals[i] := List.getElem?_eq_getElem hi
  exact h3 i c vals[i] x (by simp [List.getElem?_zip_eq_some, hc, hv]) (hx i c _ x hc hv hxi)

/-- the key columns of the schema, of key types and with values (keys are NOT NULL) -/
def KeysOf (schema : List Column) (keys : List Key) : Prop :=
  ∀ k ∈ keys, KeyTy k.ty ∧ ∃ c, schema[k.col]? = some c ∧ c.ty = k.ty ∧ (c.notNull = true ∨ c.identity = true)

/-- the values of the key columns -/
def keyVals (keys : List Key) (xs : List Val) : List Val := keys.map (fun k => (xs[k.col]?).getD .null)

theorem cellOf_typed (ty : Ty) (x : Val) (cell : Option Bytes) (h : CellOf ty x cell) (hx : x ≠ .null) :
    ∃ bs, Typed ty x ∧ encodeTy ty x = .ok bs ∧ cell = some bs := by
  rcases h with ⟨h, _⟩ | h
  · exact absurd h hx
  · exact h

theorem storedRow_ne_null (schema : List Column) (xs : List Val) (mem : Bytes) (h : StoredRow schema xs mem)
    (i : Nat) (c : Column) (x : Val) (hc : schema[i]? = some c) (hx : xs[i]? = some x)
    (hn : c.notNull = true ∨ c.identity = true) : x ≠ .null := by
  obtain ⟨fresh, refs, identity, vals, row, rest, hfr, hl, hacc, hrow, rfl, hnn, hsz, hxl, hxx⟩ := h
  have hi : i < vals.length := by
    rw [hl]
    exact (List.getElem?_eq_some_iff.1 hc).1
  have hv : vals[i]? = some vals[i] := List.getElem?_eq_getElem hi
  have hg := hxx i c _ x hc hv hx
  have hz : (schema.zip vals)[i]? = some (c, vals[i]) := by simp [List.getElem?_zip_eq_some, hc, hv]
  obtain ⟨y, hy, hd, _⟩ := hacc (c, vals[i]) (List.mem_of_getElem? hz)
  simp only at hy hd
  rw [hg] at hy
  simp at hy
  subst hy
  rcases hd with ⟨_, h1, h2⟩ | ht
  · rw [h1, h2] at hn; simp at hn
  · exact typed_ne_null _ _ ht

theorem keyRow_stored (schema : List Column) (keys : List Key) (hk : KeysOf schema keys) (xs : List Val) (mem : Bytes)
    (h : StoredRow schema xs mem) : KeyRow keys (keyVals keys xs) mem := by
  induction keys with
  | nil => simp [KeyRow, keyVals]
  | cons k ks ih =>
    have ih := ih (fun k hk' => hk k (by simp [hk']))
    obtain ⟨hty, c, hc, hct, hnn⟩ := hk k (by simp)
    obtain ⟨cells, rest, hm, hl, hl2, hsz, hcells⟩ := storedRow_cells schema xs mem h
    have hi : k.col < xs.length := by
      obtain ⟨_, _, _, _, _, _, _, _, _, _, _, _, _, hxl, _⟩ := h
      rw [hxl]
      exact (List.getElem?_eq_some_iff.1 hc).1
    have hx : xs[k.col]? = some xs[k.col] := List.getElem?_eq_getElem hi
    obtain ⟨cell, h1, h2⟩ := hcells k.col c _ hc hx
    have hne := storedRow_ne_null schema xs mem h k.col c _ hc hx hnn
    obtain ⟨bs, ht, he, rfl⟩ := cellOf_typed _ _ _ h2 hne
    simp only [keyVals, List.map_cons, KeyRow] at ih ⊢
    rw [hx]
    rw [hct] at ht he
    have e1 := rowAt_layout cells hl2 hsz rest k.col (some bs) h1
    have e2 := drop_layout cells rest k.col bs h1
    rw [← hm] at e1 e2
    exact ⟨⟨hty, ht, _, bs, _, e1, e2, he⟩, ih⟩

/-! hashing -/

theorem valueHashBytes_key (ty : Ty) (hk : KeyTy ty) (x : Val) (h : Typed ty x) (bs rest : Bytes)
    (he : encodeTy ty x = .ok bs) :
    ∃ b, valueHashBytes ty x = .ok b ∧
      (if ty.size > 0 then do let (b, _) ← readN ty.size (bs ++ rest); .ok b
       else do let (s, _) ← Json.readRaw (bs ++ rest); .ok s : Res Bytes) = .ok b := by
  rcases hk with rfl | rfl | rfl | rfl | rfl <;> cases x <;> simp only [Typed] at h <;> simp [encodeTy] at he <;>
    subst he <;> simp only [valueHashBytes] <;> refine ⟨_, rfl, ?_⟩ <;>
    simp only [Ty.size, Nat.reduceEqDiff, if_true, if_false, gt_iff_lt, Nat.reduceLT, Nat.lt_irrefl, readN_le, bind, Except.bind]
  · rw [Json.readRaw_write _ h.2]
  · rename_i a b
    have := readN_append (leBytes 8 a ++ leBytes 8 b) rest
    rw [List.length_append, leBytes_length, leBytes_length] at this
    rw [this]

theorem rowHash_eq (keys : List Key) (xs : List Val) (mem : Bytes) (h : KeyRow keys xs mem) (seed : Nat) :
    ∃ n, rowHash keys mem seed = .ok n ∧ valueHashKeys keys xs seed = .ok n := by
  induction keys generalizing xs seed with
  | nil => exact ⟨seed, rfl, rfl⟩
  | cons k ks ih =>
    cases xs with
    | nil => simp [KeyRow] at h
    | cons x xs =>
      obtain ⟨⟨hk, ht, off, bs, rest, h1, h2, h3⟩, h'⟩ := h
      obtain ⟨b, hb1, hb2⟩ := valueHashBytes_key k.ty hk x ht bs rest h3
      obtain ⟨n, hn1, hn2⟩ := ih xs h' (murmur b seed)
      refine ⟨n, ?_, ?_⟩
      · simp only [rowHash, keyPtr, h1, bind, Except.bind, h2]
        simp only [bind, Except.bind] at hb2
        rw [hb2]
        exact hn1
      · simp only [valueHashKeys, hb1, bind, Except.bind, hn2]

/-! search keys -/

/-- the smallest value of a key type, as row_create_key chooses it -/
def minVal : Ty → Val
  | .string => .str []
  | .int32 => .int (-2147483648)
  | .int64 => .int (-9223372036854775808)
  | .timestamp => .int 0
  | _ => .uuid 0 0

/-- the values of a search key: the given ones, then the minimum of each remaining key column -/
def padKeys (keys : List Key) (values : List Val) : List Val :=
  values ++ (keys.drop values.length).map (fun k => minVal k.ty)

theorem typed_min (ty : Ty) (hk : KeyTy ty) : Typed ty (minVal ty) := by
  rcases hk with rfl | rfl | rfl | rfl | rfl <;> simp [minVal, Typed, IsBytes]

theorem keyBytes_eq (keys : List Key) (values : List Val) (o : Nat) (k : Key) (hk : KeyTy k.ty) (ho : keys[o]? = some k)
    (hl : values.length ≤ keys.length)
    (hv : ∀ v, values[o]? = some v → Typed k.ty v) :
    ∃ x bs, (padKeys keys values)[o]? = some x ∧ Typed k.ty x ∧ encodeTy k.ty x = .ok bs ∧
      keyBytes values o k.ty = .ok bs := by
  by_cases h : o < values.length
  · have hv' : values[o]? = some values[o] := List.getElem?_eq_getElem h
    have ht := hv _ hv'
    obtain ⟨bs, hb, _⟩ := decode_encode _ _ ht
    refine ⟨values[o], bs, ?_, ht, hb, ?_⟩
    · unfold padKeys
      rw [List.getElem?_append_left h, hv']
    · unfold keyBytes; rw [hv']; exact hb
  · have hv' : values[o]? = none := List.getElem?_eq_none (by omega)
    obtain ⟨bs, hb, _⟩ := decode_encode _ _ (typed_min k.ty hk)
    refine ⟨minVal k.ty, bs, ?_, typed_min _ hk, hb, ?_⟩
    · unfold padKeys
      rw [List.getElem?_append_right (by omega)]
      simp only [List.getElem?_map, List.getElem?_drop]
      rw [show values.length + (o - values.length) = o by omega, ho]
      rfl
    · unfold keyBytes
      rw [hv']
      rcases k with ⟨col, ty⟩
      simp only at hk hb ⊢
      rcases hk with rfl | rfl | rfl | rfl | rfl <;> simpa [minVal, encodeTy] using hb

theorem findKey_some (col : Nat) (keys : List Key) (o : Nat) (k : Key) (base : Nat)
    (hnd : (keys.map Key.col).Nodup) (h : keys[o]? = some k) (hc : k.col = col) :
    findKey col keys base = some (base + o, k) := by
  induction keys generalizing o base with
  | nil => simp at h
  | cons x xs ih =>
    simp only [List.map_cons, List.nodup_cons] at hnd
    cases o with
    | zero => simp at h; subst h; simp [findKey, hc]
    | succ o =>
      simp at h
      have hne : x.col ≠ col := by
        intro e
        apply hnd.1
        rw [e, ← hc]
        exact List.mem_map_of_mem (List.mem_of_getElem? h)
      simp only [findKey, if_neg hne]
      rw [ih o (base + 1) hnd.2 h]
      congr 2; omega

theorem findKey_none (col : Nat) (keys : List Key) (base : Nat) (h : ∀ k ∈ keys, k.col ≠ col) :
    findKey col keys base = none := by
  induction keys generalizing base with
  | nil => rfl
  | cons x xs ih => simp [findKey, h x (by simp), ih (base + 1) (fun k hk => h k (by simp [hk]))]

theorem findKey_sound (col : Nat) (keys : List Key) (base o : Nat) (k : Key) (h : findKey col keys base = some (o, k)) :
    base ≤ o ∧ keys[o - base]? = some k ∧ k.col = col := by
  induction keys generalizing base with
  | nil => simp [findKey] at h
  | cons x xs ih =>
    unfold findKey at h
    split at h
    · simp at h; obtain ⟨rfl, rfl⟩ := h; simpa using ‹_›
    · obtain ⟨h1, h2, h3⟩ := ih (base + 1) h
      refine ⟨by omega, ?_, h3⟩
      rw [show o - base = (o - (base + 1)) + 1 by omega]
      simpa using h2

/-- cells of a search key -/
theorem keyCells_ok (keys : List Key) (values : List Val) (hk : ∀ k ∈ keys, KeyTy k.ty)
    (hl : values.length ≤ keys.length)
    (hv : ∀ (o : Nat) (k : Key) (v : Val), keys[o]? = some k → values[o]? = some v → Typed k.ty v) (n i : Nat) :
    ∃ cells, keyCells keys values n i = .ok cells ∧ cells.length = n ∧
      ∀ j, j < n → ∃ cell, cells[j]? = some cell ∧
        ((findKey (i + j) keys 0 = none ∧ cell = none) ∨
         (∃ o k bs, findKey (i + j) keys 0 = some (o, k) ∧ keyBytes values o k.ty = .ok bs ∧ cell = some bs)) := by
  induction n generalizing i with
  | zero => exact ⟨[], rfl, rfl, by simp⟩
  | succ n ih =>
    obtain ⟨cells, h1, h2, h3⟩ := ih (i + 1)
    cases hf : findKey i keys 0 with
    | none =>
      refine ⟨none :: cells, by simp [keyCells, hf, h1, bind, Except.bind], by simp [h2], ?_⟩
      intro j hj
      cases j with
      | zero => exact ⟨none, by simp, Or.inl ⟨by simpa using hf, rfl⟩⟩
      | succ j =>
        obtain ⟨cell, e1, e2⟩ := h3 j (by omega)
        exact ⟨cell, by simpa using e1, by rwa [show i + (j + 1) = i + 1 + j by omega]⟩
    | some p =>
      obtain ⟨o, k⟩ := p
      obtain ⟨_, e2, _⟩ := findKey_sound _ _ _ _ _ hf
      simp at e2
      obtain ⟨x, bs, _, _, _, hb⟩ := keyBytes_eq keys values o k (hk k (List.mem_of_getElem? e2)) e2 hl
        (fun v hvv => hv o k v e2 hvv)
      refine ⟨some bs :: cells, by simp [keyCells, hf, h1, hb, bind, Except.bind], by simp [h2], ?_⟩
      intro j hj
      cases j with
      | zero => exact ⟨some bs, by simp, Or.inr ⟨o, k, bs, by simpa using hf, hb, rfl⟩⟩
      | succ j =>
        obtain ⟨cell, e1, e2⟩ := h3 j (by omega)
        exact ⟨cell, by simpa using e1, by rwa [show i + (j + 1) = i + 1 + j by omega]⟩

/-- length of key number o -/
def klen (values : List Val) (o : Nat) (k : Key) : Nat := match keyBytes values o k.ty with | .ok b => b.length | _ => 0

/-- bytes contributed by column `c` -/
def colLen (values : List Val) : List Key → Nat → Nat → Nat
  | [], _, _ => 0
  | k :: ks, o, c => (if k.col = c then klen values o k else 0) + colLen values ks (o + 1) c

theorem sum_single (a d : Nat) (n i : Nat) (f : Nat → Nat) :
    ((List.range' i n).map (fun c => (if a = c then d else 0) + f c)).sum =
      (if i ≤ a ∧ a < i + n then d else 0) + ((List.range' i n).map f).sum := by
  induction n generalizing i with
  | zero => simp; omega
  | succ n ih =>
    simp only [List.range'_succ, List.map_cons, List.sum_cons, ih]
    by_cases h1 : a = i
    · subst h1
      rw [if_pos rfl, if_neg (by omega), if_pos (by omega)]
      omega
    · rw [if_neg h1]
      by_cases h2 : i + 1 ≤ a ∧ a < i + 1 + n
      · rw [if_pos h2, if_pos (by omega)]; omega
      · rw [if_neg h2, if_neg (by omega)]; omega

theorem keySizes_eq (values : List Val) (keys : List Key) (o n : Nat) (hin : ∀ k ∈ keys, k.col < n)
    (hb : ∀ (j : Nat) (k : Key), keys[j]? = some k → ∃ bs, keyBytes values (o + j) k.ty = .ok bs) :
    keySizes values keys o = .ok ((List.range' 0 n).map (colLen values keys o)).sum := by
  induction keys generalizing o with
  | nil =>
    have : (List.range' 0 n).map (colLen values [] o) = List.replicate n 0 := by
      apply List.ext_getElem <;> simp [colLen]
    simp [keySizes, this]
  | cons k ks ih =>
    obtain ⟨bs, h0⟩ := hb 0 k (by simp)
    have ih := ih (o + 1) (fun k hk => hin k (by simp [hk])) (by
      intro j k hj
      obtain ⟨bs, h⟩ := hb (j + 1) k (by simpa using hj)
      exact ⟨bs, by rwa [show o + 1 + j = o + (j + 1) by omega]⟩)
    simp only [Nat.add_zero] at h0
    simp only [keySizes, h0, ih, bind, Except.bind]
    have := sum_single k.col (klen values o k) n 0 (colLen values ks (o + 1))
    rw [if_pos (by have := hin k (by simp); omega)] at this
    have e : (List.range' 0 n).map (colLen values (k :: ks) o) =
      (List.range' 0 n).map (fun c => (if k.col = c then klen values o k else 0) + colLen values ks (o + 1) c) := rfl
    rw [e, this]
    simp [klen, h0]

theorem colLen_none (values : List Val) (keys : List Key) (o c : Nat) (h : ∀ k ∈ keys, k.col ≠ c) :
    colLen values keys o c = 0 := by
  induction keys generalizing o with
  | nil => rfl
  | cons k ks ih => simp [colLen, h k (by simp), ih (o + 1) (fun k hk => h k (by simp [hk]))]

theorem colLen_find (values : List Val) (keys : List Key) (base c : Nat) (hnd : (keys.map Key.col).Nodup) :
    colLen values keys base c = match findKey c keys base with | some (o, k) => klen values o k | none => 0 := by
  induction keys generalizing base with
  | nil => rfl
  | cons k ks ih =>
    simp only [List.map_cons, List.nodup_cons] at hnd
    simp only [colLen, findKey]
    by_cases h : k.col = c
    · rw [if_pos h, if_pos h]
      rw [colLen_none]
      · simp
      · intro k' hk' e
        apply hnd.1
        rw [h, ← e]
        exact List.mem_map_of_mem hk'
    · rw [if_neg h, if_neg h, ih (base + 1) hnd.2]; simp

/-- A well-formed key list for a table of `columns` columns. -/
def KeyList (columns : Nat) (keys : List Key) : Prop :=
  (∀ k ∈ keys, KeyTy k.ty ∧ k.col < columns) ∧ (keys.map Key.col).Nodup

theorem cells_sum (cells : List (Option Bytes)) (f : Nat → Nat)
    (h : ∀ (j : Nat) (cell : Option Bytes), cells[j]? = some cell → cellLen cell = f j) :
    (dat cells).length = ((List.range' 0 cells.length).map f).sum := by
  rw [dat_length]
  congr 1
  apply List.ext_getElem
  · simp
  · intro j h1 h2
    simp at h1
    simp
    exact h j cells[j] (by simp)

theorem rowCreateKey_ok (fresh : Nat → Bytes) (hfr : ∀ n, (fresh n).length = n) (columns : Nat) (keys : List Key)
    (hkl : KeyList columns keys) (values : List Val) (hl : values.length ≤ keys.length)
    (hv : ∀ (o : Nat) (k : Key) (v : Val), keys[o]? = some k → values[o]? = some v → Typed k.ty v)
    (hc : columns < 65536) :
    ∃ row, rowCreateKey fresh columns keys values = .ok row ∧
      (row.length < 2 ^ 31 → ∀ rest, KeyRow keys (padKeys keys values) (row ++ rest)) := by
  obtain ⟨hk1, hnd⟩ := hkl
  obtain ⟨cells, h1, h2, h3⟩ := keyCells_ok keys values (fun k hk => (hk1 k hk).1) hl hv columns 0
  have hb : ∀ (j : Nat) (k : Key), keys[j]? = some k → ∃ bs, keyBytes values (0 + j) k.ty = .ok bs := by
    intro j k hj
    obtain ⟨x, bs, _, _, _, hb⟩ := keyBytes_eq keys values j k (hk1 k (List.mem_of_getElem? hj)).1 hj hl
      (fun v hvv => hv j k v hj hvv)
    exact ⟨bs, by simpa using hb⟩
  have hsz := keySizes_eq values keys 0 columns (fun k hk => (hk1 k hk).2) hb
  have hdat : (dat cells).length = ((List.range' 0 columns).map (colLen values keys 0)).sum := by
    rw [← h2]
    apply cells_sum
    intro j cell hj
    have hj' : j < columns := by rw [← h2]; exact (List.getElem?_eq_some_iff.1 hj).1
    obtain ⟨cell', e1, e2⟩ := h3 j hj'
    rw [hj] at e1
    simp at e1
    subst e1
    simp only [Nat.zero_add] at e2
    rw [colLen_find _ _ _ _ hnd]
    rcases e2 with ⟨e, rfl⟩ | ⟨o, k, bs, e, hbb, rfl⟩
    · rw [e]; rfl
    · rw [e]; simp [klen, hbb, cellLen]
  refine ⟨layout cells, ?_, ?_⟩
  · unfold rowCreateKey
    rw [hsz, h1]
    simp only [bind, Except.bind]
    rw [← hdat]
    exact rowBuild_eq fresh hfr cells
  · intro hlen rest
    -- every suffix of the key list
    have key : ∀ (m : Nat), m ≤ keys.length →
        KeyRow (keys.drop (keys.length - m)) ((padKeys keys values).drop (keys.length - m)) (layout cells ++ rest) := by
      intro m
      have hpl : (padKeys keys values).length = keys.length := by simp [padKeys]; omega
      induction m with
      | zero =>
        intro _
        simp only [Nat.sub_zero]
        rw [List.drop_of_length_le (by omega), List.drop_of_length_le (by omega)]
        simp [KeyRow]
      | succ m ih =>
        intro hm
        have ih := ih (by omega)
        have hlt : keys.length - (m + 1) < keys.length := by omega
        have hlt' : keys.length - (m + 1) < (padKeys keys values).length := by omega
        rw [List.drop_eq_getElem_cons hlt, List.drop_eq_getElem_cons hlt']
        rw [show keys.length - (m + 1) + 1 = keys.length - m by omega]
        generalize hov : keys.length - (m + 1) = o at hlt hlt' ⊢
        have hko : keys[o]? = some keys[o] := List.getElem?_eq_getElem hlt
        have hmem := List.mem_of_getElem? hko
        obtain ⟨x, bs, hx, ht, he, hkb⟩ := keyBytes_eq keys values o keys[o] (hk1 _ hmem).1 hko hl
          (fun v hvv => hv o _ v hko hvv)
        have hx' : (padKeys keys values)[o] = x := by
          rw [List.getElem?_eq_getElem hlt'] at hx
          simpa using hx
        have hcol := (hk1 _ hmem).2
        obtain ⟨cell, e1, e2⟩ := h3 keys[o].col hcol
        simp only [Nat.zero_add] at e2
        rw [findKey_some keys[o].col keys o keys[o] 0 hnd hko rfl] at e2
        rcases e2 with ⟨e, _⟩ | ⟨o', k', bs', e, hbb, rfl⟩
        · simp at e
        · simp at e
          obtain ⟨rfl, rfl⟩ := e
          rw [hkb] at hbb
          simp at hbb
          subst hbb
          refine ⟨⟨(hk1 _ hmem).1, hx' ▸ ht, ?_⟩, ih⟩
          have r1 := rowAt_layout cells (by omega) hlen rest _ _ e1
          have r2 := drop_layout cells rest _ _ e1
          exact ⟨_, bs, _, r1, r2, hx' ▸ he⟩
    simpa using key keys.length (Nat.le_refl _)

/-- the padding is below every value, except for timestamps before the epoch -/
theorem min_le (ty : Ty) (hk : KeyTy ty) (x : Val) (h : Typed ty x)
    (hts : ty = .timestamp → ∀ i, x = .int i → 0 ≤ i) :
    valOrder (minVal ty) (narrow ty x) ≠ .gt := by
  rcases hk with rfl | rfl | rfl | rfl | rfl <;> cases x <;> simp only [Typed] at h <;>
    simp only [minVal, narrow, valOrder]
  · rename_i i
    have h2 := Int.le_bmod (x := i) (m := 4294967296) (by omega)
    simp at h2
    intro hg
    have := Int.compare_eq_gt.1 hg
    omega
  · intro hg
    have := Int.compare_eq_gt.1 hg
    omega
  · rename_i i
    have := hts rfl i rfl
    intro hg
    have := Int.compare_eq_gt.1 hg
    omega
  · rename_i s
    cases s <;> exact nofun
  · rename_i a b
    rcases Nat.eq_zero_or_pos a with h0 | h0
    · subst h0
      simp only [Std.compare_self]
      rcases Nat.eq_zero_or_pos b with h1 | h1
      · subst h1; simp [Std.compare_self]
      · rw [Nat.compare_eq_lt.2 h1]; simp
    · rw [Nat.compare_eq_lt.2 h0]; simp

end Verif.Row
