import Verif.Query.Value
import Verif.Index.HashResize
/-!
# The hash set of GROUP BY and of DISTINCT aggregates

vm/set/set.c, set.h, set_hash.h, vm/value/compare.h, runtime/lib/hash.h
-/
set_option linter.unusedSimpArgs false
set_option linter.unusedVariables false
set_option linter.unusedSectionVars false
namespace Verif.Query
open Verif.Index.Hash (Slot probe probe_some probe_none offset_exists offset_inj rowsOf usedCount Chains chains_set ChainTo
  mem_rowsOf getD_set used_lt NoDeleted)

/-! ## Hash of the keys -/

/-- hash_fnv, runtime/lib/hash.h:14-26 -/
def fnv (data : List Nat) : Nat := data.foldl (fun h b => ((h * 16777619) % 2 ^ 32) ^^^ b) 2166136261

/-- the bytes of an `int64_t` (two's complement, little endian) -/
def bytes64 (i : Int) : List Nat := Verif.leBytes 8 (i % 2 ^ 64).toNat
/-- the bytes of an `int32_t` -/
def bytes32 (i : Int) : List Nat := Verif.leBytes 4 (i % 2 ^ 32).toNat

/-- the bytes hashed for a key: set_hash_value, set_hash.h:91-139. A UUID: `sizeof(&value->uuid)` is the size of a pointer,
so only its first half is hashed. -/
def Val.hashed : Val → List Nat
  | .null => []
  | .bool i => bytes64 i
  | .int i => bytes64 i
  | .date i => bytes64 i
  | .timestamp i => bytes64 i
  | .dbl b => Verif.leBytes 8 b
  | .str s => s
  | .interval m d us => bytes32 m ++ bytes32 d ++ bytes64 us
  | .uuid a _ => Verif.leBytes 8 a

/-- the hash of the keys of a row, set.c:136-140 -/
def keysHash (keys : List Val) : Nat := keys.foldl (fun h v => h ^^^ fnv v.hashed) 0

/-- store_compare_keys, store_compare_keys_ptr: vm/value/compare.h:100-122 -/
def keysSame : List Val → List Val → Bool
  | a :: as, b :: bs => decide (valueCompare a b = 0) && keysSame as bs
  | _, _ => true

/-! ## The set -/

/-- Set, set.h:16-26: `rows` are the keys and columns of the rows, `keys` is store.keys, `slots` is the table of SetHash
(set_hash.h:17-27), whose entries are a hash and a row number (an `.empty` slot has the row number UINT32_MAX). No table
has been allocated yet if `slots` is empty. Row numbers and sizes are `int` in the code; they are not bounded here. -/
structure HSet (C : Type) where
  keys : Nat
  rows : List (List Val × C)
  slots : List (Slot (Nat × Nat))
deriving DecidableEq

/-- set_create, set_prepare: set.c:43-66 -/
def HSet.create (C : Type) (keys : Nat) : HSet C := ⟨keys, [], []⟩

def isEmptySlot : Slot (Nat × Nat) → Bool
  | .empty => true
  | _ => false

/-- set_hash_put, set_hash.h:61-73; `none` if its loop never ends -/
def hashPut (slots : List (Slot (Nat × Nat))) (e : Nat × Nat) : Option (List (Slot (Nat × Nat))) :=
  (probe isEmptySlot slots (e.1 % slots.length) slots.length 0).map fun pos => slots.set pos (.row e)

/-- the loop of set_hash_resize, set_hash.h:81-86 -/
def hashPutAll : List (Slot (Nat × Nat)) → List (Slot (Nat × Nat)) → Option (List (Slot (Nat × Nat)))
  | [], to => some to
  | .row e :: l, to => (hashPut to e).bind (hashPutAll l)
  | _ :: l, to => hashPutAll l to

/-- set_hash_resize, set_hash.h:75-89 -/
def hashResize (slots : List (Slot (Nat × Nat))) : Option (List (Slot (Nat × Nat))) :=
  hashPutAll slots (List.replicate (slots.length * 2) .empty)

/-- set_upsert, set.c:125-133: allocate 64 slots, double the table once half of it is in use -/
def HSet.grow {C : Type} (s : HSet C) : Option (HSet C) :=
  let slots := if s.slots = [] then List.replicate 64 .empty else s.slots
  if s.rows.length ≥ slots.length / 2 then (hashResize slots).map fun t => { s with slots := t }
  else some { s with slots := slots }

/-- the exits of the loop of set_upsert, set.c:146-156 -/
def stopUpsert {C : Type} (s : HSet C) (hash : Nat) (keys : List Val) : Slot (Nat × Nat) → Bool
  | .row e => decide (e.1 = hash) && keysSame (((s.rows[e.2]?).map Prod.fst).getD []) keys
  | _ => true

/-- set_upsert (and set_upsert_ptr), set.c:121-175: find the row with these keys or add it with the columns `c0`;
the row number and `*exists`. The table may read more keys than the set has. `none` if the loop never ends. -/
def HSet.upsert {C : Type} (c0 : C) (s : HSet C) (keys : List Val) (hash0 : Nat) : Option (HSet C × Nat × Bool) :=
  s.grow.bind fun s =>
    let keys := keys.take s.keys
    let hash := if hash0 = 0 then keysHash keys else hash0
    (probe (stopUpsert s hash keys) s.slots (hash % s.slots.length) s.slots.length 0).map fun pos =>
      match s.slots.getD pos .empty with
      | .row e => (s, e.2, true)
      | _ => (⟨s.keys, s.rows ++ [(keys, c0)], s.slots.set pos (.row (hash, s.rows.length))⟩, s.rows.length, false)

/-- set_column(set, row, ..) written: the columns of row `i` -/
def HSet.modify {C : Type} (s : HSet C) (i : Nat) (f : C → C) : HSet C :=
  { s with rows := s.rows.modify i fun r => (r.1, f r.2) }

/-! ## Keys for which the comparison and the hash agree -/

/-- not NaN and not negative zero -/
def Val.canon : Val → Prop
  | .dbl b => ¬ isNaN b ∧ b < 2 ^ 64 ∧ b ≠ 2 ^ 63
  | _ => True

instance (v : Val) : Decidable v.canon := by cases v <;> unfold Val.canon <;> infer_instance

def KeysCanon (k : List Val) : Prop := ∀ v ∈ k, v.canon

theorem cmpI_zero {x y : Int} : cmpI x y = 0 ↔ x = y := by
  unfold cmpI
  split
  · constructor <;> intro <;> omega
  · split
    · constructor <;> intro <;> omega
    · constructor <;> intro <;> omega

theorem cmpS_zero : ∀ {x y : List Nat}, cmpS x y = 0 ↔ x = y
  | [], [] => by simp [cmpS]
  | [], _ :: _ => by simp [cmpS]
  | _ :: _, [] => by simp [cmpS]
  | a :: as, b :: bs => by
    simp only [cmpS]
    by_cases h : a = b
    · subst h; simp [cmpS_zero]
    · simp [h]; omega

theorem dblKey_inj {x y : Nat} (hx : x < 2 ^ 64) (hy : y < 2 ^ 64) (nx : x ≠ 2 ^ 63) (ny : y ≠ 2 ^ 63)
    (h : dblKey x = dblKey y) : x = y := by
  unfold dblKey at h
  have ex := Nat.div_add_mod x (2 ^ 63)
  have ey := Nat.div_add_mod y (2 ^ 63)
  have dx : x / 2 ^ 63 < 2 := by omega
  have dy : y / 2 ^ 63 < 2 := by omega
  split at h <;> split at h <;> omega

theorem valueCompare_zero {a b : Val} (ha : a.canon) (hb : b.canon) : valueCompare a b = 0 ↔ a = b := by
  cases a <;> cases b
  all_goals (first
    | (simp [valueCompare, Val.typeNo]; done)
    | (simp [valueCompare, cmpI_zero]; done)
    | (simp [valueCompare, cmpS_zero]; done)
    | skip)
  · rename_i x y
    obtain ⟨h1, h2, h3⟩ := ha
    obtain ⟨h4, h5, h6⟩ := hb
    simp only [valueCompare, cmpD, h1, h4, or_self, if_false, cmpI_zero, Val.dbl.injEq]
    exact ⟨dblKey_inj h2 h5 h3 h6, fun h => by rw [h]⟩
  · simp only [valueCompare, ne_eq, cmpI_zero, Val.interval.injEq]
    split
    · simp_all [cmpI_zero]
    · split <;> simp_all [cmpI_zero]
  · simp only [valueCompare, ne_eq, cmpI_zero, Val.uuid.injEq]
    split <;> simp_all [cmpI_zero] <;> omega

theorem keysSame_iff : ∀ {a b : List Val}, KeysCanon a → KeysCanon b → a.length = b.length → (keysSame a b = true ↔ a = b)
  | [], [], _, _, _ => by simp [keysSame]
  | [], _ :: _, _, _, h => by simp at h
  | _ :: _, [], _, _, h => by simp at h
  | x :: a, y :: b, ha, hb, h => by
    have h1 := valueCompare_zero (ha x (by simp)) (hb y (by simp))
    have h2 := keysSame_iff (a := a) (b := b) (fun v hv => ha v (by simp [hv])) (fun v hv => hb v (by simp [hv])) (by simpa using h)
    simp [keysSame, h1, h2]

/-! ## The invariant -/

/-- every row is in the table once, under the hash of its keys, and reachable by probing -/
structure Tab {C : Type} (s : HSet C) : Prop where
  size : 64 ≤ s.slots.length
  half : s.rows.length ≤ s.slots.length / 2
  chains : Chains Prod.fst s.slots
  clean : NoDeleted s.slots
  entries : (rowsOf s.slots).Perm (s.rows.zipIdx.map fun p => (keysHash p.1.1, p.2))

structure HSet.Inv {C : Type} (s : HSet C) : Prop where
  keyLen : ∀ r ∈ s.rows, r.1.length = s.keys ∧ KeysCanon r.1
  nodup : (s.rows.map Prod.fst).Nodup
  tab : (s.slots = [] ∧ s.rows = []) ∨ Tab s

theorem inv_create {C : Type} (keys : Nat) : (HSet.create C keys).Inv :=
  ⟨by intro r h; simp [HSet.create] at h, by simp [HSet.create], .inl ⟨rfl, rfl⟩⟩

theorem rowsOf_set {R : Type} {l : List (Slot R)} {pos : Nat} (hp : pos < l.length) (he : l.getD pos .empty = .empty) (e : R) :
    (rowsOf (l.set pos (.row e))).Perm (e :: rowsOf l) := by
  rw [Verif.Index.Hash.set_split hp]
  have : rowsOf l = rowsOf (l.take pos) ++ rowsOf (l.drop (pos + 1)) := by
    conv => lhs; rw [Verif.Index.Hash.split_at hp, he]
    rw [Verif.Index.Hash.rowsOf_append]; rfl
  rw [this, Verif.Index.Hash.rowsOf_append]
  exact List.perm_middle

theorem noDeleted_set' {R : Type} {l : List (Slot R)} (h : NoDeleted l) {pos : Nat} (hp : pos < l.length) (e : R) :
    NoDeleted (l.set pos (.row e)) := by
  intro p; rw [getD_set hp]; split
  · simp
  · exact h p

/-- a probe that stops at an empty slot, started with a free slot somewhere, ends -/
theorem probe_ends {R : Type} {stop : Slot R → Bool} {slots : List (Slot R)} (hs : stop .empty = true) {start : Nat}
    (hst : start < slots.length) (hf : ∃ p, p < slots.length ∧ slots.getD p .empty = .empty) :
    ∃ pos d, probe stop slots start slots.length 0 = some pos ∧ pos < slots.length ∧ d < slots.length ∧
      pos = (start + d) % slots.length ∧ stop (slots.getD pos .empty) = true ∧
      ∀ e, e < d → stop (slots.getD ((start + e) % slots.length) .empty) = false := by
  cases hpr : probe stop slots start slots.length 0 with
  | none =>
    obtain ⟨p, hp, he⟩ := hf
    obtain ⟨d, h1, h2⟩ := offset_exists hst hp
    have := probe_none _ _ hpr d (by omega) (by omega)
    rw [← h2, he, hs] at this; simp at this
  | some pos =>
    obtain ⟨d, _, h2, h3, h4, h5⟩ := probe_some _ _ _ hpr
    refine ⟨pos, d, rfl, ?_, by omega, h3, h4, fun e he => h5 e (by omega) he⟩
    rw [h3]; exact Nat.mod_lt _ (by omega)

theorem hashPut_spec {slots : List (Slot (Nat × Nat))} (hc : Chains Prod.fst slots) (hd : NoDeleted slots)
    (hu : usedCount slots < slots.length) (e : Nat × Nat) :
    ∃ t, hashPut slots e = some t ∧ t.length = slots.length ∧ Chains Prod.fst t ∧ NoDeleted t ∧ (rowsOf t).Perm (e :: rowsOf slots) := by
  have hl : 0 < slots.length := by omega
  obtain ⟨pos, d, h1, h2, h3, h4, h5, h6⟩ := probe_ends (stop := isEmptySlot) (slots := slots) rfl
    (Nat.mod_lt e.1 hl) (used_lt hu)
  have he : slots.getD pos .empty = .empty := by
    cases hs : slots.getD pos .empty <;> rw [hs] at h5 <;> simp [isEmptySlot] at h5
  refine ⟨slots.set pos (.row e), by simp [hashPut, h1], by simp, ?_, noDeleted_set' hd h2 e, rowsOf_set h2 he e⟩
  refine chains_set hc h2 (by simp) ?_
  intro r hr
  simp only [Slot.row.injEq] at hr
  subst hr
  refine ⟨d, h3, h4, ?_⟩
  intro j hj hcon
  have := h6 j hj
  rw [hcon] at this; simp [isEmptySlot] at this

theorem hashPutAll_spec : ∀ (l : List (Slot (Nat × Nat))) (to : List (Slot (Nat × Nat))), Chains Prod.fst to → NoDeleted to →
    (rowsOf to).length + (rowsOf l).length < to.length →
    ∃ t, hashPutAll l to = some t ∧ t.length = to.length ∧ Chains Prod.fst t ∧ NoDeleted t ∧
      (rowsOf t).Perm (rowsOf l ++ rowsOf to) := by
  intro l
  induction l with
  | nil => intro to h1 h2 _; exact ⟨to, rfl, rfl, h1, h2, by simp [rowsOf]⟩
  | cons a l ih =>
    intro to h1 h2 h3
    cases a with
    | empty => exact ih to h1 h2 h3
    | deleted => exact ih to h1 h2 h3
    | row e =>
      simp only [Verif.Index.Hash.rowsOf_row, List.length_cons] at h3
      obtain ⟨t, g1, g2, g3, g4, g5⟩ := hashPut_spec h1 h2 (by rw [Verif.Index.Hash.used_noDeleted h2]; omega) e
      obtain ⟨t', k1, k2, k3, k4, k5⟩ := ih t g3 g4 (by have := g5.length_eq; simp at this; omega)
      refine ⟨t', by simp [hashPutAll, g1, k1], by omega, k3, k4, ?_⟩
      refine k5.trans ?_
      simp only [Verif.Index.Hash.rowsOf_row, List.cons_append]
      exact ((List.Perm.refl _).append g5).trans List.perm_middle

theorem chains_empty (n : Nat) : Chains (Prod.fst : Nat × Nat → Nat) (List.replicate n .empty) := by
  intro r d hd h; rw [Verif.Index.Hash.replicate_getD] at h; simp at h

theorem clean_empty (n : Nat) : NoDeleted (List.replicate n (.empty : Slot (Nat × Nat))) := by
  intro p; rw [Verif.Index.Hash.replicate_getD]; simp

/-- after growing there is room for one more row -/
theorem grow_spec {C : Type} {s : HSet C} (I : s.Inv) :
    ∃ s', s.grow = some s' ∧ s'.rows = s.rows ∧ s'.keys = s.keys ∧ Tab s' ∧ s'.rows.length < s'.slots.length / 2 := by
  rcases I.tab with ⟨h1, h2⟩ | T
  · refine ⟨{ s with slots := List.replicate 64 .empty }, ?_, rfl, rfl, ?_, ?_⟩
    · simp [HSet.grow, h1, h2]
    · refine ⟨by simp, by simp [h2], chains_empty _, clean_empty _, ?_⟩
      show (rowsOf (List.replicate 64 .empty)).Perm _
      simp only [h2, Verif.Index.Hash.rowsOf_replicate]; simp
    · simp [h2]
  · have hne : s.slots ≠ [] := by intro h; have := T.size; rw [h] at this; simp at this
    have hsz := T.size
    have hrow : (rowsOf s.slots).length = s.rows.length := by rw [T.entries.length_eq]; simp
    have hh := T.half
    by_cases h : s.rows.length ≥ s.slots.length / 2
    · obtain ⟨t, g1, g2, g3, g4, g5⟩ := hashPutAll_spec s.slots (List.replicate (s.slots.length * 2) .empty)
        (chains_empty _) (clean_empty _) (by rw [Verif.Index.Hash.rowsOf_replicate]; simp; omega)
      simp only [List.length_replicate] at g2
      refine ⟨{ s with slots := t }, ?_, rfl, rfl, ?_, ?_⟩
      · simp [HSet.grow, hne, h, hashResize, g1]
      · refine ⟨by simp; omega, by simp only; omega, g3, g4, ?_⟩
        rw [Verif.Index.Hash.rowsOf_replicate, List.append_nil] at g5
        exact g5.trans T.entries
      · simp only; omega
    · exact ⟨s, by simp [HSet.grow, hne, h], rfl, rfl, T, by omega⟩

theorem mem_entries {C : Type} {s : HSet C} {e : Nat × Nat} :
    e ∈ (s.rows.zipIdx.map fun p => (keysHash p.1.1, p.2)) ↔ ∃ r, s.rows[e.2]? = some r ∧ e.1 = keysHash r.1 := by
  simp only [List.mem_map]
  constructor
  · rintro ⟨⟨r, i⟩, h, rfl⟩
    exact ⟨r, by simpa [List.mem_zipIdx_iff_getElem?] using h, rfl⟩
  · rintro ⟨r, h1, h2⟩
    exact ⟨(r, e.2), by simpa [List.mem_zipIdx_iff_getElem?] using h1, Prod.ext h2.symm rfl⟩

/-- **set_upsert**: finds the row with the keys, or adds one -/
theorem upsert_spec {C : Type} {s : HSet C} (I : s.Inv) (c0 : C) {keys : List Val} {h0 : Nat} (hk : s.keys ≤ keys.length)
    (hc : KeysCanon (keys.take s.keys)) (hh : h0 = 0 ∨ h0 = keysHash (keys.take s.keys)) :
    ∃ s' i b, s.upsert c0 keys h0 = some (s', i, b) ∧ s'.Inv ∧ s'.keys = s.keys ∧
      ((b = true ∧ s'.rows = s.rows ∧ ∃ c, s.rows[i]? = some (keys.take s.keys, c)) ∨
       (b = false ∧ keys.take s.keys ∉ s.rows.map Prod.fst ∧ s'.rows = s.rows ++ [(keys.take s.keys, c0)] ∧
         i = s.rows.length)) := by
  obtain ⟨g, g1, g2, g3, T, g4⟩ := grow_spec I
  have hhash : (if h0 = 0 then keysHash (keys.take s.keys) else h0) = keysHash (keys.take s.keys) := by
    split
    · rfl
    · rcases hh with h | h
      · contradiction
      · exact h
  have hlen : (keys.take s.keys).length = s.keys := by simp [hk]
  generalize hq : keys.take s.keys = q at *
  have hrow : (rowsOf g.slots).length = g.rows.length := by rw [T.entries.length_eq]; simp
  have hsz := T.size
  have hfree := used_lt (l := g.slots) (by rw [Verif.Index.Hash.used_noDeleted T.clean]; omega)
  obtain ⟨pos, d, h1, h2, h3, h4, h5, h6⟩ := probe_ends (stop := stopUpsert g (keysHash q) q) (slots := g.slots) rfl
    (Nat.mod_lt (keysHash q) (by omega)) hfree
  have hval : s.upsert c0 keys h0 = some (match g.slots.getD pos .empty with
      | .row e => (g, e.2, true)
      | _ => (⟨g.keys, g.rows ++ [(q, c0)], g.slots.set pos (.row (keysHash q, g.rows.length))⟩, g.rows.length, false)) := by
    simp only [HSet.upsert, g1, Option.bind_some, g3, hq, hhash, h1, Option.map_some]
  have hmem : ∀ {p : Nat} {e : Nat × Nat}, g.slots.getD p .empty = .row e →
      ∃ r, g.rows[e.2]? = some r ∧ e.1 = keysHash r.1 := by
    intro p e he
    exact mem_entries.1 (T.entries.mem_iff.1 (mem_rowsOf.2 ⟨p, Verif.Index.Hash.getD_lt he, he⟩))
  have gI : g.Inv := ⟨by rw [g2, g3]; exact I.keyLen, by rw [g2]; exact I.nodup, .inr T⟩
  cases hs : g.slots.getD pos .empty with
  | deleted => exact absurd hs (T.clean pos)
  | row e =>
    rw [hs] at hval h5
    refine ⟨g, e.2, true, hval, gI, g3, .inl ⟨rfl, g2, ?_⟩⟩
    obtain ⟨r, hr1, hr2⟩ := hmem hs
    simp only [stopUpsert, hr1, Option.map_some, Option.getD_some, Bool.and_eq_true, decide_eq_true_eq] at h5
    have hrm : r ∈ s.rows := by rw [← g2]; exact List.mem_of_getElem? hr1
    have := (keysSame_iff (I.keyLen r hrm).2 hc (by rw [(I.keyLen r hrm).1, hlen])).1 h5.2
    exact ⟨r.2, by rw [← g2, hr1, ← this]⟩
  | empty =>
    rw [hs] at hval
    have habs : q ∉ s.rows.map Prod.fst := by
      intro hin
      obtain ⟨r, hr, hrq⟩ := List.mem_map.1 hin
      obtain ⟨i, hi⟩ := List.getElem?_of_mem hr
      have he : (keysHash q, i) ∈ rowsOf g.slots :=
        T.entries.mem_iff.2 (mem_entries.2 ⟨r, by rw [g2]; exact hi, by rw [hrq]⟩)
      obtain ⟨p, hp, hpe⟩ := mem_rowsOf.1 he
      obtain ⟨d', k1, k2⟩ := offset_exists (start := keysHash q % g.slots.length) (Nat.mod_lt _ (by omega)) hp
      rw [k2] at hpe
      have hstop : stopUpsert g (keysHash q) q (.row (keysHash q, i)) = true := by
        simp only [stopUpsert, decide_true, Bool.true_and, g2, hi, Option.map_some, Option.getD_some, hrq]
        exact (keysSame_iff hc hc rfl).2 rfl
      rcases Nat.lt_trichotomy d' d with h | h | h
      · have := h6 d' h; rw [hpe, hstop] at this; simp at this
      · subst h; rw [h4, hpe] at hs; simp at hs
      · exact T.chains (keysHash q, i) d' k1 hpe d h (by rw [← h4]; exact hs)
    refine ⟨_, _, _, hval, ?_, by simp [g3], .inr ⟨rfl, habs, by simp [g2], by rw [g2]⟩⟩
    refine ⟨?_, ?_, .inr ?_⟩
    · intro r hr
      simp only [g2, List.mem_append, List.mem_singleton] at hr
      simp only [g3]
      rcases hr with hr | rfl
      · exact I.keyLen r hr
      · exact ⟨hlen, hc⟩
    · simp only [g2, List.map_append, List.map_cons, List.map_nil]
      rw [List.nodup_append]
      refine ⟨I.nodup, by simp, ?_⟩
      intro a ha b hb
      simp at hb; subst hb
      intro hab; subst hab; exact habs ha
    · refine ⟨by simpa using hsz, by simp; omega, ?_, noDeleted_set' T.clean h2 _, ?_⟩
      · refine chains_set T.chains h2 (by simp) ?_
        intro r hr
        simp only [Slot.row.injEq] at hr
        subst hr
        refine ⟨d, h3, h4, ?_⟩
        intro j hj hcon
        have := h6 j hj
        rw [hcon] at this; simp [stopUpsert] at this
      · refine (rowsOf_set h2 hs _).trans ?_
        simp only [List.zipIdx_append, List.map_append, List.zipIdx_cons, List.zipIdx_nil, List.map_cons, List.map_nil, Nat.zero_add]
        exact ((List.Perm.cons _ T.entries).trans (List.perm_append_singleton _ _).symm)

theorem modify_fst {C : Type} (rows : List (List Val × C)) (i : Nat) (f : C → C) :
    (rows.modify i fun r => (r.1, f r.2)).map Prod.fst = rows.map Prod.fst := by
  apply List.ext_getElem?
  intro j
  simp only [List.getElem?_map, List.getElem?_modify]
  cases rows[j]? <;> simp
  split <;> rfl

theorem entries_modify {C : Type} (rows : List (List Val × C)) (i : Nat) (f : C → C) :
    ((rows.modify i fun r => (r.1, f r.2)).zipIdx.map fun p => (keysHash p.1.1, p.2)) =
    (rows.zipIdx.map fun p => (keysHash p.1.1, p.2)) := by
  apply List.ext_getElem?
  intro j
  simp only [List.getElem?_map, List.getElem?_zipIdx, List.getElem?_modify]
  cases rows[j]? <;> simp
  split <;> rfl

theorem inv_modify {C : Type} {s : HSet C} (I : s.Inv) (i : Nat) (f : C → C) : (s.modify i f).Inv := by
  have hm := modify_fst s.rows i f
  refine ⟨?_, ?_, ?_⟩
  · intro r hr
    have : r.1 ∈ s.rows.map Prod.fst := by rw [← hm]; exact List.mem_map_of_mem hr
    obtain ⟨r', h1, h2⟩ := List.mem_map.1 this
    rw [← h2]; exact I.keyLen r' h1
  · show ((s.rows.modify i fun r => (r.1, f r.2)).map Prod.fst).Nodup
    rw [hm]; exact I.nodup
  · rcases I.tab with ⟨h1, h2⟩ | T
    · left; exact ⟨h1, by simp [HSet.modify, h2]⟩
    · right
      refine ⟨T.size, by simpa [HSet.modify] using T.half, T.chains, T.clean, ?_⟩
      show (rowsOf s.slots).Perm ((s.rows.modify i fun r => (r.1, f r.2)).zipIdx.map fun p => (keysHash p.1.1, p.2))
      rw [entries_modify]; exact T.entries

end Verif.Query
