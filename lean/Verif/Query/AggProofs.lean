import Verif.Query.Agg
/-!
# GROUP BY: the groups after any rows, and after merging the partitions
-/
set_option linter.unusedSimpArgs false
set_option linter.unusedVariables false
set_option linter.unusedSectionVars false
namespace Verif.Query
open Verif.Index.Hash (rowsOf)

/-- the values an aggregate has to take: all, or for DISTINCT one of each -/
def Reps (distinct : Bool) (vals reps : List Val) : Prop :=
  if distinct then reps.Nodup ∧ ∀ v, v ∈ reps ↔ v ∈ vals else reps = vals

/-- the groups are those of `ks`, and the aggregate in column `col` of group `k` has taken the values `V k col` -/
structure Fed (aggs : List Agg) (n : Nat) (ks : List Val → Prop) (V : List Val → Nat → List Val) (g : Groups) : Prop where
  inv : g.groups.Inv
  dinv : g.dist.Inv
  keysN : g.groups.keys = n
  dkeysN : g.dist.keys = n + 2
  keys : ∀ k, k ∈ g.groups.rows.map Prod.fst ↔ ks k
  zero : ∀ k, ¬ ks k → ∀ col, V k col = []
  len : ∀ r ∈ g.groups.rows, r.2.length = aggs.length
  cols : ∀ r ∈ g.groups.rows, ∀ (col : Nat) (a : Agg) (st : ASt), aggs[col]? = some a → r.2[col]? = some st →
    ∃ reps, Reps a.distinct (V r.1 col) reps ∧ Result a.ty reps st
  dform : ∀ q ∈ g.dist.rows.map Prod.fst, ∃ k v, ∃ col : Nat, ∃ a, q = k ++ [v, .int col] ∧ aggs[col]? = some a ∧
    a.distinct = true ∧ ks k ∧ v ∈ V k col ∧ v.fits
  dfull : ∀ k v (col : Nat) a, aggs[col]? = some a → a.distinct = true → v ∈ V k col →
    k ++ [v, .int col] ∈ g.dist.rows.map Prod.fst

theorem fed_create (aggs : List Agg) (n : Nat) : Fed aggs n (fun _ => False) (fun _ _ => []) (Groups.create n) := by
  refine ⟨inv_create n, inv_create _, rfl, rfl, ?_, ?_, ?_, ?_, ?_, ?_⟩
  · intro k; simp [Groups.create, HSet.create]
  · intro k _ col; rfl
  · intro r hr; simp [Groups.create, HSet.create] at hr
  · intro r hr; simp [Groups.create, HSet.create] at hr
  · intro q hq; simp [Groups.create, HSet.create] at hq
  · intro k v col a _ _ h; simp at h

theorem Fed.congr {aggs : List Agg} {n : Nat} {ks ks' : List Val → Prop} {V V' : List Val → Nat → List Val} {g : Groups}
    (F : Fed aggs n ks V g) (hk : ∀ k, ks k ↔ ks' k) (hz : ∀ k, ¬ ks' k → ∀ col, V' k col = [])
    (hplain : ∀ k (col : Nat) a, aggs[col]? = some a → a.distinct = false → V' k col = V k col)
    (hdist : ∀ k (col : Nat) a, aggs[col]? = some a → a.distinct = true → ∀ v, v ∈ V' k col ↔ v ∈ V k col) :
    Fed aggs n ks' V' g := by
  refine ⟨F.inv, F.dinv, F.keysN, F.dkeysN, fun k => (F.keys k).trans (hk k), hz, F.len, ?_, ?_, ?_⟩
  · intro r hr col a st ha hst
    obtain ⟨reps, h1, h2⟩ := F.cols r hr col a st ha hst
    refine ⟨reps, ?_, h2⟩
    unfold Reps at h1 ⊢
    cases hd : a.distinct with
    | false => rw [hd] at h1; simp only [Bool.false_eq_true, if_false] at h1 ⊢; rw [h1, hplain _ _ a ha hd]
    | true =>
      rw [hd] at h1; simp only [if_true] at h1 ⊢
      exact ⟨h1.1, fun v => (h1.2 v).trans (hdist _ _ a ha hd v).symm⟩
  · intro q hq
    obtain ⟨k, v, col, a, h1, h2, h3, h4, h5, h6⟩ := F.dform q hq
    exact ⟨k, v, col, a, h1, h2, h3, (hk k).1 h4, (hdist k col a h2 h3 v).2 h5, h6⟩
  · intro k v col a h1 h2 h3
    exact F.dfull k v col a h1 h2 ((hdist k col a h1 h2 v).1 h3)

/-- get or create the group of a key -/
theorem fed_upsert {aggs : List Agg} {n : Nat} {ks : List Val → Prop} {V : List Val → Nat → List Val} {g : Groups}
    (F : Fed aggs n ks V g) {key : List Val} {h0 : Nat} (hl : n ≤ key.length) (hc : KeysCanon (key.take n))
    (hh : h0 = 0 ∨ h0 = keysHash (key.take n)) :
    ∃ s i b c, g.groups.upsert (List.replicate aggs.length .null) key h0 = some (s, i, b) ∧
      s.rows[i]? = some (key.take n, c) ∧ (ks (key.take n) → b = true) ∧
      Fed aggs n (fun k => ks k ∨ k = key.take n) V ⟨s, g.dist⟩ := by
  obtain ⟨s, i, b, h1, h2, h3, h4⟩ := upsert_spec F.inv (List.replicate aggs.length ASt.null) (keys := key) (h0 := h0)
    (by rw [F.keysN]; exact hl) (by rw [F.keysN]; exact hc) (by rw [F.keysN]; exact hh)
  rw [F.keysN] at h3 h4
  rcases h4 with ⟨rfl, e1, c, e2⟩ | ⟨rfl, e1, e2, e3⟩
  · have hks : ks (key.take n) := (F.keys _).1 (List.mem_map.2 ⟨_, List.mem_of_getElem? e2, rfl⟩)
    refine ⟨s, i, true, c, h1, by rw [e1]; exact e2, fun _ => rfl, ?_⟩
    refine ⟨h2, F.dinv, h3, F.dkeysN, ?_, ?_, by rw [e1]; exact F.len, by rw [e1]; exact F.cols, ?_, F.dfull⟩
    · intro k; simp only [e1]; rw [F.keys k]
      constructor
      · exact .inl
      · rintro (h | rfl)
        · exact h
        · exact hks
    · intro k hk; exact F.zero k fun h => hk (.inl h)
    · intro q hq
      obtain ⟨k, v, col, a, h1, h2, h3, h4, h5⟩ := F.dform q hq
      exact ⟨k, v, col, a, h1, h2, h3, .inl h4, h5⟩
  · have hnk : ¬ ks (key.take n) := fun h => e1 ((F.keys _).2 h)
    refine ⟨s, i, false, List.replicate aggs.length .null, h1, by rw [e2, e3]; simp, fun h => absurd h hnk, ?_⟩
    refine ⟨h2, F.dinv, h3, F.dkeysN, ?_, ?_, ?_, ?_, ?_, F.dfull⟩
    · intro k; simp only [e2, List.map_append, List.mem_append, F.keys k, List.map_cons, List.map_nil, List.mem_singleton]
    · intro k hk; exact F.zero k fun h => hk (.inl h)
    · intro r hr
      simp only [e2, List.mem_append, List.mem_singleton] at hr
      rcases hr with hr | rfl
      · exact F.len r hr
      · simp
    · intro r hr col a st ha hst
      simp only [e2, List.mem_append, List.mem_singleton] at hr
      rcases hr with hr | rfl
      · exact F.cols r hr col a st ha hst
      · refine ⟨[], ?_, .inl ⟨rfl, ?_⟩⟩
        · rw [F.zero _ hnk]; unfold Reps; split <;> simp
        · simp only [List.getElem?_replicate] at hst
          split at hst <;> simp at hst; exact hst.symm
    · intro q hq
      obtain ⟨k, v, col, a, h1, h2, h3, h4, h5⟩ := F.dform q hq
      exact ⟨k, v, col, a, h1, h2, h3, .inl h4, h5⟩

/-- one more value for one aggregate of one group -/
def bump (V : List Val → Nat → List Val) (k : List Val) (col : Nat) (v : Val) : List Val → Nat → List Val :=
  fun k' c => if k' = k ∧ c = col then V k' c ++ [v] else V k' c

theorem getElem?_modify_row {C : Type} {rows : List (List Val × C)} {i : Nat} {k : List Val} {c : C}
    (hn : (rows.map Prod.fst).Nodup) (hi : rows[i]? = some (k, c)) (f : C → C) {r : List Val × C}
    (hr : r ∈ rows.modify i fun r => (r.1, f r.2)) :
    (r = (k, f c)) ∨ (r ∈ rows ∧ r.1 ≠ k) := by
  obtain ⟨j, hj⟩ := List.getElem?_of_mem hr
  rw [List.getElem?_modify] at hj
  cases hrow : rows[j]? with
  | none => rw [hrow] at hj; simp at hj
  | some x =>
    rw [hrow] at hj
    simp only [Option.map_eq_map, Option.map_some, Option.some.injEq] at hj
    by_cases hij : i = j
    · subst hij
      rw [hi] at hrow
      simp only [Option.some.injEq] at hrow
      subst hrow
      left; rw [← hj]; simp
    · rw [if_neg hij] at hj
      subst hj
      right
      refine ⟨List.mem_of_getElem? hrow, ?_⟩
      intro hk
      have h1 : (rows.map Prod.fst)[j]? = some k := by rw [List.getElem?_map, hrow]; simp [hk]
      have h2 : (rows.map Prod.fst)[i]? = some k := by rw [List.getElem?_map, hi]; rfl
      have hlt : i < (rows.map Prod.fst).length := by
        rcases Nat.lt_or_ge i (rows.map Prod.fst).length with h | h
        · exact h
        · rw [List.getElem?_eq_none h] at h2; simp at h2
      exact hij ((List.getElem?_inj hlt hn).1 (h2.trans h1.symm))

/-- computing with one value a value that the DISTINCT set does not exclude -/
theorem fed_compute {aggs : List Agg} {n : Nat} {ks : List Val → Prop} {V : List Val → Nat → List Val} {g : Groups}
    (F : Fed aggs n ks V g) {i : Nat} {k : List Val} {c : List ASt} (hi : g.groups.rows[i]? = some (k, c)) {col : Nat} {a : Agg}
    (ha : aggs[col]? = some a) {v : Val} (hv : v.fits) {d : HSet Int} (hd : d.Inv) (hdk : d.keys = n + 2)
    (hplain : a.distinct = false → d.rows.map Prod.fst = g.dist.rows.map Prod.fst)
    (hdist : a.distinct = true → v ∉ V k col ∧ d.rows.map Prod.fst = g.dist.rows.map Prod.fst ++ [k ++ [v, .int col]]) :
    Fed aggs n ks (bump V k col v) ⟨g.groups.modify i fun cols => cols.modify col fun st => compute a.ty st v, d⟩ := by
  have hks : ks k := (F.keys k).1 (List.mem_map.2 ⟨_, List.mem_of_getElem? hi, rfl⟩)
  have hmf := modify_fst g.groups.rows i (fun cols => cols.modify col fun st => compute a.ty st v)
  have hkk : ∀ q, q ∈ d.rows.map Prod.fst ↔ q ∈ g.dist.rows.map Prod.fst ∨ (a.distinct = true ∧ q = k ++ [v, .int col]) := by
    intro q
    cases hda : a.distinct with
    | false => rw [hplain hda]; simp
    | true => rw [(hdist hda).2]; simp [List.mem_append]
  refine ⟨inv_modify F.inv _ _, hd, F.keysN, hdk, ?_, ?_, ?_, ?_, ?_, ?_⟩
  · intro k'
    show k' ∈ (g.groups.rows.modify i fun r => (r.1, _)).map Prod.fst ↔ _
    rw [hmf]; exact F.keys k'
  · intro k' hk' c'
    unfold bump
    rw [if_neg (by rintro ⟨rfl, _⟩; exact hk' hks)]; exact F.zero k' hk' c'
  · intro r hr
    rcases getElem?_modify_row F.inv.nodup hi (fun cols => List.modify cols col fun st => compute a.ty st v) hr with rfl | ⟨hr, _⟩
    · simpa using F.len _ (List.mem_of_getElem? hi)
    · exact F.len r hr
  · intro r hr col' a' st ha' hst
    rcases getElem?_modify_row F.inv.nodup hi (fun cols => List.modify cols col fun st => compute a.ty st v) hr with rfl | ⟨hr, hne⟩
    · simp only [List.getElem?_modify] at hst
      by_cases hcc : col = col'
      · subst hcc
        rw [ha] at ha'
        simp only [Option.some.injEq] at ha'
        subst ha'
        cases hco : c[col]? with
        | none => rw [hco] at hst; simp at hst
        | some st0 =>
          rw [hco] at hst
          simp only [if_true, Option.map_eq_map, Option.map_some, Option.some.injEq] at hst
          subst hst
          obtain ⟨reps, h1, h2⟩ := F.cols _ (List.mem_of_getElem? hi) col a st0 ha hco
          refine ⟨reps ++ [v], ?_, result_compute h2 hv⟩
          unfold Reps bump at *
          simp only [and_self, if_true]
          cases hda : a.distinct with
          | false => rw [hda] at h1; simp only [Bool.false_eq_true, if_false] at h1 ⊢; rw [h1]
          | true =>
            rw [hda] at h1
            simp only [if_true] at h1 ⊢
            have hnv := (hdist hda).1
            refine ⟨?_, ?_⟩
            · rw [List.nodup_append]
              refine ⟨h1.1, by simp, ?_⟩
              intro x hx y hy hxy
              simp at hy; subst hy; subst hxy
              exact hnv ((h1.2 _).1 hx)
            · intro x; simp [h1.2 x]
      · cases hco : c[col']? with
        | none => rw [hco] at hst; simp at hst
        | some st0 =>
          rw [hco] at hst
          simp only [if_neg hcc, Option.map_eq_map, Option.map_some, Option.some.injEq] at hst
          subst hst
          obtain ⟨reps, h1, h2⟩ := F.cols _ (List.mem_of_getElem? hi) col' a' _ ha' hco
          refine ⟨reps, ?_, h2⟩
          unfold bump; rw [if_neg (by rintro ⟨_, h⟩; exact hcc h.symm)]; exact h1
    · obtain ⟨reps, h1, h2⟩ := F.cols r hr col' a' st ha' hst
      refine ⟨reps, ?_, h2⟩
      unfold bump; rw [if_neg (by rintro ⟨h, _⟩; exact hne h)]; exact h1
  · intro q hq
    rcases (hkk q).1 hq with h | ⟨hda, rfl⟩
    · obtain ⟨k', v', col', a', h1, h2, h3, h4, h5, h6⟩ := F.dform q h
      refine ⟨k', v', col', a', h1, h2, h3, h4, ?_, h6⟩
      unfold bump; split
      · exact List.mem_append_left _ h5
      · exact h5
    · refine ⟨k, v, col, a, rfl, ha, hda, hks, ?_, hv⟩
      unfold bump; simp
  · intro k' v' col' a' ha' hda' hv'
    refine (hkk _).2 ?_
    unfold bump at hv'
    split at hv'
    · rename_i heq
      obtain ⟨rfl, rfl⟩ := heq
      rcases List.mem_append.1 hv' with h | h
      · exact .inl (F.dfull _ _ _ a' ha' hda' h)
      · simp at h; subst h
        rw [ha] at ha'; simp at ha'; subst ha'
        exact .inr ⟨hda', rfl⟩
    · exact .inl (F.dfull _ _ _ a' ha' hda' hv')

theorem Fed.keyOf {aggs : List Agg} {n : Nat} {ks : List Val → Prop} {V : List Val → Nat → List Val} {g : Groups}
    (F : Fed aggs n ks V g) {k : List Val} (h : ks k) : k.length = n ∧ KeysCanon k := by
  obtain ⟨r, hr, rfl⟩ := List.mem_map.1 ((F.keys k).2 h)
  have := F.inv.keyLen r hr
  rw [F.keysN] at this; exact this

theorem canon_key {k : List Val} {v : Val} {col : Nat} (hk : KeysCanon k) (hv : v.canon) : KeysCanon (k ++ [v, .int col]) := by
  intro x hx
  simp only [List.mem_append, List.mem_cons, List.not_mem_nil, or_false] at hx
  rcases hx with h | rfl | rfl
  · exact hk x h
  · exact hv
  · trivial

/-- the outcome of looking up a DISTINCT value -/
theorem dist_upsert {aggs : List Agg} {n : Nat} {ks : List Val → Prop} {V : List Val → Nat → List Val} {g : Groups}
    (F : Fed aggs n ks V g) {k : List Val} (hk : ks k) {v : Val} (hv : v.canon) {col : Nat} {a : Agg} (ha : aggs[col]? = some a)
    (hda : a.distinct = true) {h0 : Nat} (hh : h0 = 0 ∨ h0 = keysHash (k ++ [v, .int col])) :
    ∃ d ref b, g.dist.upsert 0 (k ++ [v, .int col]) h0 = some (d, ref, b) ∧ d.Inv ∧ d.keys = n + 2 ∧
      ((b = true ∧ v ∈ V k col ∧ d.rows = g.dist.rows) ∨
       (b = false ∧ v ∉ V k col ∧ d.rows.map Prod.fst = g.dist.rows.map Prod.fst ++ [k ++ [v, .int col]])) := by
  obtain ⟨hl, hc⟩ := F.keyOf hk
  have htake : (k ++ [v, .int col]).take g.dist.keys = k ++ [v, .int col] := by
    apply List.take_of_length_le; rw [F.dkeysN]; simp [hl]
  obtain ⟨d, ref, b, h1, h2, h3, h4⟩ := upsert_spec F.dinv (0 : Int) (keys := k ++ [v, .int col]) (h0 := h0)
    (by rw [F.dkeysN]; simp [hl]) (by rw [htake]; exact canon_key hc hv) (by rw [htake]; exact hh)
  rw [htake] at h4
  refine ⟨d, ref, b, h1, h2, h3.trans F.dkeysN, ?_⟩
  rcases h4 with ⟨rfl, e1, c, e2⟩ | ⟨rfl, e1, e2, e3⟩
  · left
    refine ⟨rfl, ?_, e1⟩
    obtain ⟨k', v', col', a', q1, q2, q3, q4, q5, q6⟩ := F.dform _ (List.mem_map.2 ⟨_, List.mem_of_getElem? e2, rfl⟩)
    simp only at q1
    obtain ⟨p1, p2⟩ := List.append_inj' q1 rfl
    simp only [List.cons.injEq, Val.int.injEq, Int.natCast_inj, and_true] at p2
    obtain ⟨rfl, rfl⟩ := p2
    subst p1
    exact q5
  · right
    refine ⟨rfl, fun h => e1 (F.dfull k v col a ha hda h), by rw [e2]; simp⟩

theorem modify_dist {d : HSet Int} (i : Nat) (f : Int → Int) : (d.modify i f).rows.map Prod.fst = d.rows.map Prod.fst :=
  modify_fst d.rows i f

/-- one column of a row -/
theorem fed_writeCol {aggs : List Agg} {n : Nat} {ks : List Val → Prop} {V : List Val → Nat → List Val} {g : Groups}
    (F : Fed aggs n ks V g) {i : Nat} {k : List Val} {c : List ASt} (hi : g.groups.rows[i]? = some (k, c)) {col : Nat} {a : Agg}
    (ha : aggs[col]? = some a) {v : Val} (hv : v.fits) (hcan : a.distinct = true → v.canon) :
    ∃ g' c', writeCol a i col v g = some g' ∧ g'.groups.rows[i]? = some (k, c') ∧
      Fed aggs n ks (if v = .null then V else bump V k col v) g' := by
  have hks : ks k := (F.keys k).1 (List.mem_map.2 ⟨_, List.mem_of_getElem? hi, rfl⟩)
  unfold writeCol
  by_cases hnull : v = .null
  · simp only [hnull, if_true]; exact ⟨g, c, rfl, hi, F⟩
  simp only [hnull, if_false]
  have hrow : (g.groups.modify i fun cols => cols.modify col fun st => compute a.ty st v).rows[i]? =
      some (k, c.modify col fun st => compute a.ty st v) := by
    show (g.groups.rows.modify i fun r => _)[i]? = _
    rw [List.getElem?_modify, hi]; simp
  cases hda : a.distinct with
  | false =>
    simp only [Bool.false_eq_true, if_false]
    refine ⟨_, _, rfl, hrow, ?_⟩
    exact fed_compute F hi ha hv F.dinv F.dkeysN (fun _ => rfl) (fun h => by rw [hda] at h; simp at h)
  | true =>
    simp only [if_true, hi, Option.map_some, Option.getD_some]
    obtain ⟨d, ref, b, h1, h2, h3, h4⟩ := dist_upsert F hks (hcan hda) ha hda (h0 := 0) (.inl rfl)
    rw [h1]
    simp only [Option.map_some]
    rcases h4 with ⟨rfl, e1, e2⟩ | ⟨rfl, e1, e2⟩
    · simp only [if_true]
      refine ⟨_, c, rfl, hi, ?_⟩
      have F' : Fed aggs n ks V ⟨g.groups, d⟩ :=
        ⟨F.inv, h2, F.keysN, h3, F.keys, F.zero, F.len, F.cols, by rw [e2]; exact F.dform, by rw [e2]; exact F.dfull⟩
      refine F'.congr (fun _ => Iff.rfl) ?_ ?_ ?_
      · intro k' hk' c'; unfold bump
        rw [if_neg (by rintro ⟨rfl, _⟩; exact hk' hks)]; exact F.zero k' hk' c'
      · intro k' col' a' ha' hda'; unfold bump
        rw [if_neg]; rintro ⟨_, rfl⟩; rw [ha] at ha'; simp at ha'; subst ha'; rw [hda] at hda'; simp at hda'
      · intro k' col' a' ha' hda' v'; unfold bump; split
        · rename_i heq
          obtain ⟨rfl, rfl⟩ := heq
          simp only [List.mem_append, List.mem_singleton]
          constructor
          · rintro (h | rfl)
            · exact h
            · exact e1
          · exact .inl
        · exact Iff.rfl
    · simp only [Bool.false_eq_true, if_false]
      refine ⟨_, _, rfl, hrow, ?_⟩
      exact fed_compute F hi ha hv (inv_modify h2 _ _) h3 (fun h => by rw [hda] at h; simp at h)
        (fun _ => ⟨e1, by rw [modify_dist]; exact e2⟩)

/-- the value of an aggregate argument, none if it is NULL -/
def nonNull : Option Val → List Val
  | some v => if v = .null then [] else [v]
  | none => []

/-- all columns of a row -/
theorem fed_writeFrom {aggs : List Agg} {n : Nat} {ks : List Val → Prop} {i : Nat} {k : List Val} :
    ∀ (l : List (Agg × Val)) (c0 : Nat) (V : List Val → Nat → List Val) (g : Groups) (c : List ASt),
    Fed aggs n ks V g → g.groups.rows[i]? = some (k, c) →
    (∀ (j : Nat) (p : Agg × Val), l[j]? = some p → aggs[c0 + j]? = some p.1 ∧ p.2.fits ∧ (p.1.distinct = true → p.2.canon)) →
    ∃ g', writeFrom i c0 l g = some g' ∧
      Fed aggs n ks (fun k' col => V k' col ++ (if k' = k ∧ c0 ≤ col then nonNull ((l[col - c0]?).map Prod.snd) else [])) g' := by
  intro l
  induction l with
  | nil =>
    intro c0 V g c F hi _
    refine ⟨g, rfl, ?_⟩
    have : (fun (k' : List Val) (col : Nat) => V k' col ++ (if k' = k ∧ c0 ≤ col then nonNull ((([] : List (Agg × Val))[col - c0]?).map Prod.snd) else [])) = V := by
      funext k' col; simp [nonNull]
    rw [this]; exact F
  | cons p l ih =>
    intro c0 V g c F hi hp
    obtain ⟨h1, h2, h3⟩ := hp 0 p (by simp)
    obtain ⟨g1, c1, e1, e2, F1⟩ := fed_writeCol F hi (by simpa using h1) h2 h3
    obtain ⟨g2, e3, F2⟩ := ih (c0 + 1) _ g1 c1 F1 e2 (by
      intro j q hq
      have := hp (j + 1) q (by simpa using hq)
      rwa [show c0 + (j + 1) = c0 + 1 + j by omega] at this)
    refine ⟨g2, by simp only [writeFrom, e1, Option.bind_some, e3], ?_⟩
    have : (fun (k' : List Val) (col : Nat) => V k' col ++ (if k' = k ∧ c0 ≤ col then nonNull (((p :: l)[col - c0]?).map Prod.snd) else [])) =
        (fun (k' : List Val) (col : Nat) => (if p.2 = .null then V else bump V k c0 p.2) k' col ++
          (if k' = k ∧ c0 + 1 ≤ col then nonNull ((l[col - (c0 + 1)]?).map Prod.snd) else [])) := by
      funext k' col
      by_cases hk : k' = k
      · subst hk
        simp only [true_and]
        rcases Nat.lt_trichotomy col c0 with h | h | h
        · have e1 : ¬ c0 ≤ col := by omega
          have e2 : ¬ c0 + 1 ≤ col := by omega
          have e3 : ¬ col = c0 := by omega
          simp only [e1, e2, if_false]
          split <;> simp [bump, e3]
        · subst h
          have e2 : ¬ col + 1 ≤ col := by omega
          simp only [Nat.le_refl, e2, if_true, if_false, Nat.sub_self, List.getElem?_cons_zero, Option.map_some, nonNull]
          split <;> simp [bump]
        · have e1 : c0 ≤ col := by omega
          have e2 : c0 + 1 ≤ col := by omega
          have e3 : ¬ col = c0 := by omega
          simp only [e1, e2, if_true]
          rw [show col - c0 = (col - (c0 + 1)) + 1 by omega, List.getElem?_cons_succ]
          split <;> simp [bump, e3]
      · simp only [hk, false_and, if_false]
        split <;> simp [bump, hk]
    rw [this]; exact F2

/-- the arguments that the rows of group `k` have in column `col`, without NULLs -/
def valsOf (rows : List (List Val × List Val)) (k : List Val) (col : Nat) : List Val :=
  rows.flatMap fun r => if r.1 = k then nonNull r.2[col]? else []

/-- a matching row: as many keys and arguments as the statement has; keys, and arguments of DISTINCT aggregates, are not
NaN or negative zero -/
structure RowOk (aggs : List Agg) (n : Nat) (r : List Val × List Val) : Prop where
  keys : r.1.length = n
  canon : KeysCanon r.1
  vals : r.2.length = aggs.length
  fits : ∀ v ∈ r.2, v.fits
  dist : ∀ (col : Nat) a v, aggs[col]? = some a → a.distinct = true → r.2[col]? = some v → v.canon

theorem fed_addRow {aggs : List Agg} {n : Nat} {ks : List Val → Prop} {V : List Val → Nat → List Val} {g : Groups}
    (F : Fed aggs n ks V g) {r : List Val × List Val} (hr : RowOk aggs n r) :
    ∃ g', addRow aggs g r = some g' ∧
      Fed aggs n (fun k => ks k ∨ k = r.1) (fun k col => V k col ++ (if r.1 = k then nonNull r.2[col]? else [])) g' := by
  have htake : r.1.take n = r.1 := List.take_of_length_le (by rw [hr.keys]; exact Nat.le_refl _)
  obtain ⟨s, i, b, c, h1, h2, _, F1⟩ := fed_upsert F (key := r.1) (h0 := 0) (Nat.le_of_eq hr.keys.symm)
    (by rw [htake]; exact hr.canon) (.inl rfl)
  rw [htake] at h2 F1
  obtain ⟨g', e1, F2⟩ := fed_writeFrom (aggs.zip r.2) 0 V ⟨s, g.dist⟩ c F1 h2 (by
    intro j p hp
    rw [List.getElem?_zip_eq_some] at hp
    simp only [Nat.zero_add]
    refine ⟨hp.1, hr.fits _ (List.mem_of_getElem? hp.2), fun hd => hr.dist j p.1 p.2 hp.1 hd hp.2⟩)
  refine ⟨g', by simp only [addRow, h1, Option.bind_some, e1], ?_⟩
  have : (fun (k' : List Val) (col : Nat) => V k' col ++ (if k' = r.1 ∧ 0 ≤ col then nonNull (((aggs.zip r.2)[col - 0]?).map Prod.snd) else [])) =
      (fun k col => V k col ++ (if r.1 = k then nonNull r.2[col]? else [])) := by
    funext k' col
    congr 1
    by_cases hk : k' = r.1
    · rw [if_pos ⟨hk, Nat.zero_le _⟩, if_pos hk.symm]
      congr 1
      simp only [Nat.sub_zero]
      cases hc : r.2[col]? with
      | none =>
        have : aggs.length ≤ col := by rw [← hr.vals]; exact List.getElem?_eq_none_iff.1 hc
        rw [List.getElem?_eq_none (by simp; omega)]; rfl
      | some v =>
        have hlt : col < r.2.length := (List.getElem?_eq_some_iff.1 hc).1
        obtain ⟨a, ha⟩ : ∃ a, aggs[col]? = some a := ⟨_, List.getElem?_eq_getElem (by rw [← hr.vals]; exact hlt)⟩
        have : (aggs.zip r.2)[col]? = some (a, v) := List.getElem?_zip_eq_some.2 ⟨ha, hc⟩
        rw [this]; rfl
    · rw [if_neg (fun h => hk h.1), if_neg (fun h => hk h.symm)]
  rw [this] at F2
  exact F2

theorem fed_addRows {aggs : List Agg} {n : Nat} : ∀ (rows : List (List Val × List Val)) (ks : List Val → Prop)
    (V : List Val → Nat → List Val) (g : Groups), Fed aggs n ks V g → (∀ r ∈ rows, RowOk aggs n r) →
    ∃ g', addRows aggs g rows = some g' ∧
      Fed aggs n (fun k => ks k ∨ ∃ r ∈ rows, r.1 = k) (fun k col => V k col ++ valsOf rows k col) g' := by
  intro rows
  induction rows with
  | nil =>
    intro ks V g F _
    refine ⟨g, rfl, ?_⟩
    have h1 : (fun k => ks k ∨ ∃ r ∈ ([] : List (List Val × List Val)), r.1 = k) = ks := by funext k; simp
    have h2 : (fun (k : List Val) (col : Nat) => V k col ++ valsOf [] k col) = V := by funext k col; simp [valsOf]
    rw [h1, h2]; exact F
  | cons r rows ih =>
    intro ks V g F hr
    obtain ⟨g1, e1, F1⟩ := fed_addRow F (hr r (by simp))
    obtain ⟨g2, e2, F2⟩ := ih _ _ g1 F1 (fun r hr' => hr r (by simp [hr']))
    refine ⟨g2, by simp only [addRows, e1, Option.bind_some, e2], ?_⟩
    have h1 : (fun k => ks k ∨ ∃ r' ∈ r :: rows, r'.1 = k) = (fun k => (ks k ∨ k = r.1) ∨ ∃ r' ∈ rows, r'.1 = k) := by
      funext k
      apply propext
      simp only [List.mem_cons]
      constructor
      · rintro (h | ⟨r', rfl | h, rfl⟩)
        · exact .inl (.inl h)
        · exact .inl (.inr rfl)
        · exact .inr ⟨r', h, rfl⟩
      · rintro ((h | rfl) | ⟨r', h, rfl⟩)
        · exact .inl h
        · exact .inr ⟨r, .inl rfl, rfl⟩
        · exact .inr ⟨r', .inr h, rfl⟩
    have h2 : (fun (k : List Val) (col : Nat) => V k col ++ valsOf (r :: rows) k col) =
        (fun (k : List Val) (col : Nat) => (V k col ++ (if r.1 = k then nonNull r.2[col]? else [])) ++ valsOf rows k col) := by
      funext k col; simp [valsOf, List.append_assoc]
    rw [h1, h2]; exact F2

/-! ## Merging -/

/-- a column that is merged by its state -/
def plainCol (aggs : List Agg) (col : Nat) : Prop := (aggs[col]?).map Agg.distinct = some false
instance (aggs : List Agg) (col : Nat) : Decidable (plainCol aggs col) := by unfold plainCol; infer_instance

theorem mergeCols_get : ∀ (aggs : List Agg) (x y : List ASt) (col : Nat), x.length = aggs.length → y.length = aggs.length →
    ∀ a st, aggs[col]? = some a → (mergeCols aggs x y)[col]? = some st →
      ∃ s t, x[col]? = some s ∧ y[col]? = some t ∧ st = if a.distinct then s else merge a.ty s t
  | [], _, _, _, _, _ => by intro a st h; simp at h
  | b :: aggs, [], _, _, h, _ => by simp at h
  | b :: aggs, _ :: _, [], _, _, h => by simp at h
  | b :: aggs, x :: xs, y :: ys, 0, _, _ => by
    intro a st ha hst
    simp only [List.getElem?_cons_zero, Option.some.injEq] at ha
    subst ha
    simp only [mergeCols, List.getElem?_cons_zero, Option.some.injEq] at hst
    exact ⟨x, y, rfl, rfl, hst.symm⟩
  | b :: aggs, x :: xs, y :: ys, col + 1, h1, h2 => by
    intro a st ha hst
    simp only [mergeCols, List.getElem?_cons_succ] at ha hst ⊢
    exact mergeCols_get aggs xs ys col (by simpa using h1) (by simpa using h2) a st ha hst

theorem mergeCols_length : ∀ (aggs : List Agg) (x y : List ASt), (mergeCols aggs x y).length = x.length
  | [], _, _ => by simp [mergeCols]
  | _ :: _, [], _ => by simp [mergeCols]
  | _ :: _, _ :: _, [] => by simp [mergeCols]
  | b :: aggs, x :: xs, y :: ys => by simp [mergeCols, mergeCols_length aggs xs ys]

theorem fed_mergeRow {aggs : List Agg} {n : Nat} {ks : List Val → Prop} {V : List Val → Nat → List Val} {s : HSet (List ASt)} {d : HSet Int}
    (F : Fed aggs n ks V ⟨s, d⟩) {i : Nat} {k : List Val} {c c2 : List ASt} (hi : s.rows[i]? = some (k, c))
    (hl2 : c2.length = aggs.length) {V2 : Nat → List Val}
    (hc2 : ∀ (col : Nat) a st, aggs[col]? = some a → a.distinct = false → c2[col]? = some st → Result a.ty (V2 col) st) :
    Fed aggs n ks (fun k' col => V k' col ++ (if k' = k ∧ plainCol aggs col then V2 col else []))
      ⟨s.modify i fun cols => mergeCols aggs cols c2, d⟩ := by
  have hks : ks k := (F.keys k).1 (List.mem_map.2 ⟨_, List.mem_of_getElem? hi, rfl⟩)
  have hmf := modify_fst s.rows i (fun cols => mergeCols aggs cols c2)
  have hlc : c.length = aggs.length := F.len _ (List.mem_of_getElem? hi)
  have hdd : ∀ k' (col : Nat) a, aggs[col]? = some a → a.distinct = true →
      V k' col ++ (if k' = k ∧ plainCol aggs col then V2 col else []) = V k' col := by
    intro k' col a ha hd
    rw [if_neg (by rintro ⟨_, h⟩; simp [plainCol, ha, hd] at h), List.append_nil]
  have hinv : s.Inv := F.inv
  refine ⟨inv_modify hinv i (fun cols => mergeCols aggs cols c2), F.dinv, F.keysN, F.dkeysN, ?_, ?_, ?_, ?_, ?_, ?_⟩
  · intro k'
    show k' ∈ (s.rows.modify i fun r => (r.1, _)).map Prod.fst ↔ _
    rw [hmf]; exact F.keys k'
  · intro k' hk' c'
    rw [if_neg (by rintro ⟨rfl, _⟩; exact hk' hks), List.append_nil]; exact F.zero k' hk' c'
  · intro r hr
    rcases getElem?_modify_row F.inv.nodup hi (fun cols => mergeCols aggs cols c2) hr with e | ⟨hr, _⟩
    · rw [e]; show (mergeCols aggs c c2).length = _; rw [mergeCols_length, hlc]
    · exact F.len r hr
  · intro r hr col a st ha hst
    rcases getElem?_modify_row F.inv.nodup hi (fun cols => mergeCols aggs cols c2) hr with e | ⟨hr, hne⟩
    · rw [e] at hst ⊢
      obtain ⟨x, y, e1, e2, e3⟩ := mergeCols_get aggs c c2 col hlc hl2 a st ha hst
      obtain ⟨reps, h1, h2⟩ := F.cols _ (List.mem_of_getElem? hi) col a x ha e1
      cases hda : a.distinct with
      | true =>
        rw [hda] at e3 h1; simp only [if_true] at e3; subst e3
        refine ⟨reps, ?_, h2⟩
        have := hdd k col a ha hda
        simp only at this ⊢
        rw [this]; exact h1
      | false =>
        rw [hda] at e3 h1; simp only [Bool.false_eq_true, if_false] at e3; subst e3
        simp only [Reps, Bool.false_eq_true, if_false] at h1 ⊢
        subst h1
        refine ⟨_, rfl, ?_⟩
        rw [if_pos ⟨trivial, by simp [plainCol, ha, hda]⟩]
        exact result_merge h2 (hc2 col a y ha hda e2)
    · obtain ⟨reps, h1, h2⟩ := F.cols r hr col a st ha hst
      refine ⟨reps, ?_, h2⟩
      rw [if_neg (by rintro ⟨h, _⟩; exact hne h), List.append_nil]; exact h1
  · intro q hq
    obtain ⟨k', v, col, a, h1, h2, h3, h4, h5⟩ := F.dform q hq
    refine ⟨k', v, col, a, h1, h2, h3, h4, ?_⟩
    rw [hdd k' col a h2 h3]; exact h5
  · intro k' v col a h1 h2 h3
    rw [hdd k' col a h1 h2] at h3
    exact F.dfull k' v col a h1 h2 h3

/-- the keys of a table entry of the other set -/
def keyAt {C : Type} (o : HSet C) (e : Nat × Nat) : List Val := ((o.rows[e.2]?).map Prod.fst).getD []

theorem fed_mergeSet {aggs : List Agg} {n : Nat} {ks2 : List Val → Prop} {V2 : List Val → Nat → List Val} {o : Groups}
    (F2 : Fed aggs n ks2 V2 o) {d : HSet Int} : ∀ (es : List (Nat × Nat)) (ks : List Val → Prop) (V : List Val → Nat → List Val) (s : HSet (List ASt)),
    Fed aggs n ks V ⟨s, d⟩ → (∀ e ∈ es, ∃ r, o.groups.rows[e.2]? = some r ∧ e.1 = keysHash r.1) → (es.map (keyAt o.groups)).Nodup →
    ∃ s', mergeSet aggs o.groups es s = some s' ∧
      Fed aggs n (fun k => ks k ∨ k ∈ es.map (keyAt o.groups))
        (fun k col => V k col ++ (if k ∈ es.map (keyAt o.groups) ∧ plainCol aggs col then V2 k col else [])) ⟨s', d⟩ := by
  intro es
  induction es with
  | nil =>
    intro ks V s F _ _
    refine ⟨s, rfl, ?_⟩
    have h1 : (fun k => ks k ∨ k ∈ ([] : List (Nat × Nat)).map (keyAt o.groups)) = ks := by funext k; simp
    have h2 : (fun (k : List Val) (col : Nat) => V k col ++ (if k ∈ ([] : List (Nat × Nat)).map (keyAt o.groups) ∧ plainCol aggs col then V2 k col else [])) = V := by
      funext k col; simp
    rw [h1, h2]; exact F
  | cons e es ih =>
    intro ks V s F he hn
    obtain ⟨r, hr, hh⟩ := he e (by simp)
    have hka : keyAt o.groups e = r.1 := by simp [keyAt, hr]
    have hrm := List.mem_of_getElem? hr
    obtain ⟨hkl, hkc⟩ := F2.inv.keyLen r hrm
    rw [F2.keysN] at hkl
    have htake : r.1.take n = r.1 := List.take_of_length_le (by omega)
    obtain ⟨s1, i, b, c, h1, h2, _, F1⟩ := fed_upsert F (key := r.1) (h0 := e.1) (by omega)
      (by rw [htake]; exact hkc) (by rw [htake]; exact .inr hh)
    rw [htake] at h2 F1
    have F3 := fed_mergeRow F1 h2 (F2.len r hrm) (V2 := V2 r.1) (by
      intro col a st ha hda hst
      obtain ⟨reps, g1, g2⟩ := F2.cols r hrm col a st ha hst
      rw [hda] at g1
      simp only [Reps, Bool.false_eq_true, if_false] at g1
      rw [← g1]; exact g2)
    simp only [List.map_cons, List.nodup_cons] at hn
    obtain ⟨s', e1, F4⟩ := ih _ _ _ F3 (fun e he' => he e (by simp [he'])) hn.2
    refine ⟨s', ?_, ?_⟩
    · simp only [mergeSet, hr, Option.map_some, Option.getD_some, h1, Option.bind_some]
      exact e1
    · have q1 : (fun k => ks k ∨ k ∈ (e :: es).map (keyAt o.groups)) =
          (fun k => (ks k ∨ k = r.1) ∨ k ∈ es.map (keyAt o.groups)) := by
        funext k; simp only [List.map_cons, List.mem_cons, hka, or_assoc]
      have q2 : (fun (k : List Val) (col : Nat) => V k col ++ (if k ∈ (e :: es).map (keyAt o.groups) ∧ plainCol aggs col then V2 k col else [])) =
          (fun (k : List Val) (col : Nat) => (V k col ++ (if k = r.1 ∧ plainCol aggs col then V2 r.1 col else [])) ++
            (if k ∈ es.map (keyAt o.groups) ∧ plainCol aggs col then V2 k col else [])) := by
        funext k col
        by_cases hk : k = r.1
        · have hnot : r.1 ∉ es.map (keyAt o.groups) := by rw [← hka]; exact hn.1
          rw [hk]
          simp only [List.map_cons, List.mem_cons, hka, true_or, true_and, hnot, false_and, if_false, List.append_nil]
        · simp only [List.map_cons, List.mem_cons, hka, hk, false_or, false_and, if_false, List.append_nil]
      rw [q1, q2]; exact F4

theorem fed_mergeDist {aggs : List Agg} {n : Nat} {o : HSet Int} (hok : o.keys = n + 2) :
    ∀ (es : List (Nat × Nat)) (ks : List Val → Prop) (V : List Val → Nat → List Val) (g : Groups), Fed aggs n ks V g →
    (∀ e ∈ es, ∃ k v, ∃ col : Nat, ∃ a, keyAt o e = k ++ [v, .int col] ∧ aggs[col]? = some a ∧ a.distinct = true ∧ ks k ∧ v.fits ∧
      v.canon ∧ e.1 = keysHash (k ++ [v, .int col])) →
    ∃ g' V', mergeDist aggs o es g = some g' ∧ Fed aggs n ks V' g' ∧
      (∀ k (col : Nat) a, aggs[col]? = some a → a.distinct = false → V' k col = V k col) ∧
      (∀ k (col : Nat) a, aggs[col]? = some a → a.distinct = true → ∀ v,
        v ∈ V' k col ↔ v ∈ V k col ∨ k ++ [v, .int col] ∈ es.map (keyAt o)) := by
  intro es
  induction es with
  | nil => intro ks V g F _; exact ⟨g, V, rfl, F, fun _ _ _ _ _ => rfl, by simp⟩
  | cons e es ih =>
    intro ks V g F he
    obtain ⟨k, v, col, a, hq, ha, hda, hks, hfit, hcan, hh⟩ := he e (by simp)
    obtain ⟨hkl, hkc⟩ := F.keyOf hks
    obtain ⟨d, ref, b, h1, h2, h3, h4⟩ := dist_upsert F hks hcan ha hda (h0 := e.1) (.inr hh)
    have hkey : ((o.rows[e.2]?).map Prod.fst).getD [] = k ++ [v, .int col] := hq
    have hmem : ∀ k' (col' : Nat) v', k' ++ [v', .int col'] = k ++ [v, .int col] ↔ (k' = k ∧ v' = v ∧ col' = col) := by
      intro k' col' v'
      constructor
      · intro h
        obtain ⟨p1, p2⟩ := List.append_inj' h rfl
        simp only [List.cons.injEq, Val.int.injEq, Int.natCast_inj, and_true] at p2
        exact ⟨p1, p2.1, p2.2⟩
      · rintro ⟨rfl, rfl, rfl⟩; rfl
    rcases h4 with ⟨rfl, e1, e2⟩ | ⟨rfl, e1, e2⟩
    · have F' : Fed aggs n ks V ⟨g.groups, d⟩ :=
        ⟨F.inv, h2, F.keysN, h3, F.keys, F.zero, F.len, F.cols, by rw [e2]; exact F.dform, by rw [e2]; exact F.dfull⟩
      obtain ⟨g', V', q1, q2, q3, q4⟩ := ih ks V _ F' (fun e he' => he e (by simp [he']))
      refine ⟨g', V', ?_, q2, q3, ?_⟩
      · simp only [mergeDist, hkey, h1, Option.bind_some, if_true, q1]
      · intro k' col' a' ha' hda' v'
        rw [q4 k' col' a' ha' hda' v', List.map_cons, List.mem_cons, hq, hmem]
        constructor
        · rintro (h | h)
          · exact .inl h
          · exact .inr (.inr h)
        · rintro (h | ⟨rfl, rfl, rfl⟩ | h)
          · exact .inl h
          · exact .inl e1
          · exact .inr h
    · have htake : (k ++ [v, .int col]).take n = k := by rw [← hkl]; simp
      obtain ⟨s1, i, b, c, k1, k2, k3, F1⟩ := fed_upsert F (key := k ++ [v, .int (col : Int)]) (h0 := 0) (by simp [hkl])
        (by rw [htake]; exact hkc) (.inl rfl)
      rw [htake] at k2 k3 F1
      have hb := k3 hks
      subst hb
      have F2 : Fed aggs n ks V ⟨s1, g.dist⟩ := F1.congr
        (fun k' => ⟨fun h => h.elim id (fun h => h ▸ hks), .inl⟩) (fun k' hk' => F.zero k' hk')
        (fun _ _ _ _ _ => rfl) (fun _ _ _ _ _ _ => Iff.rfl)
      have F3 := fed_compute F2 k2 ha hfit (inv_modify h2 ref (fun _ => (i : Int))) h3 (fun h => by rw [hda] at h; simp at h)
        (fun _ => ⟨e1, by rw [modify_dist]; exact e2⟩)
      obtain ⟨g', V', q1, q2, q3, q4⟩ := ih ks _ _ F3 (fun e he' => he e (by simp [he']))
      refine ⟨g', V', ?_, q2, ?_, ?_⟩
      · have o1 : ((k ++ [v, Val.int (col : Int)]).getD (o.keys - 1) .null).integer.toNat = col := by
          rw [hok, ← hkl]; simp [List.getD_eq_getElem?_getD, Val.integer]
        have o2 : (k ++ [v, Val.int (col : Int)]).getD (o.keys - 2) .null = v := by
          rw [hok, ← hkl]; simp [List.getD_eq_getElem?_getD]
        simp only [mergeDist, hkey, h1, Option.bind_some, Bool.false_eq_true, if_false, k1, if_true, o1, o2, ha, Option.map_some,
          Option.getD_some]
        exact q1
      · intro k' col' a' ha' hda'
        rw [q3 k' col' a' ha' hda']
        unfold bump; rw [if_neg]
        rintro ⟨_, rfl⟩; rw [ha] at ha'; simp at ha'; subst ha'; rw [hda] at hda'; simp at hda'
      · intro k' col' a' ha' hda' v'
        rw [q4 k' col' a' ha' hda' v', List.map_cons, List.mem_cons, hq, hmem]
        unfold bump
        split
        · rename_i heq
          obtain ⟨rfl, rfl⟩ := heq
          simp only [List.mem_append, List.mem_singleton, true_and, and_true, or_assoc]
        · rename_i heq
          constructor
          · rintro (h | h)
            · exact .inl h
            · exact .inr (.inr h)
          · rintro (h | ⟨rfl, rfl, rfl⟩ | h)
            · exact .inl h
            · exact absurd ⟨rfl, rfl⟩ heq
            · exact .inr h

theorem entries_keys {C : Type} {s : HSet C} (I : s.Inv) :
    ((rowsOf s.slots).map (keyAt s)).Perm (s.rows.map Prod.fst) ∧
      ∀ e ∈ rowsOf s.slots, ∃ r, s.rows[e.2]? = some r ∧ e.1 = keysHash r.1 := by
  rcases I.tab with ⟨h1, h2⟩ | T
  · rw [h1, h2]; simp [rowsOf]
  · refine ⟨?_, fun e he => mem_entries.1 (T.entries.mem_iff.1 he)⟩
    refine (T.entries.map _).trans ?_
    have : (s.rows.zipIdx.map fun p => (keysHash p.1.1, p.2)).map (keyAt s) = s.rows.map Prod.fst := by
      apply List.ext_getElem?
      intro j
      simp only [List.getElem?_map, List.getElem?_zipIdx]
      cases hj : s.rows[j]? with
      | none => simp
      | some r => simp [keyAt, hj]
    rw [this]

/-- merging the set of another partition -/
theorem fed_mergeTwo {aggs : List Agg} {n : Nat} {ks1 ks2 : List Val → Prop} {V1 V2 : List Val → Nat → List Val} {g o : Groups}
    (F1 : Fed aggs n ks1 V1 g) (F2 : Fed aggs n ks2 V2 o) :
    ∃ g', mergeTwo aggs g o = some g' ∧ Fed aggs n (fun k => ks1 k ∨ ks2 k) (fun k col => V1 k col ++ V2 k col) g' := by
  unfold mergeTwo
  by_cases hemp : o.groups.rows = []
  · have hk2 : ∀ k, ¬ ks2 k := by intro k hk; have := (F2.keys k).2 hk; rw [hemp] at this; simp at this
    refine ⟨g, by simp [hemp], ?_⟩
    refine F1.congr (fun k => by simp [hk2 k]) ?_ ?_ ?_
    · intro k hk col; rw [F1.zero k (fun h => hk (.inl h)), F2.zero k (hk2 k)]; rfl
    · intro k col a _ _; rw [F2.zero k (hk2 k), List.append_nil]
    · intro k col a _ _ v; rw [F2.zero k (hk2 k), List.append_nil]
  · simp only [hemp, if_false]
    obtain ⟨p1, p2⟩ := entries_keys F2.inv
    obtain ⟨d1, d2⟩ := entries_keys F2.dinv
    obtain ⟨s, h1, F3⟩ := fed_mergeSet F2 (d := g.dist) (rowsOf o.groups.slots) ks1 V1 g.groups F1 p2
      (p1.nodup_iff.2 F2.inv.nodup)
    have hks : ∀ k, k ∈ (rowsOf o.groups.slots).map (keyAt o.groups) ↔ ks2 k := fun k => p1.mem_iff.trans (F2.keys k)
    simp only [hks] at F3
    obtain ⟨g', V', q1, F4, q3, q4⟩ := fed_mergeDist (aggs := aggs) (o := o.dist) F2.dkeysN (rowsOf o.dist.slots) _ _ ⟨s, g.dist⟩ F3 (by
      intro e he
      obtain ⟨r, hr, hh⟩ := d2 e he
      have hka : keyAt o.dist e = r.1 := by simp [keyAt, hr]
      obtain ⟨k, v, col, a, f1, f2, f3, f4, f5, f6⟩ := F2.dform r.1 (List.mem_map.2 ⟨r, List.mem_of_getElem? hr, rfl⟩)
      have hcan := (F2.dinv.keyLen r (List.mem_of_getElem? hr)).2
      rw [f1] at hcan
      exact ⟨k, v, col, a, by rw [hka, f1], f2, f3, .inr f4, f6, hcan v (by simp), by rw [hh, f1]⟩)
    refine ⟨g', by simp only [h1, Option.bind_some, q1], ?_⟩
    refine F4.congr (fun _ => Iff.rfl) ?_ ?_ ?_
    · intro k hk col; rw [F1.zero k (fun h => hk (.inl h)), F2.zero k (fun h => hk (.inr h))]; rfl
    · intro k col a ha hda
      rw [q3 k col a ha hda]
      congr 1
      by_cases hk : ks2 k
      · rw [if_pos ⟨(hks k).2 hk, by simp [plainCol, ha, hda]⟩]
      · rw [if_neg (fun h => hk ((hks k).1 h.1)), F2.zero k hk]
    · intro k col a ha hda v
      rw [q4 k col a ha hda v, if_neg (by rintro ⟨_, h⟩; simp [plainCol, ha, hda] at h), List.append_nil, List.mem_append]
      refine or_congr Iff.rfl ?_
      rw [d1.mem_iff]
      constructor
      · exact F2.dfull k v col a ha hda
      · intro h
        obtain ⟨k', v', col', a', f1, f2, f3, f4, f5, f6⟩ := F2.dform _ h
        obtain ⟨p1, p2⟩ := List.append_inj' f1 rfl
        simp only [List.cons.injEq, Val.int.injEq, Int.natCast_inj, and_true] at p2
        rw [p1, p2.1, p2.2]; exact f5

end Verif.Query
