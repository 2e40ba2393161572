import Verif.Index.TreeAscending
import Verif.Row.Props
/-!
# Ordered index: C10, C11, C45, C46

C10 and C11 fail in general; the `_false` theorems are executions of the model at the sizes used by the code
(pages of 512 rows split at 256, index_tree.c:97).
-/
set_option linter.unusedSimpArgs false
namespace Verif.Index
variable {R : Type}

/-! ## Comparators -/

/-- rows whose whole key is one integer column; compare_int64 -/
def cmpKeyInt (a b : Int × Nat) : Int := Json.cmpInt a.1 b.1

theorem cmpKeyInt_laws : CmpLaws cmpKeyInt := by
  constructor
  · intro a b; simp only [cmpKeyInt, Json.cmpInt]; split <;> split <;> (try split) <;> (try split) <;> omega
  · intro a b c; simp only [cmpKeyInt, Json.cmpInt]
    intro h1 h2
    split at h1 <;> split at h2 <;> (try split at h1) <;> (try split at h2) <;> split <;> (try split) <;> omega

theorem cmpKeyInt_normal : Normal cmpKeyInt := by
  intro a b; simp only [cmpKeyInt, Json.cmpInt]; split <;> (try split) <;> omega

/-- the rows a table with this schema can hold -/
def TableRow (schema : List Row.Column) : Type := { mem : Bytes // ∃ xs, Row.StoredRow schema xs mem }

/-- compare(keys, a, b) on stored rows (always defined, C09) -/
def rowCmp (schema : List Row.Column) (keys : List Row.Key) (a b : TableRow schema) : Int :=
  match Row.compare keys a.1 b.1 with
  | .ok n => n
  | .error _ => 0

theorem rowCmp_laws (schema : List Row.Column) (keys : List Row.Key) (hk : Row.KeysOf schema keys) :
    CmpLaws (rowCmp schema keys) := by
  have ex : ∀ a b : TableRow schema, Row.compare keys a.1 b.1 = .ok (rowCmp schema keys a b) := by
    intro a b
    obtain ⟨xs, ha⟩ := a.2
    obtain ⟨ys, hb⟩ := b.2
    obtain ⟨_, ⟨n, h1, h2⟩, _⟩ := Row.C09_total_order schema keys hk xs ys ys a.1 b.1 b.1 ha hb hb
    simp [rowCmp, h1]
  constructor
  · intro a b
    obtain ⟨xs, ha⟩ := a.2
    obtain ⟨ys, hb⟩ := b.2
    obtain ⟨_, ⟨n, h1, h2⟩, _⟩ := Row.C09_total_order schema keys hk xs ys ys a.1 b.1 b.1 ha hb hb
    have e1 := ex a b; have e2 := ex b a
    rw [h1] at e1; rw [h2] at e2
    simp only [Except.ok.injEq] at e1 e2
    omega
  · intro a b c h1 h2
    obtain ⟨xs, ha⟩ := a.2
    obtain ⟨ys, hb⟩ := b.2
    obtain ⟨zs, hc⟩ := c.2
    obtain ⟨_, _, h3⟩ := Row.C09_total_order schema keys hk xs ys zs a.1 b.1 c.1 ha hb hc
    obtain ⟨k, e, hk', _⟩ := h3 _ _ (ex a b) (ex b c) h1 h2
    rw [ex a c] at e
    simp only [Except.ok.injEq] at e
    omega

theorem rowCmp_normal (schema : List Row.Column) (keys : List Row.Key) (hk : Row.KeysOf schema keys) :
    Normal (rowCmp schema keys) := by
  intro a b h
  obtain ⟨xs, ha⟩ := a.2
  obtain ⟨ys, hb⟩ := b.2
  have := Row.C09_lexicographic schema keys hk xs ys a.1 b.1 ha hb
  unfold rowCmp at h ⊢
  rw [this] at h ⊢
  simp only at h ⊢
  generalize Row.keyOrder (Row.narrowKeys keys (Row.keyVals keys xs)) (Row.narrowKeys keys (Row.keyVals keys ys)) = o at *
  cases o <;> simp_all [Json.ordInt]

/-! ## C10 -/

/-- **C10** (comparisons that return only -1, 0, 1): any sequence of operations on an ordered index, starting
empty, runs without undefined behaviour and shows exactly what a map from keys to rows shows; scans are sorted and
complete. Missing for the full claim: text keys, whose comparison returns other values (`C10_text_false`). -/
theorem C10_sorted_map_partial (cmp : R → R → Int) (L : CmpLaws cmp) (hnorm : Normal cmp) (ops : List (Op R)) :
    ∃ outs t m, run cmp 512 256 (Tree.init R) ops = some (outs, t) ∧ SpecRun cmp [] ops outs m := by
  obtain ⟨os, t, m, h1, h2, -⟩ := run_spec L hnorm (n := 512) (k := 256) (by omega) (by omega) ops
    (inv_init cmp 512) (m := []) (by simp [Tree.flat, Tree.init, T.toList])
  exact ⟨os, t, m, h1, h2⟩

/-- **C10** for tables: rows of any schema, any key made of integer, timestamp and uuid columns, compared by the
modelled `compare`. -/
theorem C10_table_index_partial (schema : List Row.Column) (keys : List Row.Key) (hk : Row.KeysOf schema keys)
    (_hstr : ∀ k ∈ keys, k.ty ≠ .string) (ops : List (Op (TableRow schema))) :
    ∃ outs t m, run (rowCmp schema keys) 512 256 (Tree.init _) ops = some (outs, t) ∧
      SpecRun (rowCmp schema keys) [] ops outs m :=
  C10_sorted_map_partial _ (rowCmp_laws schema keys hk) (rowCmp_normal schema keys hk) ops

/-- the map specification pins down a scan: two admissible scan results are equal -/
theorem scan_unique (cmp : R → R → Int) (L : CmpLaws cmp) (m l l' : List R) (h1 : l.Perm m) (h2 : l'.Perm m)
    (s1 : l.Pairwise fun a b => cmp a b < 0) (s2 : l'.Pairwise fun a b => cmp a b < 0) : l = l' := by
  refine List.Perm.eq_of_pairwise (le := fun a b => cmp a b < 0) ?_ s1 s2 (h1.trans h2.symm)
  intro a b _ _ ha hb
  have := L.anti a b
  omega

/-- a sample history: 60 inserts in a mixed order (several splits), then a replacement, deletes and lookups -/
def sampleOps : List (Op (Int × Nat)) :=
  (List.range 60).map (fun (i : Nat) => Op.upsert ((((i * 7) % 60 : Nat) : Int), i)) ++
    [.upsert (5, 1), .replace (6, 99), .delete (7, 0), .lookup (7, 0), .lookup (6, 0), .count]

def lastOuts (o : Option (List (Out (Int × Nat)) × Tree (Int × Nat))) : List (Option (Int × Nat)) × Nat × Nat :=
  match o with
  | none => ([], 0, 0)
  | some (os, t) => ((os.drop 60).filterMap (fun o => match o with
      | .existed _ r => some (some r)
      | .row r => some r
      | _ => none), t.count, t.countPages)

/-- the hypotheses hold for integer keys (`cmpKeyInt_laws`, `cmpKeyInt_normal`); with small pages (8 rows, split at 4) the
sample history makes 9 pages; the existing row, the replaced one and the deleted one are reported -/
example : lastOuts (run cmpKeyInt 8 4 (Tree.init _) sampleOps) =
    ([some (5, 35), some (6, 18), some (7, 1), none, some (6, 99)], 59, 9) := by decide +kernel

/-! ## C11 -/

/-- **C11** (part): a scan opened at a key visits either exactly the rows at or above the key, in order, or nothing at
all; it is exact whenever some row has exactly the start key, and whenever the start key is at or below the first row.
Missing: start keys that fall between two pages (`C11_range_false`). -/
theorem C11_range_partial (cmp : R → R → Int) (L : CmpLaws cmp) (hnorm : Normal cmp) (ops : List (Op R)) (key : R)
    (outs : List (Out R)) (t : Tree R) (hrun : run cmp 512 256 (Tree.init R) ops = some (outs, t)) :
    ∃ rows vs, scan cmp (fun _ => .keep) t none = some (rows, t) ∧ rows.Pairwise (fun a b => cmp a b < 0) ∧
      scan cmp (fun _ => .keep) t (some key) = some (vs, t) ∧
      (vs = rows.filter (fun r => decide (0 ≤ cmp r key)) ∨ vs = []) ∧
      ((∃ r ∈ rows, cmp r key = 0) → vs = rows.filter (fun r => decide (0 ≤ cmp r key))) := by
  obtain ⟨os, t', m, h1, h2, I, hm⟩ := run_spec L hnorm (n := 512) (k := 256) (by omega) (by omega) ops
    (inv_init cmp 512) (m := []) (by simp [Tree.flat, Tree.init, T.toList])
  rw [hrun] at h1
  simp only [Option.some.injEq, Prod.mk.injEq] at h1
  obtain ⟨rfl, rfl⟩ := h1
  have keepTree : ∀ (fuel : Nat) (it : Iter R) (vs : List R) (t' : Tree R),
      scanLoop (fun _ => (Act.keep : Act R)) fuel t it = some (vs, t') → t' = t := by
    intro fuel
    induction fuel with
    | zero =>
      intro it vs t' h
      unfold scanLoop at h
      cases hc : it.current with
      | none => simp [hc] at h; exact h.2.symm
      | some r => simp [hc] at h
    | succ fuel ih =>
      intro it vs t' h
      unfold scanLoop at h
      cases hc : it.current with
      | none => simp [hc] at h; exact h.2.symm
      | some r =>
        simp only [hc, Option.map_eq_some_iff] at h
        obtain ⟨⟨vs', t''⟩, h1, h2⟩ := h
        simp at h2
        rw [← h2.2]; exact ih _ _ _ h1
  have keepScan : ∀ (k : Option R) (vs : List R) (t' : Tree R),
      scan cmp (fun _ => (Act.keep : Act R)) t k = some (vs, t') → t' = t := by
    intro k vs t' h
    unfold scan at h
    split at h
    · contradiction
    · exact keepTree _ _ _ _ h
  obtain ⟨t1, a1, -, -⟩ := scan_all L (fun _ => Act.keep) (by intro r r' h; contradiction) I
  have := keepScan _ _ _ a1
  subst this
  obtain ⟨X, Y, t2, b1, b2, b3, b4⟩ := scan_from L hnorm (fun _ => Act.keep) (by intro r r' h; contradiction) I key
  have hfil : t1.flat.filter (fun r => decide (0 ≤ cmp r key)) = Y := by
    rw [b1, List.filter_append, List.filter_eq_nil_iff.2, List.filter_eq_self.2]
    · rfl
    · intro a ha; simpa using b3 a ha
    · intro a ha; have := b2 a ha; simp; omega
  rcases b4 with ⟨c1, c2, c3⟩ | ⟨c1, c2⟩
  · have := keepScan _ _ _ c1
    subst this
    exact ⟨t2.flat, Y, a1, I.sorted, c1, .inl hfil.symm, fun _ => hfil.symm⟩
  · refine ⟨t1.flat, [], a1, I.sorted, c1, .inr rfl, ?_⟩
    rintro ⟨r, hr, h0⟩
    rw [b1] at hr
    rcases List.mem_append.1 hr with hr | hr
    · have := b2 r hr; omega
    · have := c2 r hr; omega

def gapOps : List (Op (Int × Nat)) :=
  (List.range 513).map (fun (i : Nat) => Op.upsert ((i : Int) + 1, 0)) ++ [.delete (256, 0)]

/-- the index after them: pages 1..255 and 257..513 -/
def gapTree : Tree (Int × Nat) :=
  ⟨.node .black .nil ((List.range 255).map fun (i : Nat) => ((i : Int) + 1, 0))
    (.node .red .nil ((List.range 257).map fun (i : Nat) => ((i : Int) + 257, 0)) .nil), 2, 512⟩

theorem gapTree_run : ∃ outs, run cmpKeyInt 512 256 (Tree.init _) gapOps = some (outs, gapTree) := by
  have hf : ∀ i j : Nat, i < j → cmpKeyInt ((i : Int) + 1, 0) ((j : Int) + 1, 0) < 0 := by
    intro i j h
    simp only [cmpKeyInt, Json.cmpInt]
    split <;> (try split) <;> omega
  have e : gapOps = (List.range (511 + 1)).map (fun (i : Nat) => Op.upsert ((i : Int) + 1, 0)) ++
      [Op.upsert (513, 0), .delete (256, 0)] := by
    rw [gapOps, List.range_succ (n := 512), List.map_append, List.append_assoc]; rfl
  obtain ⟨os, h⟩ := ascending cmpKeyInt (fun (i : Nat) => ((i : Int) + 1, 0)) hf 512 256 511 (by omega)
  have h2 : run cmpKeyInt 512 256 ⟨.node .black .nil ((List.range (511 + 1)).map fun (i : Nat) => ((i : Int) + 1, 0)) .nil,
        1, 511 + 1⟩ [Op.upsert (513, 0), .delete (256, 0)] =
      some ([.existed false (513, 0), .row (some (256, 0))], gapTree) := by decide +kernel
  rw [e, run_snoc _ _ _ _ _ _ _ _ h, h2]
  exact ⟨_, rfl⟩

/-- **C11 fails**: insert the integer keys 1..513, delete 256, and open a scan at 256: it ends at once, although the
rows 257..513 are in the index (here: found by lookup) and above the start key. -/
theorem C11_range_false :
    ∃ outs t, run cmpKeyInt 512 256 (Tree.init _) gapOps = some (outs, t) ∧
      scan cmpKeyInt (fun _ => .keep) t (some (256, 0)) = some ([], t) ∧
      step cmpKeyInt 512 256 t (.lookup (257, 0)) = some (.row (some (257, 0)), t) ∧
      step cmpKeyInt 512 256 t (.lookup (513, 0)) = some (.row (some (513, 0)), t) := by
  obtain ⟨outs, h⟩ := gapTree_run
  exact ⟨outs, gapTree, h, by decide +kernel, by decide +kernel, by decide +kernel⟩

/-! ## C45: statements that change rows while scanning -/

/-- **C45**: after any history, a statement that scans an ordered index and keeps, replaces (same key) or deletes
each row it visits visits every row once, in key order, and leaves exactly the kept and replaced rows. -/
theorem C45_scan_and_change (cmp : R → R → Int) (L : CmpLaws cmp) (hnorm : Normal cmp) (ops : List (Op R))
    (act : R → Act R) (hact : ∀ r r', act r = .replace r' → cmp r r' = 0)
    (outs : List (Out R)) (t : Tree R) (hrun : run cmp 512 256 (Tree.init R) ops = some (outs, t)) :
    ∃ rows t', scan cmp (fun _ => .keep) t none = some (rows, t) ∧ rows.Pairwise (fun a b => cmp a b < 0) ∧
      scan cmp act t none = some (rows, t') ∧
      scan cmp (fun _ => .keep) t' none = some (rows.flatMap (fun r => match act r with
        | .keep => [r]
        | .replace r' => [r']
        | .delete => []), t') := by
  obtain ⟨os, t', m, h1, h2, I, hm⟩ := run_spec L hnorm (n := 512) (k := 256) (by omega) (by omega) ops
    (inv_init cmp 512) (m := []) (by simp [Tree.flat, Tree.init, T.toList])
  rw [hrun] at h1
  simp only [Option.some.injEq, Prod.mk.injEq] at h1
  obtain ⟨rfl, rfl⟩ := h1
  have keepScan : ∀ (t : Tree R), Inv cmp 512 t → scan cmp (fun _ => (Act.keep : Act R)) t none = some (t.flat, t) := by
    intro t I
    obtain ⟨t1, a1, -, -⟩ := scan_all L (fun _ => Act.keep) (by intro r r' h; contradiction) I
    have keepTree : ∀ (fuel : Nat) (it : Iter R) (vs : List R) (t' : Tree R),
        scanLoop (fun _ => (Act.keep : Act R)) fuel t it = some (vs, t') → t' = t := by
      intro fuel
      induction fuel with
      | zero =>
        intro it vs t' h
        unfold scanLoop at h
        cases hc : it.current with
        | none => simp [hc] at h; exact h.2.symm
        | some r => simp [hc] at h
      | succ fuel ih =>
        intro it vs t' h
        unfold scanLoop at h
        cases hc : it.current with
        | none => simp [hc] at h; exact h.2.symm
        | some r =>
          simp only [hc, Option.map_eq_some_iff] at h
          obtain ⟨⟨vs', t''⟩, h1, h2⟩ := h
          simp at h2
          rw [← h2.2]; exact ih _ _ _ h1
    have : t1 = t := by
      have h := a1
      unfold scan at h
      split at h
      · contradiction
      · exact keepTree _ _ _ _ h
    rw [this] at a1; exact a1
  obtain ⟨t1, a1, a2, a3⟩ := scan_all L act hact I
  refine ⟨t.flat, t1, keepScan t I, I.sorted, a1, ?_⟩
  rw [keepScan t1 a2, a3]
  rfl

/-- deleting every row but the multiples of 10 while scanning 60 rows on several pages -/
example : (match run cmpKeyInt 8 4 (Tree.init _) ((List.range 60).map fun (i : Nat) => Op.upsert ((i : Int), 0)) with
    | none => none
    | some (_, t) =>
      match scan cmpKeyInt (fun r => if r.1 % 10 = 0 then .replace (r.1, 1) else .delete) t none with
      | none => none
      | some (vs, t') => some (vs.length, t'.flat, t.countPages, t'.countPages)) =
    some (60, [(0, 1), (10, 1), (20, 1), (30, 1), (40, 1), (50, 1)], 14, 6) := by decide +kernel

/-! ## C46: lookups stay logarithmic -/

/-- **C46**: after any history the page tree is balanced: the longest descent makes at most 2·log2(pages + 1)
comparisons (`2^(depth/2) ≤ pages + 1`), and a page never has more than 512 rows nor none. -/
theorem C46_balanced (cmp : R → R → Int) (L : CmpLaws cmp) (hnorm : Normal cmp) (ops : List (Op R))
    (outs : List (Out R)) (t : Tree R) (hrun : run cmp 512 256 (Tree.init R) ops = some (outs, t)) :
    2 ^ (t.tree.depth / 2) ≤ t.countPages + 1 ∧ ∀ page ∈ t.tree.toList, 0 < page.length ∧ page.length ≤ 512 := by
  obtain ⟨os, t', m, h1, h2, I, hm⟩ := run_spec L hnorm (n := 512) (k := 256) (by omega) (by omega) ops
    (inv_init cmp 512) (m := []) (by simp [Tree.flat, Tree.init, T.toList])
  rw [hrun] at h1
  simp only [Option.some.injEq, Prod.mk.injEq] at h1
  obtain ⟨rfl, rfl⟩ := h1
  refine ⟨by rw [I.countPages]; exact good_depth _ I.good, fun p hp => ⟨?_, I.le p hp⟩⟩
  exact List.length_pos_iff.2 (I.ne p hp)

end Verif.Index
