import Verif.Index.TreeHistory
/-!
# Inserting rows in increasing order fills the first page (used to evaluate the counterexamples)
-/
set_option linter.unusedSimpArgs false
namespace Verif.Index
variable {R : Type}

theorem search_all_lt {cmp : R → R → Int} (key : R) (page : List R) (h : ∀ x ∈ page, cmp x key < 0) (fuel lo hi : Nat)
    (hlo : lo ≤ hi) (hhi : hi ≤ page.length) (hf : hi - lo ≤ fuel) :
    search cmp key page fuel lo hi = some (hi, false) := by
  induction fuel generalizing lo with
  | zero => have : lo = hi := by omega
            subst this; simp [search]
  | succ fuel ih =>
    rw [search]
    split
    · have hm : lo + (hi - 1 - lo) / 2 < page.length := by omega
      simp only [List.getElem?_eq_getElem hm]
      rw [if_pos (h _ (List.getElem_mem hm))]
      exact ih _ (by omega) (by omega)
    · have : lo = hi := by omega
      subst this; rfl

/-- running one operation more -/
theorem run_snoc (cmp : R → R → Int) (n k : Nat) (t : Tree R) (a b : List (Op R)) (os : List (Out R)) (t1 : Tree R)
    (h : run cmp n k t a = some (os, t1)) :
    run cmp n k t (a ++ b) = (run cmp n k t1 b).map fun (os', t2) => (os ++ os', t2) := by
  induction a generalizing t os with
  | nil => simp [run] at h; obtain ⟨rfl, rfl⟩ := h; simp
  | cons op a ih =>
    simp only [run, List.cons_append] at h ⊢
    cases hs : step cmp n k t op with
    | none => simp [hs] at h
    | some q =>
      obtain ⟨o, t'⟩ := q
      simp only [hs, Option.map_eq_some_iff] at h ⊢
      obtain ⟨⟨os1, t2⟩, h1, h2⟩ := h
      simp at h2
      obtain ⟨rfl, rfl⟩ := h2
      rw [ih _ _ h1]
      simp [Option.map_map, Function.comp_def]

theorem ascending (cmp : R → R → Int) (f : Nat → R) (hf : ∀ i j, i < j → cmp (f i) (f j) < 0) (n k i : Nat)
    (hi : i + 1 ≤ n) :
    ∃ os, run cmp n k (Tree.init R) ((List.range (i + 1)).map fun i => Op.upsert (f i)) =
      some (os, ⟨.node .black .nil ((List.range (i + 1)).map f) .nil, 1, i + 1⟩) := by
  induction i with
  | zero =>
    refine ⟨[.existed false (f 0)], ?_⟩
    simp [run, step, treeUpsert, Tree.init, rbSet, fixup_nil, T.blacken, iterOpenAt, rowAt, T.toList, List.range_succ]
  | succ i ih =>
    obtain ⟨os, ih⟩ := ih (by omega)
    rw [List.range_succ (n := i + 1), List.map_append, run_snoc _ _ _ _ _ _ _ _ ih]
    have hlt : ∀ x ∈ (List.range (i + 1)).map f, cmp x (f (i + 1)) < 0 := by
      intro x hx
      simp only [List.mem_map, List.mem_range] at hx
      obtain ⟨j, hj, rfl⟩ := hx
      exact hf j (i + 1) hj
    have hlen : ((List.range (i + 1)).map f).length = i + 1 := by simp
    have hcons : ∃ tl, (List.range (i + 1)).map f = f 0 :: tl := by
      rw [List.range_succ_eq_map]; exact ⟨_, rfl⟩
    have hneg := hf 0 (i + 1) (by omega)
    have hsp : searchPage cmp (T.node .black .nil ((List.range (i + 1)).map f) .nil) (f (i + 1)) = some (0, cmp (f 0) (f (i + 1)), 0) := by
      obtain ⟨tl, htl⟩ := hcons
      rw [htl]
      simp [searchPage, find, hneg, T.size, T.toList]
    generalize hpage : (List.range (i + 1)).map f = page at *
    have hsearch := search_all_lt (f (i + 1)) page hlt page.length 0 page.length (by omega) (by omega) (by omega)
    rw [hlen] at hsearch
    have hne : ¬ (i + 1 = n) := by omega
    have htk : page.take (i + 1) = page := List.take_of_length_le (by omega)
    have hdr : page.drop (i + 1) = [] := List.drop_of_length_le (by omega)
    have hg : (page ++ [f (i + 1)])[i + 1]? = some (f (i + 1)) := by rw [← hlen]; simp
    refine ⟨os ++ [.existed false (f (i + 1))], ?_⟩
    simp [run, step, treeUpsert, hsp, hsearch, T.toList, treeSet, setInto, hlen, hne, setAt, T.size, insertAt, iterOpenAt,
      rowAt, htk, hdr, hg, hpage]

end Verif.Index
