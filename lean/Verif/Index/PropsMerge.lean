import Verif.Index.Merge
import Verif.Index.Props
import Verif.Index.PropsText
/-!
# Scans over partitions and layers: C14, C15
-/
namespace Verif.Index.Merge
open Verif.Index
variable {S R : Type}

/-! ## Iterators of ordered indexes -/

/-- a tree iterator: the index and its position; tree_iterator_at and tree_iterator_next -/
abbrev TreeIt (R : Type) := Tree R × Iter R
def TreeIt.at (s : TreeIt R) : Option R := s.2.current
def TreeIt.next (s : TreeIt R) : TreeIt R := (s.1, iterNext s.1 s.2)

theorem visits_of_scan {t : Tree R} : ∀ (fuel : Nat) (it : Iter R) (vs : List R) (t' : Tree R),
    scanLoop (fun _ => (Act.keep : Act R)) fuel t it = some (vs, t') → Visits TreeIt.at TreeIt.next (t, it) vs := by
  intro fuel
  induction fuel with
  | zero =>
    intro it vs t' h
    unfold scanLoop at h
    cases hc : it.current with
    | none => simp [hc] at h; rw [h.1]; exact .done _ hc
    | some r => simp [hc] at h
  | succ fuel ih =>
    intro it vs t' h
    unfold scanLoop at h
    cases hc : it.current with
    | none => simp [hc] at h; rw [h.1]; exact .done _ hc
    | some r =>
      simp only [hc, Option.map_eq_some_iff] at h
      obtain ⟨⟨vs', t''⟩, h1, h2⟩ := h
      simp only [Prod.mk.injEq] at h2
      obtain ⟨rfl, rfl⟩ := h2
      exact .more _ r vs' hc (ih _ vs' t'' h1)

/-- the iterators of the partitions opened at their start, tree_iterator_open(.., NULL); an open always succeeds on a
tree built by the index operations -/
def openAll (cmp : R → R → Int) : List (Tree R) → Option (List (TreeIt R))
  | [] => some []
  | t :: ts =>
    match iterOpen cmp t none, openAll cmp ts with
    | some (_, it), some l => some ((t, it) :: l)
    | _, _ => none

/-- a tree is the result of some history of operations on a new index -/
def Reachable (cmp : R → R → Int) (t : Tree R) : Prop :=
  ∃ ops outs, run cmp 512 256 (Tree.init R) ops = some (outs, t)

theorem openAll_visit {cmp : R → R → Int} (L : CmpLaws cmp) (hn : Normal cmp) : ∀ (ts : List (Tree R)),
    (∀ t ∈ ts, Reachable cmp t) → ∃ list, openAll cmp ts = some list ∧
      AllVisit TreeIt.at TreeIt.next list (ts.map Tree.flat) ∧ ∀ t ∈ ts, t.flat.Pairwise fun a b => cmp a b < 0 := by
  intro ts
  induction ts with
  | nil => intro _; exact ⟨[], rfl, trivial, by simp⟩
  | cons t ts ih =>
    intro h
    obtain ⟨l, h1, h2, h3⟩ := ih fun t' ht => h t' (by simp [ht])
    obtain ⟨ops, outs, hrun⟩ := h t (by simp)
    obtain ⟨os, t', m, r1, _, I, _⟩ := run_spec L hn (n := 512) (k := 256) (by omega) (by omega) ops
      (inv_init cmp 512) (m := []) (by simp [Tree.flat, Tree.init, T.toList])
    rw [hrun] at r1
    simp only [Option.some.injEq, Prod.mk.injEq] at r1
    obtain ⟨rfl, rfl⟩ := r1
    obtain ⟨t'', s1, _, _⟩ := scan_all L (fun _ => Act.keep) (by intro r r' h; simp at h) I
    unfold scan at s1
    cases ho : iterOpen cmp t none with
    | none => rw [ho] at s1; simp at s1
    | some p =>
      obtain ⟨b, it⟩ := p
      rw [ho] at s1
      refine ⟨(t, it) :: l, by simp [openAll, ho, h1], ⟨visits_of_scan _ _ _ _ s1, h2⟩, ?_⟩
      intro t' ht
      rcases List.mem_cons.1 ht with rfl | ht
      · exact I.sorted
      · exact h3 t' ht

/-! ## C14 -/

/-- **C14** (integer, timestamp and uuid keys): the cross-partition scan of an ordered index shows the rows of all
partitions, each exactly once, in key order; the partitions are any trees the index operations can build. Missing:
text keys (`C14_text_false`). -/
theorem C14_merge_partial (cmp : R → R → Int) (L : CmpLaws cmp) (hn : Normal cmp) (parts : List (Tree R))
    (hp : ∀ t ∈ parts, Reachable cmp t) :
    ∃ its l, openAll cmp parts = some its ∧
      Visits (TreeMerge.at TreeIt.at) (TreeMerge.step TreeIt.at TreeIt.next cmp)
        (TreeMerge.open TreeIt.at TreeIt.next cmp its) l ∧
      l.Perm (parts.flatMap Tree.flat) ∧ l.Pairwise fun a b => cmp a b ≤ 0 := by
  obtain ⟨its, h1, h2, h3⟩ := openAll_visit L hn parts hp
  obtain ⟨l, h4, h5, h6⟩ := treeMerge_loop L hn _ its (parts.map Tree.flat) rfl h2 (by
    intro v hv
    obtain ⟨t, ht, rfl⟩ := List.mem_map.1 hv
    exact h3 t ht)
  exact ⟨its, l, h1, h4, by rw [List.flatMap_def]; exact h5, h6⟩

/-- three partitions with rows 1,4 / none / 2,3: the merged scan, computed -/
def sampleTree (ks : List Int) : Tree (Int × Nat) :=
  match run cmpKeyInt 512 256 (Tree.init _) (ks.map fun k => Op.upsert (k, 0)) with
  | some (_, t) => t
  | none => Tree.init _

def collect (at_ : S → Option R) (next : S → S) : Nat → S → List R
  | 0, _ => []
  | n + 1, s => match at_ s with
    | none => []
    | some r => r :: collect at_ next n (next s)

example : (openAll cmpKeyInt [sampleTree [1, 4], sampleTree [], sampleTree [2, 3]]).map (fun its =>
    collect (TreeMerge.at TreeIt.at) (TreeMerge.step TreeIt.at TreeIt.next cmpKeyInt) 10
      (TreeMerge.open TreeIt.at TreeIt.next cmpKeyInt its)) = some [(1, 0), (2, 0), (3, 0), (4, 0)] := by decide +kernel

example (ks : List Int) : Reachable cmpKeyInt (sampleTree ks) := by
  obtain ⟨os, t, m, h, _⟩ := C10_sorted_map_partial cmpKeyInt cmpKeyInt_laws cmpKeyInt_normal
    (ks.map fun k => Op.upsert ((k, 0) : Int × Nat))
  exact ⟨_, os, by rw [h]; simp [sampleTree, h]⟩

/-- **C14 fails for text keys**: two partitions holding the keys "c" (99) and "a" (97); `compare` returns 2, which is
not 1, so the minimum is not taken and the scan is out of order. -/
theorem C14_text_false :
    ∃ (a b : Tree (List Nat)) (its : List (TreeIt (List Nat))) (l : List (List Nat)),
      Reachable memcmpStr a ∧ Reachable memcmpStr b ∧ openAll memcmpStr [a, b] = some its ∧
      Visits (TreeMerge.at TreeIt.at) (TreeMerge.step TreeIt.at TreeIt.next memcmpStr)
        (TreeMerge.open TreeIt.at TreeIt.next memcmpStr its) l ∧
      ¬ l.Pairwise fun x y => memcmpStr x y ≤ 0 := by
  let a : Tree (List Nat) := ⟨.node .black .nil [[99]] .nil, 1, 1⟩
  let b : Tree (List Nat) := ⟨.node .black .nil [[97]] .nil, 1, 1⟩
  refine ⟨a, b, [(a, ⟨some [99], some ⟨0, 0⟩, false⟩), (b, ⟨some [97], some ⟨0, 0⟩, false⟩)], [[99], [97]],
    ⟨[.upsert [99]], [.existed false [99]], by decide +kernel⟩, ⟨[.upsert [97]], [.existed false [97]], by decide +kernel⟩,
    rfl, ?_, by decide⟩
  exact .more _ _ _ rfl (.more _ _ _ rfl (.done _ rfl))

/-! ## C15 -/

/-- **C15**: merging any number of layers (each in key order, without duplicate keys; the newest layer first) shows
every key of any layer exactly once, in key order, with the row of the newest layer that has the key. For any iterators
and any comparison (also text keys). -/
theorem C15_newest (at_ : S → Option R) (next : S → S) (cmp : R → R → Int) (L : CmpLaws cmp) (sources : List S)
    (layers : List (List R)) (hv : AllVisit at_ next sources layers)
    (hs : ∀ v ∈ layers, v.Pairwise fun a b => cmp a b < 0) :
    ∃ l, Visits (MergeIt.at at_) (MergeIt.next at_ next cmp) (MergeIt.open at_ next cmp sources) l ∧
      l.Pairwise (fun a b => cmp a b < 0) ∧
      ∀ r, r ∈ l ↔ ∃ (i : Nat) (v : List R), layers[i]? = some v ∧ r ∈ v ∧
        ∀ (j : Nat) (w : List R), j < i → layers[j]? = some w → ∀ x ∈ w, cmp x r ≠ 0 := by
  have e : (sources.map fun s => (s, false)).map (fun (p : S × Bool) => if p.2 then next p.1 else p.1) = sources := by
    rw [List.map_map]; simp [Function.comp_def]
  obtain ⟨l, h1, h2, h3⟩ := mergeIt_loop L _ sources layers rfl hv hs
  refine ⟨l, ?_, h2, h3⟩
  unfold MergeIt.open MergeIt.next
  simp only [e]
  exact h1

/-- list iterators: the head is the current row -/
example : AllVisit List.head? List.tail [[((1 : Int), 10), (3, 30)], [(1, 11), (2, 21)], [(2, 22), (3, 32), (4, 42)]]
    [[(1, 10), (3, 30)], [(1, 11), (2, 21)], [(2, 22), (3, 32), (4, 42)]] := by
  refine ⟨?_, ?_, ?_, trivial⟩ <;> (repeat' first | exact .done _ rfl | refine .more _ _ _ rfl ?_)

example : collect (MergeIt.at List.head?) (MergeIt.next List.head? List.tail cmpKeyInt) 10
    (MergeIt.open List.head? List.tail cmpKeyInt [[(1, 10), (3, 30)], [(1, 11), (2, 21)], [(2, 22), (3, 32), (4, 42)]]) =
    [(1, 10), (2, 21), (3, 30), (4, 42)] := by decide +kernel

end Verif.Index.Merge
