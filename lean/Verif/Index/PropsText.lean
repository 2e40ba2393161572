import Verif.Index.TreeAscending
/-!
# Ordered index with text keys: C10 fails
-/
namespace Verif.Index

/-! Text keys: str_compare_fn (runtime/base/str.h:169-183) returns the result of memcmp, here the difference of the
first differing bytes (memcmp may return any positive or negative value). -/
def memcmpStr : List Nat → List Nat → Int
  | [], [] => 0
  | [], _ :: _ => -1
  | _ :: _, [] => 1
  | a :: as, b :: bs => if a = b then memcmpStr as bs else (a : Int) - b

/-- 513 two-byte text keys in increasing order -/
def textKey (i : Nat) : List Nat := [2 * (i / 256), i % 256]
def textRows : List (List Nat) := (List.range 513).map textKey

theorem textKey_lt (i j : Nat) (h : i < j) : memcmpStr (textKey i) (textKey j) < 0 := by
  simp only [memcmpStr, textKey]
  split
  · split <;> omega
  · omega

/-- the index after these inserts: two pages -/
def textTree : Tree (List Nat) :=
  ⟨.node .black .nil ((List.range 256).map textKey)
    (.node .red .nil ((List.range 257).map fun i => textKey (256 + i)) .nil), 2, 513⟩

theorem textTree_run : ∃ outs, run memcmpStr 512 256 (Tree.init _) (textRows.map Op.upsert) = some (outs, textTree) := by
  have e : textRows.map Op.upsert = (List.range (511 + 1)).map (fun i => Op.upsert (textKey i)) ++
      [Op.upsert (textKey 512)] := by
    rw [textRows, List.map_map, List.range_succ (n := 512), List.map_append]; rfl
  obtain ⟨os, h⟩ := ascending memcmpStr textKey textKey_lt 512 256 511 (by omega)
  have h2 : run memcmpStr 512 256 ⟨.node .black .nil ((List.range (511 + 1)).map textKey) .nil, 1, 511 + 1⟩
      [Op.upsert (textKey 512)] = some ([.existed false (textKey 512)], textTree) := by decide +kernel
  rw [e, run_snoc _ _ _ _ _ _ _ _ h, h2]
  exact ⟨_, rfl⟩

/-- **C10 fails for text keys**: insert 513 different text keys in increasing order, then look up the second one: the
index does not find it, and inserting it again is accepted, so that the key is stored twice. -/
theorem C10_text_false :
    ∃ outs t, run memcmpStr 512 256 (Tree.init _) (textRows.map Op.upsert) = some (outs, t) ∧
      [0, 1] ∈ textRows ∧
      step memcmpStr 512 256 t (.lookup [0, 1]) = some (.row none, t) ∧
      ∃ t2, step memcmpStr 512 256 t (.upsert [0, 1]) = some (.existed false [0, 1], t2) ∧
        t2.flat.count [0, 1] = 2 := by
  obtain ⟨outs, h⟩ := textTree_run
  refine ⟨outs, textTree, h, by decide +kernel, by decide +kernel, ?_⟩
  refine ⟨⟨.node .black .nil ((List.range 256).map textKey)
    (.node .red .nil ([0, 1] :: (List.range 257).map fun i => textKey (256 + i)) .nil), 2, 514⟩, by decide +kernel,
    by decide +kernel⟩

end Verif.Index
