import Verif.Net.Table
import Verif.Row.Model
/-!
# C85: names of functions and time zones
-/
set_option linter.unusedSimpArgs false
namespace Verif.Net.Table
open Verif Verif.Index.Hash
variable {α : Type}

/-- function_mgr_add, vm/func/function_mgr.c:42-58 (the table part; the list of all functions is not modelled) -/
def funcAdd (s : Ht (Bytes × α)) (f : Bytes × α) : Option (Ht (Bytes × α)) := htAdd s (Row.murmur f.1 0, f)

/-- function_mgr_find with function_mgr_cmp, function_mgr.c:69-84 -/
def funcFind (s : Ht (Bytes × α)) (name : Bytes) : Option (Option (Nat × Bytes × α)) :=
  htGet s (Row.murmur name 0) fun f => decide (f.1 = name)

/-- tolower -/
def low (c : Nat) : Nat := if 65 ≤ c ∧ c ≤ 90 then c + 32 else c

/-- one round of hash_fnv_lower -/
def fnvStep (h c : Nat) : Nat := (h * 16777619 % 4294967296) ^^^ c

/-- hash_fnv_lower, runtime/lib/hash.h:28-40 -/
def fnvLower (s : Bytes) : Nat := s.foldl (fun h c => fnvStep h (low c)) 2166136261

/-- the registration of one time zone in timezone_mgr_read, runtime/lib/timezone_mgr.c:70-93 -/
def zoneAdd (s : Ht (Bytes × α)) (z : Bytes × α) : Option (Ht (Bytes × α)) := htAdd s (fnvLower z.1, z)

/-- timezone_mgr_find with timezone_cmp, timezone_mgr.c:146-163 -/
def zoneFind (s : Ht (Bytes × α)) (name : Bytes) : Option (Option (Nat × Bytes × α)) :=
  htGet s (fnvLower name) fun z => decide (z.1.map low = name.map low)

/-- what a lookup returned: `none` if it never returns -/
def answer (r : Option (Option (Nat × Bytes × α))) : Option (Option (Bytes × α)) := r.map (·.map (·.2))

theorem fold_add (hash : Bytes → Nat) : ∀ (fs : List (Bytes × α)) (s : Ht (Bytes × α)) (l : List (Nat × Bytes × α)), Has s l →
    ∃ s', fs.foldlM (fun s f => htAdd s (hash f.1, f)) s = some s' ∧
      Has s' ((fs.map fun f => (hash f.1, f)).reverse ++ l)
  | [], s, l, h => ⟨s, rfl, by simpa using h⟩
  | f :: fs, s, l, h => by
    obtain ⟨s1, h1, h2⟩ := add_has h (hash f.1, f)
    obtain ⟨s2, h3, h4⟩ := fold_add hash fs s1 _ h2
    refine ⟨s2, ?_, by simpa using h4⟩
    rw [List.foldlM_cons, h1]; exact h3

theorem registry (norm : Bytes → Bytes) (h : Bytes → Nat) (hn : ∀ a b, norm a = norm b → h a = h b)
    (n : Nat) (hsz : 4 ≤ n) (fs : List (Bytes × α)) (hu : (fs.map fun f => norm f.1).Nodup) :
    ∃ s, fs.foldlM (fun s f => htAdd s (h f.1, f)) (Store.create n) = some s ∧
      ∀ name, answer (htGet s (h name) fun f => decide (norm f.1 = norm name)) = some (fs.find? fun f => decide (norm f.1 = norm name)) := by
  obtain ⟨s, h1, h2⟩ := fold_add h fs _ _ (create_has n hsz)
  refine ⟨s, h1, ?_⟩
  intro name
  cases hf : fs.find? fun f => decide (norm f.1 = norm name) with
  | none =>
    have := List.find?_eq_none.1 hf
    rw [get_absent h2]
    · rfl
    · intro v hv
      rw [List.append_nil, List.mem_reverse] at hv
      obtain ⟨a, hm, ha⟩ := List.mem_map.1 hv
      cases (Prod.mk.inj ha).2
      simpa using this _ hm
  | some f =>
    have hm := List.mem_of_find?_eq_some hf
    have hp := List.find?_some hf
    simp at hp
    obtain ⟨p, hg⟩ := get_found h2 (h name) (fun f => decide (norm f.1 = norm name)) f
      (by
        rw [List.append_nil, List.mem_reverse]
        exact List.mem_map.2 ⟨f, hm, by rw [hn _ _ hp]⟩) (by simpa using hp)
      (by
        intro w hw he
        rw [List.append_nil, List.mem_reverse] at hw
        obtain ⟨a, hwm, hwh⟩ := List.mem_map.1 hw
        cases (Prod.mk.inj hwh).2
        have he := of_decide_eq_true he
        have hin : ∀ (l : List (Bytes × α)), (l.map fun f => norm f.1).Nodup → ∀ x ∈ l, ∀ y ∈ l, norm x.1 = norm y.1 → x = y := by
          intro l
          induction l with
          | nil => intro _ x hx; cases hx
          | cons z l ih =>
            intro hnd x hx y hy hxy
            rw [List.map_cons, List.nodup_cons] at hnd
            rcases List.mem_cons.1 hx with rfl | hx <;> rcases List.mem_cons.1 hy with rfl | hy
            · rfl
            · exact absurd (List.mem_map.2 ⟨y, hy, hxy.symm⟩) hnd.1
            · exact absurd (List.mem_map.2 ⟨x, ‹x ∈ l›, hxy⟩) hnd.1
            · exact ih hnd.2 x hx y hy hxy
        exact hin fs hu _ hwm _ hm (he.trans hp.symm))
    rw [hg]; rfl

theorem functions (n : Nat) (hn : 4 ≤ n) (fs : List (Bytes × α)) (hu : (fs.map (·.1)).Nodup) :
    ∃ s, fs.foldlM funcAdd (Store.create n) = some s ∧
      ∀ name, answer (funcFind s name) = some (fs.find? fun f => f.1 = name) :=
  registry (α := α) (fun n => n) (fun n => Row.murmur n 0) (by intro a b h; rw [h]) n hn fs hu

/-- C85: whatever functions are registered under distinct names, a lookup of any name ends, finds the function of that
name, and nothing if there is none. -/
theorem C85_functions (fs : List (Bytes × α)) (hu : (fs.map (·.1)).Nodup) :
    ∃ s, fs.foldlM funcAdd (Store.create 256) = some s ∧
      ∀ name, answer (funcFind s name) = some (fs.find? fun f => f.1 = name) :=
  functions 256 (by decide) fs hu

theorem fold_low (f : Nat → Nat → Nat) (a b : Bytes) (h : a.map low = b.map low) (v : Nat) :
    a.foldl (fun h c => f h (low c)) v = b.foldl (fun h c => f h (low c)) v := by
  rw [← List.foldl_map (f := low) (g := f), ← List.foldl_map (f := low) (g := f), h]

theorem fnv_low (a b : Bytes) (h : a.map low = b.map low) : fnvLower a = fnvLower b := by
  unfold fnvLower
  exact fold_low (fun h c => fnvStep h c) a b h _

/-- C85: the same for time zones, whose names are compared without regard to case. -/
theorem C85_timezones (zs : List (Bytes × α)) (hu : (zs.map fun z => z.1.map low).Nodup) :
    ∃ s, zs.foldlM zoneAdd (Store.create 2048) = some s ∧
      ∀ name, answer (zoneFind s name) = some (zs.find? fun z => z.1.map low = name.map low) :=
  registry (α := α) (·.map low) fnvLower fnv_low 2048 (by decide) zs hu

/-- the hypotheses are met: three functions, two of which ("d" and "o") start their search at the same slot -/
example : Row.murmur [100] 0 % 256 = Row.murmur [111] 0 % 256 ∧
    (∃ s, [([100], 1), ([111], 2), ([114, 49], 3)].foldlM funcAdd (Store.create 256) = some s ∧
      answer (funcFind s [111]) = some (some ([111], 2)) ∧ answer (funcFind s [112]) = some none) := by
  refine ⟨by decide +kernel, ?_⟩
  obtain ⟨s, h1, h2⟩ := C85_functions [(([100] : Bytes), 1), ([111], 2), ([114, 49], 3)] (by decide)
  exact ⟨s, h1, by rw [h2]; rfl, by rw [h2]; rfl⟩

example : ((([([69, 83, 84], 1), ([117, 116, 99], 2)] : List (Bytes × Nat)).map fun z => z.1.map low)).Nodup := by decide

/-- what one would expect of hashtable_delete: the other entries are still found -/
def DeleteKeeps : Prop :=
  ∀ (fs : List (Bytes × Nat)) (s : Ht (Bytes × Nat)) (gone name : Bytes) (p : Nat) (v : Bytes × Nat),
    (fs.map (·.1)).Nodup → fs.foldlM funcAdd (Store.create 256) = some s →
    funcFind s gone = some (some (p, v)) → name ≠ gone →
    answer (funcFind (htDelete s p) name) = some (fs.find? fun f => f.1 = name)

/-- C85 (failing part): an entry that had to move on because its slot was taken is lost when the entry that took it is
deleted: hashtable_delete writes NULL, and a search stops at NULL. -/
theorem C85_delete_false : ¬ DeleteKeeps := by
  intro h
  have hm1 : Row.murmur [100] 0 % 256 = 115 := by decide +kernel
  have hm2 : Row.murmur [111] 0 % 256 = 115 := by decide +kernel
  have hc := h [([100], 1), ([111], 2)]
    (((([([100], 1), ([111], 2)] : List (Bytes × Nat)).foldlM funcAdd (Store.create 256))).getD (Store.create 1))
    [100] [111] 115 ([100], 1) (by decide) (by decide +kernel) (by decide +kernel) (by decide)
  revert hc
  decide +kernel

end Verif.Net.Table
