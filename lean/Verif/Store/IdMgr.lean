import Verif.Common
set_option linter.unusedSimpArgs false
/-!
# runtime/lib/id_mgr.h: the sorted registry of file ids

The u64 array is a list; the spinlock makes each function atomic.
-/
namespace Verif.Store.IdMgr
open Verif

/-- UINT64_MAX, "none" -/
def NONE : Nat := 2 ^ 64 - 1

/-- id_mgr_add, id_mgr.h:47-63: position = first element not below id, memmove, store -/
def add : List Nat → Nat → List Nat
  | [], id => [id]
  | x :: t, id => if x < id then x :: add t id else id :: x :: t

/-- id_mgr_delete, id_mgr.h:65-81: removes the first occurrence -/
def delete : List Nat → Nat → List Nat
  | [], _ => []
  | x :: t, id => if x ≠ id then x :: delete t id else t

/-- id_mgr_copy, id_mgr.h:83-101 -/
def copy : List Nat → Nat → List Nat
  | [], _ => []
  | x :: t, limit => if x > limit then [] else x :: copy t limit

/-- id_mgr_min, id_mgr.h:103-115 -/
def min (l : List Nat) : Nat := match l with | [] => NONE | x :: _ => x
/-- id_mgr_max, id_mgr.h:117-129 -/
def max (l : List Nat) : Nat := l.getLastD NONE

/-- loop of id_mgr_find, id_mgr.h:150-166 with the current candidate -/
def findLoop : Nat → List Nat → Nat → Nat
  | id, [], _ => id
  | id, x :: t, value => if x > value then id else findLoop x t value
/-- id_mgr_find -/
def find (l : List Nat) (value : Nat) : Nat := findLoop NONE l value

/-- id_mgr_next, id_mgr.h:168-186 -/
def next : List Nat → Nat → Nat
  | [], _ => NONE
  | x :: t, value => if x > value then x else next t value

/-- id_mgr_gc_between, id_mgr.h:188-220: (removed ids, remaining list) -/
def gc : List Nat → Nat → List Nat × List Nat
  | x :: y :: t, id => if id ≥ y then let (r, k) := gc (y :: t) id; (x :: r, k) else ([], x :: y :: t)
  | l, _ => ([], l)

/-- one call on the registry -/
inductive Op where
  | add (id : Nat)
  | delete (id : Nat)
  | gc (id : Nat)

def Op.run (l : List Nat) : Op → List Nat
  | .add id => IdMgr.add l id
  | .delete id => IdMgr.delete l id
  | .gc id => (IdMgr.gc l id).2

/-! ## proofs -/

theorem add_perm (l : List Nat) (id : Nat) : (add l id).Perm (id :: l) := by
  induction l with
  | nil => exact List.Perm.refl _
  | cons x t ih =>
    simp only [add]
    split
    · exact (List.Perm.cons x ih).trans (List.Perm.swap id x t)
    · exact List.Perm.refl _

theorem mem_add {l : List Nat} {id x : Nat} : x ∈ add l id ↔ x = id ∨ x ∈ l := by
  rw [(add_perm l id).mem_iff]; simp

theorem add_sorted (l : List Nat) (id : Nat) (h : l.Pairwise (· ≤ ·)) : (add l id).Pairwise (· ≤ ·) := by
  induction l with
  | nil => simp [add]
  | cons x t ih =>
    simp only [add]
    have hp := List.pairwise_cons.mp h
    split
    · refine List.pairwise_cons.mpr ⟨?_, ih hp.2⟩
      intro y hy
      rcases mem_add.mp hy with rfl | hy
      · omega
      · exact hp.1 y hy
    · refine List.pairwise_cons.mpr ⟨?_, h⟩
      intro y hy
      simp only [List.mem_cons] at hy
      rcases hy with rfl | hy
      · omega
      · have := hp.1 y hy; omega

theorem add_strict (l : List Nat) (id : Nat) (h : l.Pairwise (· < ·)) (hn : id ∉ l) : (add l id).Pairwise (· < ·) := by
  induction l with
  | nil => simp [add]
  | cons x t ih =>
    simp only [add]
    have hp := List.pairwise_cons.mp h
    simp only [List.mem_cons, not_or] at hn
    split
    · refine List.pairwise_cons.mpr ⟨?_, ih hp.2 hn.2⟩
      intro y hy
      rcases mem_add.mp hy with rfl | hy
      · omega
      · exact hp.1 y hy
    · refine List.pairwise_cons.mpr ⟨?_, h⟩
      intro y hy
      simp only [List.mem_cons] at hy
      rcases hy with rfl | hy
      · omega
      · have := hp.1 y hy; omega

theorem delete_erase (l : List Nat) (id : Nat) : delete l id = l.erase id := by
  induction l with
  | nil => rfl
  | cons x t ih =>
    simp only [delete, List.erase_cons, ih]
    by_cases h : x = id <;> simp [h]

theorem delete_sublist (l : List Nat) (id : Nat) : (delete l id).Sublist l := by
  rw [delete_erase]; exact List.erase_sublist

theorem gc_append (l : List Nat) (id : Nat) : (gc l id).1 ++ (gc l id).2 = l := by
  induction l with
  | nil => rfl
  | cons x t ih =>
    cases t with
    | nil => rfl
    | cons y t =>
      simp only [gc]
      split
      · simpa using ih
      · simp

theorem copy_filter (l : List Nat) (limit : Nat) (h : l.Pairwise (· ≤ ·)) : copy l limit = l.filter (· ≤ limit) := by
  induction l with
  | nil => rfl
  | cons x t ih =>
    have hp := List.pairwise_cons.mp h
    simp only [copy]
    split
    · rename_i hx
      symm; rw [List.filter_eq_nil_iff]
      intro y hy
      simp only [List.mem_cons] at hy
      simp only [decide_eq_true_eq]
      rcases hy with rfl | hy
      · omega
      · have := hp.1 y hy; omega
    · rename_i hx
      rw [List.filter_cons, if_pos (by simpa using Nat.le_of_not_lt hx), ih hp.2]

theorem findLoop_spec (l : List Nat) (h : l.Pairwise (· ≤ ·)) : ∀ id value,
    (findLoop id l value = id ∧ ∀ x ∈ l, value < x) ∨
    (findLoop id l value ∈ l ∧ findLoop id l value ≤ value ∧ ∀ x ∈ l, x ≤ value → x ≤ findLoop id l value) := by
  induction l with
  | nil => intro id value; left; simp [findLoop]
  | cons x t ih =>
    intro id value
    have hp := List.pairwise_cons.mp h
    simp only [findLoop]
    split
    · rename_i hx
      left
      refine ⟨rfl, ?_⟩
      intro y hy
      simp only [List.mem_cons] at hy
      rcases hy with rfl | hy
      · exact hx
      · have := hp.1 y hy; omega
    · rename_i hx
      right
      rcases ih hp.2 x value with ⟨h1, h2⟩ | ⟨h1, h2, h3⟩
      · rw [h1]
        refine ⟨by simp, by omega, ?_⟩
        intro y hy hv
        simp only [List.mem_cons] at hy
        rcases hy with rfl | hy
        · omega
        · have := h2 y hy; omega
      · refine ⟨by simp [h1], h2, ?_⟩
        intro y hy hv
        simp only [List.mem_cons] at hy
        rcases hy with rfl | hy
        · exact hp.1 _ h1
        · exact h3 y hy hv

theorem next_spec (l : List Nat) (h : l.Pairwise (· ≤ ·)) (value : Nat) :
    (next l value = NONE ∧ ∀ x ∈ l, x ≤ value) ∨
    (next l value ∈ l ∧ value < next l value ∧ ∀ x ∈ l, value < x → next l value ≤ x) := by
  induction l with
  | nil => left; simp [next]
  | cons x t ih =>
    have hp := List.pairwise_cons.mp h
    simp only [next]
    split
    · rename_i hx
      right
      refine ⟨by simp, hx, ?_⟩
      intro y hy _
      simp only [List.mem_cons] at hy
      rcases hy with rfl | hy
      · omega
      · exact hp.1 y hy
    · rename_i hx
      rcases ih hp.2 with ⟨h1, h2⟩ | ⟨h1, h2, h3⟩
      · left
        refine ⟨h1, ?_⟩
        intro y hy
        simp only [List.mem_cons] at hy
        rcases hy with rfl | hy
        · omega
        · exact h2 y hy
      · right
        refine ⟨by simp [h1], h2, ?_⟩
        intro y hy hv
        simp only [List.mem_cons] at hy
        rcases hy with rfl | hy
        · omega
        · exact h3 y hy hv

/-- x is entirely below the position: a later file starts at or before it -/
theorem gc_spec (l : List Nat) (id : Nat) (h : l.Pairwise (· < ·)) :
    (∀ x ∈ (gc l id).1, ∃ y ∈ l, x < y ∧ y ≤ id) ∧
    (∀ x ∈ (gc l id).2, ∀ y ∈ l, x < y → id < y) := by
  induction l with
  | nil => simp [gc]
  | cons x t ih =>
    cases t with
    | nil => simp [gc]
    | cons y t =>
      have hp := List.pairwise_cons.mp h
      have hq := List.pairwise_cons.mp hp.2
      simp only [gc]
      split
      · rename_i hy
        have ih := ih hp.2
        constructor
        · intro z hz
          simp only [List.mem_cons] at hz
          rcases hz with rfl | hz
          · exact ⟨y, by simp, hp.1 y (by simp), hy⟩
          · obtain ⟨w, hw, h1⟩ := ih.1 z hz
            exact ⟨w, by simp only [List.mem_cons] at hw ⊢; exact Or.inr hw, h1⟩
        · intro z hz w hw hlt
          have hzm : z ∈ y :: t := by
            rw [← gc_append (y :: t) id]; exact List.mem_append_right _ hz
          simp only [List.mem_cons] at hw
          rcases hw with rfl | hw
          · have := hp.1 z hzm; omega
          · exact ih.2 z hz w (by simpa using hw) hlt
      · rename_i hy
        refine ⟨by simp, ?_⟩
        intro z hz w hw hlt
        simp only [List.mem_cons] at hz hw
        rcases hw with rfl | rfl | hw
        · rcases hz with rfl | rfl | hz
          · omega
          · have := hp.1 z (by simp); omega
          · have := hp.1 z (by simp [hz]); omega
        · omega
        · have := hq.1 w hw; omega

end Verif.Store.IdMgr
