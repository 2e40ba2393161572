import Verif.Catalog.Model
namespace Verif.Catalog
variable {α : Type} [HasOid α]

/-- no two objects at one address -/
def NodO (l : List α) : Prop := (l.map HasOid.oid).Nodup

theorem at_mem {l : List α} {o : Nat} {x : α} (h : at_ l o = some x) : x ∈ l ∧ HasOid.oid x = o := by
  unfold at_ at h
  have := List.find?_some h
  exact ⟨List.mem_of_find?_eq_some h, by simpa using this⟩

theorem at_none {l : List α} {o : Nat} : at_ l o = none ↔ ∀ x ∈ l, HasOid.oid x ≠ o := by
  unfold at_; simp [List.find?_eq_none]

theorem at_cons (x : α) (l : List α) (o : Nat) : at_ (x :: l) o = if HasOid.oid x = o then some x else at_ l o := by
  unfold at_; rw [List.find?_cons]; by_cases h : HasOid.oid x = o <;> simp [h]

theorem at_of_mem {l : List α} (h : NodO l) {x : α} (hx : x ∈ l) : at_ l (HasOid.oid x) = some x := by
  induction l with
  | nil => simp at hx
  | cons y l ih =>
    rw [at_cons]
    unfold NodO at h; rw [List.map_cons, List.nodup_cons] at h
    rcases List.mem_cons.1 hx with rfl | hx
    · simp
    · by_cases hy : HasOid.oid y = HasOid.oid x
      · exact absurd (List.mem_map.2 ⟨x, hx, hy.symm⟩) h.1
      · rw [if_neg hy]; exact ih h.2 hx

theorem at_put (l : List α) (x : α) (o : Nat) :
    at_ (put l x) o = (at_ l o).or (if HasOid.oid x = o then some x else none) := by
  unfold put
  induction l with
  | nil => simp [at_cons, at_]
  | cons y l ih => rw [List.cons_append, at_cons, at_cons, ih]; by_cases h : HasOid.oid y = o <;> simp [h]

theorem at_del (l : List α) (o p : Nat) : at_ (del l o) p = if p = o then none else at_ l p := by
  unfold del
  induction l with
  | nil => simp [at_]
  | cons y l ih =>
    rw [at_cons, List.filter_cons]
    by_cases h : HasOid.oid y = o
    · have e1 : decide (HasOid.oid y ≠ o) = false := by simp [h]
      rw [e1, if_neg (by decide), ih]
      by_cases hp : p = o
      · simp [hp]
      · have : ¬ HasOid.oid y = p := fun e => hp (e.symm.trans h)
        simp [hp, this]
    · simp only [ne_eq, h, not_false_eq_true, decide_true, if_true, at_cons, ih]
      by_cases hp : p = o
      · subst hp; simp [h]
      · simp [hp]

theorem at_upd (l : List α) (o p : Nat) {f : α → α} (hf : ∀ x, HasOid.oid (f x) = HasOid.oid x) :
    at_ (upd l o f) p = if p = o then (at_ l o).map f else at_ l p := by
  unfold upd
  induction l with
  | nil => simp [at_]
  | cons y l ih =>
    rw [List.map_cons, at_cons, ih, at_cons, at_cons]
    by_cases h : HasOid.oid y = o
    · simp only [h, if_true, hf]
      by_cases hp : p = o
      · simp [hp]
      · have hp' : ¬ o = p := fun e => hp e.symm
        simp [hp, hp']
    · simp only [h, if_false]
      by_cases hp : p = o
      · subst hp; simp [h]
      · simp [hp]

theorem mem_upd {l : List α} {o : Nat} {f : α → α} {x : α} (h : x ∈ upd l o f) :
    ∃ y ∈ l, x = if HasOid.oid y = o then f y else y := by
  obtain ⟨y, hy, e⟩ := List.mem_map.1 h
  exact ⟨y, hy, e.symm⟩

theorem mem_del {l : List α} {o : Nat} {x : α} : x ∈ del l o ↔ x ∈ l ∧ HasOid.oid x ≠ o := by
  unfold del; simp

theorem nod_del {l : List α} (h : NodO l) (o : Nat) : NodO (del l o) :=
  List.Nodup.sublist (List.Sublist.map _ List.filter_sublist) h

theorem map_upd (l : List α) (o : Nat) {f : α → α} (hf : ∀ x, HasOid.oid (f x) = HasOid.oid x) :
    (upd l o f).map HasOid.oid = l.map HasOid.oid := by
  unfold upd; rw [List.map_map]; apply List.map_congr_left
  intro x _; simp only [Function.comp]; split <;> simp [hf]

theorem nod_upd {l : List α} (h : NodO l) (o : Nat) {f : α → α} (hf : ∀ x, HasOid.oid (f x) = HasOid.oid x) :
    NodO (upd l o f) := by unfold NodO; rw [map_upd l o hf]; exact h

theorem nod_put {l : List α} (h : NodO l) {x : α} (hx : at_ l (HasOid.oid x) = none) : NodO (put l x) := by
  unfold NodO put; rw [List.map_append, List.nodup_append]
  refine ⟨h, by simp, ?_⟩
  intro a ha b hb e
  simp only [List.map_cons, List.map_nil, List.mem_singleton] at hb
  subst e
  obtain ⟨y, hy, rfl⟩ := List.mem_map.1 ha
  exact at_none.1 hx y hy hb

/-- writing back what was there -/
theorem upd_back {l : List α} (h : NodO l) {x : α} (hx : x ∈ l) {f g : α → α}
    (hf : ∀ x, HasOid.oid (f x) = HasOid.oid x) (hg : g (f x) = x) :
    upd (upd l (HasOid.oid x) f) (HasOid.oid x) g = l := by
  unfold upd; rw [List.map_map]
  conv => rhs; rw [← List.map_id l]
  apply List.map_congr_left
  intro y hy
  simp only [Function.comp, id]
  by_cases e : HasOid.oid y = HasOid.oid x
  · rw [if_pos e, if_pos (by rw [hf]; exact e)]
    have := at_of_mem h hy; rw [e, at_of_mem h hx] at this
    cases this; exact hg
  · rw [if_neg e, if_neg e]

theorem del_put {l : List α} {x : α} (h : ∀ y ∈ l, HasOid.oid y ≠ HasOid.oid x) : del (put l x) (HasOid.oid x) = l := by
  unfold del put; rw [List.filter_append]
  rw [List.filter_eq_self.2 (by simpa using h)]; simp

/-- lists with the same objects at the same addresses hold the same objects -/
theorem perm_of_at {l l' : List α} (h : NodO l) (h' : NodO l') (e : ∀ o, at_ l o = at_ l' o) : l.Perm l' := by
  have key : ∀ {l : List α}, NodO l → l.Nodup := fun {l} h => by
    unfold NodO at h
    exact List.Pairwise.imp (fun h e => h (by rw [e])) (List.pairwise_map.1 h)
  apply (List.perm_ext_iff_of_nodup (key h) (key h')).2
  intro x
  exact ⟨fun hx => (at_mem (by rw [← e]; exact at_of_mem h hx)).1, fun hx => (at_mem (by rw [e]; exact at_of_mem h' hx)).1⟩

/-! names -/
theorem same_refl (a : Name) : same a a = true := by simp [same]
theorem same_symm {a b : Name} (h : same a b = true) : same b a = true := by simp [same] at *; exact h.symm
theorem same_trans {a b c : Name} (h : same a b = true) (h' : same b c = true) : same a c = true := by
  simp [same] at *; rw [h, h']
theorem same_comm (a b : Name) : same a b = same b a := by
  unfold same; by_cases h : List.map lower a = List.map lower b <;> simp [h, eq_comm]
theorem same_congr {a b : Name} (h : same a b = true) (c : Name) : same a c = same b c := by
  simp [same] at *; rw [h]
theorem same_congr_r {a b : Name} (h : same a b = true) (c : Name) : same c a = same c b := by
  simp [same] at *; rw [h]
theorem same_respell (old new : Name) : same (respell old new) new = true := by
  unfold respell; by_cases h : same old new = true
  · simp [h]
  · simp [h, same_refl]

end Verif.Catalog
