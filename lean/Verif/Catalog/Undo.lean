import Verif.Catalog.Lists
set_option linter.unusedSimpArgs false
set_option linter.unusedVariables false
namespace Verif.Catalog

/-! ## Well-formed catalogs -/

structure Nod (c : Cat) : Prop where
  stors : NodO c.stors
  dbs : NodO c.dbs
  tabs : NodO c.tabs
  udfs : NodO c.udfs

structure TabOk (n : Nat) (t : Tab) : Prop where
  cols : NodO t.cols
  idxs : NodO t.idxs
  tiers : NodO t.tiers
  colsLt : ∀ x ∈ t.cols, x.cid < n
  idxsLt : ∀ x ∈ t.idxs, x.iid < n
  tiersLt : ∀ x ∈ t.tiers, x.tid < n
  sizes : ∀ x ∈ t.tiers, toInt x.regionSize = x.regionSize ∧ toInt x.objectSize = x.objectSize

structure Wf (c : Cat) : Prop where
  nod : Nod c
  stors : ∀ x ∈ c.stors, x.oid < c.next
  dbs : ∀ x ∈ c.dbs, x.oid < c.next
  tabs : ∀ x ∈ c.tabs, x.oid < c.next
  udfs : ∀ x ∈ c.udfs, x.oid < c.next
  tabOk : ∀ t ∈ c.tabs, TabOk c.next t

/-- the same objects at the same addresses -/
structure Same (c c' : Cat) : Prop where
  stors : ∀ o, at_ c.stors o = at_ c'.stors o
  dbs : ∀ o, at_ c.dbs o = at_ c'.dbs o
  tabs : ∀ o, at_ c.tabs o = at_ c'.tabs o
  udfs : ∀ o, at_ c.udfs o = at_ c'.udfs o
  broken : c.broken = c'.broken

theorem Same.refl (c : Cat) : Same c c := ⟨fun _ => rfl, fun _ => rfl, fun _ => rfl, fun _ => rfl, rfl⟩
theorem Same.trans {a b c : Cat} (h : Same a b) (h' : Same b c) : Same a c :=
  ⟨fun o => (h.stors o).trans (h'.stors o), fun o => (h.dbs o).trans (h'.dbs o), fun o => (h.tabs o).trans (h'.tabs o),
   fun o => (h.udfs o).trans (h'.udfs o), h.broken.trans h'.broken⟩

/-- whatever catalog looks like the one left behind, undoing the log on it gives the first one back -/
def Back (c : Cat) (r : R) : Prop :=
  ∀ c', Same c' r.cat → Nod c' → Same (undoAll c' r.log) c ∧ Nod (undoAll c' r.log)

theorem back_nil (c : Cat) (p : Reply) : Back c ⟨c, [], p⟩ := fun c' h hn => ⟨h, hn⟩

theorem undoAll_append (c : Cat) (a b : List Undo) : undoAll c (a ++ b) = undoAll (undoAll c a) b := by
  unfold undoAll; rw [List.foldl_append]

theorem back_next {c : Cat} {r : R} {k : Cat → R} (h : Back c r) (hk : Back r.cat (k r.cat)) : Back c (r.next k) := by
  unfold R.next
  by_cases e : r.reply = .error
  · rw [if_pos e]; exact h
  · rw [if_neg e]
    intro c' hs hn
    have := hk c' hs hn
    rw [undoAll_append]
    exact h _ this.1 this.2

theorem tab_oid (t : Tab) : HasOid.oid t = t.oid := rfl
theorem udf_oid (t : Udf) : HasOid.oid t = t.oid := rfl
theorem db_oid (t : Db) : HasOid.oid t = t.oid := rfl
theorem stor_oid (t : Stor) : HasOid.oid t = t.oid := rfl

/-- a change inside of one table -/
theorem back_tab {c : Cat} {t : Tab} {f g : Tab → Tab} {u : Undo} {p : Reply} (m : Nat)
    (ht : at_ c.tabs t.oid = some t) (hf : ∀ t, (f t).oid = t.oid) (hg : ∀ t, (g t).oid = t.oid)
    (hu : ∀ c', undo c' u = onTab c' t.oid g) (e : g (f t) = t) :
    Back c ⟨onTab { c with next := m } t.oid f, [u], p⟩ := by
  intro c' hs hn
  have hc : undoAll c' [u] = onTab c' t.oid g := hu c'
  show Same (undoAll c' [u]) c ∧ Nod (undoAll c' [u])
  rw [hc]
  refine ⟨⟨hs.stors, hs.dbs, ?_, hs.udfs, hs.broken⟩, ⟨hn.stors, hn.dbs, nod_upd hn.tabs _ hg, hn.udfs⟩⟩
  intro o
  show at_ (upd c'.tabs t.oid g) o = _
  rw [at_upd _ _ _ hg, hs.tabs, hs.tabs]
  show (if o = t.oid then Option.map g (at_ (upd c.tabs t.oid f) t.oid) else at_ (upd c.tabs t.oid f) o) = _
  rw [at_upd _ _ _ hf, at_upd _ _ _ hf]
  by_cases h : o = t.oid
  · subst h; simp [ht, e]
  · simp [h]

theorem wf_tab {c : Cat} (h : Wf c) (o m : Nat) (hm : c.next ≤ m) {f : Tab → Tab} (hf : ∀ t, (f t).oid = t.oid)
    (hok : ∀ t ∈ c.tabs, t.oid = o → TabOk m (f t)) : Wf (onTab { c with next := m } o f) := by
  have mono : ∀ t, TabOk c.next t → TabOk m t := fun t k =>
    ⟨k.cols, k.idxs, k.tiers, fun x hx => Nat.lt_of_lt_of_le (k.colsLt x hx) hm, fun x hx => Nat.lt_of_lt_of_le (k.idxsLt x hx) hm,
     fun x hx => Nat.lt_of_lt_of_le (k.tiersLt x hx) hm, k.sizes⟩
  refine ⟨⟨h.nod.stors, h.nod.dbs, nod_upd h.nod.tabs _ hf, h.nod.udfs⟩,
    fun x hx => Nat.lt_of_lt_of_le (h.stors x hx) hm, fun x hx => Nat.lt_of_lt_of_le (h.dbs x hx) hm, ?_,
    fun x hx => Nat.lt_of_lt_of_le (h.udfs x hx) hm, ?_⟩
  · intro x hx
    obtain ⟨y, hy, rfl⟩ := mem_upd hx
    have := Nat.lt_of_lt_of_le (h.tabs y hy) hm
    by_cases e : HasOid.oid y = o
    · rw [if_pos e, hf]; exact this
    · rw [if_neg e]; exact this
  · intro x hx
    obtain ⟨y, hy, rfl⟩ := mem_upd hx
    by_cases e : HasOid.oid y = o
    · rw [if_pos e]; exact hok y hy e
    · rw [if_neg e]; exact mono y (h.tabOk y hy)

theorem wf_of_same {c c' : Cat} (h : Wf c) (hs : Same c' c) (hn : Nod c') (hm : c.next ≤ c'.next) : Wf c' := by
  have m1 : ∀ x ∈ c'.stors, x ∈ c.stors := fun x hx => (at_mem ((hs.stors _).symm.trans (at_of_mem hn.stors hx))).1
  have m2 : ∀ x ∈ c'.dbs, x ∈ c.dbs := fun x hx => (at_mem ((hs.dbs _).symm.trans (at_of_mem hn.dbs hx))).1
  have m3 : ∀ x ∈ c'.tabs, x ∈ c.tabs := fun x hx => (at_mem ((hs.tabs _).symm.trans (at_of_mem hn.tabs hx))).1
  have m4 : ∀ x ∈ c'.udfs, x ∈ c.udfs := fun x hx => (at_mem ((hs.udfs _).symm.trans (at_of_mem hn.udfs hx))).1
  refine ⟨hn, fun x hx => Nat.lt_of_lt_of_le (h.stors x (m1 x hx)) hm, fun x hx => Nat.lt_of_lt_of_le (h.dbs x (m2 x hx)) hm,
    fun x hx => Nat.lt_of_lt_of_le (h.tabs x (m3 x hx)) hm, fun x hx => Nat.lt_of_lt_of_le (h.udfs x (m4 x hx)) hm, ?_⟩
  intro t ht
  have k := h.tabOk t (m3 t ht)
  exact ⟨k.cols, k.idxs, k.tiers, fun x hx => Nat.lt_of_lt_of_le (k.colsLt x hx) hm, fun x hx => Nat.lt_of_lt_of_le (k.idxsLt x hx) hm,
    fun x hx => Nat.lt_of_lt_of_le (k.tiersLt x hx) hm, k.sizes⟩

/-! the two facts wanted of every step -/
structure Step (c : Cat) (r : R) : Prop where
  back : Back c r
  wf : Wf r.cat
  mono : c.next ≤ r.cat.next

theorem step_nil {c : Cat} (h : Wf c) (p : Reply) : Step c ⟨c, [], p⟩ := ⟨back_nil c p, h, Nat.le_refl _⟩
theorem step_fail {c : Cat} (h : Wf c) : Step c (fail c) := step_nil h _
theorem step_miss {c : Cat} (h : Wf c) (q : Bool) : Step c (miss c q) := step_nil h _

theorem step_next {c : Cat} {r : R} {k : Cat → R} (h : Step c r) (hk : Wf r.cat → Step r.cat (k r.cat)) : Step c (r.next k) := by
  have hk := hk h.wf
  refine ⟨back_next h.back hk.back, ?_, ?_⟩
  · unfold R.next; by_cases e : r.reply = .error
    · rw [if_pos e]; exact h.wf
    · rw [if_neg e]; exact hk.wf
  · unfold R.next; by_cases e : r.reply = .error
    · rw [if_pos e]; exact h.mono
    · rw [if_neg e]; exact Nat.le_trans h.mono hk.mono

/-- an entry whose undo does nothing -/
theorem step_log {c : Cat} (h : Wf c) (u : Undo) (p : Reply) (hu : ∀ c', undo c' u = c') : Step c ⟨c, [u], p⟩ := by
  refine ⟨?_, h, Nat.le_refl _⟩
  intro c' hs hn
  have : undoAll c' [u] = c' := hu c'
  show Same (undoAll c' [u]) c ∧ _
  rw [this]; exact ⟨hs, hn⟩

theorem step_tab {c : Cat} (h : Wf c) {t : Tab} {f g : Tab → Tab} {u : Undo} {p : Reply} (m : Nat) (hm : c.next ≤ m)
    (ht : t ∈ c.tabs) (hf : ∀ t, (f t).oid = t.oid) (hg : ∀ t, (g t).oid = t.oid)
    (hu : ∀ c', undo c' u = onTab c' t.oid g) (e : g (f t) = t) (hok : TabOk c.next t → TabOk m (f t)) :
    Step c ⟨onTab { c with next := m } t.oid f, [u], p⟩ := by
  refine ⟨back_tab m (at_of_mem h.nod.tabs ht) hf hg hu e, wf_tab h _ m hm hf ?_, hm⟩
  intro t' ht' eo
  have h2 : at_ c.tabs t.oid = some t := at_of_mem h.nod.tabs ht
  have := at_of_mem h.nod.tabs ht'
  rw [tab_oid, eo, h2] at this
  cases this
  exact hok (h.tabOk t ht)

/-! objects of a list: add, remove, rename.  One statement per manager. -/

theorem fresh {α : Type} [HasOid α] {l : List α} {n : Nat} (h : ∀ x ∈ l, HasOid.oid x < n) : at_ l n = none :=
  at_none.2 fun x hx => Nat.ne_of_lt (h x hx)

theorem at_del_put {α : Type} [HasOid α] {l : List α} {x : α} (h : at_ l (HasOid.oid x) = none) (o : Nat) :
    (if o = HasOid.oid x then none else at_ (put l x) o) = at_ l o := by
  rw [at_put]
  by_cases e : o = HasOid.oid x
  · subst e; simp [h]
  · have e' : ¬ HasOid.oid x = o := fun k => e k.symm
    simp [e, e']

theorem at_put_del {α : Type} [HasOid α] {l : List α} (hn : NodO l) {x : α} (h : x ∈ l) (o : Nat) :
    (at_ (del l (HasOid.oid x)) o).or (if HasOid.oid x = o then some x else none) = at_ l o := by
  rw [at_del]
  by_cases e : o = HasOid.oid x
  · subst e; simp [at_of_mem hn h]
  · have e' : ¬ HasOid.oid x = o := fun k => e k.symm
    simp [e, e']

theorem at_upd_upd {α : Type} [HasOid α] {l : List α} (hn : NodO l) {x : α} (h : x ∈ l) {f g : α → α}
    (hf : ∀ x, HasOid.oid (f x) = HasOid.oid x) (e : g (f x) = x) (o : Nat) :
    (if o = HasOid.oid x then (at_ (upd l (HasOid.oid x) f) (HasOid.oid x)).map g else at_ (upd l (HasOid.oid x) f) o) = at_ l o := by
  rw [at_upd _ _ _ hf, at_upd _ _ _ hf]
  by_cases k : o = HasOid.oid x
  · subst k; simp [at_of_mem hn h, e]
  · simp [k]

theorem lt_put {α : Type} [HasOid α] {l : List α} {x : α} {m m' : Nat} (h : ∀ y ∈ l, HasOid.oid y < m) (hm : m ≤ m')
    (hx : HasOid.oid x < m') : ∀ y ∈ put l x, HasOid.oid y < m' := by
  intro y hy
  rcases List.mem_append.1 hy with hy | hy
  · exact Nat.lt_of_lt_of_le (h y hy) hm
  · rw [List.mem_singleton.1 hy]; exact hx

theorem lt_upd {α : Type} [HasOid α] {l : List α} {o m : Nat} {f : α → α} (hf : ∀ x, HasOid.oid (f x) = HasOid.oid x)
    (h : ∀ y ∈ l, HasOid.oid y < m) : ∀ y ∈ upd l o f, HasOid.oid y < m := by
  intro y hy
  obtain ⟨z, hz, rfl⟩ := mem_upd hy
  split
  · rw [hf]; exact h z hz
  · exact h z hz

theorem lt_le {α : Type} [HasOid α] {l : List α} {m m' : Nat} (hm : m ≤ m') (h : ∀ y ∈ l, HasOid.oid y < m) :
    ∀ y ∈ l, HasOid.oid y < m' := fun y hy => Nat.lt_of_lt_of_le (h y hy) hm

theorem tabOk_le {m m' : Nat} (hm : m ≤ m') {t : Tab} (k : TabOk m t) : TabOk m' t :=
  ⟨k.cols, k.idxs, k.tiers, lt_le hm k.colsLt, lt_le hm k.idxsLt, lt_le hm k.tiersLt, k.sizes⟩

-- storages
theorem step_newStor {c : Cat} (h : Wf c) (s : Stor) (p : Reply) (hs : s.oid = c.next) :
    Step c ⟨{ c with stors := put c.stors s, next := c.next + 1 }, [.newStor c.next], p⟩ := by
  have fr : at_ c.stors (HasOid.oid s) = none := by rw [stor_oid, hs]; exact fresh h.stors
  refine ⟨?_, ⟨⟨nod_put h.nod.stors fr, h.nod.dbs, h.nod.tabs, h.nod.udfs⟩, lt_put h.stors (Nat.le_succ _) (by rw [stor_oid, hs]; exact Nat.lt_succ_self _), lt_le (Nat.le_succ _) h.dbs, lt_le (Nat.le_succ _) h.tabs, lt_le (Nat.le_succ _) h.udfs, fun t ht => tabOk_le (Nat.le_succ _) (h.tabOk t ht)⟩, Nat.le_succ _⟩
  intro c' k hn
  refine ⟨⟨fun o => ?_, k.dbs, k.tabs, k.udfs, k.broken⟩, ⟨nod_del hn.stors _, hn.dbs, hn.tabs, hn.udfs⟩⟩
  show at_ (del c'.stors c.next) o = _
  rw [at_del, k.stors, ← hs]; exact at_del_put fr o

theorem step_delStor {c : Cat} (h : Wf c) {s : Stor} (hs : s ∈ c.stors) (p : Reply) :
    Step c ⟨{ c with stors := del c.stors s.oid }, [.delStor s], p⟩ := by
  refine ⟨?_, ⟨⟨nod_del h.nod.stors _, h.nod.dbs, h.nod.tabs, h.nod.udfs⟩, fun x hx => h.stors x (mem_del.1 hx).1, h.dbs, h.tabs, h.udfs, h.tabOk⟩, Nat.le_refl _⟩
  intro c' k hn
  refine ⟨⟨fun o => ?_, k.dbs, k.tabs, k.udfs, k.broken⟩, ⟨nod_put hn.stors ?_, hn.dbs, hn.tabs, hn.udfs⟩⟩
  · show at_ (put c'.stors s) o = _
    rw [at_put, k.stors]; exact at_put_del h.nod.stors hs o
  · rw [k.stors]; show at_ (del c.stors s.oid) s.oid = none; rw [at_del]; simp

theorem step_updStor {c : Cat} (h : Wf c) {s : Stor} (hs : s ∈ c.stors) {f g : Stor → Stor} {u : Undo} (p : Reply)
    (hf : ∀ x, (f x).oid = x.oid) (hg : ∀ x, (g x).oid = x.oid) (hu : ∀ c', undo c' u = { c' with stors := upd c'.stors s.oid g })
    (e : g (f s) = s) : Step c ⟨{ c with stors := upd c.stors s.oid f }, [u], p⟩ := by
  refine ⟨?_, ⟨⟨nod_upd h.nod.stors _ hf, h.nod.dbs, h.nod.tabs, h.nod.udfs⟩, lt_upd hf h.stors, h.dbs, h.tabs, h.udfs, h.tabOk⟩, Nat.le_refl _⟩
  intro c' k hn
  have hc : undoAll c' [u] = { c' with stors := upd c'.stors s.oid g } := hu c'
  show Same (undoAll c' [u]) c ∧ Nod (undoAll c' [u])
  rw [hc]
  refine ⟨⟨fun o => ?_, k.dbs, k.tabs, k.udfs, k.broken⟩, ⟨nod_upd hn.stors _ hg, hn.dbs, hn.tabs, hn.udfs⟩⟩
  show at_ (upd c'.stors s.oid g) o = _
  rw [at_upd _ _ _ hg, k.stors, k.stors]; exact at_upd_upd h.nod.stors hs hf e o

-- databases
theorem step_newDb {c : Cat} (h : Wf c) (s : Db) (p : Reply) (hs : s.oid = c.next) :
    Step c ⟨{ c with dbs := put c.dbs s, next := c.next + 1 }, [.newDb c.next], p⟩ := by
  have fr : at_ c.dbs (HasOid.oid s) = none := by rw [db_oid, hs]; exact fresh h.dbs
  refine ⟨?_, ⟨⟨h.nod.stors, nod_put h.nod.dbs fr, h.nod.tabs, h.nod.udfs⟩, lt_le (Nat.le_succ _) h.stors, lt_put h.dbs (Nat.le_succ _) (by rw [db_oid, hs]; exact Nat.lt_succ_self _), lt_le (Nat.le_succ _) h.tabs, lt_le (Nat.le_succ _) h.udfs, fun t ht => tabOk_le (Nat.le_succ _) (h.tabOk t ht)⟩, Nat.le_succ _⟩
  intro c' k hn
  refine ⟨⟨k.stors, fun o => ?_, k.tabs, k.udfs, k.broken⟩, ⟨hn.stors, nod_del hn.dbs _, hn.tabs, hn.udfs⟩⟩
  show at_ (del c'.dbs c.next) o = _
  rw [at_del, k.dbs, ← hs]; exact at_del_put fr o

theorem step_delDb {c : Cat} (h : Wf c) {s : Db} (hs : s ∈ c.dbs) (p : Reply) :
    Step c ⟨{ c with dbs := del c.dbs s.oid }, [.delDb s], p⟩ := by
  refine ⟨?_, ⟨⟨h.nod.stors, nod_del h.nod.dbs _, h.nod.tabs, h.nod.udfs⟩, h.stors, fun x hx => h.dbs x (mem_del.1 hx).1, h.tabs, h.udfs, h.tabOk⟩, Nat.le_refl _⟩
  intro c' k hn
  refine ⟨⟨k.stors, fun o => ?_, k.tabs, k.udfs, k.broken⟩, ⟨hn.stors, nod_put hn.dbs ?_, hn.tabs, hn.udfs⟩⟩
  · show at_ (put c'.dbs s) o = _
    rw [at_put, k.dbs]; exact at_put_del h.nod.dbs hs o
  · rw [k.dbs]; show at_ (del c.dbs s.oid) s.oid = none; rw [at_del]; simp

theorem step_updDb {c : Cat} (h : Wf c) {s : Db} (hs : s ∈ c.dbs) {f g : Db → Db} {u : Undo} (p : Reply)
    (hf : ∀ x, (f x).oid = x.oid) (hg : ∀ x, (g x).oid = x.oid) (hu : ∀ c', undo c' u = { c' with dbs := upd c'.dbs s.oid g })
    (e : g (f s) = s) : Step c ⟨{ c with dbs := upd c.dbs s.oid f }, [u], p⟩ := by
  refine ⟨?_, ⟨⟨h.nod.stors, nod_upd h.nod.dbs _ hf, h.nod.tabs, h.nod.udfs⟩, h.stors, lt_upd hf h.dbs, h.tabs, h.udfs, h.tabOk⟩, Nat.le_refl _⟩
  intro c' k hn
  have hc : undoAll c' [u] = { c' with dbs := upd c'.dbs s.oid g } := hu c'
  show Same (undoAll c' [u]) c ∧ Nod (undoAll c' [u])
  rw [hc]
  refine ⟨⟨k.stors, fun o => ?_, k.tabs, k.udfs, k.broken⟩, ⟨hn.stors, nod_upd hn.dbs _ hg, hn.tabs, hn.udfs⟩⟩
  show at_ (upd c'.dbs s.oid g) o = _
  rw [at_upd _ _ _ hg, k.dbs, k.dbs]; exact at_upd_upd h.nod.dbs hs hf e o

-- tables
theorem step_newTab {c : Cat} (h : Wf c) (s : Tab) (n : Nat) (hn' : c.next < n) (p : Reply) (hs : s.oid = c.next) (hok : TabOk n s) :
    Step c ⟨{ c with tabs := put c.tabs s, next := n }, [.newTab c.next], p⟩ := by
  have fr : at_ c.tabs (HasOid.oid s) = none := by rw [tab_oid, hs]; exact fresh h.tabs
  have le := Nat.le_of_lt hn'
  refine ⟨?_, ⟨⟨h.nod.stors, h.nod.dbs, nod_put h.nod.tabs fr, h.nod.udfs⟩, lt_le le h.stors, lt_le le h.dbs, lt_put h.tabs le (by rw [tab_oid, hs]; exact hn'), lt_le le h.udfs, ?_⟩, le⟩
  · intro c' k hn
    refine ⟨⟨k.stors, k.dbs, fun o => ?_, k.udfs, k.broken⟩, ⟨hn.stors, hn.dbs, nod_del hn.tabs _, hn.udfs⟩⟩
    show at_ (del c'.tabs c.next) o = _
    rw [at_del, k.tabs, ← hs]; exact at_del_put fr o
  · intro t ht
    rcases List.mem_append.1 ht with ht | ht
    · exact tabOk_le le (h.tabOk t ht)
    · rw [List.mem_singleton.1 ht]; exact hok

theorem step_delTab {c : Cat} (h : Wf c) {s : Tab} (hs : s ∈ c.tabs) (p : Reply) :
    Step c ⟨{ c with tabs := del c.tabs s.oid }, [.delTab s], p⟩ := by
  refine ⟨?_, ⟨⟨h.nod.stors, h.nod.dbs, nod_del h.nod.tabs _, h.nod.udfs⟩, h.stors, h.dbs, fun x hx => h.tabs x (mem_del.1 hx).1, h.udfs, fun x hx => h.tabOk x (mem_del.1 hx).1⟩, Nat.le_refl _⟩
  intro c' k hn
  refine ⟨⟨k.stors, k.dbs, fun o => ?_, k.udfs, k.broken⟩, ⟨hn.stors, hn.dbs, nod_put hn.tabs ?_, hn.udfs⟩⟩
  · show at_ (put c'.tabs s) o = _
    rw [at_put, k.tabs]; exact at_put_del h.nod.tabs hs o
  · rw [k.tabs]; show at_ (del c.tabs s.oid) s.oid = none; rw [at_del]; simp

-- functions
theorem step_newUdf {c : Cat} (h : Wf c) (s : Udf) (n : Nat) (hn' : c.next < n) (p : Reply) (hs : s.oid = c.next) :
    Step c ⟨{ c with udfs := put c.udfs s, next := n }, [.newUdf c.next], p⟩ := by
  have fr : at_ c.udfs (HasOid.oid s) = none := by rw [udf_oid, hs]; exact fresh h.udfs
  have le := Nat.le_of_lt hn'
  refine ⟨?_, ⟨⟨h.nod.stors, h.nod.dbs, h.nod.tabs, nod_put h.nod.udfs fr⟩, lt_le le h.stors, lt_le le h.dbs, lt_le le h.tabs, lt_put h.udfs le (by rw [udf_oid, hs]; exact hn'), fun t ht => tabOk_le le (h.tabOk t ht)⟩, le⟩
  intro c' k hn
  refine ⟨⟨k.stors, k.dbs, k.tabs, fun o => ?_, k.broken⟩, ⟨hn.stors, hn.dbs, hn.tabs, nod_del hn.udfs _⟩⟩
  show at_ (del c'.udfs c.next) o = _
  rw [at_del, k.udfs, ← hs]; exact at_del_put fr o

theorem step_delUdf {c : Cat} (h : Wf c) {s : Udf} (hs : s ∈ c.udfs) (p : Reply) :
    Step c ⟨{ c with udfs := del c.udfs s.oid }, [.delUdf s], p⟩ := by
  refine ⟨?_, ⟨⟨h.nod.stors, h.nod.dbs, h.nod.tabs, nod_del h.nod.udfs _⟩, h.stors, h.dbs, h.tabs, fun x hx => h.udfs x (mem_del.1 hx).1, h.tabOk⟩, Nat.le_refl _⟩
  intro c' k hn
  refine ⟨⟨k.stors, k.dbs, k.tabs, fun o => ?_, k.broken⟩, ⟨hn.stors, hn.dbs, hn.tabs, nod_put hn.udfs ?_⟩⟩
  · show at_ (put c'.udfs s) o = _
    rw [at_put, k.udfs]; exact at_put_del h.nod.udfs hs o
  · rw [k.udfs]; show at_ (del c.udfs s.oid) s.oid = none; rw [at_del]; simp

/-- the new body keeps the address; what was saved is the whole function -/
theorem step_updUdf {c : Cat} (h : Wf c) {s : Udf} (hs : s ∈ c.udfs) {f g : Udf → Udf} {u : Undo} (p : Reply) (n : Nat) (hn' : c.next ≤ n)
    (hf : ∀ x, x.oid = s.oid → (f x).oid = s.oid) (hg : ∀ x, x.oid = s.oid → (g x).oid = s.oid)
    (hu : ∀ c', undo c' u = { c' with udfs := upd c'.udfs s.oid g })
    (e : g (f s) = s) : Step c ⟨{ c with udfs := upd c.udfs s.oid f, next := n }, [u], p⟩ := by
  -- outside of the address the update does nothing: use a function that keeps every address
  have ext : ∀ (k : Udf → Udf) (hk : ∀ x, x.oid = s.oid → (k x).oid = s.oid) (l : List Udf),
      upd l s.oid k = upd l s.oid (fun x => if x.oid = s.oid then k x else x) := by
    intro k hk l; unfold upd; apply List.map_congr_left; intro x _
    by_cases e : HasOid.oid x = s.oid
    · have e' : x.oid = s.oid := e
      simp [e, e']
    · simp [e]
  have keep : ∀ (k : Udf → Udf) (hk : ∀ x, x.oid = s.oid → (k x).oid = s.oid) (x : Udf),
      HasOid.oid (if x.oid = s.oid then k x else x) = HasOid.oid x := by
    intro k hk x; split
    · rename_i e; exact (hk x e).trans e.symm
    · rfl
  rw [ext f hf]
  refine ⟨?_, ⟨⟨h.nod.stors, h.nod.dbs, h.nod.tabs, nod_upd h.nod.udfs _ (keep f hf)⟩, lt_le hn' h.stors, lt_le hn' h.dbs, lt_le hn' h.tabs, lt_le hn' (lt_upd (keep f hf) h.udfs), fun t ht => tabOk_le hn' (h.tabOk t ht)⟩, hn'⟩
  intro c' k hn
  have hc : undoAll c' [u] = { c' with udfs := upd c'.udfs s.oid g } := hu c'
  show Same (undoAll c' [u]) c ∧ Nod (undoAll c' [u])
  rw [hc, ext g hg]
  refine ⟨⟨k.stors, k.dbs, k.tabs, fun o => ?_, k.broken⟩, ⟨hn.stors, hn.dbs, hn.tabs, nod_upd hn.udfs _ (keep g hg)⟩⟩
  show at_ (upd c'.udfs s.oid fun x => if x.oid = s.oid then g x else x) o = _
  rw [at_upd _ _ _ (keep g hg), k.udfs, k.udfs]
  refine at_upd_upd h.nod.udfs hs (keep f hf) ?_ o
  have := hf s rfl
  simp [this, e]

end Verif.Catalog
