import Verif.Catalog.Undo
set_option linter.unusedSimpArgs false
set_option linter.unusedVariables false
namespace Verif.Catalog

theorem findTab_mem {c : Cat} {db n : Name} {t : Tab} (h : findTab c db n = some t) : t ∈ c.tabs := List.mem_of_find?_eq_some h
theorem findUdf_mem {c : Cat} {db n : Name} {t : Udf} (h : findUdf c db n = some t) : t ∈ c.udfs := List.mem_of_find?_eq_some h
theorem findDb_mem {c : Cat} {n : Name} {t : Db} (h : findDb c n = some t) : t ∈ c.dbs := List.mem_of_find?_eq_some h
theorem findStor_mem {c : Cat} {n : Name} {t : Stor} (h : findStor c n = some t) : t ∈ c.stors := List.mem_of_find?_eq_some h
theorem findCol_mem {t : Tab} {n : Name} {x : Col} (h : findCol t n = some x) : x ∈ t.cols := List.mem_of_find?_eq_some h
theorem findIdx_mem {t : Tab} {n : Name} {x : Idx} (h : findIdx t n = some x) : x ∈ t.idxs := List.mem_of_find?_eq_some h
theorem findTier_mem {t : Tab} {n : Name} {x : Tier} (h : findTier t n = some x) : x ∈ t.tiers := List.mem_of_find?_eq_some h

/-- a lookup either misses or continues with an object of the list -/
theorem step_elim {α : Type} {c : Cat} {o : Option α} {a : R} {k : α → R} (ha : Step c a) (hk : ∀ x, o = some x → Step c (k x)) :
    Step c (o.elim a k) := by
  cases o with
  | none => exact ha
  | some x => exact hk x rfl

theorem step_if {c : Cat} {p : Prop} [Decidable p] {a b : R} (ha : p → Step c a) (hb : ¬p → Step c b) : Step c (if p then a else b) := by
  by_cases h : p
  · rw [if_pos h]; exact ha h
  · rw [if_neg h]; exact hb h

/-! sizes -/
theorem toInt_toInt (v : Int) : toInt (toInt v) = toInt v := by
  unfold toInt toSigned toUnsigned
  simp only [Nat.reducePow, Nat.reduceSub]
  have h1 : (0:Int) ≤ v % 4294967296 := Int.emod_nonneg _ (by omega)
  have h2 : v % 4294967296 < 4294967296 := Int.emod_lt_of_pos _ (by omega)
  generalize hq : (v % ((4294967296 : Nat) : Int)).toNat = q
  have hq' : (q : Int) < 4294967296 := by rw [← hq]; omega
  by_cases h : q < 2147483648
  · simp only [h, if_true]
    have : ((q : Int) % ((4294967296 : Nat) : Int)).toNat = q := by omega
    rw [this]; simp [h]
  · simp only [h, if_false]
    have : (((q : Int) - ((4294967296 : Nat) : Int)) % ((4294967296 : Nat) : Int)).toNat = q := by omega
    rw [this]; simp [h]

/-! parts of one table -/
theorem tabOk_cols {m m' : Nat} (hm : m ≤ m') {t : Tab} (k : TabOk m t) {cols : List Col} (h : NodO cols) (h' : ∀ x ∈ cols, x.cid < m') :
    TabOk m' { t with cols := cols } := by
  have := tabOk_le hm k
  exact ⟨h, this.idxs, this.tiers, h', this.idxsLt, this.tiersLt, this.sizes⟩

theorem tabOk_onCol {m : Nat} {t : Tab} (k : TabOk m t) (o : Nat) {f : Col → Col} (hf : ∀ x, (f x).cid = x.cid) : TabOk m (onCol o f t) :=
  tabOk_cols (Nat.le_refl _) k (nod_upd k.cols o hf) (lt_upd (α := Col) hf k.colsLt)

theorem tabOk_onIdx {m : Nat} {t : Tab} (k : TabOk m t) (o : Nat) {f : Idx → Idx} (hf : ∀ x, (f x).iid = x.iid) : TabOk m (onIdx o f t) :=
  ⟨k.cols, nod_upd k.idxs o hf, k.tiers, k.colsLt, lt_upd (α := Idx) hf k.idxsLt, k.tiersLt, k.sizes⟩

theorem tabOk_onTier {m : Nat} {t : Tab} (k : TabOk m t) (o : Nat) {f : Tier → Tier} (hf : ∀ x, (f x).tid = x.tid)
    (hs : ∀ x, toInt x.regionSize = x.regionSize ∧ toInt x.objectSize = x.objectSize →
      toInt (f x).regionSize = (f x).regionSize ∧ toInt (f x).objectSize = (f x).objectSize) : TabOk m (onTier o f t) := by
  refine ⟨k.cols, k.idxs, nod_upd k.tiers o hf, k.colsLt, k.idxsLt, lt_upd (α := Tier) hf k.tiersLt, ?_⟩
  intro x hx
  obtain ⟨y, hy, rfl⟩ := mem_upd hx
  split
  · exact hs y (k.sizes y hy)
  · exact k.sizes y hy

theorem onCol_back {t : Tab} (h : NodO t.cols) {x : Col} (hx : x ∈ t.cols) {f g : Col → Col} (hf : ∀ x, (f x).cid = x.cid) (e : g (f x) = x) :
    onCol x.cid g (onCol x.cid f t) = t := by
  have : upd (upd t.cols x.cid f) x.cid g = t.cols := upd_back h hx hf e
  show { t with cols := upd (upd t.cols x.cid f) x.cid g } = t
  rw [this]

theorem onIdx_back {t : Tab} (h : NodO t.idxs) {x : Idx} (hx : x ∈ t.idxs) {f g : Idx → Idx} (hf : ∀ x, (f x).iid = x.iid) (e : g (f x) = x) :
    onIdx x.iid g (onIdx x.iid f t) = t := by
  have : upd (upd t.idxs x.iid f) x.iid g = t.idxs := upd_back h hx hf e
  show { t with idxs := upd (upd t.idxs x.iid f) x.iid g } = t
  rw [this]

theorem onTier_back {t : Tab} (h : NodO t.tiers) {x : Tier} (hx : x ∈ t.tiers) {f g : Tier → Tier} (hf : ∀ x, (f x).tid = x.tid) (e : g (f x) = x) :
    onTier x.tid g (onTier x.tid f t) = t := by
  have : upd (upd t.tiers x.tid f) x.tid g = t.tiers := upd_back h hx hf e
  show { t with tiers := upd (upd t.tiers x.tid f) x.tid g } = t
  rw [this]

/-- `step_tab` without an allocation -/
theorem step_tab' {c : Cat} (h : Wf c) {t : Tab} {f g : Tab → Tab} {u : Undo} {p : Reply}
    (ht : t ∈ c.tabs) (hf : ∀ t, (f t).oid = t.oid) (hg : ∀ t, (g t).oid = t.oid)
    (hu : ∀ c', undo c' u = onTab c' t.oid g) (e : g (f t) = t) (hok : TabOk c.next t → TabOk c.next (f t)) :
    Step c ⟨onTab c t.oid f, [u], p⟩ := step_tab h c.next (Nat.le_refl _) ht hf hg hu e hok

/-! renumbering -/
theorem renumber_oids {α : Type} [HasOid α] {f : Nat → α → α} (hf : ∀ k x, HasOid.oid (f k x) = k) :
    ∀ (l : List α) (k : Nat), (renumber f k l).map HasOid.oid = List.range' k l.length
  | [], k => by simp [renumber]
  | x :: l, k => by simp [renumber, hf, renumber_oids hf l (k + 1), List.range'_succ]

theorem renumber_nod {α : Type} [HasOid α] {f : Nat → α → α} (hf : ∀ k x, HasOid.oid (f k x) = k) (l : List α) (k : Nat) :
    NodO (renumber f k l) := by unfold NodO; rw [renumber_oids hf]; exact List.nodup_range'

theorem renumber_lt {α : Type} [HasOid α] {f : Nat → α → α} (hf : ∀ k x, HasOid.oid (f k x) = k) (l : List α) (k : Nat) :
    ∀ x ∈ renumber f k l, HasOid.oid x < k + l.length := by
  intro x hx
  have : HasOid.oid x ∈ (renumber f k l).map HasOid.oid := List.mem_map.2 ⟨x, hx, rfl⟩
  rw [renumber_oids hf] at this
  have := List.mem_range'_1.1 this; omega

theorem renumber_mem {α : Type} {f : Nat → α → α} : ∀ (l : List α) (k : Nat) (x : α), x ∈ renumber f k l → ∃ j y, y ∈ l ∧ x = f j y
  | [], k, x, h => by simp [renumber] at h
  | y :: l, k, x, h => by
    rcases List.mem_cons.1 h with h | h
    · exact ⟨k, y, by simp, h⟩
    · obtain ⟨j, z, hz, e⟩ := renumber_mem l (k + 1) x h
      exact ⟨j, z, by simp [hz], e⟩

theorem tabOk_copy (o n : Nat) (t : Tab) (hn : o + tabSpan t ≤ n) : TabOk n (tabCopy o t) := by
  unfold tabSpan at hn
  have h1 := renumber_lt (α := Col) (f := colCopy) (fun _ _ => rfl) t.cols (o + 1)
  have h2 := renumber_lt (α := Idx) (f := idxCopy) (fun _ _ => rfl) t.idxs (o + 1)
  have h3 := renumber_lt (α := Tier) (f := tierCopy) (fun _ _ => rfl) t.tiers (o + 1)
  refine ⟨renumber_nod (fun _ _ => rfl) _ _, renumber_nod (fun _ _ => rfl) _ _, renumber_nod (fun _ _ => rfl) _ _, ?_, ?_, ?_, ?_⟩
  · intro x hx; have := h1 x hx; show HasOid.oid x < n; omega
  · intro x hx; have := h2 x hx; show HasOid.oid x < n; omega
  · intro x hx; have := h3 x hx; show HasOid.oid x < n; omega
  · intro x hx
    obtain ⟨j, y, _, rfl⟩ := renumber_mem _ _ _ hx
    exact ⟨toInt_toInt _, toInt_toInt _⟩

/-! ## Each statement -/

theorem step_storCreate {c : Cat} (h : Wf c) (s : Stor) (i : Bool) : Step c (storCreate c s i) :=
  step_if (fun _ => step_miss h i) fun _ => step_newStor h { s with oid := c.next } _ rfl

theorem step_storDrop {c : Cat} (h : Wf c) (e : Env) (n : Name) (i : Bool) : Step c (storDrop e c n i) :=
  step_elim (step_miss h i) fun s hs => step_if (fun _ => step_fail h) fun _ => step_delStor h (findStor_mem hs) _

theorem step_storRename {c : Cat} (h : Wf c) (e : Env) (n m : Name) (i : Bool) (hc : ∀ s, findStor c n = some s → s.name = n) :
    Step c (storRename e c n m i) :=
  step_elim (step_miss h i) fun s hs => step_if (fun _ => step_fail h) fun _ => step_if (fun _ => step_fail h) fun _ =>
    step_updStor h (findStor_mem hs) (g := fun s => { s with name := n }) _ (fun _ => rfl) (fun _ => rfl) (fun _ => rfl)
      (by cases hc s hs; rfl)

theorem step_dbCreate {c : Cat} (h : Wf c) (s : Db) (i : Bool) : Step c (dbCreate c s i) :=
  step_if (fun _ => step_miss h i) fun _ => step_newDb h { s with oid := c.next } _ rfl

theorem step_dbDropOnly {c : Cat} (h : Wf c) (n : Name) : Step c (dbDropOnly c n) :=
  step_elim (step_fail h) fun d hd => step_if (fun _ => step_fail h) fun _ => step_delDb h (findDb_mem hd) _

theorem step_dbRenameOnly {c : Cat} (h : Wf c) (n m : Name) (hc : ∀ s, findDb c n = some s → s.name = n) : Step c (dbRenameOnly c n m) :=
  step_elim (step_fail h) fun s hs => step_if (fun _ => step_fail h) fun _ => step_if (fun _ => step_fail h) fun _ =>
    step_updDb h (findDb_mem hs) (g := fun s => { s with name := n }) _ (fun _ => rfl) (fun _ => rfl) (fun _ => rfl)
      (by cases hc s hs; rfl)

theorem step_loop {α : Type} {f : Cat → α → R} (hf : ∀ c x, Wf c → Step c (f c x)) : ∀ (l : List α) (c : Cat), Wf c → Step c (loop f l c)
  | [], c, h => step_nil h _
  | x :: l, c, h => step_next (hf c x h) fun h' => step_loop hf l _ h'

theorem step_tabRename {c : Cat} (h : Wf c) (db n db' m : Name) (i : Bool) : Step c (tabRename c db n db' m i) :=
  step_elim (step_miss h i) fun t ht => step_if (fun _ => step_fail h) fun _ =>
    step_tab' h (findTab_mem ht) (g := fun x => { x with db := t.db, name := t.name }) (fun _ => rfl) (fun _ => rfl) (fun _ => rfl) rfl
      fun k => ⟨k.cols, k.idxs, k.tiers, k.colsLt, k.idxsLt, k.tiersLt, k.sizes⟩

theorem step_tabRenames {c : Cat} (h : Wf c) (db m : Name) (l : List Tab) :
    Step c (loop (fun c (t : Tab) => if same t.db db then tabRename c t.db t.name m t.name false else ⟨c, [], .done⟩) l c) :=
  step_loop (fun c t h => step_if (fun _ => step_tabRename h _ _ _ _ _) fun _ => step_nil h _) l c h

theorem step_dbRenameObjects {c : Cat} (h : Wf c) (db m : Name) : Step c (dbRenameObjects c db m) :=
  step_next (step_tabRenames h db m _) fun h' => step_loop (fun c u h => step_if (fun _ => step_fail h) fun _ => step_nil h _) _ _ h'

/-- what a loop leaves alone -/
theorem loop_keeps {α β : Type} {f : Cat → α → R} (p : Cat → β) (hf : ∀ c x, p (f c x).cat = p c) : ∀ (l : List α) (c : Cat), p (loop f l c).cat = p c
  | [], c => rfl
  | x :: l, c => by
    unfold loop R.next
    by_cases e : (f c x).reply = .error
    · rw [if_pos e]; exact hf c x
    · rw [if_neg e]; exact (loop_keeps p hf l _).trans (hf c x)

theorem next_keeps {β : Type} (p : Cat → β) {r : R} {k : Cat → R} (hk : ∀ c, p (k c).cat = p c) : p (r.next k).cat = p r.cat := by
  unfold R.next
  by_cases e : r.reply = .error
  · rw [if_pos e]
  · rw [if_neg e]; exact hk _

theorem elim_keeps {α β : Type} (p : R → β) (b : β) {o : Option α} {a : R} {k : α → R} (ha : p a = b) (hk : ∀ x, p (k x) = b) : p (o.elim a k) = b := by
  cases o with
  | none => exact ha
  | some x => exact hk x

theorem tabRename_dbs (c : Cat) (db n db' m : Name) (i : Bool) : (tabRename c db n db' m i).cat.dbs = c.dbs :=
  elim_keeps (fun r => r.cat.dbs) _ rfl fun t => by
    show (if _ then _ else _ : R).cat.dbs = _
    split <;> rfl

theorem dbRenameObjects_dbs (c : Cat) (db m : Name) : (dbRenameObjects c db m).cat.dbs = c.dbs := by
  unfold dbRenameObjects
  rw [next_keeps (fun c => c.dbs)]
  · refine loop_keeps (fun c => c.dbs) (fun c t => ?_) _ _
    show (if _ then _ else _ : R).cat.dbs = _
    split
    · exact tabRename_dbs _ _ _ _ _ _
    · rfl
  · intro c
    refine loop_keeps (fun c => c.dbs) (fun c t => ?_) _ _
    show (if _ then _ else _ : R).cat.dbs = _
    split <;> rfl

theorem step_dbRename {c : Cat} (h : Wf c) (n m : Name) (i : Bool) (hc : ∀ s, findDb c n = some s → s.name = n) : Step c (dbRename c n m i) :=
  step_elim (step_miss h i) fun d _ => step_if (fun _ => step_fail h) fun _ =>
    step_next (step_dbRenameObjects h n m) fun h' => step_dbRenameOnly h' n m fun s hs => hc s (by
      unfold findDb at hs ⊢; rw [dbRenameObjects_dbs] at hs; exact hs)

theorem step_tabDrops (db : Name) (k : Bool) : ∀ (l : List Tab) (c : Cat), Wf c → (∀ x ∈ l, x ∈ c.tabs) → NodO l →
    Step c (loop (fun c (t : Tab) => if same t.db db then (if k then tabDropOf c t else fail c) else ⟨c, [], .done⟩) l c)
  | [], c, h, _, _ => step_nil h _
  | t :: l, c, h, hm, hn => by
    unfold NodO at hn; rw [List.map_cons, List.nodup_cons] at hn
    have st : Step c (if same t.db db then (if k then tabDropOf c t else fail c) else ⟨c, [], .done⟩) :=
      step_if (fun _ => step_if (fun _ => step_delTab h (hm t (by simp)) _) fun _ => step_fail h) fun _ => step_nil h _
    refine step_next st fun h' => step_tabDrops db k l _ h' ?_ hn.2
    intro x hx
    have hxc := hm x (by simp [hx])
    by_cases e : same t.db db
    · by_cases ek : k = true
      · simp only [e, ek, if_true]
        exact mem_del.2 ⟨hxc, fun ex => hn.1 (List.mem_map.2 ⟨x, hx, ex⟩)⟩
      · simp only [e, ek, if_true]; exact hxc
    · simp only [e]; exact hxc

theorem step_udfDrops (db : Name) (k : Bool) : ∀ (l : List Udf) (c : Cat), Wf c → (∀ x ∈ l, x ∈ c.udfs) → NodO l →
    Step c (loop (fun c (t : Udf) => if same t.db db then (if k then udfDropOf c t else fail c) else ⟨c, [], .done⟩) l c)
  | [], c, h, _, _ => step_nil h _
  | t :: l, c, h, hm, hn => by
    unfold NodO at hn; rw [List.map_cons, List.nodup_cons] at hn
    have st : Step c (if same t.db db then (if k then udfDropOf c t else fail c) else ⟨c, [], .done⟩) :=
      step_if (fun _ => step_if (fun _ => step_delUdf h (hm t (by simp)) _) fun _ => step_fail h) fun _ => step_nil h _
    refine step_next st fun h' => step_udfDrops db k l _ h' ?_ hn.2
    intro x hx
    have hxc := hm x (by simp [hx])
    by_cases e : same t.db db
    · by_cases ek : k = true
      · simp only [e, ek, if_true]
        exact mem_del.2 ⟨hxc, fun ex => hn.1 (List.mem_map.2 ⟨x, hx, ex⟩)⟩
      · simp only [e, ek, if_true]; exact hxc
    · simp only [e]; exact hxc

theorem step_dbDrop {c : Cat} (h : Wf c) (n : Name) (k i : Bool) : Step c (dbDrop c n k i) :=
  step_elim (step_miss h i) fun d _ => step_if (fun _ => step_fail h) fun _ =>
    step_next (step_next (step_tabDrops n k _ _ h (fun _ hx => hx) h.nod.tabs) fun h' => step_udfDrops n k _ _ h' (fun _ hx => hx) h'.nod.udfs)
      fun h' => step_dbDropOnly h' n

theorem step_tabCreate {c : Cat} (h : Wf c) (e : Env) (t : Tab) (i : Bool) : Step c (tabCreate e c t i) :=
  step_if (fun _ => step_miss h i) fun _ =>
    step_newTab h (tabCopy c.next t) _ (by unfold tabSpan; omega) _ rfl (tabOk_copy _ _ _ (Nat.le_refl _))

theorem step_tabDrop {c : Cat} (h : Wf c) (db n : Name) (i : Bool) : Step c (tabDrop c db n i) :=
  step_if (fun _ => step_fail h) fun _ => step_elim (step_miss h i) fun t ht => step_delTab h (findTab_mem ht) _

theorem step_tabRenameTop {c : Cat} (h : Wf c) (db n db' m : Name) (i : Bool) : Step c (tabRenameTop c db n db' m i) :=
  step_if (fun _ => step_fail h) fun _ => step_if (fun _ => step_fail h) fun _ => step_tabRename h _ _ _ _ _

theorem step_tabTruncate {c : Cat} (h : Wf c) (db n : Name) (i : Bool) : Step c (tabTruncate c db n i) :=
  step_elim (step_miss h i) fun t ht => step_log h _ _ fun _ => rfl

theorem step_tabIdentity {c : Cat} (h : Wf c) (db n : Name) (v : Int) (i : Bool) : Step c (tabIdentity c db n v i) :=
  step_elim (step_miss h i) fun t ht =>
    step_tab' h (findTab_mem ht) (g := fun x => { x with seq := t.seq }) (fun _ => rfl) (fun _ => rfl) (fun _ => rfl) rfl
      fun k => ⟨k.cols, k.idxs, k.tiers, k.colsLt, k.idxsLt, k.tiersLt, k.sizes⟩

theorem step_tabUnlogged {c : Cat} (h : Wf c) (db n : Name) (v : Bool) (i : Bool) (hc : ∀ t, findTab c db n = some t → t.unlogged ≠ v) :
    Step c (tabUnlogged c db n v i) :=
  step_elim (step_miss h i) fun t ht =>
    step_tab' h (findTab_mem ht) (g := fun x => { x with unlogged := !x.unlogged }) (fun _ => rfl) (fun _ => rfl) (fun _ => rfl)
      (by have := hc t ht
          have e : (!v) = t.unlogged := by cases h1 : t.unlogged <;> cases v <;> simp_all
          show ({ t with unlogged := !v } : Tab) = t
          rw [e])
      fun k => ⟨k.cols, k.idxs, k.tiers, k.colsLt, k.idxsLt, k.tiersLt, k.sizes⟩

theorem step_colRename {c : Cat} (h : Wf c) (db n x m : Name) (i j : Bool) : Step c (colRename c db n x m i j) :=
  step_if (fun _ => step_fail h) fun _ => step_elim (step_miss h i) fun t ht => step_elim (step_miss h j) fun k hk =>
    step_if (fun _ => step_fail h) fun _ =>
      step_tab' h (findTab_mem ht) (g := onCol k.cid fun x => { x with name := k.name }) (fun _ => rfl) (fun _ => rfl) (fun _ => rfl)
        (onCol_back (h.tabOk t (findTab_mem ht)).cols (findCol_mem hk) (fun _ => rfl) rfl)
        fun o => tabOk_onCol o _ fun _ => rfl

theorem step_colAdd {c : Cat} (h : Wf c) (db n : Name) (x : Col) (i j : Bool) : Step c (colAdd c db n x i j) :=
  step_elim (step_miss h i) fun t ht => step_if (fun _ => step_miss h j) fun _ => step_if (fun _ => step_fail h) fun _ => by
    have ok := h.tabOk t (findTab_mem ht)
    have fr : at_ t.cols (HasOid.oid (colCopy c.next x)) = none := fresh ok.colsLt
    refine step_tab h (c.next + 1) (Nat.le_succ _) (findTab_mem ht) (g := fun t => { t with cols := del t.cols c.next })
      (fun _ => rfl) (fun _ => rfl) (fun _ => rfl) ?_ ?_
    · have : del (put t.cols (colCopy c.next x)) c.next = t.cols := del_put (x := colCopy c.next x) (at_none.1 fr)
      show ({ t with cols := del (put t.cols (colCopy c.next x)) c.next } : Tab) = t
      rw [this]
    · intro k
      exact tabOk_cols (Nat.le_succ _) k (nod_put k.cols fr)
        (lt_put (α := Col) (x := colCopy c.next x) k.colsLt (Nat.le_succ _) (Nat.lt_succ_self _))

theorem step_colDrop {c : Cat} (h : Wf c) (db n x : Name) (i j : Bool) : Step c (colDrop c db n x i j) :=
  step_if (fun _ => step_fail h) fun _ => step_elim (step_miss h i) fun t ht => step_elim (step_miss h j) fun k hk =>
    step_if (fun _ => step_fail h) fun _ =>
      step_tab' h (findTab_mem ht) (g := onCol k.cid fun x => { x with dropped := false, cons := k.cons }) (fun _ => rfl) (fun _ => rfl) (fun _ => rfl)
        (onCol_back (h.tabOk t (findTab_mem ht)).cols (findCol_mem hk) (fun _ => rfl) (by
          have hd : k.dropped = false := by
            have := List.find?_some hk; simp at this; exact this.1
          show ({ k with dropped := false, cons := k.cons } : Col) = k
          rw [← hd]))
        fun o => tabOk_onCol o _ fun _ => rfl

theorem step_colSet {c : Cat} (h : Wf c) (db n x : Name) (s : Set_) (i j : Bool) : Step c (colSet c db n x s i j) :=
  step_elim (step_miss h i) fun t ht => step_elim (step_miss h j) fun k hk =>
      step_tab' h (findTab_mem ht) (g := onCol k.cid fun x => { x with cons := k.cons }) (fun _ => rfl) (fun _ => rfl) (fun _ => rfl)
        (onCol_back (h.tabOk t (findTab_mem ht)).cols (findCol_mem hk) (fun _ => rfl) rfl)
        fun o => tabOk_onCol o _ fun _ => rfl

theorem step_idxDrop {c : Cat} (h : Wf c) (db n x : Name) (i : Bool) : Step c (idxDrop c db n x i) :=
  step_if (fun _ => step_fail h) fun _ => step_elim (step_fail h) fun t ht => step_elim (step_miss h i) fun k hk => step_log h _ _ fun _ => rfl

theorem step_idxRename {c : Cat} (h : Wf c) (db n x m : Name) (i : Bool) : Step c (idxRename c db n x m i) :=
  step_if (fun _ => step_fail h) fun _ => step_elim (step_fail h) fun t ht => step_elim (step_miss h i) fun k hk =>
    step_if (fun _ => step_fail h) fun _ =>
      step_tab' h (findTab_mem ht) (g := onIdx k.iid fun x => { x with name := k.name }) (fun _ => rfl) (fun _ => rfl) (fun _ => rfl)
        (onIdx_back (h.tabOk t (findTab_mem ht)).idxs (findIdx_mem hk) (fun _ => rfl) rfl)
        fun o => tabOk_onIdx o _ fun _ => rfl

theorem step_tierCreate {c : Cat} (h : Wf c) (e : Env) (db n : Name) (x : Tier) (i : Bool) : Step c (tierCreate e c db n x i) :=
  step_elim (step_fail h) fun t ht => step_if (fun _ => step_miss h i) fun _ => by
    have ok := h.tabOk t (findTab_mem ht)
    have fr : at_ t.tiers (HasOid.oid (tierCopy c.next x)) = none := fresh ok.tiersLt
    refine step_tab h (c.next + 1) (Nat.le_succ _) (findTab_mem ht) (g := fun t => { t with tiers := del t.tiers c.next })
      (fun _ => rfl) (fun _ => rfl) (fun _ => rfl) ?_ ?_
    · have : del (put t.tiers (tierCopy c.next x)) c.next = t.tiers := del_put (x := tierCopy c.next x) (at_none.1 fr)
      show ({ t with tiers := del (put t.tiers (tierCopy c.next x)) c.next } : Tab) = t
      rw [this]
    · intro k
      have k' := tabOk_le (Nat.le_succ c.next) k
      refine ⟨k'.cols, k'.idxs, nod_put k.tiers fr, k'.colsLt, k'.idxsLt,
        lt_put (α := Tier) (x := tierCopy c.next x) k.tiersLt (Nat.le_succ _) (Nat.lt_succ_self _), ?_⟩
      intro y hy
      rcases List.mem_append.1 hy with hy | hy
      · exact k.sizes y hy
      · rw [List.mem_singleton.1 hy]; exact ⟨toInt_toInt _, toInt_toInt _⟩

theorem step_tierDrop {c : Cat} (h : Wf c) (db n x : Name) (i : Bool) : Step c (tierDrop c db n x i) :=
  step_elim (step_fail h) fun t ht => step_elim (step_miss h i) fun k hk => step_log h _ _ fun _ => rfl

theorem step_onTier {c : Cat} (h : Wf c) {t : Tab} (ht : t ∈ c.tabs) {k : Tier} (hk : k ∈ t.tiers) {f g : Tier → Tier} {u : Undo} {p : Reply}
    (hu : ∀ c', undo c' u = onTab c' t.oid (onTier k.tid g)) (hf : ∀ x, (f x).tid = x.tid) (e : g (f k) = k)
    (hs : ∀ x, toInt x.regionSize = x.regionSize ∧ toInt x.objectSize = x.objectSize →
      toInt (f x).regionSize = (f x).regionSize ∧ toInt (f x).objectSize = (f x).objectSize) :
    Step c ⟨onTab c t.oid (onTier k.tid f), [u], p⟩ :=
  step_tab' h ht (g := onTier k.tid g) (fun _ => rfl) (fun _ => rfl) hu (onTier_back (h.tabOk t ht).tiers hk hf e) fun o => tabOk_onTier o _ hf hs

theorem step_tierRename {c : Cat} (h : Wf c) (db n x m : Name) (i : Bool) : Step c (tierRename c db n x m i) :=
  step_elim (step_fail h) fun t ht => step_elim (step_miss h i) fun k hk => step_if (fun _ => step_fail h) fun _ =>
    step_onTier h (findTab_mem ht) (findTier_mem hk) (g := fun x => { x with name := k.name }) (fun _ => rfl) (fun _ => rfl) rfl fun _ o => o

theorem cutVol_put {l : List Vol} {n : Name} {v : Vol} (hv : v.name = n) (h : ∀ x ∈ l, x.name ≠ n) : cutVol n (put l v) = l := by
  unfold put
  induction l with
  | nil => simp [cutVol, hv]
  | cons y l ih =>
    have hy := h y (by simp)
    simp only [List.cons_append, cutVol, hy, if_false]
    rw [ih fun x hx => h x (by simp [hx])]

theorem step_volAdd {c : Cat} (h : Wf c) (e : Env) (db n x : Name) (v : Vol) (i j : Bool) : Step c (volAdd e c db n x v i j) :=
  step_elim (step_fail h) fun t ht => step_elim (step_miss h i) fun k hk => step_if (fun _ => step_fail h) fun _ =>
    step_if (fun _ => step_miss h j) fun hv =>
      step_onTier h (findTab_mem ht) (findTier_mem hk) (g := fun x => { x with vols := cutVol v.name x.vols }) (fun _ => rfl) (fun _ => rfl)
        (by
          have hv' : ∀ w ∈ k.vols, w.name ≠ v.name := by
            unfold findVol at hv; simpa [List.find?_eq_none] using hv
          show ({ k with vols := cutVol v.name (put k.vols (volCopy v)) } : Tier) = k
          rw [cutVol_put (n := v.name) (v := volCopy v) rfl hv'])
        fun _ o => o

theorem step_volDrop {c : Cat} (h : Wf c) (db n x v : Name) (i j : Bool) : Step c (volDrop c db n x v i j) :=
  step_elim (step_fail h) fun t ht => step_elim (step_miss h i) fun k hk => step_elim (step_miss h j) fun w hw =>
    step_if (fun _ => step_fail h) fun _ => step_log h _ _ fun _ => rfl

theorem onVol_back {n : Name} {w : Vol} {p : Bool} (hp : w.pause ≠ p) : ∀ {l : List Vol}, (l.find? fun v => decide (v.name = n)) = some w →
    onVol n (fun v => { v with pause := !v.pause }) (onVol n (fun v => { v with pause := p }) l) = l
  | [], h => by simp at h
  | y :: l, h => by
    rw [List.find?_cons] at h
    by_cases e : y.name = n
    · simp only [e, decide_true] at h
      cases h
      simp only [onVol, e, if_true]
      have : (!p) = w.pause := by cases h1 : w.pause <;> cases p <;> simp_all
      rw [this, ← e]
    · simp only [e, decide_false] at h
      simp only [onVol, e, if_false]
      rw [onVol_back hp h]

theorem step_volPause {c : Cat} (h : Wf c) (db n x v : Name) (p i j : Bool) : Step c (volPause c db n x v p i j) :=
  step_elim (step_fail h) fun t ht => step_elim (step_miss h i) fun k hk => step_elim (step_miss h j) fun w hw =>
    step_if (fun _ => step_nil h _) fun hp => step_if (fun _ => step_fail h) fun _ =>
      step_onTier h (findTab_mem ht) (findTier_mem hk) (g := fun x => { x with vols := onVol v (fun v => { v with pause := !v.pause }) x.vols })
        (fun _ => rfl) (fun _ => rfl)
        (by
          show ({ k with vols := onVol v (fun v => { v with pause := !v.pause }) (onVol v (fun v => { v with pause := p }) k.vols) } : Tier) = k
          rw [onVol_back hp hw])
        fun _ o => o

theorem step_tierSet {c : Cat} (h : Wf c) (db n x : Name) (r s : Option Int) (i : Bool) : Step c (tierSet c db n x r s i) :=
  step_elim (step_fail h) fun t ht => step_elim (step_miss h i) fun k hk =>
    step_onTier h (findTab_mem ht) (findTier_mem hk) (g := fun x => { x with regionSize := toInt k.regionSize, objectSize := toInt k.objectSize })
      (fun _ => rfl) (fun _ => rfl)
      (by
        have o := (h.tabOk t (findTab_mem ht)).sizes k (findTier_mem hk)
        show ({ k with regionSize := toInt k.regionSize, objectSize := toInt k.objectSize } : Tier) = k
        rw [o.1, o.2])
      (fun x o => by cases r <;> cases s <;> simp [toInt_toInt, o.1, o.2])

theorem upd_put_fresh {l : List Udf} {n : Nat} (h : ∀ x ∈ l, x.oid < n) (x : Udf) (hx : x.oid = n) (f : Udf → Udf) :
    upd (put l x) n f = put l (f x) := by
  unfold upd put; rw [List.map_append]
  have : l.map (fun x => if HasOid.oid x = n then f x else x) = l := by
    conv => rhs; rw [← List.map_id l]
    apply List.map_congr_left; intro y hy
    have := h y hy
    rw [if_neg (show ¬ HasOid.oid y = n from fun e => by have e' : y.oid = n := e; omega)]; rfl
  rw [this]
  have hx' : HasOid.oid x = n := hx
  simp [hx']

theorem step_udfCreate {c : Cat} (h : Wf c) (e : Env) (u : Udf) : Step c (udfCreate e c u) := by
  unfold udfCreate
  refine step_if (fun _ => step_fail h) fun _ => ?_
  dsimp only
  have lt : c.next < c.next + udfSpan u := by unfold udfSpan; omega
  refine step_elim (step_newUdf h (udfCopy c.next u) _ lt _ rfl) fun uses _ => ?_
  rw [upd_put_fresh h.udfs (udfCopy c.next u) rfl]
  exact step_newUdf h { udfCopy c.next u with uses := uses } _ lt _ rfl

theorem step_udfReplace {c : Cat} (h : Wf c) (e : Env) (u : Udf) : Step c (udfReplace e c u) :=
  step_elim (step_udfCreate h e u) fun old ho => step_if (fun _ => step_fail h) fun _ => step_elim (step_fail h) fun uses _ =>
    step_updUdf h (findUdf_mem ho) (g := fun _ => old) _ _ (Nat.le_add_right _ _) (fun _ _ => rfl) (fun _ _ => rfl) (fun _ => rfl) rfl

theorem step_udfDrop {c : Cat} (h : Wf c) (db n : Name) (i : Bool) : Step c (udfDrop c db n i) :=
  step_if (fun _ => step_fail h) fun _ => step_elim (step_miss h i) fun t ht => step_delUdf h (findUdf_mem ht) _

theorem step_udfRename {c : Cat} (h : Wf c) (db n db' m : Name) (i : Bool) : Step c (udfRename c db n db' m i) :=
  step_if (fun _ => step_fail h) fun _ => step_if (fun _ => step_fail h) fun _ => step_elim (step_miss h i) fun u hu =>
    step_if (fun _ => step_fail h) fun _ =>
      step_updUdf h (findUdf_mem hu) (g := fun x => { x with db := u.db, name := u.name }) _ c.next (Nat.le_refl _) (fun _ e => e) (fun _ e => e) (fun _ => rfl) rfl

/-- statements whose undo is right (see the `_false` theorems for the others) -/
def careful (c : Cat) : Stmt → Prop
  | .storRename n _ _ => ∀ s, findStor c n = some s → s.name = n
  | .dbRename n _ _ => ∀ d, findDb c n = some d → d.name = n
  | .tabUnlogged db n v _ => ∀ t, findTab c db n = some t → t.unlogged ≠ v
  | .idxCreate db n i ifNot => (idxCreate c db n i ifNot).log = []
  | _ => True

theorem step_exec {c : Cat} (h : Wf c) (e : Env) (s : Stmt) (hc : careful c s) : Step c (exec e c s) := by
  cases s with
  | storCreate s i => exact step_storCreate h s i
  | storDrop n i => exact step_storDrop h e n i
  | storRename n m i => exact step_storRename h e n m i hc
  | dbCreate d i => exact step_dbCreate h d i
  | dbDrop n k i => exact step_dbDrop h n k i
  | dbRename n m i => exact step_dbRename h n m i hc
  | tabCreate t i => exact step_tabCreate h e t i
  | tabDrop d n i => exact step_tabDrop h d n i
  | tabRename d n d' m i => exact step_tabRenameTop h d n d' m i
  | tabTruncate d n i => exact step_tabTruncate h d n i
  | tabIdentity d n v i => exact step_tabIdentity h d n v i
  | tabUnlogged d n v i => exact step_tabUnlogged h d n v i hc
  | colAdd d n x i j => exact step_colAdd h d n x i j
  | colDrop d n x i j => exact step_colDrop h d n x i j
  | colRename d n x m i j => exact step_colRename h d n x m i j
  | colSet d n x s i j => exact step_colSet h d n x s i j
  | idxCreate d n x i =>
    show Step c (idxCreate c d n x i)
    have hc : (idxCreate c d n x i).log = [] := hc
    unfold idxCreate at hc ⊢
    cases ht : findTab c d n with
    | none => simp only [Option.elim]; exact step_fail h
    | some t =>
      simp only [ht, Option.elim] at hc ⊢
      by_cases k : (findIdx t x.name).isSome = true
      · rw [if_pos k]; exact step_miss h i
      · rw [if_neg k] at hc; simp at hc
  | idxDrop d n x i => exact step_idxDrop h d n x i
  | idxRename d n x m i => exact step_idxRename h d n x m i
  | tierCreate d n x i => exact step_tierCreate h e d n x i
  | tierDrop d n x i => exact step_tierDrop h d n x i
  | tierRename d n x m i => exact step_tierRename h d n x m i
  | volAdd d n x v i j => exact step_volAdd h e d n x v i j
  | volDrop d n x v i j => exact step_volDrop h d n x v i j
  | volPause d n x v p i j => exact step_volPause h d n x v p i j
  | tierSet d n x r s i => exact step_tierSet h d n x r s i
  | udfCreate u => exact step_udfCreate h e u
  | udfReplace u => exact step_udfReplace h e u
  | udfDrop d n i => exact step_udfDrop h d n i
  | udfRename d n d' m i => exact step_udfRename h d n d' m i

/-- every statement of the transaction, at the point where it runs -/
def CarefulTx : List (Env × Stmt) → Cat → Prop
  | [], _ => True
  | (e, s) :: l, c => careful c s ∧ ((exec e c s).reply ≠ .error → CarefulTx l (exec e c s).cat)

theorem step_runTx : ∀ (l : List (Env × Stmt)) (c : Cat), Wf c → CarefulTx l c → Step c (runTx l c)
  | [], c, h, _ => step_nil h _
  | (e, s) :: l, c, h, hc => by
    show Step c ((exec e c s).next (runTx l))
    have st := step_exec h e s hc.1
    by_cases er : (exec e c s).reply = .error
    · have : (exec e c s).next (runTx l) = exec e c s := by unfold R.next; rw [if_pos er]
      rw [this]; exact st
    · exact step_next st fun h' => step_runTx l _ h' (hc.2 er)

end Verif.Catalog
