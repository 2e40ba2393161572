import Verif.Catalog.Meaning
set_option linter.unusedSimpArgs false
set_option linter.unusedVariables false
set_option autoImplicit false
namespace Verif.Catalog

/-! ## The system storage and the system database stay -/

structure SysOk (c : Cat) : Prop where
  stors : (c.stors.filter fun s => s.system) = boot.stors
  dbs : (c.dbs.filter fun d => d.system) = boot.dbs

section lists
variable {α : Type} [HasOid α] (p : α → Bool)

omit [HasOid α] in
theorem filter_put {l : List α} {x : α} (h : p x = false) : (put l x).filter p = l.filter p := by
  unfold put; rw [List.filter_append]; simp [h]
theorem filter_del {l : List α} {o : Nat} (h : ∀ x ∈ l, HasOid.oid x = o → p x = false) : (del l o).filter p = l.filter p := by
  unfold del
  rw [List.filter_filter]
  refine List.filter_congr fun x hx => ?_
  by_cases e : HasOid.oid x = o
  · simp [e, h x hx e]
  · simp [e]
theorem filter_upd {l : List α} {o : Nat} {f : α → α} (hf : ∀ x, p (f x) = p x) (h : ∀ x ∈ l, HasOid.oid x = o → p x = false) :
    (upd l o f).filter p = l.filter p := by
  unfold upd
  induction l with
  | nil => rfl
  | cons x l ih =>
    have ih := ih fun y hy => h y (by simp [hy])
    rw [List.map_cons, List.filter_cons, List.filter_cons, ih]
    by_cases e : HasOid.oid x = o
    · have := h x (by simp) e
      simp [e, hf, this]
    · simp [e]
end lists

theorem storOnly {c : Cat} (h : Wf c) {a b : Stor} (ha : a ∈ c.stors) (hb : b ∈ c.stors) (e : a.oid = b.oid) : a = b := by
  have h1 := at_of_mem h.nod.stors ha
  have h2 := at_of_mem h.nod.stors hb
  rw [show HasOid.oid a = HasOid.oid b from e] at h1
  exact Option.some.inj (h1.symm.trans h2)

theorem stor_sys {c : Cat} (h : Wf c) {n : Name} {s : Stor} (hs : findStor c n = some s) {q : Bool} (hq : ¬ (q || s.system) = true) :
    ∀ x ∈ c.stors, HasOid.oid x = s.oid → (fun s : Stor => s.system) x = false := by
  intro x hx e
  have : x = s := storOnly h hx (List.mem_of_find?_eq_some hs) e
  subst this
  simp at hq; exact hq.2
theorem db_sys {c : Cat} (h : Wf c) {n : Name} {s : Db} (hs : findDb c n = some s) (hq : ¬ s.system = true) :
    ∀ x ∈ c.dbs, HasOid.oid x = s.oid → (fun s : Db => s.system) x = false := by
  intro x hx e
  have : x = s := dbOnly h hx (List.mem_of_find?_eq_some hs) e
  subst this
  simpa using hq

theorem sys_of {c c' : Cat} (h : SysOk c) (h1 : c'.stors = c.stors) (h2 : c'.dbs = c.dbs) : SysOk c' :=
  ⟨by rw [h1]; exact h.stors, by rw [h2]; exact h.dbs⟩

theorem sys_exec {c : Cat} (hn : Named c) (h : SysOk c) (e : Env) (s : Stmt) (hr : ReqOk s) : Keeps SysOk c (exec e c s) := by
  have any : ∀ (c' : Cat) (l : List Undo) (p : Reply), c'.stors = c.stors → c'.dbs = c.dbs → Keeps SysOk c ⟨c', l, p⟩ :=
    fun c' l p h1 h2 _ => sys_of h h1 h2
  cases s with
  | storCreate s i => exact keeps_if (fun _ => keeps_miss h i) fun _ _ => ⟨(filter_put (fun s : Stor => s.system) (l := c.stors) (x := { s with oid := c.next }) hr).trans h.stors, h.dbs⟩
  | storDrop n i =>
    exact keeps_elim (keeps_miss h i) fun s hs => keeps_if (fun _ => keeps_fail c) fun hq _ =>
      ⟨(filter_del _ (stor_sys hn.wf hs hq)).trans h.stors, h.dbs⟩
  | storRename n m i =>
    exact keeps_elim (keeps_miss h i) fun s hs => keeps_if (fun _ => keeps_fail c) fun hq => keeps_if (fun _ => keeps_fail c) fun _ _ =>
      ⟨(filter_upd (fun s : Stor => s.system) (f := fun s => { s with name := m }) (fun _ => rfl) (stor_sys hn.wf hs hq)).trans h.stors, h.dbs⟩
  | dbCreate d i => exact keeps_if (fun _ => keeps_miss h i) fun _ _ => ⟨h.stors, (filter_put (fun s : Db => s.system) (l := c.dbs) (x := { d with oid := c.next }) hr).trans h.dbs⟩
  | dbDrop n k i =>
    intro he
    cases hf : findDb c n with
    | none =>
      show SysOk (dbDrop c n k i).cat
      unfold dbDrop; rw [hf]; exact h
    | some d =>
      obtain ⟨hsys, h2, _⟩ := dbDrop_effect hn.wf hf he
      show SysOk (dbDrop c n k i).cat
      rw [h2]
      exact ⟨h.stors, (filter_del _ (db_sys hn.wf hf (by rw [hsys]; simp))).trans h.dbs⟩
  | dbRename n m i =>
    intro he
    cases hf : findDb c n with
    | none =>
      show SysOk (dbRename c n m i).cat
      unfold dbRename; rw [hf]; exact h
    | some d =>
      obtain ⟨hsys, _, hu, h2⟩ := dbRename_effect hn hf he
      show SysOk (dbRename c n m i).cat
      rw [h2]
      exact ⟨h.stors, (filter_upd (fun s : Db => s.system) (f := fun s => { s with name := m }) (fun _ => rfl) (db_sys hn.wf hf (by rw [hsys]; simp))).trans h.dbs⟩
  | tabCreate t i => exact keeps_if (fun _ => keeps_miss h i) fun _ => any _ _ _ rfl rfl
  | tabDrop d n i => exact keeps_if (fun _ => keeps_fail c) fun _ => keeps_elim (keeps_miss h i) fun _ _ => any _ _ _ rfl rfl
  | tabRename d n d' m i =>
    exact keeps_if (fun _ => keeps_fail c) fun _ => keeps_if (fun _ => keeps_fail c) fun _ => keeps_elim (keeps_miss h i) fun _ _ =>
      keeps_if (fun _ => keeps_fail c) fun _ => any _ _ _ rfl rfl
  | tabTruncate d n i => exact keeps_elim (keeps_miss h i) fun _ _ => any _ _ _ rfl rfl
  | tabIdentity d n v i => exact keeps_elim (keeps_miss h i) fun _ _ => any _ _ _ rfl rfl
  | tabUnlogged d n v i => exact keeps_elim (keeps_miss h i) fun _ _ => any _ _ _ rfl rfl
  | colAdd d n x i j =>
    exact keeps_elim (keeps_miss h i) fun _ _ => keeps_if (fun _ => keeps_miss h j) fun _ => keeps_if (fun _ => keeps_fail c) fun _ => any _ _ _ rfl rfl
  | colDrop d n x i j =>
    exact keeps_if (fun _ => keeps_fail c) fun _ => keeps_elim (keeps_miss h i) fun _ _ => keeps_elim (keeps_miss h j) fun _ _ =>
      keeps_if (fun _ => keeps_fail c) fun _ => any _ _ _ rfl rfl
  | colRename d n x m i j =>
    exact keeps_if (fun _ => keeps_fail c) fun _ => keeps_elim (keeps_miss h i) fun _ _ => keeps_elim (keeps_miss h j) fun _ _ =>
      keeps_if (fun _ => keeps_fail c) fun _ => any _ _ _ rfl rfl
  | colSet d n x s i j => exact keeps_elim (keeps_miss h i) fun _ _ => keeps_elim (keeps_miss h j) fun _ _ => any _ _ _ rfl rfl
  | idxCreate d n x i => exact keeps_elim (keeps_fail c) fun _ _ => keeps_if (fun _ => keeps_miss h i) fun _ => any _ _ _ rfl rfl
  | idxDrop d n x i =>
    exact keeps_if (fun _ => keeps_fail c) fun _ => keeps_elim (keeps_fail c) fun _ _ => keeps_elim (keeps_miss h i) fun _ _ => any _ _ _ rfl rfl
  | idxRename d n x m i =>
    exact keeps_if (fun _ => keeps_fail c) fun _ => keeps_elim (keeps_fail c) fun _ _ => keeps_elim (keeps_miss h i) fun _ _ =>
      keeps_if (fun _ => keeps_fail c) fun _ => any _ _ _ rfl rfl
  | tierCreate d n x i => exact keeps_elim (keeps_fail c) fun _ _ => keeps_if (fun _ => keeps_miss h i) fun _ => any _ _ _ rfl rfl
  | tierDrop d n x i => exact keeps_elim (keeps_fail c) fun _ _ => keeps_elim (keeps_miss h i) fun _ _ => any _ _ _ rfl rfl
  | tierRename d n x m i =>
    exact keeps_elim (keeps_fail c) fun _ _ => keeps_elim (keeps_miss h i) fun _ _ => keeps_if (fun _ => keeps_fail c) fun _ => any _ _ _ rfl rfl
  | volAdd d n x v i j =>
    exact keeps_elim (keeps_fail c) fun _ _ => keeps_elim (keeps_miss h i) fun _ _ => keeps_if (fun _ => keeps_fail c) fun _ =>
      keeps_if (fun _ => keeps_miss h j) fun _ => any _ _ _ rfl rfl
  | volDrop d n x v i j =>
    exact keeps_elim (keeps_fail c) fun _ _ => keeps_elim (keeps_miss h i) fun _ _ => keeps_elim (keeps_miss h j) fun _ _ =>
      keeps_if (fun _ => keeps_fail c) fun _ => any _ _ _ rfl rfl
  | volPause d n x v p i j =>
    exact keeps_elim (keeps_fail c) fun _ _ => keeps_elim (keeps_miss h i) fun _ _ => keeps_elim (keeps_miss h j) fun _ _ =>
      keeps_if (fun _ => any _ _ _ rfl rfl) fun _ => keeps_if (fun _ => keeps_fail c) fun _ => any _ _ _ rfl rfl
  | tierSet d n x r s i => exact keeps_elim (keeps_fail c) fun _ _ => keeps_elim (keeps_miss h i) fun _ _ => any _ _ _ rfl rfl
  | udfCreate u =>
    exact keeps_if (fun _ => keeps_fail c) fun _ => keeps_elim (any _ _ _ rfl rfl) fun _ _ => any _ _ _ rfl rfl
  | udfReplace u =>
    exact keeps_elim (keeps_if (fun _ => keeps_fail c) fun _ => keeps_elim (any _ _ _ rfl rfl) fun _ _ => any _ _ _ rfl rfl) fun _ _ =>
      keeps_if (fun _ => keeps_fail c) fun _ => keeps_elim (keeps_fail c) fun _ _ => any _ _ _ rfl rfl
  | udfDrop d n i => exact keeps_if (fun _ => keeps_fail c) fun _ => keeps_elim (keeps_miss h i) fun _ _ => any _ _ _ rfl rfl
  | udfRename d n d' m i =>
    exact keeps_if (fun _ => keeps_fail c) fun _ => keeps_if (fun _ => keeps_fail c) fun _ => keeps_elim (keeps_miss h i) fun _ _ =>
      keeps_if (fun _ => keeps_fail c) fun _ => any _ _ _ rfl rfl

theorem sys_runTx : ∀ (l : List (Env × Stmt)) (c : Cat), Named c → SysOk c → ReqsOk l → Keeps SysOk c (runTx l c)
  | [], _, _, h, _ => fun _ => h
  | (e, s) :: l, c, hn, h, hr => by
    intro he
    obtain ⟨h1, h2, h3⟩ := next_inv (r := exec e c s) (k := loop (fun c (s : Env × Stmt) => exec s.1 c s.2) l) he
    show SysOk ((exec e c s).next (loop (fun c (s : Env × Stmt) => exec s.1 c s.2) l)).cat
    rw [h3]
    exact sys_runTx l _ (named_exec hn e s (hr (e, s) (by simp)) h1) (sys_exec hn h e s (hr (e, s) (by simp)) h1) (fun x hx => hr x (by simp [hx])) h2

theorem finish_stors (c : Cat) (u : Undo) : (finish c u).stors = c.stors ∧ (finish c u).dbs = c.dbs ∧ (finish c u).udfs = c.udfs := by
  cases u <;> exact ⟨rfl, rfl, rfl⟩
theorem finishAll_stors (c : Cat) (l : List Undo) : (finishAll c l).stors = c.stors ∧ (finishAll c l).dbs = c.dbs ∧ (finishAll c l).udfs = c.udfs := by
  unfold finishAll
  generalize l.reverse = l
  induction l generalizing c with
  | nil => exact ⟨rfl, rfl, rfl⟩
  | cons u l ih =>
    have h1 := finish_stors c u
    have h2 := ih (finish c u)
    exact ⟨h2.1.trans h1.1, h2.2.1.trans h1.2.1, h2.2.2.trans h1.2.2⟩

theorem one_of_perm {α : Type} {l : List α} {x : α} (h : l.Perm [x]) : l = [x] := List.perm_singleton.1 h

/-- the storage and the database `main` of a new repository are never dropped, renamed or duplicated -/
theorem Reach.sys {c : Cat} (h : Reach c) : SysOk c := by
  induction h with
  | start => exact ⟨rfl, rfl⟩
  | commit hr hq he ih =>
    have := sys_runTx _ _ hr.named ih hq he
    exact sys_of this (finishAll_stors _ _).1 (finishAll_stors _ _).2.1
  | late hr hq he ih => exact sys_runTx _ _ hr.named ih hq he
  | abort hr hc ih =>
    obtain ⟨h1, h2, h3⟩ := back_aborted hr.wf hc
    have p1 := perm_of_at h2.stors hr.wf.nod.stors h1.stors
    have p2 := perm_of_at h2.dbs hr.wf.nod.dbs h1.dbs
    exact ⟨one_of_perm ((p1.filter _).trans (.of_eq ih.stors)), one_of_perm ((p2.filter _).trans (.of_eq ih.dbs))⟩

end Verif.Catalog
