import Verif.Catalog.Steps
set_option linter.unusedSimpArgs false
set_option linter.unusedVariables false
namespace Verif.Catalog

/-! ## What a statement leaves behind, forwards -/

/-- any property of catalogs that a statement keeps unless it raises an error -/
def Keeps (P : Cat → Prop) (c : Cat) (r : R) : Prop := r.reply ≠ .error → P r.cat

theorem keeps_fail {P : Cat → Prop} (c : Cat) : Keeps P c (fail c) := fun h => absurd rfl h
theorem keeps_miss {P : Cat → Prop} {c : Cat} (h : P c) (q : Bool) : Keeps P c (miss c q) := fun _ => h
theorem keeps_elim {P : Cat → Prop} {α : Type} {c : Cat} {o : Option α} {a : R} {k : α → R} (ha : Keeps P c a)
    (hk : ∀ x, o = some x → Keeps P c (k x)) : Keeps P c (o.elim a k) := by
  cases o with
  | none => exact ha
  | some x => exact hk x rfl
theorem keeps_if {P : Cat → Prop} {c : Cat} {p : Prop} [Decidable p] {a b : R} (ha : p → Keeps P c a) (hb : ¬p → Keeps P c b) :
    Keeps P c (if p then a else b) := by
  by_cases h : p
  · rw [if_pos h]; exact ha h
  · rw [if_neg h]; exact hb h
theorem keeps_next {P Q : Cat → Prop} {c : Cat} {r : R} {k : Cat → R} (h : Keeps Q c r) (hk : Q r.cat → Keeps P r.cat (k r.cat)) : Keeps P c (r.next k) := by
  intro he
  unfold R.next at he ⊢
  by_cases e : r.reply = .error
  · rw [if_pos e] at he; exact absurd e he
  · rw [if_neg e] at he ⊢; exact hk (h e) he
theorem keeps_loop {P : Cat → Prop} {α : Type} {f : Cat → α → R} (hf : ∀ c x, P c → Keeps P c (f c x)) :
    ∀ (l : List α) (c : Cat), P c → Keeps P c (loop f l c)
  | [], c, h => fun _ => h
  | x :: l, c, h => keeps_next (hf c x h) fun h' => keeps_loop hf l _ h'

/-! ### Well-formedness, for every statement -/

theorem wf_updStor {c : Cat} (h : Wf c) (o : Nat) {f : Stor → Stor} (hf : ∀ x, (f x).oid = x.oid) : Wf { c with stors := upd c.stors o f } :=
  ⟨⟨nod_upd h.nod.stors _ hf, h.nod.dbs, h.nod.tabs, h.nod.udfs⟩, lt_upd hf h.stors, h.dbs, h.tabs, h.udfs, h.tabOk⟩
theorem wf_updDb {c : Cat} (h : Wf c) (o : Nat) {f : Db → Db} (hf : ∀ x, (f x).oid = x.oid) : Wf { c with dbs := upd c.dbs o f } :=
  ⟨⟨h.nod.stors, nod_upd h.nod.dbs _ hf, h.nod.tabs, h.nod.udfs⟩, h.stors, lt_upd hf h.dbs, h.tabs, h.udfs, h.tabOk⟩

theorem wf_exec {c : Cat} (h : Wf c) (e : Env) (s : Stmt) : Keeps Wf c (exec e c s) := by
  have triv : careful c s → Keeps Wf c (exec e c s) := fun hc _ => (step_exec h e s hc).wf
  cases s with
  | storRename n m i =>
    exact keeps_elim (keeps_miss h i) fun s hs => keeps_if (fun _ => keeps_fail c) fun _ => keeps_if (fun _ => keeps_fail c) fun _ =>
      fun _ => wf_updStor h _ fun _ => rfl
  | dbRename n m i =>
    exact keeps_elim (keeps_miss h i) fun d _ => keeps_if (fun _ => keeps_fail c) fun _ =>
      keeps_next (Q := Wf) (fun _ => (step_dbRenameObjects h n m).wf) fun h' =>
        keeps_elim (keeps_fail _) fun d _ => keeps_if (fun _ => keeps_fail _) fun _ => keeps_if (fun _ => keeps_fail _) fun _ =>
          fun _ => wf_updDb h' _ fun _ => rfl
  | tabUnlogged d n v i =>
    exact keeps_elim (keeps_miss h i) fun t ht => fun _ =>
      wf_tab h t.oid c.next (Nat.le_refl _) (fun _ => rfl) fun t' ht' _ =>
        let k := h.tabOk t' ht'
        ⟨k.cols, k.idxs, k.tiers, k.colsLt, k.idxsLt, k.tiersLt, k.sizes⟩
  | idxCreate d n x i =>
    exact keeps_elim (keeps_fail c) fun t ht => keeps_if (fun _ => keeps_miss h i) fun _ => fun _ =>
      wf_tab h t.oid (c.next + 1) (Nat.le_succ _) (fun _ => rfl) fun t' ht' _ => by
        have k := h.tabOk t' ht'
        have k' := tabOk_le (Nat.le_succ c.next) k
        exact ⟨k'.cols, nod_put k.idxs (x := ({ x with iid := c.next } : Idx)) (fresh k.idxsLt), k'.tiers, k'.colsLt,
          lt_put (α := Idx) (x := ({ x with iid := c.next } : Idx)) k.idxsLt (Nat.le_succ _) (Nat.lt_succ_self _), k'.tiersLt, k'.sizes⟩
  | _ => exact triv trivial

theorem wf_runTx : ∀ (l : List (Env × Stmt)) (c : Cat), Wf c → Keeps Wf c (runTx l c) :=
  keeps_loop fun c s h => wf_exec h s.1 s.2

/-! ### Names -/

structure TabNames (t : Tab) : Prop where
  cols : ∀ x ∈ t.cols, ∀ y ∈ t.cols, x.dropped = false → y.dropped = false → same x.name y.name = true → x.cid = y.cid
  idxs : ∀ x ∈ t.idxs, ∀ y ∈ t.idxs, same x.name y.name = true → x.iid = y.iid
  tiers : ∀ x ∈ t.tiers, ∀ y ∈ t.tiers, x.name = y.name → x.tid = y.tid

/-- no two objects of a kind answer to one name -/
structure NamesOk (c : Cat) : Prop where
  stors : ∀ x ∈ c.stors, ∀ y ∈ c.stors, same x.name y.name = true → x.oid = y.oid
  dbs : ∀ x ∈ c.dbs, ∀ y ∈ c.dbs, same x.name y.name = true → x.oid = y.oid
  tabs : ∀ x ∈ c.tabs, ∀ y ∈ c.tabs, same x.db y.db = true → same x.name y.name = true → x.oid = y.oid
  udfs : ∀ x ∈ c.udfs, ∀ y ∈ c.udfs, same x.db y.db = true → same x.name y.name = true → x.oid = y.oid
  inTabs : ∀ t ∈ c.tabs, TabNames t

/-- what the parser guarantees of a `CREATE TABLE` (parse_table.c: a column, index or tier named twice is refused);
`storage_config_read` and `database_config_read` never set `system` -/
def ReqOk : Stmt → Prop
  | .storCreate s _ => s.system = false
  | .dbCreate d _ => d.system = false
  | .tabCreate t _ =>
    t.cols.Pairwise (fun x y => same x.name y.name = false) ∧ t.idxs.Pairwise (fun x y => same x.name y.name = false) ∧
    t.tiers.Pairwise (fun x y => x.name ≠ y.name)
  | _ => True

/-- all pairs of a list differ in `key` -/
def Keyed {α : Type} [HasOid α] (eq : α → α → Bool) (l : List α) : Prop := ∀ x ∈ l, ∀ y ∈ l, eq x y = true → HasOid.oid x = HasOid.oid y

section keyed
variable {α : Type} [HasOid α] {eq : α → α → Bool} (symm : ∀ x y, eq x y = true → eq y x = true)
include symm

theorem keyed_put {l : List α} (h : Keyed eq l) {x : α} (hx : ∀ y ∈ l, eq y x = false) : Keyed eq (put l x) := by
  intro a ha b hb e
  rcases List.mem_append.1 ha with ha | ha <;> rcases List.mem_append.1 hb with hb | hb
  · exact h a ha b hb e
  · rw [List.mem_singleton.1 hb] at e; rw [hx a ha] at e; simp at e
  · rw [List.mem_singleton.1 ha] at e; have := symm _ _ e; rw [hx b hb] at this; simp at this
  · rw [List.mem_singleton.1 ha, List.mem_singleton.1 hb]

omit symm in
theorem keyed_del {l : List α} (h : Keyed eq l) (o : Nat) : Keyed eq (del l o) :=
  fun a ha b hb e => h a (mem_del.1 ha).1 b (mem_del.1 hb).1 e

theorem keyed_upd {l : List α} (h : Keyed eq l) {o : Nat} {f : α → α} (hf : ∀ x, HasOid.oid (f x) = HasOid.oid x)
    (hx : ∀ x ∈ l, HasOid.oid x = o → ∀ y ∈ l, HasOid.oid y ≠ o → eq y (f x) = false) : Keyed eq (upd l o f) := by
  intro a ha b hb e
  obtain ⟨a', ha', rfl⟩ := mem_upd ha
  obtain ⟨b', hb', rfl⟩ := mem_upd hb
  by_cases ea : HasOid.oid a' = o <;> by_cases eb : HasOid.oid b' = o
  · simp only [ea, eb, if_true, hf]
  · simp only [ea, eb, if_true, if_false] at e
    have := symm _ _ e; rw [hx a' ha' ea b' hb' eb] at this; simp at this
  · simp only [ea, eb, if_true, if_false] at e
    rw [hx b' hb' eb a' ha' ea] at e; simp at e
  · simp only [ea, eb, if_false] at e ⊢
    exact h a' ha' b' hb' e
end keyed

def tabEq (x y : Tab) : Bool := same x.db y.db && same x.name y.name
def udfEq (x y : Udf) : Bool := same x.db y.db && same x.name y.name
def dbEq (x y : Db) : Bool := same x.name y.name
def storEq (x y : Stor) : Bool := same x.name y.name
def colEq (x y : Col) : Bool := !x.dropped && !y.dropped && same x.name y.name
def idxEq (x y : Idx) : Bool := same x.name y.name
def tierEq (x y : Tier) : Bool := decide (x.name = y.name)

theorem tabEq_symm (x y : Tab) (h : tabEq x y = true) : tabEq y x = true := by
  simp only [tabEq, Bool.and_eq_true] at *; exact ⟨same_symm h.1, same_symm h.2⟩
theorem udfEq_symm (x y : Udf) (h : udfEq x y = true) : udfEq y x = true := by
  simp only [udfEq, Bool.and_eq_true] at *; exact ⟨same_symm h.1, same_symm h.2⟩
theorem dbEq_symm (x y : Db) (h : dbEq x y = true) : dbEq y x = true := same_symm h
theorem storEq_symm (x y : Stor) (h : storEq x y = true) : storEq y x = true := same_symm h
theorem colEq_symm (x y : Col) (h : colEq x y = true) : colEq y x = true := by
  simp only [colEq, Bool.and_eq_true] at *; exact ⟨⟨h.1.2, h.1.1⟩, same_symm h.2⟩
theorem idxEq_symm (x y : Idx) (h : idxEq x y = true) : idxEq y x = true := same_symm h
theorem tierEq_symm (x y : Tier) (h : tierEq x y = true) : tierEq y x = true := by
  simp only [tierEq, decide_eq_true_eq] at *; exact h.symm

structure TabKeyed (t : Tab) : Prop where
  cols : Keyed colEq t.cols
  idxs : Keyed idxEq t.idxs
  tiers : Keyed tierEq t.tiers

structure Named (c : Cat) : Prop where
  wf : Wf c
  stors : Keyed storEq c.stors
  dbs : Keyed dbEq c.dbs
  tabs : Keyed tabEq c.tabs
  udfs : Keyed udfEq c.udfs
  inTabs : ∀ t ∈ c.tabs, TabKeyed t

theorem Named.names {c : Cat} (h : Named c) : NamesOk c := by
  refine ⟨h.stors, h.dbs, ?_, ?_, ?_⟩
  · intro x hx y hy a b; exact h.tabs x hx y hy (by simp [tabEq, a, b])
  · intro x hx y hy a b; exact h.udfs x hx y hy (by simp [udfEq, a, b])
  · intro t ht
    have k := h.inTabs t ht
    refine ⟨?_, k.idxs, ?_⟩
    · intro x hx y hy a b e; exact k.cols x hx y hy (by simp [colEq, a, b, e])
    · intro x hx y hy e; exact k.tiers x hx y hy (by simp [tierEq, e])

/-! the lookups, negatively -/
theorem findStor_none {c : Cat} {n : Name} (h : ¬ (findStor c n).isSome = true) : ∀ x ∈ c.stors, same x.name n = false := by
  unfold findStor at h; simpa [List.find?_eq_none] using h
theorem findDb_none {c : Cat} {n : Name} (h : ¬ (findDb c n).isSome = true) : ∀ x ∈ c.dbs, same x.name n = false := by
  unfold findDb at h; simpa [List.find?_eq_none] using h
theorem findTab_none {c : Cat} {d n : Name} (h : ¬ (findTab c d n).isSome = true) : ∀ x ∈ c.tabs, (same x.db d && same x.name n) = false := by
  unfold findTab at h; intro x hx
  have : findTab c d n = none := by unfold findTab; simpa using h
  unfold findTab at this; rw [List.find?_eq_none] at this
  simpa using this x hx
theorem findUdf_none {c : Cat} {d n : Name} (h : ¬ (findUdf c d n).isSome = true) : ∀ x ∈ c.udfs, (same x.db d && same x.name n) = false := by
  intro x hx
  have : findUdf c d n = none := by unfold findUdf at h ⊢; simpa using h
  unfold findUdf at this; rw [List.find?_eq_none] at this
  simpa using this x hx
theorem findCol_none {t : Tab} {n : Name} (h : ¬ (findCol t n).isSome = true) : ∀ x ∈ t.cols, (!x.dropped && same x.name n) = false := by
  intro x hx
  have : findCol t n = none := by unfold findCol at h ⊢; simpa using h
  unfold findCol at this; rw [List.find?_eq_none] at this
  simpa using this x hx
theorem findIdx_none {t : Tab} {n : Name} (h : ¬ (findIdx t n).isSome = true) : ∀ x ∈ t.idxs, same x.name n = false := by
  unfold findIdx at h; simpa [List.find?_eq_none] using h
theorem findTier_none {t : Tab} {n : Name} (h : ¬ (findTier t n).isSome = true) : ∀ x ∈ t.tiers, x.name ≠ n := by
  unfold findTier at h; simpa [List.find?_eq_none] using h

/-- a table at an address is that table -/
theorem Named.only {c : Cat} (h : Named c) {t : Tab} (ht : t ∈ c.tabs) {x : Tab} (hx : x ∈ c.tabs) (e : x.oid = t.oid) : x = t := by
  have h2 : at_ c.tabs t.oid = some t := at_of_mem h.wf.nod.tabs ht
  have h3 : at_ c.tabs x.oid = some x := at_of_mem h.wf.nod.tabs hx
  rw [e, h2] at h3; cases h3; rfl

/-- change inside one table that leaves its name alone -/
theorem named_tab {c : Cat} (h : Named c) {t : Tab} (ht : t ∈ c.tabs) {m : Nat} {f : Tab → Tab}
    (hw : Wf (onTab { c with next := m } t.oid f)) (hf : ∀ t, (f t).oid = t.oid)
    (hd : ∀ t, (f t).db = t.db) (hn : ∀ t, (f t).name = t.name) (hk : TabKeyed t → TabKeyed (f t)) :
    Named (onTab { c with next := m } t.oid f) := by
  refine ⟨hw, h.stors, h.dbs, ?_, h.udfs, ?_⟩
  · refine keyed_upd tabEq_symm h.tabs hf ?_
    intro x hx ex y hy ey
    cases hq : tabEq y (f x) with
    | false => rfl
    | true =>
      have hq' : tabEq y x = true := by simpa [tabEq, hd, hn] using hq
      have := h.tabs y hy x hx hq'
      exact absurd (this.trans ex) ey
  · intro x hx
    obtain ⟨y, hy, rfl⟩ := mem_upd hx
    by_cases e : HasOid.oid y = t.oid
    · rw [if_pos e, h.only ht hy e]; exact hk (h.inTabs t ht)
    · rw [if_neg e]; exact h.inTabs y hy

theorem named_onCol {c : Cat} (h : Named c) {t : Tab} (ht : t ∈ c.tabs) {x : Col} (hx : x ∈ t.cols) {f : Col → Col}
    (hw : Wf (onTab c t.oid (onCol x.cid f))) (hf : ∀ x, (f x).cid = x.cid)
    (hk : ∀ y ∈ t.cols, y.cid ≠ x.cid → colEq y (f x) = false) : Named (onTab c t.oid (onCol x.cid f)) := by
  refine named_tab h ht (m := c.next) hw (fun _ => rfl) (fun _ => rfl) (fun _ => rfl) fun k => ⟨?_, k.idxs, k.tiers⟩
  refine keyed_upd colEq_symm k.cols hf ?_
  intro z hz ez y hy ey
  have nod := (h.wf.tabOk t ht).cols
  have : z = x := by
    have h2 : at_ t.cols x.cid = some x := at_of_mem nod hx
    have h3 : at_ t.cols z.cid = some z := at_of_mem nod hz
    have ez' : z.cid = x.cid := ez
    rw [ez', h2] at h3; cases h3; rfl
  subst this; exact hk y hy ey

theorem named_onTier {c : Cat} (h : Named c) {t : Tab} (ht : t ∈ c.tabs) (o : Nat) {f : Tier → Tier}
    (hw : Wf (onTab c t.oid (onTier o f))) (hf : ∀ x, (f x).tid = x.tid) (hn : ∀ x, (f x).name = x.name) : Named (onTab c t.oid (onTier o f)) := by
  refine named_tab h ht (m := c.next) hw (fun _ => rfl) (fun _ => rfl) (fun _ => rfl) fun k => ⟨k.cols, k.idxs, ?_⟩
  refine keyed_upd tierEq_symm k.tiers hf ?_
  intro z hz ez y hy ey
  cases hq : tierEq y (f z) with
  | false => rfl
  | true =>
    have hq' : tierEq y z = true := by simpa [tierEq, hn] using hq
    exact absurd ((k.tiers y hy z hz hq').trans ez) ey

/-- a request with distinct names keeps them when its parts get addresses -/
theorem keyed_renumber {α : Type} [HasOid α] {eq eq0 : α → α → Bool} {f : Nat → α → α} (hf : ∀ k x, HasOid.oid (f k x) = k)
    (symm : ∀ x y, eq x y = true → eq y x = true) (he : ∀ j k x y, eq (f j x) (f k y) = true → eq0 x y = true) :
    ∀ (l : List α) (k : Nat), l.Pairwise (fun x y => eq0 x y = false) → Keyed eq (renumber f k l)
  | [], k, _ => by intro x hx; simp [renumber] at hx
  | z :: l, k, h => by
    rw [List.pairwise_cons] at h
    have ih := keyed_renumber hf symm he l (k + 1) h.2
    intro a ha b hb e
    rcases List.mem_cons.1 ha with ha | ha <;> rcases List.mem_cons.1 hb with hb | hb
    · rw [ha, hb]
    · subst ha
      obtain ⟨j, y, hy, rfl⟩ := renumber_mem _ _ _ hb
      have := he _ _ _ _ e; rw [h.1 y hy] at this; simp at this
    · subst hb
      obtain ⟨j, y, hy, rfl⟩ := renumber_mem _ _ _ ha
      have := he _ _ _ _ (symm _ _ e); rw [h.1 y hy] at this; simp at this
    · exact ih a ha b hb e

theorem tabKeyed_copy (o : Nat) (t : Tab) (h : ReqOk (.tabCreate t b)) : TabKeyed (tabCopy o t) := by
  obtain ⟨h1, h2, h3⟩ := h
  refine ⟨?_, ?_, ?_⟩
  · refine keyed_renumber (eq0 := fun x y => same x.name y.name) (fun _ _ => rfl) colEq_symm ?_ _ _ h1
    intro j k x y e; simp only [colEq, colCopy, Bool.and_eq_true] at e; exact e.2
  · refine keyed_renumber (eq0 := fun x y => same x.name y.name) (fun _ _ => rfl) idxEq_symm ?_ _ _ h2
    intro j k x y e; exact e
  · refine keyed_renumber (eq0 := fun x y => decide (x.name = y.name)) (fun _ _ => rfl) tierEq_symm ?_ _ _ (h3.imp (by intro a b e; simpa using e))
    intro j k x y e; exact e

theorem respell_same {x new y : Name} (h : same y (respell x new) = true) : same y new = true := by
  exact same_trans h (same_respell x new)

/-- renaming to a name nobody has -/
theorem named_rename {c : Cat} (h : Named c) {t : Tab} (ht : t ∈ c.tabs) {d n : Name}
    (hw : Wf (onTab c t.oid fun t => { t with db := respell t.db d, name := respell t.name n }))
    (hfree : ∀ x ∈ c.tabs, (same x.db d && same x.name n) = false) :
    Named (onTab c t.oid fun t => { t with db := respell t.db d, name := respell t.name n }) := by
  refine ⟨hw, h.stors, h.dbs, ?_, h.udfs, ?_⟩
  · refine keyed_upd tabEq_symm h.tabs (fun _ => rfl) ?_
    intro x hx ex y hy ey
    cases hq : tabEq y _ with
    | false => rfl
    | true =>
      simp only [tabEq, Bool.and_eq_true] at hq
      have := hfree y hy
      rw [respell_same hq.1, respell_same hq.2] at this; simp at this
  · intro x hx
    obtain ⟨y, hy, rfl⟩ := mem_upd hx
    have k := h.inTabs y hy
    split
    · exact ⟨k.cols, k.idxs, k.tiers⟩
    · exact k

theorem named_tabRename {c : Cat} (h : Named c) (d n d' m : Name) (i : Bool) : Keeps Named c (tabRename c d n d' m i) :=
  keeps_elim (keeps_miss h i) fun t ht => keeps_if (fun _ => keeps_fail c) fun hk => fun _ =>
    named_rename h (findTab_mem ht) (by
      have := (step_tabRename h.wf d n d' m i).wf
      unfold tabRename at this
      simp only [ht, Option.elim, hk, Bool.false_eq_true, if_false] at this
      exact this) (findTab_none hk)

/-- the wf half comes from `wf_exec`, the names are the local change -/
theorem named_exec {c : Cat} (h : Named c) (e : Env) (s : Stmt) (hr : ReqOk s) : Keeps Named c (exec e c s) := by
  have hwf := wf_exec h.wf e s
  cases s with
  | storCreate s i =>
    exact keeps_if (fun _ => keeps_miss h i) fun hk _ =>
      ⟨(step_newStor h.wf { s with oid := c.next } .done rfl).wf, keyed_put storEq_symm h.stors (findStor_none hk), h.dbs, h.tabs, h.udfs, h.inTabs⟩
  | storDrop n i =>
    exact keeps_elim (keeps_miss h i) fun s hs => keeps_if (fun _ => keeps_fail c) fun _ _ =>
      ⟨(step_delStor h.wf (findStor_mem hs) .done).wf, keyed_del h.stors _, h.dbs, h.tabs, h.udfs, h.inTabs⟩
  | storRename n m i =>
    exact keeps_elim (keeps_miss h i) fun s hs => keeps_if (fun _ => keeps_fail c) fun _ => keeps_if (fun _ => keeps_fail c) fun hk _ =>
      ⟨wf_updStor h.wf _ fun _ => rfl, keyed_upd storEq_symm h.stors (fun _ => rfl) (fun _ _ _ y hy _ => findStor_none hk y hy), h.dbs, h.tabs, h.udfs, h.inTabs⟩
  | dbCreate s i =>
    exact keeps_if (fun _ => keeps_miss h i) fun hk _ =>
      ⟨(step_newDb h.wf { s with oid := c.next } .done rfl).wf, h.stors, keyed_put dbEq_symm h.dbs (findDb_none hk), h.tabs, h.udfs, h.inTabs⟩
  | dbDrop n k i =>
    refine keeps_elim (keeps_miss h i) fun d _ => keeps_if (fun _ => keeps_fail c) fun _ => ?_
    have tabsLoop : ∀ (l : List Tab) (c : Cat), Named c → (∀ x ∈ l, x ∈ c.tabs) → NodO l →
        Keeps Named c (loop (fun c (t : Tab) => if same t.db n then (if k then tabDropOf c t else fail c) else ⟨c, [], .done⟩) l c) := by
      intro l
      induction l with
      | nil => intro c h _ _ _; exact h
      | cons t l ih =>
        intro c h hm hn
        unfold NodO at hn; rw [List.map_cons, List.nodup_cons] at hn
        show Keeps Named c (R.next _ _)
        by_cases e : same t.db n
        · by_cases ek : k = true
          · simp only [e, ek, if_true] at ih ⊢
            refine keeps_next (Q := fun _ => True) (fun _ => trivial) fun _ => ih _ ?_ ?_ hn.2
            · exact ⟨(step_delTab h.wf (hm t (by simp)) .done).wf, h.stors, h.dbs, keyed_del h.tabs _, h.udfs, fun x hx => h.inTabs x (mem_del.1 hx).1⟩
            · intro x hx
              exact mem_del.2 ⟨hm x (by simp [hx]), fun ex => hn.1 (List.mem_map.2 ⟨x, hx, ex⟩)⟩
          · simp only [e, ek, if_true]
            intro he; unfold R.next at he; simp [fail] at he
        · simp only [e] at ih ⊢
          refine keeps_next (Q := fun _ => True) (fun _ => trivial) fun _ => ih _ h (fun x hx => hm x (by simp [hx])) hn.2
    have udfsLoop : ∀ (l : List Udf) (c : Cat), Named c → (∀ x ∈ l, x ∈ c.udfs) → NodO l →
        Keeps Named c (loop (fun c (t : Udf) => if same t.db n then (if k then udfDropOf c t else fail c) else ⟨c, [], .done⟩) l c) := by
      intro l
      induction l with
      | nil => intro c h _ _ _; exact h
      | cons t l ih =>
        intro c h hm hn
        unfold NodO at hn; rw [List.map_cons, List.nodup_cons] at hn
        show Keeps Named c (R.next _ _)
        by_cases e : same t.db n
        · by_cases ek : k = true
          · simp only [e, ek, if_true] at ih ⊢
            refine keeps_next (Q := fun _ => True) (fun _ => trivial) fun _ => ih _ ?_ ?_ hn.2
            · exact ⟨(step_delUdf h.wf (hm t (by simp)) .done).wf, h.stors, h.dbs, h.tabs, keyed_del h.udfs _, h.inTabs⟩
            · intro x hx
              exact mem_del.2 ⟨hm x (by simp [hx]), fun ex => hn.1 (List.mem_map.2 ⟨x, hx, ex⟩)⟩
          · simp only [e, ek, if_true]
            intro he; unfold R.next at he; simp [fail] at he
        · simp only [e] at ih ⊢
          refine keeps_next (Q := fun _ => True) (fun _ => trivial) fun _ => ih _ h (fun x hx => hm x (by simp [hx])) hn.2
    refine keeps_next (Q := Named) (keeps_next (Q := Named) (tabsLoop _ _ h (fun _ hx => hx) h.wf.nod.tabs) fun h' => udfsLoop _ _ h' (fun _ hx => hx) h'.wf.nod.udfs) fun h' => ?_
    exact keeps_elim (keeps_fail _) fun d hd => keeps_if (fun _ => keeps_fail _) fun _ _ =>
      ⟨(step_delDb h'.wf (findDb_mem hd) .done).wf, h'.stors, keyed_del h'.dbs _, h'.tabs, h'.udfs, h'.inTabs⟩
  | dbRename n m i =>
    refine keeps_elim (keeps_miss h i) fun d _ => keeps_if (fun _ => keeps_fail c) fun _ => ?_
    refine keeps_next (Q := Named) (keeps_next (Q := Named) (keeps_loop (fun c t h => keeps_if (fun _ => named_tabRename h _ _ _ _ _) fun _ _ => h) _ _ h)
      fun h' => keeps_loop (fun c t h => keeps_if (fun _ => keeps_fail _) fun _ _ => h) _ _ h') fun h' => ?_
    exact keeps_elim (keeps_fail _) fun d hd => keeps_if (fun _ => keeps_fail _) fun _ => keeps_if (fun _ => keeps_fail _) fun hk _ =>
      ⟨wf_updDb h'.wf _ fun _ => rfl, h'.stors, keyed_upd dbEq_symm h'.dbs (fun _ => rfl) (fun _ _ _ y hy _ => findDb_none hk y hy), h'.tabs, h'.udfs, h'.inTabs⟩
  | tabCreate t i =>
    have st := step_newTab h.wf (tabCopy c.next t) (c.next + tabSpan t) (by unfold tabSpan; omega) .done rfl (tabOk_copy _ _ _ (Nat.le_refl _))
    refine keeps_if (fun _ => keeps_miss h i) fun hk _ => ⟨st.wf, h.stors, h.dbs, keyed_put tabEq_symm h.tabs (fun y hy => findTab_none hk y hy), h.udfs, ?_⟩
    intro x hx
    rcases List.mem_append.1 hx with hx | hx
    · exact h.inTabs x hx
    · rw [List.mem_singleton.1 hx]; exact tabKeyed_copy _ _ hr
  | tabDrop d n i =>
    exact keeps_if (fun _ => keeps_fail c) fun _ => keeps_elim (keeps_miss h i) fun t ht _ =>
      ⟨(step_delTab h.wf (findTab_mem ht) .done).wf, h.stors, h.dbs, keyed_del h.tabs _, h.udfs, fun x hx => h.inTabs x (mem_del.1 hx).1⟩
  | tabRename d n d' m i =>
    exact keeps_if (fun _ => keeps_fail c) fun _ => keeps_if (fun _ => keeps_fail c) fun _ => named_tabRename h _ _ _ _ _
  | tabTruncate d n i => exact keeps_elim (keeps_miss h i) fun t ht _ => h
  | tabIdentity d n v i =>
    exact keeps_elim (keeps_miss h i) fun t ht _ => named_tab h (findTab_mem ht) (m := c.next)
      (wf_tab h.wf t.oid c.next (Nat.le_refl _) (fun _ => rfl) fun t' ht' _ =>
        let k := h.wf.tabOk t' ht'; ⟨k.cols, k.idxs, k.tiers, k.colsLt, k.idxsLt, k.tiersLt, k.sizes⟩)
      (fun _ => rfl) (fun _ => rfl) (fun _ => rfl) fun k => ⟨k.cols, k.idxs, k.tiers⟩
  | tabUnlogged d n v i =>
    exact keeps_elim (keeps_miss h i) fun t ht _ => named_tab h (findTab_mem ht) (m := c.next)
      (wf_tab h.wf t.oid c.next (Nat.le_refl _) (fun _ => rfl) fun t' ht' _ =>
        let k := h.wf.tabOk t' ht'; ⟨k.cols, k.idxs, k.tiers, k.colsLt, k.idxsLt, k.tiersLt, k.sizes⟩)
      (fun _ => rfl) (fun _ => rfl) (fun _ => rfl) fun k => ⟨k.cols, k.idxs, k.tiers⟩
  | colAdd d n x i j =>
    refine keeps_elim (keeps_miss h i) fun t ht => keeps_if (fun _ => keeps_miss h j) fun hk => keeps_if (fun _ => keeps_fail c) fun _ _ => ?_
    refine named_tab h (findTab_mem ht) (m := c.next + 1) ?_ (fun _ => rfl) (fun _ => rfl) (fun _ => rfl) fun k => ⟨?_, k.idxs, k.tiers⟩
    · refine wf_tab h.wf t.oid (c.next + 1) (Nat.le_succ _) (fun _ => rfl) fun t' ht' _ => ?_
      have k := h.wf.tabOk t' ht'
      exact tabOk_cols (Nat.le_succ _) k (nod_put k.cols (x := colCopy c.next x) (fresh k.colsLt))
        (lt_put (α := Col) (x := colCopy c.next x) k.colsLt (Nat.le_succ _) (Nat.lt_succ_self _))
    · refine keyed_put colEq_symm k.cols fun y hy => ?_
      have := findCol_none hk y hy
      simpa [colEq, colCopy] using this
  | colDrop d n x i j =>
    refine keeps_if (fun _ => keeps_fail c) fun _ => keeps_elim (keeps_miss h i) fun t ht => keeps_elim (keeps_miss h j) fun q hq =>
      keeps_if (fun _ => keeps_fail c) fun _ _ => ?_
    refine named_onCol h (findTab_mem ht) (findCol_mem hq) ?_ (fun _ => rfl) fun y hy hne => ?_
    · exact wf_tab h.wf t.oid c.next (Nat.le_refl _) (fun _ => rfl) fun t' ht' _ => tabOk_onCol (h.wf.tabOk t' ht') _ fun _ => rfl
    · simp [colEq]
  | colRename d n x m i j =>
    refine keeps_if (fun _ => keeps_fail c) fun _ => keeps_elim (keeps_miss h i) fun t ht => keeps_elim (keeps_miss h j) fun q hq =>
      keeps_if (fun _ => keeps_fail c) fun hk _ => ?_
    refine named_onCol h (findTab_mem ht) (findCol_mem hq) ?_ (fun _ => rfl) fun y hy hne => ?_
    · exact wf_tab h.wf t.oid c.next (Nat.le_refl _) (fun _ => rfl) fun t' ht' _ => tabOk_onCol (h.wf.tabOk t' ht') _ fun _ => rfl
    · have := findCol_none hk y hy
      cases hd : y.dropped with
      | true => simp [colEq, hd]
      | false => simp [hd] at this; simp [colEq, this]
  | colSet d n x s i j =>
    refine keeps_elim (keeps_miss h i) fun t ht => keeps_elim (keeps_miss h j) fun q hq _ => ?_
    refine named_onCol h (findTab_mem ht) (findCol_mem hq) ?_ (fun _ => rfl) fun y hy hne => ?_
    · exact wf_tab h.wf t.oid c.next (Nat.le_refl _) (fun _ => rfl) fun t' ht' _ => tabOk_onCol (h.wf.tabOk t' ht') _ fun _ => rfl
    · cases hc : colEq y { q with cons := s.apply q.cons } with
      | false => rfl
      | true =>
        have : colEq y q = true := by simpa [colEq] using hc
        exact absurd ((h.inTabs t (findTab_mem ht)).cols y hy q (findCol_mem hq) this) hne
  | idxCreate d n x i =>
    refine keeps_elim (keeps_fail c) fun t ht => keeps_if (fun _ => keeps_miss h i) fun hk _ => ?_
    refine named_tab h (findTab_mem ht) (m := c.next + 1) ?_ (fun _ => rfl) (fun _ => rfl) (fun _ => rfl) fun k => ⟨k.cols, ?_, k.tiers⟩
    · refine wf_tab h.wf t.oid (c.next + 1) (Nat.le_succ _) (fun _ => rfl) fun t' ht' _ => ?_
      have k := h.wf.tabOk t' ht'
      have k' := tabOk_le (Nat.le_succ c.next) k
      exact ⟨k'.cols, nod_put k.idxs (x := ({ x with iid := c.next } : Idx)) (fresh k.idxsLt), k'.tiers, k'.colsLt,
          lt_put (α := Idx) (x := ({ x with iid := c.next } : Idx)) k.idxsLt (Nat.le_succ _) (Nat.lt_succ_self _), k'.tiersLt, k'.sizes⟩
    · exact keyed_put idxEq_symm k.idxs fun y hy => findIdx_none hk y hy
  | idxDrop d n x i => exact keeps_if (fun _ => keeps_fail c) fun _ => keeps_elim (keeps_fail c) fun t ht => keeps_elim (keeps_miss h i) fun _ _ _ => h
  | idxRename d n x m i =>
    refine keeps_if (fun _ => keeps_fail c) fun _ => keeps_elim (keeps_fail c) fun t ht => keeps_elim (keeps_miss h i) fun q hq =>
      keeps_if (fun _ => keeps_fail c) fun hk _ => ?_
    refine named_tab h (findTab_mem ht) (m := c.next) ?_ (fun _ => rfl) (fun _ => rfl) (fun _ => rfl) fun k => ⟨k.cols, ?_, k.tiers⟩
    · exact wf_tab h.wf t.oid c.next (Nat.le_refl _) (fun _ => rfl) fun t' ht' _ => tabOk_onIdx (h.wf.tabOk t' ht') _ fun _ => rfl
    · exact keyed_upd idxEq_symm k.idxs (fun _ => rfl) fun _ _ _ y hy _ => findIdx_none hk y hy
  | tierCreate d n x i =>
    refine keeps_elim (keeps_fail c) fun t ht => keeps_if (fun _ => keeps_miss h i) fun hk _ => ?_
    refine named_tab h (findTab_mem ht) (m := c.next + 1) ?_ (fun _ => rfl) (fun _ => rfl) (fun _ => rfl) fun k => ⟨k.cols, k.idxs, ?_⟩
    · refine wf_tab h.wf t.oid (c.next + 1) (Nat.le_succ _) (fun _ => rfl) fun t' ht' _ => ?_
      have k := h.wf.tabOk t' ht'
      have k' := tabOk_le (Nat.le_succ c.next) k
      refine ⟨k'.cols, k'.idxs, nod_put k.tiers (x := tierCopy c.next x) (fresh k.tiersLt), k'.colsLt, k'.idxsLt,
        lt_put (α := Tier) (x := tierCopy c.next x) k.tiersLt (Nat.le_succ _) (Nat.lt_succ_self _), ?_⟩
      intro y hy
      rcases List.mem_append.1 hy with hy | hy
      · exact k.sizes y hy
      · rw [List.mem_singleton.1 hy]; exact ⟨toInt_toInt _, toInt_toInt _⟩
    · exact keyed_put tierEq_symm k.tiers fun y hy => by have := findTier_none hk y hy; simp only [tierEq, tierCopy] at this ⊢; first | exact this | exact decide_eq_false this | (simp only [decide_eq_false_iff_not] at this ⊢; exact this)
  | tierDrop d n x i => exact keeps_elim (keeps_fail c) fun t ht => keeps_elim (keeps_miss h i) fun _ _ _ => h
  | tierRename d n x m i =>
    refine keeps_elim (keeps_fail c) fun t ht => keeps_elim (keeps_miss h i) fun q hq => keeps_if (fun _ => keeps_fail c) fun hk _ => ?_
    refine named_tab h (findTab_mem ht) (m := c.next) ?_ (fun _ => rfl) (fun _ => rfl) (fun _ => rfl) fun k => ⟨k.cols, k.idxs, ?_⟩
    · exact wf_tab h.wf t.oid c.next (Nat.le_refl _) (fun _ => rfl) fun t' ht' _ => tabOk_onTier (h.wf.tabOk t' ht') _ (fun _ => rfl) fun _ o => o
    · exact keyed_upd tierEq_symm k.tiers (fun _ => rfl) fun _ _ _ y hy _ => by have := findTier_none hk y hy; simp only [tierEq] at this ⊢; first | exact this | exact decide_eq_false this | (simp only [decide_eq_false_iff_not] at this ⊢; exact this)
  | volAdd d n x v i j =>
    refine keeps_elim (keeps_fail c) fun t ht => keeps_elim (keeps_miss h i) fun q hq => keeps_if (fun _ => keeps_fail c) fun _ =>
      keeps_if (fun _ => keeps_miss h j) fun _ _ => ?_
    exact named_onTier h (findTab_mem ht) _ (wf_tab h.wf t.oid c.next (Nat.le_refl _) (fun _ => rfl) fun t' ht' _ => tabOk_onTier (h.wf.tabOk t' ht') _ (fun _ => rfl) fun _ o => o) (fun _ => rfl) (fun _ => rfl)
  | volDrop d n x v i j =>
    exact keeps_elim (keeps_fail c) fun t ht => keeps_elim (keeps_miss h i) fun q hq => keeps_elim (keeps_miss h j) fun _ _ =>
      keeps_if (fun _ => keeps_fail c) fun _ _ => h
  | volPause d n x v p i j =>
    refine keeps_elim (keeps_fail c) fun t ht => keeps_elim (keeps_miss h i) fun q hq => keeps_elim (keeps_miss h j) fun _ _ =>
      keeps_if (fun _ _ => h) fun _ => keeps_if (fun _ => keeps_fail c) fun _ _ => ?_
    exact named_onTier h (findTab_mem ht) _ (wf_tab h.wf t.oid c.next (Nat.le_refl _) (fun _ => rfl) fun t' ht' _ => tabOk_onTier (h.wf.tabOk t' ht') _ (fun _ => rfl) fun _ o => o) (fun _ => rfl) (fun _ => rfl)
  | tierSet d n x r s i =>
    refine keeps_elim (keeps_fail c) fun t ht => keeps_elim (keeps_miss h i) fun q hq _ => ?_
    exact named_onTier h (findTab_mem ht) _ (wf_tab h.wf t.oid c.next (Nat.le_refl _) (fun _ => rfl) fun t' ht' _ => tabOk_onTier (h.wf.tabOk t' ht') _ (fun _ => rfl)
      fun x o => by cases r <;> cases s <;> simp [toInt_toInt, o.1, o.2]) (fun _ => rfl) (fun _ => rfl)
  | udfCreate u =>
    refine fun he => ?_
    have hw := hwf he
    show Named (udfCreate e c u).cat
    revert he hw
    show (udfCreate e c u).reply ≠ .error → Wf (udfCreate e c u).cat → Named (udfCreate e c u).cat
    unfold udfCreate
    by_cases hk : (findUdf c u.db u.name).isSome = true
    · rw [if_pos hk]; intro he; exact absurd rfl he
    · rw [if_neg hk]
      dsimp only
      cases hq : e.compile { c with udfs := put c.udfs (udfCopy c.next u), next := c.next + udfSpan u } (udfCopy c.next u) with
      | none => intro he; exact absurd rfl he
      | some uses =>
        intro _ hw
        refine ⟨hw, h.stors, h.dbs, h.tabs, ?_, h.inTabs⟩
        show Keyed udfEq (upd (put c.udfs (udfCopy c.next u)) c.next _)
        rw [upd_put_fresh h.wf.udfs (udfCopy c.next u) rfl]
        exact keyed_put udfEq_symm h.udfs fun y hy => findUdf_none hk y hy
  | udfReplace u =>
    refine fun he => ?_
    have hw := hwf he
    revert he hw
    show (udfReplace e c u).reply ≠ .error → Wf (udfReplace e c u).cat → Named (udfReplace e c u).cat
    unfold udfReplace
    cases ho : findUdf c u.db u.name with
    | none =>
      simp only [Option.elim]
      unfold udfCreate
      have hk : ¬ (findUdf c u.db u.name).isSome = true := by rw [ho]; simp
      rw [if_neg hk]
      dsimp only
      cases hq : e.compile { c with udfs := put c.udfs (udfCopy c.next u), next := c.next + udfSpan u } (udfCopy c.next u) with
      | none => intro he; exact absurd rfl he
      | some uses =>
        intro _ hw
        refine ⟨hw, h.stors, h.dbs, h.tabs, ?_, h.inTabs⟩
        show Keyed udfEq (upd (put c.udfs (udfCopy c.next u)) c.next _)
        rw [upd_put_fresh h.wf.udfs (udfCopy c.next u) rfl]
        exact keyed_put udfEq_symm h.udfs fun y hy => findUdf_none hk y hy
    | some old =>
      simp only [Option.elim]
      by_cases hv : (!(sameTypes old.args u.args && decide (old.type = u.type) && sameTypes old.returning u.returning)) = true
      · rw [if_pos hv]; intro he; exact absurd rfl he
      · rw [if_neg hv]
        cases hq : e.compile c (udfCopy c.next u) with
        | none => intro he; exact absurd rfl he
        | some uses =>
          intro _ hw
          refine ⟨hw, h.stors, h.dbs, h.tabs, ?_, h.inTabs⟩
          have hold := List.find?_some ho
          simp only [Bool.and_eq_true] at hold
          -- as if the function kept its address: it does
          intro a ha b hb eab
          obtain ⟨a', ha', rfl⟩ := mem_upd ha
          obtain ⟨b', hb', rfl⟩ := mem_upd hb
          have other : ∀ y ∈ c.udfs, HasOid.oid y ≠ old.oid → ∀ z : Udf, z.db = u.db → z.name = u.name → udfEq y z = false := by
            intro y hy hne z hzd hzn
            cases hz : udfEq y z with
            | false => rfl
            | true =>
              simp only [udfEq, Bool.and_eq_true, hzd, hzn] at hz
              have : udfEq y old = true := by
                simp only [udfEq, Bool.and_eq_true]
                exact ⟨same_trans hz.1 (same_symm hold.1), same_trans hz.2 (same_symm hold.2)⟩
              exact absurd (h.udfs y hy old (findUdf_mem ho) this) hne
          by_cases ea : HasOid.oid a' = old.oid <;> by_cases eb : HasOid.oid b' = old.oid
          · simp only [ea, eb, if_true]
          · simp only [ea, eb, if_true, if_false] at eab
            have := udfEq_symm _ _ eab
            rw [other b' hb' eb { udfCopy c.next u with oid := old.oid, uses := uses } rfl rfl] at this; simp at this
          · simp only [ea, eb, if_true, if_false] at eab
            rw [other a' ha' ea { udfCopy c.next u with oid := old.oid, uses := uses } rfl rfl] at eab; simp at eab
          · simp only [ea, eb, if_false] at eab ⊢
            exact h.udfs a' ha' b' hb' eab
  | udfDrop d n i =>
    exact keeps_if (fun _ => keeps_fail c) fun _ => keeps_elim (keeps_miss h i) fun t ht _ =>
      ⟨(step_delUdf h.wf (findUdf_mem ht) .done).wf, h.stors, h.dbs, h.tabs, keyed_del h.udfs _, h.inTabs⟩
  | udfRename d n d' m i =>
    refine fun he => ?_
    have hw := hwf he
    revert he hw
    show (udfRename c d n d' m i).reply ≠ .error → Wf (udfRename c d n d' m i).cat → Named (udfRename c d n d' m i).cat
    unfold udfRename
    by_cases h1 : (findDb c d').isNone = true
    · rw [if_pos h1]; intro he; exact absurd rfl he
    · rw [if_neg h1]
      by_cases h2 : (!noUses c n) = true
      · rw [if_pos h2]; intro he; exact absurd rfl he
      · rw [if_neg h2]
        cases ho : findUdf c d n with
        | none => simp only [Option.elim]; intro _ _; exact h
        | some u =>
          simp only [Option.elim]
          by_cases hk : (findUdf c d' m).isSome = true
          · rw [if_pos hk]; intro he; exact absurd rfl he
          · rw [if_neg hk]
            intro _ hw
            refine ⟨hw, h.stors, h.dbs, h.tabs, keyed_upd udfEq_symm h.udfs (fun _ => rfl) ?_, h.inTabs⟩
            intro x hx ex y hy ey
            cases hq : udfEq y _ with
            | false => rfl
            | true =>
              simp only [udfEq, Bool.and_eq_true] at hq
              have := findUdf_none hk y hy
              rw [respell_same hq.1, respell_same hq.2] at this; simp at this

def ReqsOk (l : List (Env × Stmt)) : Prop := ∀ s ∈ l, ReqOk s.2

theorem named_runTx : ∀ (l : List (Env × Stmt)) (c : Cat), Named c → ReqsOk l → Keeps Named c (runTx l c)
  | [], c, h, _ => fun _ => h
  | (e, s) :: l, c, h, hr => keeps_next (named_exec h e s (hr (e, s) (by simp))) fun h' => named_runTx l _ h' fun x hx => hr x (by simp [hx])

/-! the commit actions -/
theorem named_finish {c : Cat} (h : Named c) (u : Undo) : Named (finish c u) := by
  have shrink : ∀ (o : Nat) (f : Tab → Tab), (∀ t, (f t).oid = t.oid) → (∀ t, (f t).db = t.db) → (∀ t, (f t).name = t.name) →
      (∀ t, TabOk c.next t → TabOk c.next (f t)) → (∀ t, TabKeyed t → TabKeyed (f t)) → Named (onTab c o f) := by
    intro o f h1 h2 h3 h4 h5
    have hw : Wf (onTab c o f) := wf_tab h.wf o c.next (Nat.le_refl _) h1 fun t ht _ => h4 t (h.wf.tabOk t ht)
    refine ⟨hw, h.stors, h.dbs, ?_, h.udfs, ?_⟩
    · intro a ha b hb e
      obtain ⟨a', ha', rfl⟩ := mem_upd ha
      obtain ⟨b', hb', rfl⟩ := mem_upd hb
      have k : ∀ x : Tab, (if HasOid.oid x = o then f x else x).oid = x.oid := fun x => by split <;> simp [h1]
      have k2 : ∀ x : Tab, (if HasOid.oid x = o then f x else x).db = x.db := fun x => by split <;> simp [h2]
      have k3 : ∀ x : Tab, (if HasOid.oid x = o then f x else x).name = x.name := fun x => by split <;> simp [h3]
      show (if HasOid.oid a' = o then f a' else a').oid = (if HasOid.oid b' = o then f b' else b').oid
      rw [k, k]
      exact h.tabs a' ha' b' hb' (by simpa only [tabEq, k2, k3] using e)
    · intro x hx
      obtain ⟨y, hy, rfl⟩ := mem_upd hx
      split
      · exact h5 y (h.inTabs y hy)
      · exact h.inTabs y hy
  cases u with
  | idxDel o k =>
    exact shrink o _ (fun _ => rfl) (fun _ => rfl) (fun _ => rfl)
      (fun t q => ⟨q.cols, nod_del q.idxs _, q.tiers, q.colsLt, fun x hx => q.idxsLt x (mem_del.1 hx).1, q.tiersLt, q.sizes⟩)
      fun t q => ⟨q.cols, keyed_del q.idxs _, q.tiers⟩
  | tierDel o k =>
    exact shrink o _ (fun _ => rfl) (fun _ => rfl) (fun _ => rfl)
      (fun t q => ⟨q.cols, q.idxs, nod_del q.tiers _, q.colsLt, q.idxsLt, fun x hx => q.tiersLt x (mem_del.1 hx).1, fun x hx => q.sizes x (mem_del.1 hx).1⟩)
      fun t q => ⟨q.cols, q.idxs, keyed_del q.tiers _⟩
  | volDel o k n =>
    refine shrink o _ (fun _ => rfl) (fun _ => rfl) (fun _ => rfl) (fun t q => tabOk_onTier q _ (fun _ => rfl) fun _ o => o) ?_
    intro t q
    refine ⟨q.cols, q.idxs, keyed_upd tierEq_symm q.tiers (fun _ => rfl) ?_⟩
    intro z hz ez y hy ey
    cases hq : tierEq y { z with vols := cutVol n z.vols } with
    | false => rfl
    | true =>
      have hq' : tierEq y z = true := by simpa [tierEq] using hq
      exact absurd ((q.tiers y hy z hz hq').trans ez) ey
  | _ => exact h

theorem named_finishAll {c : Cat} (h : Named c) (log : List Undo) : Named (finishAll c log) := by
  unfold finishAll
  generalize log.reverse = l
  induction l generalizing c with
  | nil => exact h
  | cons u l ih => exact ih (named_finish h u)

/-- names depend only on the objects, not on their order -/
theorem named_of_same {c c' : Cat} (h : Named c) (hs : Same c' c) (hn : Nod c') (hm : c.next ≤ c'.next) : Named c' := by
  have m1 : ∀ x ∈ c'.stors, x ∈ c.stors := fun x hx => (at_mem ((hs.stors _).symm.trans (at_of_mem hn.stors hx))).1
  have m2 : ∀ x ∈ c'.dbs, x ∈ c.dbs := fun x hx => (at_mem ((hs.dbs _).symm.trans (at_of_mem hn.dbs hx))).1
  have m3 : ∀ x ∈ c'.tabs, x ∈ c.tabs := fun x hx => (at_mem ((hs.tabs _).symm.trans (at_of_mem hn.tabs hx))).1
  have m4 : ∀ x ∈ c'.udfs, x ∈ c.udfs := fun x hx => (at_mem ((hs.udfs _).symm.trans (at_of_mem hn.udfs hx))).1
  exact ⟨wf_of_same h.wf hs hn hm, fun x hx y hy => h.stors x (m1 x hx) y (m1 y hy), fun x hx y hy => h.dbs x (m2 x hx) y (m2 y hy),
    fun x hx y hy => h.tabs x (m3 x hx) y (m3 y hy), fun x hx y hy => h.udfs x (m4 x hx) y (m4 y hy), fun x hx => h.inTabs x (m3 x hx)⟩

end Verif.Catalog
