import Verif.Catalog.Meaning
set_option linter.unusedSimpArgs false
set_option linter.unusedVariables false
/-!
# C89 a failed DDL transaction leaves the catalog as it was; C90 what DDL statements mean

The specification: a catalog is compared by its objects (`Unchanged`) and by what each name resolves
to (`findStor`, `findDb`, `findTab`, `findUdf`, `findCol`: the lookups every other statement uses).
Names are compared without case (`same`).
-/
namespace Verif.Catalog

/-! ## C89 -/

/-- the same objects, and every name resolves as before -/
structure Unchanged (c' c : Cat) : Prop where
  stors : c'.stors.Perm c.stors
  dbs : c'.dbs.Perm c.dbs
  tabs : c'.tabs.Perm c.tabs
  udfs : c'.udfs.Perm c.udfs
  broken : c'.broken = c.broken
  findStor : ∀ n, findStor c' n = findStor c n
  findDb : ∀ n, findDb c' n = findDb c n
  findTab : ∀ d n, findTab c' d n = findTab c d n
  findUdf : ∀ d n, findUdf c' d n = findUdf c d n

theorem stor_iff {c : Cat} (h : Named c) (n : Name) (t : Stor) : findStor c n = some t ↔ t ∈ c.stors ∧ same t.name n = true := by
  unfold Catalog.findStor
  rw [find_iff]
  intro x hx y hy px py
  have e := h.stors x hx y hy (same_trans px (same_symm py))
  have h1 := at_of_mem h.wf.nod.stors hx
  have h2 := at_of_mem h.wf.nod.stors hy
  rw [e] at h1
  exact Option.some.inj (h1.symm.trans h2)

theorem unchanged_of {c' c : Cat} (h : Named c) (h' : Named c') (s : Same c' c) : Unchanged c' c := by
  have p1 := perm_of_at h'.wf.nod.stors h.wf.nod.stors s.stors
  have p2 := perm_of_at h'.wf.nod.dbs h.wf.nod.dbs s.dbs
  have p3 := perm_of_at h'.wf.nod.tabs h.wf.nod.tabs s.tabs
  have p4 := perm_of_at h'.wf.nod.udfs h.wf.nod.udfs s.udfs
  exact ⟨p1, p2, p3, p4, s.broken,
    fun n => Option.ext fun t => by rw [stor_iff h, stor_iff h', p1.mem_iff],
    fun n => Option.ext fun t => by rw [db_iff h, db_iff h', p2.mem_iff],
    fun d n => Option.ext fun t => by rw [tab_iff h, tab_iff h', p3.mem_iff],
    fun d n => Option.ext fun t => by rw [udf_iff h, udf_iff h', p4.mem_iff]⟩

theorem unchanged_refl (c : Cat) : Unchanged c c :=
  ⟨.refl _, .refl _, .refl _, .refl _, rfl, fun _ => rfl, fun _ => rfl, fun _ _ => rfl, fun _ _ => rfl⟩

/-- C89: rolling back any transaction, of any length, at any catalog the server can reach, restores it.
Partial: without `ALTER TABLE SET [UN]LOGGED` to the value the table already has, `CREATE INDEX`, and
renames of databases and storages typed in another case (`C89_unlogged_false`, `C89_index_false`,
`C89_spelling_false`). -/
theorem C89_abort_partial {c : Cat} {l : List (Env × Stmt)} (hr : Reach c) (hc : CarefulTx l c) :
    Unchanged (aborted (runTx l c)) c := by
  obtain ⟨h1, h2, h3⟩ := back_aborted hr.wf hc
  exact unchanged_of hr.named (named_of_same hr.named h1 h2 h3) h1

/-- C89, as the client sees it: an error reply means nothing happened.  Partial: as above, and only for
a writable server whose WAL accepts the record (`C89_read_only_false`, `C89_wal_false`). -/
theorem C89_session_partial {c : Cat} {l : List (Env × Stmt)} (hr : Reach c) (hc : CarefulTx l c)
    (he : (session ⟨false, true⟩ l c).2 = true) : Unchanged (session ⟨false, true⟩ l c).1 c := by
  unfold session at he ⊢
  dsimp only at he ⊢
  by_cases e : (runTx l c).reply = .error
  · rw [if_pos e] at he ⊢; exact C89_abort_partial hr hc
  · rw [if_neg e] at he
    by_cases e2 : (runTx l c).log.isEmpty = true
    · rw [if_pos e2] at he; simp at he
    · rw [if_neg e2] at he; simp at he

/-- C89 for a replica or recovery, where the write to the WAL is inside of what is rolled back -/
theorem C89_replay_partial {c : Cat} {l : List (Env × Stmt)} (hr : Reach c) (hc : CarefulTx l c) (walOk : Bool)
    (he : (replay walOk l c).2 = true) : Unchanged (replay walOk l c).1 c := by
  unfold replay at he ⊢
  dsimp only at he ⊢
  by_cases e : (runTx l c).reply = .error
  · rw [if_pos e] at he ⊢; exact C89_abort_partial hr hc
  · rw [if_neg e] at he ⊢
    by_cases e2 : (!walOk) = true
    · rw [if_pos e2]; exact C89_abort_partial hr hc
    · rw [if_neg e2] at he; simp at he

/-! a non-trivial case: the transaction drops a database with a table in it, then fails -/

def okEnv : Env := ⟨fun _ => false, true, fun _ _ => some []⟩
def badEnv : Env := ⟨fun _ => false, false, fun _ _ => none⟩
def nA : Name := [97]
def nB : Name := [98]
/-- `"A"` -/
def nAup : Name := [65]
def intCol (n : Name) : Col := ⟨0, n, 1, 8, false, Cons.init⟩
def tabAB : Tab := ⟨0, nA, nB, [], false, [intCol nA, intCol nB], [⟨0, nA, 0, true, true, [⟨0, true⟩]⟩], 4, [], [], 0⟩
def setup : List (Env × Stmt) := [(okEnv, .dbCreate ⟨0, nA, false⟩ false), (okEnv, .tabCreate tabAB false)]
/-- a database `a` with a table `b` -/
def world : Cat := committed (runTx setup boot)

theorem world_reach : Reach world := by
  refine .commit .start ?_ (by decide)
  intro s hs
  rcases List.mem_cons.1 hs with rfl | hs
  · trivial
  · rw [List.mem_singleton.1 hs]; refine ⟨by decide, by decide, by decide⟩

def failing : List (Env × Stmt) :=
  [(okEnv, .colDrop nA nB nB false false), (okEnv, .dbDrop nA true false), (okEnv, .dbCreate ⟨0, nB, false⟩ false), (badEnv, .tabCreate tabAB false)]

example : Unchanged (session ⟨false, true⟩ failing world).1 world :=
  C89_session_partial world_reach ⟨trivial, fun _ => ⟨trivial, fun _ => ⟨trivial, fun _ => ⟨trivial, fun _ => trivial⟩⟩⟩⟩ (by decide)
example : (runTx failing world).log.length = 5 ∧ (runTx failing world).cat.dbs ≠ world.dbs ∧ (findTab world nA nB).isSome = true ∧
    (runTx failing world).cat.tabs ≠ world.tabs := by decide

/-- C89 is false on a read only server (a replica): the error comes after the statements ran and
nothing rolls them back -/
theorem C89_read_only_false : ∃ c l, Reach c ∧ CarefulTx l c ∧ (session ⟨true, true⟩ l c).2 = true ∧
    findDb c nB = none ∧ (findDb (session ⟨true, true⟩ l c).1 nB).isSome = true :=
  ⟨boot, [(okEnv, .dbCreate ⟨0, nB, false⟩ false)], .start, ⟨trivial, fun _ => trivial⟩, by decide, by decide, by decide⟩

/-- and when the WAL cannot be written: here a table the client was told is still there is gone -/
theorem C89_wal_false : ∃ c l, Reach c ∧ CarefulTx l c ∧ (session ⟨false, false⟩ l c).2 = true ∧
    (findTab c nA nB).isSome = true ∧ findTab (session ⟨false, false⟩ l c).1 nA nB = none :=
  ⟨world, [(okEnv, .tabDrop nA nB false)], world_reach, ⟨trivial, fun _ => trivial⟩, by decide, by decide, by decide⟩

/-- and after `ALTER TABLE SET LOGGED` of a logged table: the rollback makes it unlogged -/
theorem C89_unlogged_false : ∃ c l, Reach c ∧ (session ⟨false, true⟩ l c).2 = true ∧
    (findTab c nA nB).map Tab.unlogged = some false ∧ (findTab (session ⟨false, true⟩ l c).1 nA nB).map Tab.unlogged = some true :=
  ⟨world, [(okEnv, .tabUnlogged nA nB false false), (okEnv, .dbDrop nB false false)], world_reach, by decide, by decide, by decide⟩

/-- and after renaming a database typed in another case: it comes back with the name as typed -/
theorem C89_spelling_false : ∃ c l, Reach c ∧ (session ⟨false, true⟩ l c).2 = true ∧
    (findDb c nA).map Db.name = some nA ∧ (findDb (session ⟨false, true⟩ l c).1 nA).map Db.name = some nAup :=
  ⟨committed (runTx [(okEnv, .dbCreate ⟨0, nA, false⟩ false)] boot), [(okEnv, .dbRename nAup nB false), (okEnv, .dbDrop nAup false false)],
    .commit .start (by intro s hs; rw [List.mem_singleton.1 hs]; trivial) (by decide), by decide, by decide, by decide⟩

/-- and after `CREATE INDEX`: the undo log holds the address of a libc function, which the rollback
takes for an index and frees -/
theorem C89_index_false : ∃ c l, Reach c ∧ c.broken = false ∧ (session ⟨false, true⟩ l c).2 = true ∧ (session ⟨false, true⟩ l c).1.broken = true :=
  ⟨world, [(okEnv, .idxCreate nA nB ⟨0, nB, 0, false, false, [⟨1, true⟩]⟩ false), (okEnv, .dbDrop nB false false)], world_reach, by decide, by decide, by decide⟩

/-! ## C90 -/

/-- no two objects of a kind share a name -/
structure Unique (c : Cat) : Prop where
  stors : c.stors.Pairwise fun x y => same x.name y.name = false
  dbs : c.dbs.Pairwise fun x y => same x.name y.name = false
  tabs : c.tabs.Pairwise fun x y => ¬(same x.db y.db = true ∧ same x.name y.name = true)
  udfs : c.udfs.Pairwise fun x y => ¬(same x.db y.db = true ∧ same x.name y.name = true)
  cols : ∀ t ∈ c.tabs, t.cols.Pairwise fun x y => ¬(x.dropped = false ∧ y.dropped = false ∧ same x.name y.name = true)
  idxs : ∀ t ∈ c.tabs, t.idxs.Pairwise fun x y => same x.name y.name = false
  tiers : ∀ t ∈ c.tabs, t.tiers.Pairwise fun x y => x.name ≠ y.name

theorem pairwise_of {α : Type} [HasOid α] {P : α → α → Prop} : ∀ {l : List α}, NodO l → (∀ x ∈ l, ∀ y ∈ l, ¬P x y → HasOid.oid x = HasOid.oid y) → l.Pairwise P
  | [], _, _ => .nil
  | x :: l, h, k => by
    unfold NodO at h
    rw [List.map_cons, List.nodup_cons] at h
    refine .cons (fun y hy => ?_) (pairwise_of h.2 fun a ha b hb => k a (by simp [ha]) b (by simp [hb]))
    refine Classical.byContradiction fun hp => h.1 ?_
    rw [k x (by simp) y (by simp [hy]) hp]; exact List.mem_map_of_mem hy

/-- C90: names are unique in every catalog the server can reach, whatever was run, committed, refused or rolled back -/
theorem C90_unique_partial {c : Cat} (hr : Reach c) : Unique c := by
  have h := hr.named.names
  have w := hr.wf
  refine ⟨pairwise_of w.nod.stors fun x hx y hy e => h.stors x hx y hy (by simpa using e),
    pairwise_of w.nod.dbs fun x hx y hy e => h.dbs x hx y hy (by simpa using e),
    pairwise_of w.nod.tabs fun x hx y hy e => ?_, pairwise_of w.nod.udfs fun x hx y hy e => ?_,
    fun t ht => pairwise_of (w.tabOk t ht).cols fun x hx y hy e => ?_, fun t ht => pairwise_of (w.tabOk t ht).idxs fun x hx y hy e => ?_,
    fun t ht => pairwise_of (w.tabOk t ht).tiers fun x hx y hy e => ?_⟩
  · have := Classical.not_not.1 e; exact h.tabs x hx y hy this.1 this.2
  · have := Classical.not_not.1 e; exact h.udfs x hx y hy this.1 this.2
  · have := Classical.not_not.1 e; exact (h.inTabs t ht).cols x hx y hy this.1 this.2.1 this.2.2
  · exact (h.inTabs t ht).idxs x hx y hy (by simpa using e)
  · exact (h.inTabs t ht).tiers x hx y hy (Classical.not_not.1 e)

example : Unique world ∧ world.tabs.length = 1 ∧ world.dbs.length = 2 := ⟨C90_unique_partial world_reach, by decide⟩

/-- C90: every table and every function belongs to a database that exists.  Partial: the database of a
`CREATE` is required to exist when the statement runs; see `C90_orphan_false`. -/
theorem C90_home_partial {c : Cat} (hr : ReachH c) :
    (∀ t ∈ c.tabs, (findDb c t.db).isSome = true) ∧ ∀ u ∈ c.udfs, (findDb c u.db).isSome = true := by
  have k : ∀ n : Name, (∃ d ∈ c.dbs, same d.name n = true) → (findDb c n).isSome = true := by
    rintro n ⟨d, hd, e⟩
    rw [(db_iff hr.reach.named n d).2 ⟨hd, e⟩]; rfl
  exact ⟨fun t ht => k _ (hr.homed.tabs t ht), fun u hu => k _ (hr.homed.udfs u hu)⟩

theorem world_reachH : ReachH world := by
  refine .commit .start ?_ ⟨trivial, (by show (findDb _ _).isSome = true; decide), trivial⟩ (by decide)
  intro s hs
  rcases List.mem_cons.1 hs with rfl | hs
  · trivial
  · rw [List.mem_singleton.1 hs]; refine ⟨by decide, by decide, by decide⟩
example : (findDb world nA).isSome = true := (C90_home_partial world_reachH).1 _ (List.getElem_mem (l := world.tabs) (n := 0) (by decide))

/-- C90 fails otherwise: `CREATE TABLE` is checked against the database under the shared lock, then the
lock is exchanged for the exclusive one and another session's `DROP DATABASE` may come in between; the
table is created in a database that is gone -/
theorem C90_orphan_false : ∃ c l c', Reach c ∧ (findDb c nA).isSome = true ∧
    c' = (session ⟨false, true⟩ l (session ⟨false, true⟩ [(okEnv, .dbDrop nA true false)] c).1).1 ∧
    (session ⟨false, true⟩ l (session ⟨false, true⟩ [(okEnv, .dbDrop nA true false)] c).1).2 = false ∧
    l = [(okEnv, .tabCreate tabAB false)] ∧ (findTab c' nA nB).isSome = true ∧ findDb c' nA = none :=
  ⟨world, _, _, world_reach, by decide, rfl, by decide, rfl, by decide, by decide⟩

/-! ### the meaning of the statements -/

theorem session_done {w : World} {e : Env} {s : Stmt} {c c' : Cat} (h : session w [(e, s)] c = (c', false)) :
    (exec e c s).reply ≠ .error ∧ c' = finishAll (exec e c s).cat (exec e c s).log := by
  have key : runTx [(e, s)] c = if (exec e c s).reply = .error then exec e c s else ⟨(exec e c s).cat, (exec e c s).log, .done⟩ := by
    show R.next _ _ = _
    unfold R.next
    by_cases er : (exec e c s).reply = .error
    · rw [if_pos er, if_pos er]
    · rw [if_neg er, if_neg er]; simp [loop]
  unfold session at h
  dsimp only at h
  by_cases er : (exec e c s).reply = .error
  · rw [if_pos er] at key
    rw [key, if_pos er] at h; simp at h
  · rw [if_neg er] at key
    rw [key] at h
    refine ⟨er, ?_⟩
    simp only [reduceCtorEq, if_false] at h
    unfold committed at h
    dsimp only at h
    split at h
    · exact (Prod.mk.inj h).1.symm
    · split at h
      · simp at h
      · split at h
        · simp at h
        · exact (Prod.mk.inj h).1.symm

/-- lookups other than of tables -/
structure OtherThanTables (c' c : Cat) : Prop where
  stors : ∀ n, findStor c' n = findStor c n
  dbs : ∀ n, findDb c' n = findDb c n
  udfs : ∀ d n, findUdf c' d n = findUdf c d n

theorem named_after {w : World} {e : Env} {s : Stmt} {c c' : Cat} (hn : Named c) (hq : ReqOk s) (h : session w [(e, s)] c = (c', false)) : Named c' := by
  obtain ⟨h1, h2⟩ := session_done h
  rw [h2]; exact named_finishAll (named_exec hn e s hq h1) _

theorem bool_if {α : Type} {p : Prop} [Decidable p] {a b : Option α} {t : α} :
    (if p then a else b) = some t ↔ (p ∧ a = some t) ∨ (¬p ∧ b = some t) := by
  by_cases hp : p
  · simp [hp]
  · simp [hp]

/-- C90, `DROP TABLE`: afterwards the name resolves to nothing, every other name as before -/
theorem C90_drop_table {w : World} {e : Env} {c c' : Cat} (hr : Reach c) {d n : Name} {ifEx : Bool}
    (h : session w [(e, .tabDrop d n ifEx)] c = (c', false)) :
    (∀ d' n', findTab c' d' n' = if same d' d = true ∧ same n' n = true then none else findTab c d' n') ∧ OtherThanTables c' c := by
  have hn := hr.named
  have hn' := named_after (s := .tabDrop d n ifEx) hn trivial h
  obtain ⟨h1, h2⟩ := session_done h
  change (tabDrop c d n ifEx).reply ≠ .error at h1
  change c' = finishAll (tabDrop c d n ifEx).cat (tabDrop c d n ifEx).log at h2
  unfold tabDrop at h1 h2
  by_cases hu : (!noUses c n) = true
  · rw [if_pos hu] at h1; exact absurd rfl h1
  · rw [if_neg hu] at h2
    cases hf : findTab c d n with
    | none =>
      rw [hf] at h2
      have h2 : c' = c := h2
      subst h2
      refine ⟨fun d' n' => ?_, fun _ => rfl, fun _ => rfl, fun _ _ => rfl⟩
      split
      · next hs =>
        refine Option.eq_none_iff_forall_ne_some.2 fun t ht => ?_
        obtain ⟨a, b, g⟩ := (tab_iff hn _ _ _).1 ht
        have := (tab_iff hn d n t).2 ⟨a, same_trans b hs.1, same_trans g hs.2⟩
        rw [hf] at this; cases this
      · rfl
    | some t =>
      rw [hf] at h2
      have h2 : c' = { c with tabs := del c.tabs t.oid } := h2
      have ht := (tab_iff hn d n t).1 hf
      refine ⟨fun d' n' => Option.ext fun x => ?_, ?_⟩
      · rw [tab_iff hn', bool_if]
        simp only [reduceCtorEq, and_false, false_or]
        rw [tab_iff hn, h2]
        show (x ∈ del c.tabs t.oid ∧ _) ↔ _
        rw [mem_del]
        constructor
        · rintro ⟨⟨hx, hne⟩, hd, hm⟩
          refine ⟨fun hs => hne ?_, hx, hd, hm⟩
          exact hn.names.tabs x hx t ht.1 (same_trans (same_trans hd hs.1) (same_symm ht.2.1)) (same_trans (same_trans hm hs.2) (same_symm ht.2.2))
        · rintro ⟨hs, hx, hd, hm⟩
          refine ⟨⟨hx, fun eo => hs ?_⟩, hd, hm⟩
          have := hn.only ht.1 hx eo
          subst this
          exact ⟨same_trans (same_symm hd) ht.2.1, same_trans (same_symm hm) ht.2.2⟩
      · rw [h2]; exact ⟨fun _ => rfl, fun _ => rfl, fun _ _ => rfl⟩

/-! addresses do not matter to a user -/
def Col.bare (x : Col) : Col := { x with cid := 0 }
def Idx.bare (x : Idx) : Idx := { x with iid := 0 }
def Tier.bare (x : Tier) : Tier := { x with tid := 0 }
def Tab.bare (t : Tab) : Tab :=
  { t with oid := 0, cols := t.cols.map Col.bare, idxs := t.idxs.map Idx.bare, tiers := t.tiers.map Tier.bare }

/-- a definition the parser makes (no dropped columns, storages unused) whose sizes fit the C `int` they pass through -/
structure Fresh (t : Tab) : Prop where
  cols : ∀ x ∈ t.cols, x.dropped = false
  vols : ∀ v ∈ t.vols, v.used = false
  tierVols : ∀ x ∈ t.tiers, ∀ v ∈ x.vols, v.used = false
  parts : -2147483648 ≤ t.parts ∧ t.parts ≤ 2147483647
  sizes : ∀ x ∈ t.tiers, -2147483648 ≤ x.regionSize ∧ x.regionSize ≤ 2147483647 ∧ -2147483648 ≤ x.objectSize ∧ x.objectSize ≤ 2147483647
  seq : t.seq = 0

theorem toInt_of {v : Int} (h : -2147483648 ≤ v ∧ v ≤ 2147483647) : toInt v = v := by
  unfold toInt toSigned toUnsigned
  simp only [Nat.reducePow, Nat.reduceSub]
  split <;> omega

theorem map_renumber {α β : Type} {f : Nat → α → α} {g : α → β} {l : List α} (k : Nat) (h : ∀ j, ∀ x ∈ l, g (f j x) = g x) :
    (renumber f k l).map g = l.map g := by
  induction l generalizing k with
  | nil => rfl
  | cons x l ih => simp only [renumber, List.map_cons, h k x (by simp), ih (k + 1) fun j y hy => h j y (by simp [hy])]

theorem volCopy_id {l : List Vol} (h : ∀ v ∈ l, v.used = false) : l.map volCopy = l := by
  have : l.map volCopy = l.map id := List.map_congr_left fun v hv => by
    show ({ v with used := false } : Vol) = v
    rw [← h v hv]
  rw [this, List.map_id]

theorem bare_copy {t : Tab} (h : Fresh t) (o : Nat) : (tabCopy o t).bare = t.bare := by
  unfold Tab.bare tabCopy
  dsimp only
  rw [map_renumber, map_renumber, map_renumber, toInt_of h.parts, volCopy_id h.vols, h.seq]
  · intro j x hx
    obtain ⟨a1, a2, a3, a4⟩ := h.sizes x hx
    show ({ tierCopy j x with tid := 0 } : Tier) = { x with tid := 0 }
    unfold tierCopy
    rw [toInt_of ⟨a1, a2⟩, toInt_of ⟨a3, a4⟩, volCopy_id (h.tierVols x hx)]
  · intro j x hx; rfl
  · intro j x hx
    show ({ x with cid := 0, dropped := false } : Col) = { x with cid := 0 }
    rw [← h.cols x hx]

/-- C90, `CREATE TABLE`: the name resolves to a table as declared, every other name as before; a name in
use is an error, or nothing with `IF NOT EXISTS` -/
theorem C90_create_table {w : World} {e : Env} {c c' : Cat} (hr : Reach c) {t : Tab} {ifNot : Bool} (hq : ReqOk (.tabCreate t ifNot)) (hf : Fresh t)
    (h : session w [(e, .tabCreate t ifNot)] c = (c', false)) :
    ((findTab c t.db t.name).isSome = true → ifNot = true ∧ c' = c) ∧
    (findTab c t.db t.name = none → ∃ t', t'.bare = t.bare ∧
      ∀ d' n', findTab c' d' n' = if same d' t.db = true ∧ same n' t.name = true then some t' else findTab c d' n') ∧ OtherThanTables c' c := by
  have hn := hr.named
  have hn' := named_after hn hq h
  obtain ⟨h1, h2⟩ := session_done h
  change (tabCreate e c t ifNot).reply ≠ .error at h1
  change c' = finishAll (tabCreate e c t ifNot).cat (tabCreate e c t ifNot).log at h2
  unfold tabCreate at h1 h2
  by_cases hx : (findTab c t.db t.name).isSome = true
  · rw [if_pos hx] at h1 h2
    have h2 : c' = c := h2
    refine ⟨fun _ => ⟨?_, h2⟩, fun h0 => by rw [h0] at hx; simp at hx, by rw [h2]; exact ⟨fun _ => rfl, fun _ => rfl, fun _ _ => rfl⟩⟩
    cases ifNot with
    | true => rfl
    | false => exact absurd rfl h1
  · rw [if_neg hx] at h2
    have h2 : c' = { c with tabs := put c.tabs (tabCopy c.next t), next := c.next + tabSpan t } := h2
    refine ⟨fun h0 => absurd h0 hx, fun h0 => ⟨tabCopy c.next t, bare_copy hf _, fun d' n' => Option.ext fun x => ?_⟩, ?_⟩
    · rw [tab_iff hn', bool_if, tab_iff hn, h2]
      show (x ∈ c.tabs ++ [tabCopy c.next t] ∧ _) ↔ _
      rw [List.mem_append, List.mem_singleton]
      have hno := findTab_none hx
      constructor
      · rintro ⟨hm | rfl, hd, hm'⟩
        · refine .inr ⟨fun hs => ?_, hm, hd, hm'⟩
          have := hno x hm
          rw [same_trans hd hs.1, same_trans hm' hs.2] at this; simp at this
        · exact .inl ⟨⟨same_symm hd, same_symm hm'⟩, rfl⟩
      · rintro (⟨⟨hd, hm⟩, he⟩ | ⟨_, hm, hd, hm'⟩)
        · cases he; exact ⟨.inr rfl, same_symm hd, same_symm hm⟩
        · exact ⟨.inl hm, hd, hm'⟩
    · rw [h2]; exact ⟨fun _ => rfl, fun _ => rfl, fun _ _ => rfl⟩

/-- C90, `ALTER TABLE RENAME`: the new name resolves to the table, the old one to nothing, every other
name as before -/
theorem C90_rename_table {w : World} {e : Env} {c c' : Cat} (hr : Reach c) {d n d2 n2 : Name} {ifEx : Bool} {t : Tab} (hf : findTab c d n = some t)
    (h : session w [(e, .tabRename d n d2 n2 ifEx)] c = (c', false)) :
    (∃ t', t'.bare = { t with db := t'.db, name := t'.name }.bare ∧ same t'.db d2 = true ∧ same t'.name n2 = true ∧
      ∀ d' n', findTab c' d' n' =
        if same d' d2 = true ∧ same n' n2 = true then some t'
        else if same d' d = true ∧ same n' n = true then none else findTab c d' n') ∧
    findTab c d2 n2 = none ∧ (findDb c d2).isSome = true ∧ OtherThanTables c' c := by
  have hn := hr.named
  have hn' := named_after (s := .tabRename d n d2 n2 ifEx) hn trivial h
  obtain ⟨h1, h2⟩ := session_done h
  change (tabRenameTop c d n d2 n2 ifEx).reply ≠ .error at h1
  change c' = finishAll (tabRenameTop c d n d2 n2 ifEx).cat (tabRenameTop c d n d2 n2 ifEx).log at h2
  unfold tabRenameTop at h1 h2
  by_cases hd : (findDb c d2).isNone = true
  · rw [if_pos hd] at h1; exact absurd rfl h1
  · rw [if_neg hd] at h1 h2
    by_cases hu : (!noUses c n) = true
    · rw [if_pos hu] at h1; exact absurd rfl h1
    · rw [if_neg hu] at h1 h2
      unfold tabRename at h1 h2
      rw [hf] at h1 h2
      simp only [Option.elim] at h1 h2
      by_cases hx : (findTab c d2 n2).isSome = true
      · rw [if_pos hx] at h1; exact absurd rfl h1
      · rw [if_neg hx] at h2
        have h2 : c' = onTab c t.oid fun t => { t with db := respell t.db d2, name := respell t.name n2 } := h2
        have ht := (tab_iff hn d n t).1 hf
        refine ⟨⟨{ t with db := respell t.db d2, name := respell t.name n2 }, rfl, same_respell _ _, same_respell _ _, fun d' n' => Option.ext fun x => ?_⟩,
          by cases hy : findTab c d2 n2 with
             | none => rfl
             | some y => rw [hy] at hx; simp at hx,
          not_isNone hd, ?_⟩
        · rw [tab_iff hn', bool_if, bool_if, tab_iff hn]
          simp only [reduceCtorEq, and_false, false_or]
          have hno := findTab_none hx
          rw [h2]
          show (x ∈ upd c.tabs t.oid _ ∧ _) ↔ _
          constructor
          · rintro ⟨hm, hd', hm'⟩
            obtain ⟨y, hy, rfl⟩ := mem_upd hm
            by_cases ey : HasOid.oid y = t.oid
            · simp only [ey, if_true] at hd' hm' ⊢
              have := hn.only ht.1 hy ey
              subst this
              exact .inl ⟨⟨same_symm (same_trans (same_symm (same_respell _ _)) hd'), same_symm (same_trans (same_symm (same_respell _ _)) hm')⟩, rfl⟩
            · simp only [ey, if_false] at hd' hm' ⊢
              refine .inr ⟨fun hs => ?_, fun hs => ey ?_, hy, hd', hm'⟩
              · have := hno y hy
                rw [same_trans hd' hs.1, same_trans hm' hs.2] at this; simp at this
              · exact hn.names.tabs y hy t ht.1 (same_trans (same_trans hd' hs.1) (same_symm ht.2.1)) (same_trans (same_trans hm' hs.2) (same_symm ht.2.2))
          · rintro (⟨⟨a, b⟩, he⟩ | ⟨hs, hs2, hm, hd', hm'⟩)
            · cases he
              refine ⟨List.mem_map.2 ⟨t, ht.1, if_pos rfl⟩, same_trans (same_respell _ _) (same_symm a), same_trans (same_respell _ _) (same_symm b)⟩
            · refine ⟨List.mem_map.2 ⟨x, hm, if_neg fun ex => hs2 ?_⟩, hd', hm'⟩
              have := hn.only ht.1 hm ex
              subst this
              exact ⟨same_trans (same_symm hd') ht.2.1, same_trans (same_symm hm') ht.2.2⟩
        · rw [h2]; exact ⟨fun _ => rfl, fun _ => rfl, fun _ _ => rfl⟩

/-- C90, `DROP DATABASE`: nothing resolves in it any more and everything else does as before; without
`CASCADE` it was empty; a system database is never dropped -/
theorem C90_drop_database {w : World} {e : Env} {c c' : Cat} (hr : Reach c) {n : Name} {cascade ifEx : Bool} {d : Db} (hf : findDb c n = some d)
    (h : session w [(e, .dbDrop n cascade ifEx)] c = (c', false)) :
    d.system = false ∧
    (∀ m, findDb c' m = if same m n = true then none else findDb c m) ∧
    (∀ d' n', findTab c' d' n' = if same d' n = true then none else findTab c d' n') ∧
    (∀ d' n', findUdf c' d' n' = if same d' n = true then none else findUdf c d' n') ∧
    (∀ m, findStor c' m = findStor c m) ∧
    (cascade = false → ∀ m, findTab c n m = none ∧ findUdf c n m = none) := by
  have hn := hr.named
  have hn' := named_after (s := .dbDrop n cascade ifEx) hn trivial h
  obtain ⟨h1, h2⟩ := session_done h
  change (dbDrop c n cascade ifEx).reply ≠ .error at h1
  obtain ⟨e1, e2, e3⟩ := dbDrop_effect hn.wf hf h1
  have h2 : c' = (dbDrop c n cascade ifEx).cat := h2.trans (plain_finishAll (plain_dbDrop c n cascade ifEx) _)
  rw [e2] at h2
  have hd := (db_iff hn n d).1 hf
  refine ⟨e1, fun m => Option.ext fun x => ?_, fun d' n' => Option.ext fun x => ?_, fun d' n' => Option.ext fun x => ?_, fun m => by rw [h2]; rfl, fun hk m => ⟨?_, ?_⟩⟩
  · rw [db_iff hn', bool_if, db_iff hn, h2]
    show (x ∈ del c.dbs d.oid ∧ _) ↔ _
    rw [mem_del]
    simp only [reduceCtorEq, and_false, false_or]
    constructor
    · rintro ⟨⟨hx, hne⟩, hm⟩
      exact ⟨fun hs => hne (hn.dbs x hx d hd.1 (same_trans (same_trans hm hs) (same_symm hd.2))), hx, hm⟩
    · rintro ⟨hs, hx, hm⟩
      refine ⟨⟨hx, fun eo => hs ?_⟩, hm⟩
      have := dbOnly hn.wf hx hd.1 eo
      subst this
      exact same_trans (same_symm hm) hd.2
  · rw [tab_iff hn', bool_if, tab_iff hn, h2]
    show (x ∈ c.tabs.filter _ ∧ _) ↔ _
    rw [List.mem_filter]
    simp only [reduceCtorEq, and_false, false_or]
    constructor
    · rintro ⟨⟨hx, hs⟩, hd', hm⟩
      refine ⟨fun hq => ?_, hx, hd', hm⟩
      rw [same_trans hd' hq] at hs; simp at hs
    · rintro ⟨hs, hx, hd', hm⟩
      refine ⟨⟨hx, ?_⟩, hd', hm⟩
      cases hq : same x.db n with
      | false => rfl
      | true => exact absurd (same_trans (same_symm hd') hq) hs
  · rw [udf_iff hn', bool_if, udf_iff hn, h2]
    show (x ∈ c.udfs.filter _ ∧ _) ↔ _
    rw [List.mem_filter]
    simp only [reduceCtorEq, and_false, false_or]
    constructor
    · rintro ⟨⟨hx, hs⟩, hd', hm⟩
      refine ⟨fun hq => ?_, hx, hd', hm⟩
      rw [same_trans hd' hq] at hs; simp at hs
    · rintro ⟨hs, hx, hd', hm⟩
      refine ⟨⟨hx, ?_⟩, hd', hm⟩
      cases hq : same x.db n with
      | false => rfl
      | true => exact absurd (same_trans (same_symm hd') hq) hs
  · refine Option.eq_none_iff_forall_ne_some.2 fun t ht => ?_
    obtain ⟨a, b, g⟩ := (tab_iff hn _ _ _).1 ht
    rw [(e3 hk).1 t a] at b; simp at b
  · refine Option.eq_none_iff_forall_ne_some.2 fun t ht => ?_
    obtain ⟨a, b, g⟩ := (udf_iff hn _ _ _).1 ht
    rw [(e3 hk).2 t a] at b; simp at b

/-- C90, `ALTER DATABASE RENAME`: the new name resolves to the database and its tables, the old one to
nothing, everything else as before; a database with functions, or a system one, is not renamed -/
theorem C90_rename_database {w : World} {e : Env} {c c' : Cat} (hr : ReachH c) {n new : Name} {ifEx : Bool} {d : Db} (hf : findDb c n = some d)
    (h : session w [(e, .dbRename n new ifEx)] c = (c', false)) :
    d.system = false ∧ findDb c new = none ∧ (∀ m, findUdf c n m = none) ∧
    (∀ m, findDb c' m = if same m new = true then some { d with name := new } else if same m n = true then none else findDb c m) ∧
    (∀ d' n', findTab c' d' n' =
      if same d' new = true then (findTab c n n').map fun t => { t with db := new }
      else if same d' n = true then none else findTab c d' n') ∧
    (∀ d' n', findUdf c' d' n' = findUdf c d' n') ∧ (∀ m, findStor c' m = findStor c m) := by
  have hn := hr.reach.named
  have hn' := named_after (s := .dbRename n new ifEx) hn trivial h
  obtain ⟨h1, h2⟩ := session_done h
  change (dbRename c n new ifEx).reply ≠ .error at h1
  obtain ⟨e1, e2, e3, e4⟩ := dbRename_effect hn hf h1
  have h2 : c' = (dbRename c n new ifEx).cat := h2.trans (plain_finishAll (plain_dbRename c n new ifEx) _)
  rw [e4] at h2
  have hd := (db_iff hn n d).1 hf
  have hno : ∀ x ∈ c.dbs, same x.name new = false := findDb_none (by rw [e2]; simp)
  have hnn : ∀ x : Name, same x n = true → same x new = false := by
    intro x hx
    cases hq : same x new with
    | false => rfl
    | true =>
      have := hno d hd.1
      rw [same_trans hd.2 (same_trans (same_symm hx) hq)] at this; simp at this
  -- no table is in a database called `new`
  have hfree : ∀ t ∈ c.tabs, same t.db new = false := by
    intro t ht
    obtain ⟨x, hx, hs⟩ := hr.homed.tabs t ht
    cases hq : same t.db new with
    | false => rfl
    | true => have := hno x hx; rw [same_trans hs hq] at this; simp at this
  refine ⟨e1, e2, fun m => ?_, fun m => Option.ext fun x => ?_, fun d' n' => Option.ext fun x => ?_, fun d' n' => by rw [h2]; rfl, fun m => by rw [h2]; rfl⟩
  · refine Option.eq_none_iff_forall_ne_some.2 fun t ht => ?_
    obtain ⟨a, b, g⟩ := (udf_iff hn _ _ _).1 ht
    rw [e3 t a] at b; simp at b
  · rw [db_iff hn', bool_if, bool_if, db_iff hn, h2]
    simp only [reduceCtorEq, and_false, false_or]
    show (x ∈ upd c.dbs d.oid _ ∧ _) ↔ _
    constructor
    · rintro ⟨hm, hx⟩
      obtain ⟨y, hy, rfl⟩ := mem_upd hm
      by_cases ey : HasOid.oid y = d.oid
      · have := dbOnly hn.wf hy hd.1 ey
        subst this
        simp only [ey, if_true] at hx ⊢
        exact .inl ⟨same_symm hx, trivial⟩
      · simp only [ey, if_false] at hx ⊢
        refine .inr ⟨fun hs => ?_, fun hs => ey ?_, hy, hx⟩
        · have := hno y hy; rw [same_trans hx hs] at this; simp at this
        · exact hn.dbs y hy d hd.1 (same_trans (same_trans hx hs) (same_symm hd.2))
    · rintro (⟨hs, he⟩ | ⟨hs, hs2, hm, hx⟩)
      · cases he
        exact ⟨List.mem_map.2 ⟨d, hd.1, if_pos rfl⟩, same_symm hs⟩
      · refine ⟨List.mem_map.2 ⟨x, hm, if_neg fun ex => hs2 ?_⟩, hx⟩
        have := dbOnly hn.wf hm hd.1 ex
        subst this
        exact same_trans (same_symm hx) hd.2
  · rw [tab_iff hn', bool_if, bool_if, Option.map_eq_some_iff, h2]
    simp only [reduceCtorEq, and_false, false_or]
    show (x ∈ c.tabs.map (moveTab n new) ∧ _) ↔ _
    constructor
    · rintro ⟨hm, hx, hx'⟩
      obtain ⟨y, hy, rfl⟩ := List.mem_map.1 hm
      unfold moveTab at hx hx' ⊢
      by_cases ey : same y.db n = true
      · rw [if_pos ey] at hx hx' ⊢
        have hr' : respell y.db new = new := by unfold respell; rw [if_neg (by rw [hnn y.db ey]; simp)]
        rw [hr'] at hx ⊢
        exact .inl ⟨same_symm hx, y, (tab_iff hn _ _ _).2 ⟨hy, ey, hx'⟩, rfl⟩
      · rw [if_neg ey] at hx hx' ⊢
        refine .inr ⟨fun hs => ?_, fun hs => ey (same_trans hx hs), (tab_iff hn _ _ _).2 ⟨hy, hx, hx'⟩⟩
        have := hfree y hy; rw [same_trans hx hs] at this; simp at this
    · rintro (⟨hs, y, hy, rfl⟩ | ⟨hs, hs2, hy⟩)
      · obtain ⟨a, b, g⟩ := (tab_iff hn _ _ _).1 hy
        have hr' : respell y.db new = new := by unfold respell; rw [if_neg (by rw [hnn y.db b]; simp)]
        refine ⟨List.mem_map.2 ⟨y, a, ?_⟩, same_symm hs, g⟩
        unfold moveTab; rw [if_pos b, hr']
      · obtain ⟨a, b, g⟩ := (tab_iff hn _ _ _).1 hy
        refine ⟨List.mem_map.2 ⟨x, a, ?_⟩, b, g⟩
        unfold moveTab; rw [if_neg fun hq => hs2 (same_trans (same_symm b) hq)]

/-! ### columns -/

theorem col_iff {t : Tab} (ho : NodO t.cols) (hk : Keyed colEq t.cols) (n : Name) (x : Col) :
    findCol t n = some x ↔ x ∈ t.cols ∧ x.dropped = false ∧ same x.name n = true := by
  unfold findCol
  rw [find_iff]
  · simp [Bool.and_eq_true]
  · intro x hx y hy px py
    simp only [Bool.and_eq_true, Bool.not_eq_true'] at px py
    have e := hk x hx y hy (by simp only [colEq, px.1, py.1, Bool.and_eq_true]; exact ⟨by simp, same_trans px.2 (same_symm py.2)⟩)
    have h1 := at_of_mem ho hx
    have h2 := at_of_mem ho hy
    rw [e] at h1
    exact Option.some.inj (h1.symm.trans h2)

/-- changing one table in place: what the names resolve to -/
theorem alter_lookup {c : Cat} (hn : Named c) {d n : Name} {t : Tab} (ht : findTab c d n = some t) {f : Tab → Tab} {m : Nat}
    (hf : ∀ t, (f t).db = t.db ∧ (f t).name = t.name ∧ (f t).oid = t.oid) (hn' : Named { onTab c t.oid f with next := m }) (d' n' : Name) :
    findTab { onTab c t.oid f with next := m } d' n' = if same d' d = true ∧ same n' n = true then some (f t) else findTab c d' n' := by
  refine Option.ext fun x => ?_
  have h := (tab_iff hn d n t).1 ht
  rw [tab_iff hn', bool_if, tab_iff hn]
  show (x ∈ upd c.tabs t.oid f ∧ _) ↔ _
  constructor
  · rintro ⟨hm, hd', hm'⟩
    obtain ⟨y, hy, rfl⟩ := mem_upd hm
    by_cases ey : HasOid.oid y = t.oid
    · have := hn.only h.1 hy ey
      subst this
      simp only [ey, if_true, (hf y).1, (hf y).2.1] at hd' hm' ⊢
      exact .inl ⟨⟨same_trans (same_symm hd') h.2.1, same_trans (same_symm hm') h.2.2⟩, trivial⟩
    · simp only [ey, if_false] at hd' hm' ⊢
      refine .inr ⟨fun hs => ey ?_, hy, hd', hm'⟩
      exact hn.names.tabs y hy t h.1 (same_trans (same_trans hd' hs.1) (same_symm h.2.1)) (same_trans (same_trans hm' hs.2) (same_symm h.2.2))
  · rintro (⟨⟨a, b⟩, he⟩ | ⟨hs, hm, hd', hm'⟩)
    · cases he
      refine ⟨List.mem_map.2 ⟨t, h.1, if_pos rfl⟩, ?_, ?_⟩
      · rw [(hf t).1]; exact same_trans h.2.1 (same_symm a)
      · rw [(hf t).2.1]; exact same_trans h.2.2 (same_symm b)
    · refine ⟨List.mem_map.2 ⟨x, hm, if_neg fun ex => hs ?_⟩, hd', hm'⟩
      have := hn.only h.1 hm ex
      subst this
      exact ⟨same_trans (same_symm hd') h.2.1, same_trans (same_symm hm') h.2.2⟩

/-- everything about a table but its columns -/
def Tab.rest (t : Tab) : Tab := { t with cols := [] }

/-- C90, `ALTER TABLE ADD COLUMN`: the new column is found by its name, at the end; the other columns and
the other tables are as before -/
theorem C90_add_column {w : World} {e : Env} {c c' : Cat} (hr : Reach c) {d n : Name} {x : Col} {i j : Bool} {t : Tab} (ht : findTab c d n = some t)
    (hx : findCol t x.name = none) (hd : x.dropped = false) (h : session w [(e, .colAdd d n x i j)] c = (c', false)) :
    (∃ t' x', t'.rest = t.rest ∧ t'.cols = t.cols ++ [x'] ∧ x'.bare = x.bare ∧
      (∀ m, findCol t' m = if same m x.name = true then some x' else findCol t m) ∧
      ∀ d' n', findTab c' d' n' = if same d' d = true ∧ same n' n = true then some t' else findTab c d' n') ∧ OtherThanTables c' c := by
  have hn := hr.named
  have hn' := named_after (s := .colAdd d n x i j) hn trivial h
  obtain ⟨h1, h2⟩ := session_done h
  change (colAdd c d n x i j).reply ≠ .error at h1
  change c' = finishAll (colAdd c d n x i j).cat (colAdd c d n x i j).log at h2
  unfold colAdd at h1 h2
  rw [ht] at h1 h2
  simp only [Option.elim] at h1 h2
  rw [if_neg (by rw [hx]; simp)] at h1 h2
  by_cases hi : (decide (x.cons.identity ≠ 0) && hasIdentity t) = true
  · rw [if_pos hi] at h1; exact absurd rfl h1
  · rw [if_neg hi] at h2
    have h2 : c' = { onTab c t.oid (fun t => { t with cols := put t.cols (colCopy c.next x) }) with next := c.next + 1 } := h2
    have lk := alter_lookup hn ht (f := fun t => { t with cols := put t.cols (colCopy c.next x) }) (m := c.next + 1) (fun _ => ⟨rfl, rfl, rfl⟩) (h2 ▸ hn')
    rw [← h2] at lk
    have htm := ((tab_iff hn d n t).1 ht).1
    have hnew : findTab c' d n = some { t with cols := put t.cols (colCopy c.next x) } := by
      rw [lk d n, if_pos ⟨same_refl _, same_refl _⟩]
    have hm' := ((tab_iff hn' _ _ _).1 hnew).1
    refine ⟨⟨{ t with cols := put t.cols (colCopy c.next x) }, colCopy c.next x, rfl, rfl, ?_, fun m => Option.ext fun y => ?_, lk⟩, by rw [h2]; exact ⟨fun _ => rfl, fun _ => rfl, fun _ _ => rfl⟩⟩
    · show ({ x with cid := 0, dropped := false } : Col) = { x with cid := 0 }
      rw [← hd]
    · rw [col_iff (hn'.wf.tabOk _ hm').cols (hn'.inTabs _ hm').cols, bool_if, col_iff (hn.wf.tabOk t htm).cols (hn.inTabs t htm).cols]
      show (y ∈ t.cols ++ [colCopy c.next x] ∧ _) ↔ _
      rw [List.mem_append, List.mem_singleton]
      have hno := findCol_none (t := t) (n := x.name) (by rw [hx]; simp)
      constructor
      · rintro ⟨hm | rfl, hdr, hs⟩
        · refine .inr ⟨fun hq => ?_, hm, hdr, hs⟩
          have := hno y hm; rw [hdr, same_trans hs hq] at this; simp at this
        · exact .inl ⟨same_symm hs, rfl⟩
      · rintro (⟨hs, he⟩ | ⟨_, hm, hdr, hs⟩)
        · cases he; exact ⟨.inr rfl, rfl, same_symm hs⟩
        · exact ⟨.inl hm, hdr, hs⟩

/-- C90, `ALTER TABLE DROP COLUMN`: the name no longer resolves; the other columns and the other tables
are as before; a column of a key is not dropped -/
theorem C90_drop_column {w : World} {e : Env} {c c' : Cat} (hr : Reach c) {d n x : Name} {i j : Bool} {t : Tab} {k : Col} (ht : findTab c d n = some t)
    (hx : findCol t x = some k) (h : session w [(e, .colDrop d n x i j)] c = (c', false)) :
    (∃ t', t'.rest = t.rest ∧ t'.cols.length = t.cols.length ∧
      (∀ m, findCol t' m = if same m x = true then none else findCol t m) ∧
      ∀ d' n', findTab c' d' n' = if same d' d = true ∧ same n' n = true then some t' else findTab c d' n') ∧
    (∀ ix ∈ t.idxs, ∀ r ∈ ix.keys, t.cols[r.ref]? ≠ some k) ∧ OtherThanTables c' c := by
  have hn := hr.named
  have hn' := named_after (s := .colDrop d n x i j) hn trivial h
  obtain ⟨h1, h2⟩ := session_done h
  change (colDrop c d n x i j).reply ≠ .error at h1
  change c' = finishAll (colDrop c d n x i j).cat (colDrop c d n x i j).log at h2
  unfold colDrop at h1 h2
  by_cases hu : (!noUses c n) = true
  · rw [if_pos hu] at h1; exact absurd rfl h1
  · rw [if_neg hu, ht] at h1 h2
    simp only [Option.elim] at h1 h2
    rw [hx] at h1 h2
    simp only [Option.elim] at h1 h2
    by_cases hi : isKey t k = true
    · rw [if_pos hi] at h1; exact absurd rfl h1
    · rw [if_neg hi] at h2
      have h2 : c' = { onTab c t.oid (onCol k.cid fun x => { x with dropped := true, cons := Cons.init }) with next := c.next } := h2
      have lk := alter_lookup hn ht (f := onCol k.cid fun x => { x with dropped := true, cons := Cons.init }) (m := c.next) (fun _ => ⟨rfl, rfl, rfl⟩) (h2 ▸ hn')
      rw [← h2] at lk
      have htm := ((tab_iff hn d n t).1 ht).1
      have hnew : findTab c' d n = some (onCol k.cid (fun x => { x with dropped := true, cons := Cons.init }) t) := by
        rw [lk d n, if_pos ⟨same_refl _, same_refl _⟩]
      have hm' := ((tab_iff hn' _ _ _).1 hnew).1
      have kt := (hn.wf.tabOk t htm).cols
      have kk := (hn.inTabs t htm).cols
      have hk := (col_iff kt kk x k).1 hx
      have only : ∀ y ∈ t.cols, y.cid = k.cid → y = k := by
        intro y hy e
        have h1 := at_of_mem kt hy
        have h2 := at_of_mem kt hk.1
        rw [show HasOid.oid y = HasOid.oid k from e] at h1
        exact Option.some.inj (h1.symm.trans h2)
      refine ⟨⟨onCol k.cid (fun x => { x with dropped := true, cons := Cons.init }) t, rfl, by simp [onCol, upd], fun m => Option.ext fun y => ?_, lk⟩, ?_, by rw [h2]; exact ⟨fun _ => rfl, fun _ => rfl, fun _ _ => rfl⟩⟩
      · rw [col_iff (hn'.wf.tabOk _ hm').cols (hn'.inTabs _ hm').cols, bool_if, col_iff kt kk]
        simp only [reduceCtorEq, and_false, false_or]
        show (y ∈ upd t.cols k.cid _ ∧ _) ↔ _
        constructor
        · rintro ⟨hm, hdr, hs⟩
          obtain ⟨z, hz, rfl⟩ := mem_upd hm
          by_cases ez : HasOid.oid z = k.cid
          · simp only [ez, if_true] at hdr; simp at hdr
          · simp only [ez, if_false] at hdr hs ⊢
            refine ⟨fun hq => ez ?_, hz, hdr, hs⟩
            exact kk z hz k hk.1 (by simp only [colEq, hdr, hk.2.1, Bool.and_eq_true]; exact ⟨by simp, same_trans (same_trans hs hq) (same_symm hk.2.2)⟩)
        · rintro ⟨hs, hm, hdr, hq⟩
          refine ⟨List.mem_map.2 ⟨y, hm, if_neg fun ey => hs ?_⟩, hdr, hq⟩
          rw [only y hm ey] at hq
          exact same_trans (same_symm hq) hk.2.2
      · intro ix hix r hr' e
        refine hi ?_
        unfold isKey
        exact List.any_eq_true.2 ⟨ix, hix, List.any_eq_true.2 ⟨r, hr', by rw [e]; simp⟩⟩

/-- C90, `ALTER TABLE RENAME COLUMN`: the new name resolves to the column, in its place, the old one to
nothing; the other columns and the other tables are as before -/
theorem C90_rename_column {w : World} {e : Env} {c c' : Cat} (hr : Reach c) {d n x y : Name} {i j : Bool} {t : Tab} {k : Col} (ht : findTab c d n = some t)
    (hx : findCol t x = some k) (h : session w [(e, .colRename d n x y i j)] c = (c', false)) :
    (∃ t', t'.rest = t.rest ∧ t'.cols = t.cols.map (fun z => if z = k then { k with name := y } else z) ∧
      (∀ m, findCol t' m = if same m y = true then some { k with name := y } else if same m x = true then none else findCol t m) ∧
      ∀ d' n', findTab c' d' n' = if same d' d = true ∧ same n' n = true then some t' else findTab c d' n') ∧
    findCol t y = none ∧ OtherThanTables c' c := by
  have hn := hr.named
  have hn' := named_after (s := .colRename d n x y i j) hn trivial h
  obtain ⟨h1, h2⟩ := session_done h
  change (colRename c d n x y i j).reply ≠ .error at h1
  change c' = finishAll (colRename c d n x y i j).cat (colRename c d n x y i j).log at h2
  unfold colRename at h1 h2
  by_cases hu : (!noUses c n) = true
  · rw [if_pos hu] at h1; exact absurd rfl h1
  · rw [if_neg hu, ht] at h1 h2
    simp only [Option.elim] at h1 h2
    rw [hx] at h1 h2
    simp only [Option.elim] at h1 h2
    by_cases hi : (findCol t y).isSome = true
    · rw [if_pos hi] at h1; exact absurd rfl h1
    · rw [if_neg hi] at h2
      have h2 : c' = { onTab c t.oid (onCol k.cid fun x => { x with name := y }) with next := c.next } := h2
      have lk := alter_lookup hn ht (f := onCol k.cid fun x => { x with name := y }) (m := c.next) (fun _ => ⟨rfl, rfl, rfl⟩) (h2 ▸ hn')
      rw [← h2] at lk
      have htm := ((tab_iff hn d n t).1 ht).1
      have hnew : findTab c' d n = some (onCol k.cid (fun x => { x with name := y }) t) := by
        rw [lk d n, if_pos ⟨same_refl _, same_refl _⟩]
      have hm' := ((tab_iff hn' _ _ _).1 hnew).1
      have kt := (hn.wf.tabOk t htm).cols
      have kk := (hn.inTabs t htm).cols
      have hk := (col_iff kt kk x k).1 hx
      have only : ∀ y ∈ t.cols, y.cid = k.cid → y = k := by
        intro y hy e
        have h1 := at_of_mem kt hy
        have h2 := at_of_mem kt hk.1
        rw [show HasOid.oid y = HasOid.oid k from e] at h1
        exact Option.some.inj (h1.symm.trans h2)
      have hno := findCol_none hi
      refine ⟨⟨onCol k.cid (fun x => { x with name := y }) t, rfl, ?_, fun m => Option.ext fun z => ?_, lk⟩, (by cases hq : findCol t y with
        | none => rfl
        | some q => rw [hq] at hi; simp at hi), by rw [h2]; exact ⟨fun _ => rfl, fun _ => rfl, fun _ _ => rfl⟩⟩
      · show t.cols.map _ = _
        refine List.map_congr_left fun z hz => ?_
        by_cases ez : z = k
        · subst ez; rw [if_pos rfl, if_pos (show HasOid.oid z = z.cid from rfl)]
        · rw [if_neg ez, if_neg (show ¬ HasOid.oid z = k.cid from fun eo => ez (only z hz eo))]
      · rw [col_iff (hn'.wf.tabOk _ hm').cols (hn'.inTabs _ hm').cols, bool_if, bool_if, col_iff kt kk]
        simp only [reduceCtorEq, and_false, false_or]
        show (z ∈ upd t.cols k.cid _ ∧ _) ↔ _
        constructor
        · rintro ⟨hm, hdr, hs⟩
          obtain ⟨q, hq, rfl⟩ := mem_upd hm
          by_cases ez : HasOid.oid q = k.cid
          · have := only q hq ez
            subst this
            simp only [ez, if_true] at hs ⊢
            exact .inl ⟨same_symm hs, trivial⟩
          · simp only [ez, if_false] at hdr hs ⊢
            refine .inr ⟨fun hy => ?_, fun hy => ez ?_, hq, hdr, hs⟩
            · have := hno q hq; rw [hdr, same_trans hs hy] at this; simp at this
            · exact kk q hq k hk.1 (by simp only [colEq, hdr, hk.2.1, Bool.and_eq_true]; exact ⟨by simp, same_trans (same_trans hs hy) (same_symm hk.2.2)⟩)
        · rintro (⟨hs, he⟩ | ⟨hs, hs2, hm, hdr, hq⟩)
          · cases he
            exact ⟨List.mem_map.2 ⟨k, hk.1, if_pos rfl⟩, hk.2.1, same_symm hs⟩
          · refine ⟨List.mem_map.2 ⟨z, hm, if_neg fun ey => hs2 ?_⟩, hdr, hq⟩
            rw [only z hm ey] at hq
            exact same_trans (same_symm hq) hk.2.2

/-! cases that meet the hypotheses -/
example : ∃ c', session ⟨false, true⟩ [(okEnv, .tabRename nA nB mainName nAup false)] world = (c', false) ∧ (findTab c' mainName nA).isSome = true ∧ findTab c' nA nB = none :=
  ⟨_, rfl, by decide, by decide⟩
example : ∃ c', session ⟨false, true⟩ [(okEnv, .dbDrop nAup true false)] world = (c', false) ∧ findTab c' nA nB = none ∧ (findDb world nA).isSome = true :=
  ⟨_, rfl, by decide, by decide⟩
example : (session ⟨false, true⟩ [(okEnv, .dbDrop nA false false)] world).2 = true := by decide
example : ∃ c', session ⟨false, true⟩ [(okEnv, .dbRename nA [99] false)] world = (c', false) ∧ (findTab c' [99] nB).isSome = true := ⟨_, rfl, by decide⟩
example : ∃ c', session ⟨false, true⟩ [(okEnv, .colDrop nA nB nB false false)] world = (c', false) ∧ ((findTab c' nA nB).bind fun t => findCol t nB) = none :=
  ⟨_, rfl, by decide⟩
example : (session ⟨false, true⟩ [(okEnv, .colDrop nA nB nA false false)] world).2 = true := by decide
example : ∃ c', session ⟨false, true⟩ [(okEnv, .colAdd nA nB (intCol [99]) false false)] world = (c', false) ∧
    ((findTab c' nA nB).bind fun t => findCol t [67]).isSome = true := ⟨_, rfl, by decide⟩
example : Fresh tabAB := ⟨by decide, by decide, by decide, by decide, by decide, by decide⟩

end Verif.Catalog
