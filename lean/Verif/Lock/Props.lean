import Verif.Lock.SessProofs
/-!
# Properties of relation locks: C28, C29, C30, C53, C54
-/
set_option linter.unusedSimpArgs false
namespace Verif.Lock

instance (s : Sys) (op : Op) : Decidable (s.ok op) := by
  cases op <;> unfold Sys.ok <;> infer_instance

/-! ## C28 -/

/-- C28: two different granted locks on the same relation are never in conflicting modes -/
theorem C28_no_conflict (s : Sys) (ops : List Op) (hr : Run Sys.init ops s) (a b : LockRec) (ha : a ∈ s.locks) (hb : b ∈ s.locks)
    (hne : a.id ≠ b.id) (hrel : a.rel = b.rel) (ga : a.waiting = false) (gb : b.waiting = false) :
    conflict a.mode b.mode = false :=
  (run_ok hr inv_init blocked_init).1.compat a ha b hb hne hrel ga gb

/-- C28, the particular case users rely on: while DDL holds a relation exclusively nobody else has any lock on it -/
theorem C28_exclusive_alone (s : Sys) (ops : List Op) (hr : Run Sys.init ops s) (a b : LockRec) (ha : a ∈ s.locks) (hb : b ∈ s.locks)
    (hx : a.mode = .exclusive) (hrel : a.rel = b.rel) (ga : a.waiting = false) (gb : b.waiting = false) : a = b := by
  have hi := (run_ok hr inv_init blocked_init).1
  by_cases h : a.id = b.id
  · exact id_inj hi ha hb h
  · have := hi.compat a ha b hb h hrel ga gb
    rw [hx] at this
    simp [conflict] at this

/-- C28: the counters of the relation tell exactly how many locks are granted in each mode -/
theorem C28_counters (s : Sys) (ops : List Op) (hr : Run Sys.init ops s) (r : Nat) (m : Mode) :
    s.set r m = (s.locks.filter fun l => decide (l.rel = r) && decide (l.mode = m) && !l.waiting).length :=
  (run_ok hr inv_init blocked_init).1.count r m

/-! ## C29 -/

/-- C29: the first waiter waits only for a lock that is held in a conflicting mode -/
theorem C29_first_waiter (s : Sys) (ops : List Op) (hr : Run Sys.init ops s) (w : LockRec) (hw : w ∈ s.locks) (hww : w.waiting = true)
    (hfirst : ∀ a, Ahead s w a → a.waiting = false) : ∃ a, Ahead s w a ∧ a.waiting = false ∧ conflict a.mode w.mode = true := by
  obtain ⟨hi, hb, _⟩ := run_ok hr inv_init blocked_init
  exact first_blocked hi hb hw hww hfirst

/-- C29: locks of a relation are granted in the order of arrival -/
theorem C29_arrival_order (s : Sys) (ops : List Op) (hr : Run Sys.init ops s) (a b : LockRec) (ha : a ∈ s.locks) (hb : b ∈ s.locks)
    (hrel : a.rel = b.rel) (hlt : a.id < b.id) (hgb : b.waiting = false) : a.waiting = false := by
  have hi := (run_ok hr inv_init blocked_init).1
  cases h : a.waiting with
  | false => rfl
  | true =>
    have := hi.fifo b hb a ha hrel.symm hgb h
    omega

/-- C29: a request with nothing ahead of it has been granted -/
theorem C29_granted_when_free (s : Sys) (ops : List Op) (hr : Run Sys.init ops s) (w : LockRec) (hw : w ∈ s.locks)
    (hfree : ∀ a, ¬ Ahead s w a) : w.waiting = false := by
  obtain ⟨hi, hb, _⟩ := run_ok hr inv_init blocked_init
  cases h : w.waiting with
  | false => rfl
  | true =>
    obtain ⟨a, ha⟩ := ahead_exists hi hb hw h
    exact absurd ha (hfree a)

/-- C29: whatever happens later, nothing new gets ahead of a request that was made -/
theorem C29_no_overtaking (s s' : Sys) (ops ops' : List Op) (hr : Run Sys.init ops s) (hr' : Run s ops' s') (w : LockRec)
    (hw : w ∈ s.locks) (a : LockRec) (ha : Ahead s' w a) : ∃ a' ∈ s.locks, Ahead s w a' ∧ a'.id = a.id ∧ a'.owner = a.owner ∧
      (a.waiting = true → a'.waiting = true) := by
  obtain ⟨hi, hb, _⟩ := run_ok hr inv_init blocked_init
  obtain ⟨_, _, hev⟩ := run_ok hr' hi hb
  obtain ⟨h1, h2, h3⟩ := ha
  have hsm := hi.small w hw
  rcases hev.2 a h1 with ⟨x, hx, e⟩ | h
  · refine ⟨x, hx, ⟨hx, ?_, ?_⟩, ?_, ?_, ?_⟩ <;> simp_all
  · omega

/-- C29: the wait list of the relation is the list of requests that are not granted, in the order of arrival -/
theorem C29_wait_list (s : Sys) (ops : List Op) (hr : Run Sys.init ops s) (r : Nat) :
    s.wait r = (s.locks.filter fun l => decide (l.rel = r) && l.waiting).map (fun l => (l.id, l.mode)) ∧
      s.locks.Pairwise fun a b => a.id < b.id :=
  ⟨(run_ok hr inv_init blocked_init).1.wait r, (run_ok hr inv_init blocked_init).1.sorted⟩

/-! ## C30 -/

/-- C30: coroutines that take locks in the global order never wait for each other in a cycle -/
theorem C30_no_cycle (order : Nat → Nat) (s : Sys) (ops : List Op) (hr : OrderedRun order Sys.init ops s) (c : Nat) :
    ¬ Path (WaitsFor s) c c := by
  obtain ⟨hi, _, ho⟩ := orderedRun_ok hr inv_init blocked_init (ordInv_init order)
  exact no_cycle hi ho c

/-- C30: whoever waits, waits (possibly through others) for a coroutine that holds a lock and does not wait -/
theorem C30_someone_runs (order : Nat → Nat) (s : Sys) (ops : List Op) (hr : OrderedRun order Sys.init ops s) (c : Nat)
    (hc : s.waits c) : ∃ d, Path (WaitsFor s) c d ∧ (∃ a ∈ s.locks, a.owner = some d) ∧ ¬ s.waits d := by
  obtain ⟨hi, hb, ho⟩ := orderedRun_ok hr inv_init blocked_init (ordInv_init order)
  obtain ⟨l, hl, h1, h2⟩ := hc
  obtain ⟨d, p1, p2, p3⟩ := someone_runs hi hb ho hl h1 h2
  refine ⟨d, p1, p2, ?_⟩
  intro ⟨k, hk, k1, k2⟩
  rw [p3 k hk k1] at k2
  simp at k2

/-- C30: a statement asks for the catalog and then for each relation it uses once, in the global order -/
theorem C30_statement_ordered (order : Nat → Nat) (hinj : ∀ x y, order x = order y → x = y) (catalog : Nat) (reqs : List Acc)
    (hcat : ∀ a ∈ reqs, order catalog < order a.rel) :
    (statement order catalog reqs).Pairwise (fun a b => order a.rel < order b.rel) ∧
      ∀ r, r ∈ (statement order catalog reqs).map Acc.rel ↔ r = catalog ∨ r ∈ reqs.map Acc.rel := by
  refine ⟨statement_asc hinj hcat, ?_⟩
  intro r
  unfold statement
  rw [List.map_cons, List.mem_cons, ((accessSort_perm order (collect reqs)).map Acc.rel).mem_iff, collect_rels]

/-- C30: any number of sessions, each with any statement, in any interleaving: as long as one is not finished some session can go on,
and after exactly two steps for each lock (taking and releasing) all of them are finished and no lock is left -/
theorem C30_sessions_finish (order : Nat → Nat) (hinj : ∀ x y, order x = order y → x = y) (catalog : Nat)
    (cs : List Nat) (hn : cs.Nodup) (reqs : Nat → List Acc) (hcat : ∀ c, ∀ a ∈ reqs c, order catalog < order a.rel)
    (n : Nat) (t : Sess)
    (hr : Sess.Steps ⟨Sys.init, fun c => if c ∈ cs then statement order catalog (reqs c) else []⟩ n t) :
    n ≤ 2 * (cs.map fun c => (statement order catalog (reqs c)).length).sum ∧
    ((∃ t', Sess.Step t t') ∨ ((∀ c, t.prog c = []) ∧ t.sys.locks = [])) ∧
    (n = 2 * (cs.map fun c => (statement order catalog (reqs c)).length).sum → (∀ c, t.prog c = []) ∧ t.sys.locks = []) := by
  have hasc : ∀ c, ((fun c => if c ∈ cs then statement order catalog (reqs c) else []) c).Pairwise fun a b => order a.rel < order b.rel := by
    intro c
    by_cases hc : c ∈ cs
    · simp only [if_pos hc]; exact statement_asc hinj (hcat c)
    · simp only [if_neg hc]; exact List.Pairwise.nil
  obtain ⟨hi, hcs, hw⟩ := steps_ok hn hr (sinv_init hasc) (by intro c hc; simp only [if_neg hc])
  have hwork : work cs (fun c => if c ∈ cs then statement order catalog (reqs c) else []) =
      (cs.map fun c => (statement order catalog (reqs c)).length).sum := by
    unfold work
    congr 1
    apply List.map_congr_left
    intro c hc
    simp only [if_pos hc]
  rw [hwork] at hw
  simp only [Sys.init, List.length_nil, Nat.add_zero] at hw
  refine ⟨by omega, ?_, ?_⟩
  · by_cases hleft : (∃ c, t.prog c ≠ []) ∨ t.sys.locks ≠ []
    · exact Or.inl (can_step hi hleft)
    · right
      refine ⟨fun c => Classical.byContradiction fun h => hleft (Or.inl ⟨c, h⟩), Classical.byContradiction fun h => hleft (Or.inr h)⟩
  · intro he
    have hz : work cs t.prog = 0 := by omega
    have hl : t.sys.locks.length = 0 := by omega
    refine ⟨?_, List.length_eq_zero_iff.1 hl⟩
    intro c
    by_cases hc : c ∈ cs
    · have hle : (t.prog c).length ≤ work cs t.prog := by
        clear hw hwork hz hl hcs hn hr hasc he
        unfold work
        induction cs with
        | nil => simp at hc
        | cons x xs ih =>
          rw [List.map_cons, List.sum_cons]
          rcases List.mem_cons.1 hc with e | hc
          · rw [← e]; omega
          · have := ih hc; omega
      exact List.length_eq_zero_iff.1 (by omega)
    · exact hcs c hc

/-! ### Examples -/

/-- two statements on relations 8 and 9: an update of 8 that reads 9, and an update of 9 that reads 8, take the locks in the same order -/
example : statement id 0 [⟨9, .shared⟩, ⟨8, .sharedRw⟩] = [⟨0, .shared⟩, ⟨8, .sharedRw⟩, ⟨9, .shared⟩] ∧
    statement id 0 [⟨8, .shared⟩, ⟨9, .sharedRw⟩, ⟨9, .shared⟩] = [⟨0, .shared⟩, ⟨8, .shared⟩, ⟨9, .sharedRw⟩] := by decide

/-- a run with a waiting exclusive lock, and a reader behind it that is granted after it -/
def sampleOps : List Op := [.lock 1 8 .shared, .lock 2 8 .exclusive, .lock 3 8 .shared]

theorem sampleRun : Run Sys.init sampleOps (((Sys.init.step (.lock 1 8 .shared)).step (.lock 2 8 .exclusive)).step (.lock 3 8 .shared)) := by
  refine Run.cons _ ?_ (Run.cons _ ?_ (Run.cons _ ?_ (Run.nil _)))
  all_goals intro l hl ho
  · simp [Sys.init] at hl
  · simp [Sys.init, Sys.step, Sys.lock, Sys.lockOf, resolve] at hl
    subst hl; rfl
  · simp [Sys.init, Sys.step, Sys.lock, Sys.lockOf, resolve, bump, setWait] at hl
    rcases hl with rfl | rfl <;> simp_all

example : (((Sys.init.step (.lock 1 8 .shared)).step (.lock 2 8 .exclusive)).step (.lock 3 8 .shared)).locks.map
    (fun l => (l.id, l.mode, l.waiting)) = [(0, .shared, false), (1, .exclusive, true), (2, .shared, true)] := by decide

example : (((((Sys.init.step (.lock 1 8 .shared)).step (.lock 2 8 .exclusive)).step (.lock 3 8 .shared)).step (.unlock 0)).step
    (.unlock 1)).locks.map (fun l => (l.id, l.mode, l.waiting)) = [(2, .shared, false)] := by decide

/-! ## C53: the lock taken for a relation that is used several times in a statement -/

/-- what two uses of a relation need: the lock excludes all that each of the uses excludes -/
def Covers (m q : Mode) : Prop := ∀ x, conflict q x = true → conflict m x = true

/-- C53 does not hold: a statement that writes a relation and reads it in a subquery takes a lock that does not exclude another statement
of the same kind, although the other one reads what this one writes -/
theorem C53_false : ∃ reqs : List Acc, ∃ a ∈ collect reqs, ∃ q ∈ reqs, q.rel = a.rel ∧ ¬ Covers a.mode q.mode := by
  refine ⟨[⟨8, .sharedRw⟩, ⟨8, .exclusiveRo⟩], ⟨8, .exclusiveRo⟩, by decide, ⟨8, .sharedRw⟩, by decide, rfl, ?_⟩
  intro h
  have := h .exclusiveRo rfl
  simp [conflict] at this

/-- C53: two such statements really run at the same time -/
theorem C53_both_granted : ∃ s, Run Sys.init ((statement id 0 [⟨8, .sharedRw⟩, ⟨8, .exclusiveRo⟩]).map (fun a => Op.lock 1 a.rel a.mode) ++
      (statement id 0 [⟨8, .sharedRw⟩, ⟨8, .exclusiveRo⟩]).map (fun a => Op.lock 2 a.rel a.mode)) s ∧
    ∃ a ∈ s.locks, ∃ b ∈ s.locks, a.owner = some 1 ∧ b.owner = some 2 ∧ a.rel = 8 ∧ b.rel = 8 ∧ a.waiting = false ∧ b.waiting = false := by
  have hst : statement id 0 [⟨8, .sharedRw⟩, ⟨8, .exclusiveRo⟩] = [⟨0, .shared⟩, ⟨8, .exclusiveRo⟩] := by decide
  rw [hst]
  simp only [List.map_cons, List.map_nil, List.cons_append, List.nil_append]
  refine ⟨_, Run.cons _ ?_ (Run.cons _ ?_ (Run.cons _ ?_ (Run.cons _ ?_ (Run.nil _)))), ?_⟩
  · intro l hl; simp [Sys.init] at hl
  · intro l hl ho
    simp [Sys.init, Sys.step, Sys.lock, Sys.lockOf, resolve, bump] at hl
    subst hl; rfl
  · intro l hl ho
    simp [Sys.init, Sys.step, Sys.lock, Sys.lockOf, resolve, bump] at hl
    rcases hl with rfl | rfl <;> rfl
  · intro l hl ho
    simp [Sys.init, Sys.step, Sys.lock, Sys.lockOf, resolve, bump] at hl
    rcases hl with rfl | rfl | rfl <;> rfl
  · refine ⟨⟨1, some 1, 8, .exclusiveRo, 1, false⟩, ?_, ⟨3, some 2, 8, .exclusiveRo, 1, false⟩, ?_, rfl, rfl, rfl, rfl, rfl, rfl⟩
    · simp [Sys.init, Sys.step, Sys.lock, Sys.lockOf, resolve, bump]
    · simp [Sys.init, Sys.step, Sys.lock, Sys.lockOf, resolve, bump]

/-- C53, missing: relations that are both written and read in a subquery. In all other cases the lock taken covers every use: the uses of
a relation are either reads and writes, or reads and subquery reads (with the exclusive lock possible in both) -/
theorem C53_covers_partial (reqs : List Acc) (a : Acc) (ha : a ∈ collect reqs) (q : Acc) (hq : q ∈ reqs) (hrel : q.rel = a.rel)
    (hmix : ¬ ((∃ b ∈ reqs, b.rel = a.rel ∧ b.mode = .sharedRw) ∧ ∃ b ∈ reqs, b.rel = a.rel ∧ b.mode = .exclusiveRo))
    (hcall : ∀ b ∈ reqs, b.rel = a.rel → b.mode = .call → ∀ b' ∈ reqs, b'.rel = a.rel → b'.mode = .call) :
    a ∈ reqs ∧ Covers a.mode q.mode := by
  obtain ⟨h1, h2⟩ := collect_mode reqs a ha
  have h3 := h2 q hq hrel
  refine ⟨h1, ?_⟩
  have hm1 : ¬ (q.mode = .sharedRw ∧ a.mode = .exclusiveRo) := fun h => hmix ⟨⟨q, hq, hrel, h.1⟩, ⟨a, h1, rfl, h.2⟩⟩
  have hm2 : a.mode = .call → q.mode = .call := fun h => hcall a h1 rfl h q hq hrel
  intro x hx
  cases ham : a.mode <;> cases hqm : q.mode <;> simp_all [Mode.rank] <;> cases x <;> simp_all [conflict]

example : collect [⟨8, .shared⟩, ⟨9, .exclusiveRo⟩, ⟨8, .sharedRw⟩, ⟨9, .shared⟩] = [⟨8, .sharedRw⟩, ⟨9, .exclusiveRo⟩] := by decide

/-! ## C54: CREATE INDEX and other DDL -/

/-- C54 does not hold: CREATE INDEX and another DDL command wait for each other in a cycle. Session 1 is CREATE INDEX: session.c:326 takes
the catalog (0) shared, 160-163 give it up, 167 takes the ddl lock (1), op.c:146 asks for the catalog. Session 2 is another DDL command:
it takes the catalog shared, gives it up, takes it exclusively and asks for the ddl lock -/
theorem C54_false : ∃ s, Run Sys.init [.lock 1 0 .shared, .unlock 0, .lock 1 1 .exclusive, .lock 2 0 .shared, .unlock 2,
      .lock 2 0 .exclusive, .lock 2 1 .exclusive, .lock 1 0 .shared] s ∧ WaitsFor s 1 2 ∧ WaitsFor s 2 1 := by
  refine ⟨_, Run.cons _ ?_ (Run.cons _ ?_ (Run.cons _ ?_ (Run.cons _ ?_ (Run.cons _ ?_ (Run.cons _ ?_ (Run.cons _ ?_ (Run.cons _ ?_
    (Run.nil _)))))))), ⟨⟨5, some 1, 0, .shared, 1, true⟩, ?_, rfl, rfl, ⟨3, some 2, 0, .exclusive, 1, false⟩, ⟨?_, rfl, ?_⟩, rfl⟩,
    ⟨⟨4, some 2, 1, .exclusive, 1, true⟩, ?_, rfl, rfl, ⟨1, some 1, 1, .exclusive, 1, false⟩, ⟨?_, rfl, ?_⟩, rfl⟩⟩
  all_goals decide

/-- C54: from there nothing can happen: both sessions wait, whatever they would do next, and no lock of theirs can be released -/
theorem C54_forever (s : Sys) (hr : Run Sys.init [.lock 1 0 .shared, .unlock 0, .lock 1 1 .exclusive, .lock 2 0 .shared, .unlock 2,
      .lock 2 0 .exclusive, .lock 2 1 .exclusive, .lock 1 0 .shared] s) (l : LockRec) (hl : l ∈ s.locks) :
    ∃ c, l.owner = some c ∧ s.waits c := by
  generalize he : [Op.lock 1 0 .shared, .unlock 0, .lock 1 1 .exclusive, .lock 2 0 .shared, .unlock 2,
      .lock 2 0 .exclusive, .lock 2 1 .exclusive, .lock 1 0 .shared] = ops at hr
  have hdet : ∀ (t : Sys) (ops : List Op) (s : Sys), Run t ops s → s = ops.foldl Sys.step t := by
    intro t ops s h
    induction h with
    | nil => rfl
    | cons op _ _ ih => exact ih
  have := hdet _ _ _ hr
  rw [← he] at this
  subst this
  have hls : ([Op.lock 1 0 .shared, .unlock 0, .lock 1 1 .exclusive, .lock 2 0 .shared, .unlock 2,
      .lock 2 0 .exclusive, .lock 2 1 .exclusive, .lock 1 0 .shared].foldl Sys.step Sys.init).locks =
      [⟨1, some 1, 1, .exclusive, 1, false⟩, ⟨3, some 2, 0, .exclusive, 1, false⟩, ⟨4, some 2, 1, .exclusive, 1, true⟩,
       ⟨5, some 1, 0, .shared, 1, true⟩] := by decide
  unfold Sys.waits
  rw [hls] at hl ⊢
  simp only [List.mem_cons, List.not_mem_nil, or_false] at hl
  rcases hl with rfl | rfl | rfl | rfl
  · exact ⟨1, rfl, ⟨5, some 1, 0, .shared, 1, true⟩, by simp, rfl, rfl⟩
  · exact ⟨2, rfl, ⟨4, some 2, 1, .exclusive, 1, true⟩, by simp, rfl, rfl⟩
  · exact ⟨2, rfl, ⟨4, some 2, 1, .exclusive, 1, true⟩, by simp, rfl, rfl⟩
  · exact ⟨1, rfl, ⟨5, some 1, 0, .shared, 1, true⟩, by simp, rfl, rfl⟩

/-- C54, missing: CREATE INDEX. DDL commands that take the catalog and then the ddl lock, together with any statements, always finish -/
theorem C54_ddl_partial (order : Nat → Nat) (s : Sys) (ops : List Op) (hr : OrderedRun order Sys.init ops s) (c : Nat)
    (hc : s.waits c) : ∃ d, Path (WaitsFor s) c d ∧ (∃ a ∈ s.locks, a.owner = some d) ∧ ¬ s.waits d :=
  C30_someone_runs order s ops hr c hc

/-- such a run: a DDL command (catalog exclusive, ddl exclusive) while a statement waits for the catalog -/
example : OrderedRun id Sys.init [.lock 1 0 .exclusive, .lock 2 0 .shared, .lock 1 1 .exclusive]
    (((Sys.init.step (.lock 1 0 .exclusive)).step (.lock 2 0 .shared)).step (.lock 1 1 .exclusive)) := by
  refine .cons _ ?_ ?_ (.cons _ ?_ ?_ (.cons _ ?_ ?_ (.nil _)))
  · decide
  · exact Or.inr (by decide)
  · decide
  · exact Or.inr (by decide)
  · decide
  · exact Or.inr (by decide)

example : (((Sys.init.step (.lock 1 0 .exclusive)).step (.lock 2 0 .shared)).step (.lock 1 1 .exclusive)).waits 2 :=
  ⟨⟨1, some 2, 0, .shared, 1, true⟩, by decide, rfl, rfl⟩

end Verif.Lock
