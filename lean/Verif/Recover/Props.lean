import Verif.Recover.Proofs
import Verif.Recover.FilesProofs
import Verif.Recover.ViewProofs
set_option linter.unusedSimpArgs false
set_option linter.unusedSectionVars false
/-!
# Properties: recovery (C26), interrupted file operations (C36), TRUNCATE (C51), restart after any history (C55), log removal (C56), power
failure (C57), the catalog file (C58)
-/
namespace Verif.Recover
open Verif Verif.Wal
variable {K : Type} [DecidableEq K]

/-! ## Samples -/

/-- the table of the samples -/
def tab : Tid := (7, 0)

/-- rows have their key in the byte at 4; the table has two partitions, for even and odd keys -/
def env : Env Nat where
  key _ row := row.getD 4 0
  slot _ k := some (k % 2)
  ddl op := if op = [0] then .create tab else if op = [1] then .drop tab else if op = [2] then .truncate tab else .other
  nparts := 2

/-- a row with key `k` -/
def rw1 (k : Nat) : Bytes := [0, 0, 0, 5, k]
def ins (k : Nat) : Change := .row REPLACE 7 0 (rw1 k)
def del (k : Nat) : Change := .row DELETE 7 0 (rw1 k)
def ddlOp (n : Nat) : Op := .tx [[.op DDL [n]]]
def create : Op := ddlOp 0
def drop : Op := ddlOp 1
def truncate : Op := ddlOp 2

/-- the row of a key after a history, `none` if the history ends with an error (the system does not start) -/
def rowAfter (ops : List Op) (k : Nat) : Option (Option Bytes) :=
  match run env Sys.init ops with
  | .ok s => some ((view env s).rows tab k)
  | .error _ => none

theorem slots_ok : ∀ t k p, env.slot t k = some p → p < env.nparts := by
  intro t k p h
  simp only [env, Option.some.injEq] at h ⊢
  omega

/-- the length of a record does not depend on its number -/
theorem record_len (lsn : Nat) (logs : List WLog) : (record lsn logs).length = (record 0 logs).length := by
  have h : ∀ l, ((header logs).finish l).bytes.length = 24 := by
    intro l; simp [Hdr.finish, Hdr.bytes, Hdr.tail, leBytes_length]
  unfold record
  simp only [List.length_append, h]

/-- transactions of the samples are as the theorems ask -/
theorem good_tx (css : List (List Change)) (h1 : ∀ cs ∈ css, ∀ c ∈ cs, (∃ k, k < 256 ∧ (c = ins k ∨ c = del k)) ∨ c = .op DDL [0]) (h2 : css.flatten ≠ [])
    (h3 : ∀ cs ∈ css, ∃ p, ∀ c ∈ cs, ∀ k, c = ins k ∨ c = del k → k % 2 = p) (h4 : (record 0 (css.map WLog.ofChanges)).length < 2 ^ 31) :
    GoodTx env css ∧ KeepsTables env css := by
  have vrow : ∀ cmd k, (cmd = REPLACE ∨ cmd = DELETE) → k < 256 → (Change.row cmd 7 0 (rw1 k)).Valid := by
    intro cmd k hc hk
    refine ⟨hc, by decide, by decide, ?_, by simp [rw1], fun rest => ?_⟩
    · intro x hx; simp [rw1] at hx; omega
    · simp [Row.rowSize, Row.rowFactor, Row.readAt, rw1, Row.width, leNat, bind, Except.bind]
  have hrow : ∀ cs ∈ css, ∀ cmd a b row, Change.row cmd a b row ∈ cs → ∃ k, row = rw1 k ∧ (Change.row cmd a b row = ins k ∨ Change.row cmd a b row = del k) := by
    intro cs hcs cmd a b row hm
    rcases h1 cs hcs _ hm with ⟨k, _, e | e⟩ | e
    · refine ⟨k, ?_, Or.inl e⟩
      simp only [ins, Change.row.injEq] at e; exact e.2.2.2
    · refine ⟨k, ?_, Or.inr e⟩
      simp only [del, Change.row.injEq] at e; exact e.2.2.2
    · cases e
  refine ⟨⟨?_, ?_, h2, fun lsn => by rw [record_len]; exact h4⟩, ?_⟩
  · intro cs hcs c hc
    rcases h1 cs hcs c hc with ⟨k, hk, rfl | rfl⟩ | rfl
    · exact vrow _ _ (Or.inl rfl) hk
    · exact vrow _ _ (Or.inr rfl) hk
    · exact ⟨Or.inl rfl, by intro x hx; simp at hx; omega⟩
  · intro cs hcs cmd a b row cmd' row' m1 m2
    obtain ⟨k, rfl, e⟩ := hrow cs hcs _ _ _ _ m1
    obtain ⟨k', rfl, e'⟩ := hrow cs hcs _ _ _ _ m2
    obtain ⟨p, hp⟩ := h3 cs hcs
    have g1 := hp _ m1 k e
    have g2 := hp _ m2 k' e'
    show some (k % 2) = some (k' % 2)
    rw [g1, g2]
  · intro cs hcs c hc cmd op e t
    subst e
    rcases h1 cs hcs _ hc with ⟨k, _, e | e⟩ | e
    · cases e
    · cases e
    · simp only [Change.op.injEq] at e
      rw [e.2]
      simp [env]

/-! ## C26 -/

/-- **C26**, without DROP, TRUNCATE and unlogged changes: after any history of transactions, checkpoints of single partitions (which may be in
progress when the system stops), catalog writes, removals of log records and restarts, the system starts, and its contents are exactly what
the committed transactions made of them. Missing: DROP and TRUNCATE (C51, C55), unlogged changes (C55), removal of log records during a checkpoint
(C56); the log is taken as the list of its records (C23, C25). -/
theorem C26_recovery_partial (env : Env K) (hslot : ∀ t k p, env.slot t k = some p → p < env.nparts) (ops : List Op)
    (hops : ∀ o ∈ ops, Regular env o) (hgc : gcApart [] ops) (hlen : ops.length < 2 ^ 64) :
    ∃ s, run env Sys.init ops = .ok s ∧ view env s = World.run env ops := by
  obtain ⟨_, _, s, h1, _, _, h2, _⟩ := run_inv hslot ops [] [] _ Sys.init [] rfl (inv_init env)
    (by intro T1 T2 e
        have : T1 = [] := by cases T1 with | nil => rfl | cons => cases e
        subst this
        exact ⟨0, rfl, Sys.init, rfl, by simp⟩)
    rfl (fun t p h => absurd rfl h) hops hgc (by show 0 + _ < _; omega)
  exact ⟨s, h1, h2⟩

/-- **C26**, while the system runs: whatever transactions (with CREATE, DROP and TRUNCATE), unlogged changes, checkpoints, catalog writes and removals of
log records are in the history, the tables and rows are what the transactions made of them; maintenance never changes the contents. Missing: restarts,
see the other theorems. -/
theorem C26_running_partial (env : Env K) (ops : List Op) (hr : .restart ∉ ops) (hu : ∀ o ∈ ops, RowsOnly o) :
    ∃ s, run env (Sys.init : Sys K) ops = .ok s ∧ view env s = World.run env ops := by
  obtain ⟨s, h1, h2⟩ := holds_run ops hr hu (holds_init env)
  exact ⟨s, h1, h2.view⟩

/-- **C26**, replaying again changes nothing: any number of restarts in a row, whatever was replayed before. Missing: as above. -/
theorem C26_idempotent_partial (env : Env K) (hslot : ∀ t k p, env.slot t k = some p → p < env.nparts) (ops : List Op)
    (hops : ∀ o ∈ ops, Regular env o) (hgc : gcApart [] ops) (n : Nat) (hlen : ops.length + n < 2 ^ 64) :
    ∃ s r, run env Sys.init ops = .ok s ∧ run env s (List.replicate n .restart) = .ok r ∧ view env r = view env s := by
  have hR : ∀ n l, gcApart l (List.replicate n .restart) := by
    intro n
    induction n with
    | zero => intro l; trivial
    | succ n ih => intro l; exact ih []
  have hap : ∀ (ops : List Op) l, gcApart l ops → gcApart l (ops ++ List.replicate n .restart) := by
    intro ops
    induction ops with
    | nil => intro l _; exact hR n l
    | cons o r ih =>
      intro l h
      cases o with
      | tx _ => exact ih _ h
      | refreshStart t p => exact ih _ h
      | refreshEnd t p => exact ih _ h
      | catalog => exact ih _ h
      | gc m => exact ⟨h.1, ih _ h.2⟩
      | restart => exact ih _ h
      | unlogged c => exact ih _ h
  obtain ⟨s, h1, h2⟩ := C26_recovery_partial env hslot ops hops hgc (by omega)
  obtain ⟨r, h3, h4⟩ := C26_recovery_partial env hslot (ops ++ List.replicate n .restart)
    (by intro o ho
        rcases List.mem_append.mp ho with ho | ho
        · exact hops o ho
        · rw [List.eq_of_mem_replicate ho]; trivial)
    (hap ops [] hgc) (by rw [List.length_append, List.length_replicate]; omega)
  have hw : World.run env (ops ++ List.replicate n .restart) = World.run env ops := by
    unfold World.run
    rw [List.foldl_append]
    generalize ops.foldl (World.step env) World.init = w
    clear h4 h3 hlen hap
    induction n with
    | zero => rfl
    | succ n ih => exact ih
  refine ⟨s, r, h1, ?_, by rw [h4, h2, hw]⟩
  unfold run at h1 h3 ⊢
  rw [foldlM_append_ok, h1] at h3
  exact h3

/-- meets `C26_running_partial`: a table is dropped during a checkpoint and created again -/
example : (.restart : Op) ∉ [create, .tx [[ins 1]], .unlogged (ins 2), .refreshStart tab 1, drop, .refreshEnd tab 1, create, .tx [[ins 4]], truncate, .gc 9] ∧
    ∀ o ∈ [create, .tx [[ins 1]], .unlogged (ins 2), .refreshStart tab 1, drop, .refreshEnd tab 1, create, .tx [[ins 4]], truncate, .gc 9], RowsOnly o := by
  refine ⟨by simp [create, drop, truncate, ddlOp], ?_⟩
  intro o ho
  simp only [create, drop, truncate, ddlOp, ins, List.mem_cons, List.not_mem_nil, or_false] at ho
  rcases ho with rfl | rfl | rfl | rfl | rfl | rfl | rfl | rfl | rfl | rfl <;> trivial

/-- a history with everything: partitions checkpointed at different times, one of them still being written when the system stops -/
def sampleOps : List Op :=
  [create, .tx [[ins 1], [ins 2]], .refreshStart tab 1, .refreshEnd tab 1, .tx [[ins 3, del 1], [ins 4]], .catalog, .gc 100, .tx [[del 2]],
   .refreshStart tab 0, .restart, .tx [[ins 5]], .restart]

theorem sampleOps_ok : (∀ o ∈ sampleOps, Regular env o) ∧ gcApart [] sampleOps := by
  refine ⟨?_, by simp [sampleOps, gcApart, create, ddlOp]⟩
  have h : ∀ css, Regular env (.tx css) = (GoodTx env css ∧ KeepsTables env css) := fun _ => rfl
  intro o ho
  simp only [sampleOps, create, ddlOp, List.mem_cons, List.not_mem_nil, or_false] at ho
  rcases ho with rfl | rfl | rfl | rfl | rfl | rfl | rfl | rfl | rfl | rfl | rfl | rfl
  · rw [h]; exact good_tx _ (by simp) (by simp) (by intro cs hcs; simp at hcs; subst hcs; exact ⟨0, by simp [ins, del]⟩) (by decide +kernel)
  · rw [h]
    refine good_tx _ ?_ (by simp) ?_ (by decide +kernel)
    · intro cs hcs c hc
      simp at hcs
      rcases hcs with rfl | rfl <;> simp at hc <;> subst hc
      · exact Or.inl ⟨1, by decide, Or.inl rfl⟩
      · exact Or.inl ⟨2, by decide, Or.inl rfl⟩
    · intro cs hcs
      simp at hcs
      rcases hcs with rfl | rfl
      · refine ⟨1, ?_⟩; intro c hc k; simp at hc; subst hc; simp only [ins, del, rw1, Change.row.injEq, List.cons.injEq]; simp only [REPLACE, DELETE]; omega
      · refine ⟨0, ?_⟩; intro c hc k; simp at hc; subst hc; simp only [ins, del, rw1, Change.row.injEq, List.cons.injEq]; simp only [REPLACE, DELETE]; omega
  · trivial
  · trivial
  · rw [h]
    refine good_tx _ ?_ (by simp) ?_ (by decide +kernel)
    · intro cs hcs c hc
      simp at hcs
      rcases hcs with rfl | rfl <;> simp at hc
      · rcases hc with rfl | rfl
        · exact Or.inl ⟨3, by decide, Or.inl rfl⟩
        · exact Or.inl ⟨1, by decide, Or.inr rfl⟩
      · subst hc; exact Or.inl ⟨4, by decide, Or.inl rfl⟩
    · intro cs hcs
      simp at hcs
      rcases hcs with rfl | rfl
      · refine ⟨1, ?_⟩; intro c hc k; simp at hc; rcases hc with rfl | rfl <;> simp only [ins, del, rw1, Change.row.injEq, List.cons.injEq] <;> simp only [REPLACE, DELETE] <;> omega
      · refine ⟨0, ?_⟩; intro c hc k; simp at hc; subst hc; simp only [ins, del, rw1, Change.row.injEq, List.cons.injEq]; simp only [REPLACE, DELETE]; omega
  · trivial
  · trivial
  · rw [h]
    refine good_tx _ ?_ (by simp) ?_ (by decide +kernel)
    · intro cs hcs c hc
      simp at hcs; subst hcs; simp at hc; subst hc
      exact Or.inl ⟨2, by decide, Or.inr rfl⟩
    · intro cs hcs
      simp at hcs; subst hcs
      refine ⟨0, ?_⟩; intro c hc k; simp at hc; subst hc; simp only [ins, del, rw1, Change.row.injEq, List.cons.injEq]; simp only [REPLACE, DELETE]; omega
  · trivial
  · trivial
  · rw [h]
    refine good_tx _ ?_ (by simp) ?_ (by decide +kernel)
    · intro cs hcs c hc
      simp at hcs; subst hcs; simp at hc; subst hc
      exact Or.inl ⟨5, by decide, Or.inl rfl⟩
    · intro cs hcs
      simp at hcs; subst hcs
      refine ⟨1, ?_⟩; intro c hc k; simp at hc; subst hc; simp only [ins, del, rw1, Change.row.injEq, List.cons.injEq]; simp only [REPLACE, DELETE]; omega
  · trivial

example : rowAfter sampleOps 1 = some none ∧ rowAfter sampleOps 2 = some none ∧ rowAfter sampleOps 3 = some (some (rw1 3)) ∧
    rowAfter sampleOps 4 = some (some (rw1 4)) ∧ rowAfter sampleOps 5 = some (some (rw1 5)) := by decide +kernel

/-! ## C51 -/

/-- C51 fails across a restart (the whole system): after TRUNCATE and a checkpoint the rows are back -/
theorem C51_checkpoint_false :
    rowAfter [create, .tx [[ins 1]], truncate] 1 = some none ∧
    rowAfter [create, .tx [[ins 1]], truncate, .catalog, .refreshStart tab 1, .refreshEnd tab 1, .restart] 1 = some (some (rw1 1)) := by decide +kernel

/-- … and a row inserted after TRUNCATE is lost, when its partition has been checkpointed and the catalog has not been written since:
TRUNCATE is replayed, the insert is not -/
theorem C51_insert_lost_false :
    (World.run env [create, truncate, .tx [[ins 1]], .refreshStart tab 1, .refreshEnd tab 1, .restart]).rows tab 1 = some (rw1 1) ∧
    rowAfter [create, truncate, .tx [[ins 1]], .refreshStart tab 1, .refreshEnd tab 1, .restart] 1 = some none := by decide +kernel

/-! ## C55 -/

/-- **C55**, without DROP, TRUNCATE and unlogged changes: the system starts after any history. Missing: as for C26. -/
theorem C55_partial (env : Env K) (hslot : ∀ t k p, env.slot t k = some p → p < env.nparts) (ops : List Op)
    (hops : ∀ o ∈ ops, Regular env o) (hgc : gcApart [] ops) (hlen : ops.length + 1 < 2 ^ 64) :
    ∃ s r, run env Sys.init ops = .ok s ∧ restart env s = .ok r := by
  obtain ⟨s, r, h1, h2, _⟩ := C26_idempotent_partial env hslot ops hops hgc 1 hlen
  refine ⟨s, r, h1, ?_⟩
  have h2 : (match step env s .restart with | .error e => .error e | .ok s => .ok s : Res (Sys K)) = .ok r := by
    have := h2
    unfold run at this
    rw [show List.replicate 1 Op.restart = [.restart] from rfl, foldlM_ok_cons] at this
    revert this
    cases step env s .restart <;> exact id
  show step env s .restart = .ok r
  revert h2
  cases step env s .restart <;> exact id

example : (∀ o ∈ sampleOps, Regular env o) ∧ gcApart [] sampleOps ∧ sampleOps.length + 1 < 2 ^ 64 :=
  ⟨sampleOps_ok.1, sampleOps_ok.2, by simp [sampleOps]⟩

/-- C55 fails: a row is deleted and its table dropped. The files of the table are gone, the catalog file still has the table, and the log
record of the insert has been removed: the DELETE cannot be replayed and the system does not start. -/
theorem C55_drop_false :
    (∃ s, run env Sys.init [create, .tx [[ins 1]], .catalog, .refreshStart tab 1, .refreshEnd tab 1, .gc 100, .tx [[del 1]], drop] = .ok s ∧
      restart env s = .error .err) := by
  have h : (match run env Sys.init [create, .tx [[ins 1]], .catalog, .refreshStart tab 1, .refreshEnd tab 1, .gc 100, .tx [[del 1]], drop] with
      | .ok s => decide (rowAfter ([create, .tx [[ins 1]], .catalog, .refreshStart tab 1, .refreshEnd tab 1, .gc 100, .tx [[del 1]], drop] ++ [.restart]) 1 = none)
      | .error _ => false) = true := by decide +kernel
  have h' : (match run env Sys.init [create, .tx [[ins 1]], .catalog, .refreshStart tab 1, .refreshEnd tab 1, .gc 100, .tx [[del 1]], drop] with
      | .ok s => (match restart env s with | .error .err => true | _ => false)
      | .error _ => false) = true := by decide +kernel
  revert h'
  cases run env Sys.init [create, .tx [[ins 1]], .catalog, .refreshStart tab 1, .refreshEnd tab 1, .gc 100, .tx [[del 1]], drop] with
  | error e => intro h'; cases h'
  | ok s =>
    intro h'
    refine ⟨s, rfl, ?_⟩
    revert h'
    simp only
    split
    · next e => intro _; exact e
    · intro h'; cases h'

/-- C55 fails: a row inserted while the table was UNLOGGED is deleted when it is logged again; after a stop without a checkpoint the DELETE
cannot be replayed -/
theorem C55_unlogged_false :
    rowAfter [create, .unlogged (ins 1), .tx [[del 1]]] 1 = some none ∧
    rowAfter [create, .unlogged (ins 1), .tx [[del 1]], .restart] 1 = none := by decide +kernel

/-! ## C56 -/

/-- **C56**: removing log records, up to any number and at any times that are not during a checkpoint of a partition, changes nothing: the system
restarts to the same contents. Missing: during a checkpoint, see below. -/
theorem C56_partial (env : Env K) (hslot : ∀ t k p, env.slot t k = some p → p < env.nparts) (ops : List Op)
    (hops : ∀ o ∈ ops, Regular env o) (hgc : gcApart [] ops) (m : Nat) (hno : ∀ s, run env Sys.init ops = .ok s → ∀ t p, s.busy t p = none)
    (hlen : ops.length + 2 < 2 ^ 64) :
    ∃ s g r, run env Sys.init ops = .ok s ∧ step env s (.gc m) = .ok g ∧ restart env g = .ok r ∧ view env r = World.run env ops := by
  obtain ⟨T, kept, s, h1, h2, _, h3, h4⟩ := run_inv hslot ops [] [] _ Sys.init [] rfl (inv_init env)
    (by intro T1 T2 e
        have : T1 = [] := by cases T1 with | nil => rfl | cons => cases e
        subst this
        exact ⟨0, rfl, Sys.init, rfl, by simp⟩)
    rfl (fun t p h => absurd rfl h) hops hgc (by show 0 + _ < _; omega)
  have h4 : s.lsn ≤ ops.length := by have := h4; simp only [Sys.init, Nat.zero_add] at this; exact this
  obtain ⟨kept', g, g1, g2, g3, _⟩ := inv_gc hslot h2 (by omega) (hno s h1) m
  obtain ⟨r, r1, r2, _⟩ := inv_restart g2 (by omega)
  refine ⟨s, g, r, h1, g1, r1, ?_⟩
  rw [view_inv r2, ← view_inv h2, h3]; rfl

/-- a removal that does remove records -/
example : (match run env Sys.init [create, .tx [[ins 1]], .catalog, .refreshStart tab 1, .refreshEnd tab 1] with
    | .ok s => (match step env s (.gc 100) with | .ok g => s.log.length == 2 && g.log.length == 0 | .error _ => false)
    | .error _ => false) = true := by decide +kernel

/-- C56 fails: while the new file of a partition is being written, the header in memory already has its number, so the records that only the new file
has are removed; when the system stops before the file is complete, the row is lost -/
theorem C56_refresh_false :
    (World.run env [create, .tx [[ins 1]], .catalog, .refreshStart tab 1, .gc 100, .restart]).rows tab 1 = some (rw1 1) ∧
    rowAfter [create, .tx [[ins 1]], .catalog, .refreshStart tab 1, .gc 100, .restart] 1 = some none := by decide +kernel

/-! ## C57 -/

/-- **C57**, when no partition file and not the catalog file is newer than the part of the log that is left: after a power failure that loses the
end of the log, the contents are those after a part of the history, which has all the transactions whose records are left.
Missing: newer files, see below. -/
theorem C57_partial (env : Env K) (hslot : ∀ t k p, env.slot t k = some p → p < env.nparts) (ops : List Op)
    (hops : ∀ o ∈ ops, Regular env o) (hgc : gcApart [] ops) (hlen : ops.length < 2 ^ 64) (s : Sys K) (hs : run env Sys.init ops = .ok s) (n : Nat)
    (hn : ∀ q ∈ s.log.drop n, s.cat < (Hdr.read q).lsn ∧ ∀ t p i, s.img t p = some i → i.lsn < (Hdr.read q).lsn) :
    ∃ r m sm, restart env { s with log := s.log.take n } = .ok r ∧ view env r = World.run env (ops.take m) ∧
      run env Sys.init (ops.take m) = .ok sm ∧ ∀ q ∈ s.log.take n, (Hdr.read q).lsn ≤ sm.lsn := by
  obtain ⟨T, kept, s', h1, h2, hp, h3, h4⟩ := run_inv hslot ops [] [] _ Sys.init [] rfl (inv_init env)
    (by intro T1 T2 e
        have : T1 = [] := by cases T1 with | nil => rfl | cons => cases e
        subst this
        exact ⟨0, rfl, Sys.init, rfl, by simp⟩)
    rfl (fun t p h => absurd rfl h) hops hgc (by show 0 + _ < _; omega)
  rw [List.nil_append] at h1 hp
  rw [hs] at h1
  cases h1
  have h4 : s.lsn ≤ ops.length := by have := h4; simp only [Sys.init, Nat.zero_add] at this; exact this
  obtain ⟨T1, T2, r, e1, e2, e3, e4⟩ := lost_ok h2 (by omega) n (by
    intro q hq
    obtain ⟨a, b⟩ := hn q hq
    refine ⟨a, fun t p => ?_⟩
    unfold fileOf
    cases hi : s.img t p with
    | none => show 0 < _; omega
    | some i => exact b t p i hi)
  obtain ⟨m, g1, sm, g2, g3⟩ := hp T1 T2 e1
  refine ⟨r, m, sm, e2, by rw [e3, ← g1], g2, ?_⟩
  intro q hq
  obtain ⟨x, hx, e⟩ := e4 q hq
  rw [e]; exact g3 x hx

/-- the hypothesis for a concrete history: three transactions, the last one is lost -/
example : (match run env Sys.init [create, .tx [[ins 1], [ins 2]], .refreshStart tab 1, .refreshEnd tab 1, .tx [[ins 3], [ins 4]]] with
    | .ok s => (s.log.length == 3 && (s.log.drop 2).all (fun q => decide (s.cat < (Hdr.read q).lsn) &&
        [0, 1].all (fun p => decide (((s.img tab p).map Image.lsn).getD 0 < (Hdr.read q).lsn))) && (s.img tab 1).map Image.lsn == some 2)
    | .error _ => false) = true := by decide +kernel

/-- the row of a key after a history, a power failure that leaves `n` records, and the restart -/
def rowAfterLoss (ops : List Op) (n k : Nat) : Option (Option Bytes) :=
  match run env Sys.init ops with
  | .ok s => (match restart env { s with log := s.log.take n } with | .ok r => some ((view env r).rows tab k) | .error _ => none)
  | .error _ => none

/-- C57 fails: the log is not synced before a partition file is written. A transaction inserts two rows; one of the partitions is checkpointed; after a
power failure that loses the record, one row is there and the other is not -/
theorem C57_torn_false :
    let ops : List Op := [create, .tx [[ins 1], [ins 2]], .refreshStart tab 1, .refreshEnd tab 1]
    rowAfterLoss ops 1 1 = some (some (rw1 1)) ∧ rowAfterLoss ops 1 2 = some none := by decide +kernel

/-! ## C36 -/

/-- **C36**, unless a refresh stopped between the removal of the old file and the renaming of the new one: any number of refreshes at the same time,
stopped after any of their operations, and any number of recoveries that are themselves interrupted: the recovery succeeds, each partition has its
complete old file or its complete new file, other partition files are as before, and no temporary files are left.
Missing: that window, see below. -/
theorem C36_partial (T : SvcText) (js : List Job) (hd : Distinct js) (fs0 : Fs) (h0 : Ready js fs0) (sched : List Nat)
    (hw : ∀ j ∈ js, let fs := (advance (fun i => js[i]?.map (Job.ops T)) sched (fun _ => 0) fs0).2
      fs (.part j.a) ≠ none ∨ fs (.part j.b) ≠ none)
    (cs : List (List Name × Nat)) :
    ∃ fs1, crashed T (advance (fun i => js[i]?.map (Job.ops T)) sched (fun _ => 0) fs0).2 cs = some fs1 ∧
      ∀ es, Lists fs1 es → ∃ ops, recOps T fs1 es = some ops ∧
        (∀ j ∈ js, OldOrNew j (applyAll fs1 ops)) ∧ NoTemp (applyAll fs1 ops) ∧
        ∀ x, (∀ j ∈ js, x ≠ j.a ∧ x ≠ j.b) → applyAll fs1 ops (.part x) = fs0 (.part x) := by
  have hjs : ∀ i ops, js[i]?.map (Job.ops T) = some ops → ∃ (h : i < js.length), ops = js[i].ops T := by
    intro i ops h
    cases e : js[i]? with
    | none => rw [e] at h; cases h
    | some j =>
      rw [e] at h
      obtain ⟨hi, hj⟩ := List.getElem?_eq_some_iff.mp e
      simp only [Option.map_some, Option.some.injEq] at h
      exact ⟨hi, by rw [hj, h]⟩
  have hnm : ∀ i (h : i < js.length), (js[i]?.map Job.names).getD [] = js[i].names := by
    intro i h; simp [h]
  obtain ⟨prog, fs, a1, a2, a3⟩ := adv_agree (fun i => js[i]?.map (Job.ops T)) (fun i => (js[i]?.map Job.names).getD [])
    (by intro i ops h op ho n hn
        obtain ⟨hi, rfl⟩ := hjs i ops h
        rw [hnm i hi]
        exact ops_names T js[i] op ho n hn)
    (by intro i k hne n hn hn'
        by_cases hi : i < js.length
        · by_cases hk : k < js.length
          · rw [hnm i hi] at hn
            rw [hnm k hk] at hn'
            have hp := distinct_pair hd i k hi hk hne
            simp only [Job.names, List.mem_cons, List.not_mem_nil, or_false] at hn hn' hp
            rcases hn with rfl | rfl | rfl | rfl | rfl <;>
              (simp only [Name.part.injEq, Name.partInc.injEq, Name.svc.injEq, Name.svcInc.injEq, reduceCtorEq, false_or, or_false] at hn') <;>
              first
                | exact hp _ (Or.inl rfl) (Or.inl hn')
                | exact hp _ (Or.inl rfl) (Or.imp_right Or.inl hn')
                | exact hp _ (Or.inr (Or.inl rfl)) (Or.imp_right Or.inl hn')
                | exact hp _ (Or.inr (Or.inl rfl)) (Or.inr (Or.inl hn'))
                | exact hp _ (Or.inr (Or.inr rfl)) (Or.inr (Or.inr hn'))
          · have : js[k]? = none := by simp; omega
            rw [this] at hn'; simp at hn'
        · have : js[i]? = none := by simp; omega
          rw [this] at hn; simp at hn)
    fs0 sched (fun _ => 0) fs0 (by intro i ops _ n _; rfl) (fun n _ => rfl)
  have e2 : (advance (fun i => js[i]?.map (Job.ops T)) sched (fun _ => 0) fs0).2 = fs := by rw [a1]
  rw [e2] at hw ⊢
  -- the state when the refreshes stop
  have hjob : ∀ i (hi : i < js.length), JobSt T js[i] fs := by
    intro i hi
    have hm : js[i] ∈ js := List.getElem_mem hi
    have hag : ∀ n ∈ js[i].names, fs n = applyAll fs0 ((js[i].ops T).take (prog i)) n := by
      intro n hn
      exact a2 i (js[i].ops T) (by simp [hi]) n (by rw [hnm i hi]; exact hn)
    have q1 := hag (.part js[i].a) (by simp [Job.names])
    have q2 := hag (.part js[i].b) (by simp [Job.names])
    have q3 := hag (.svc js[i].c) (by simp [Job.names])
    have := job_take T js[i] fs0 (distinct_abc hd _ hm).1 (h0.old _ hm) (h0.new _ hm) (h0.svc _) (prog i)
    simp only [← q1, ← q2] at this
    rcases this with h | ⟨h1, h2⟩
    · unfold JobSt OldOrNew at h ⊢
      rw [q1, q2, q3]; exact h
    · rcases hw _ hm with h | h
      · exact absurd h1 h
      · exact absurd h2 h
  have hall : AllSt T js fs0 fs := by
    refine ⟨?_, ?_, ?_⟩
    · intro j hj
      obtain ⟨i, hi, rfl⟩ := List.mem_iff_getElem.mp hj
      exact hjob i hi
    · intro c d hc
      by_cases hx : ∃ j ∈ js, j.c = c
      · obtain ⟨j, hj, rfl⟩ := hx
        refine ⟨j, hj, rfl, ?_⟩
        obtain ⟨i, hi, rfl⟩ := List.mem_iff_getElem.mp hj
        rcases (hjob i hi).2 with h | h
        · rw [h] at hc; cases hc
        · rw [h] at hc; simpa using hc.symm
      · exfalso
        have := a3 (.svc c) (by
          intro i ops h hn
          obtain ⟨hi, rfl⟩ := hjs i ops h
          rw [hnm i hi] at hn
          simp [Job.names] at hn
          exact hx ⟨js[i], List.getElem_mem hi, hn.symm⟩)
        rw [this, h0.svc] at hc
        cases hc
    · intro x hx
      refine a3 (.part x) ?_
      intro i ops h hn
      obtain ⟨hi, rfl⟩ := hjs i ops h
      rw [hnm i hi] at hn
      simp [Job.names] at hn
      have := hx _ (List.getElem_mem hi)
      rcases hn with h | h
      · exact this.1 h
      · exact this.2 h
  obtain ⟨fs1, c1, c2⟩ := crashed_ok hd cs fs hall
  refine ⟨fs1, c1, fun es hes => ?_⟩
  obtain ⟨ops, o1, o2⟩ := rec_ok hd es fs1 c2
  have hfin := o2 ops.length
  rw [List.take_length] at hfin
  refine ⟨ops, o1, fun j hj => (hfin.jobs j hj).1, ?_, hfin.rest⟩
  intro id
  have hr := rec_removes es fs1 ops o1
  refine ⟨hr _ ?_, hr _ ?_, hr _ ?_⟩
  · by_cases h : fs1 (.svc id) = none
    · exact Or.inl h
    · exact Or.inr ⟨Or.inl ⟨id, rfl⟩, (hes id).1 h⟩
  · by_cases h : fs1 (.svcInc id) = none
    · exact Or.inl h
    · exact Or.inr ⟨Or.inr (Or.inl ⟨id, rfl⟩), (hes id).2.1 h⟩
  · by_cases h : fs1 (.partInc id) = none
    · exact Or.inl h
    · exact Or.inr ⟨Or.inr (Or.inr ⟨id, rfl⟩), (hes id).2.2 h⟩

/-! samples: two partitions (files 1 and 2) that are refreshed at the same time -/

/-- a name as two numbers -/
def nameCode : Name → List Nat
  | .part x => [0, x] | .partInc x => [1, x] | .obj x => [2, x] | .objInc x => [3, x]
  | .svc x => [4, x] | .svcInc x => [5, x] | .cat => [6, 0] | .catInc => [7, 0]

def nameUncode : List Nat → List Name
  | 0 :: x :: r => .part x :: nameUncode r
  | 1 :: x :: r => .partInc x :: nameUncode r
  | 2 :: x :: r => .obj x :: nameUncode r
  | 3 :: x :: r => .objInc x :: nameUncode r
  | 4 :: x :: r => .svc x :: nameUncode r
  | 5 :: x :: r => .svcInc x :: nameUncode r
  | 6 :: _ :: r => .cat :: nameUncode r
  | 7 :: _ :: r => .catInc :: nameUncode r
  | _ => []

/-- a simple text for service files: numbers of partition files (even) and of objects (odd) -/
def simpleText : SvcText where
  enc i o := (i.length :: (i ++ o).flatMap nameCode)
  dec d := match d with
    | [] => none
    | n :: r => some ((nameUncode r).take n, (nameUncode r).drop n)
  law := by
    intro i o
    have h : ∀ l : List Name, nameUncode (l.flatMap nameCode) = l := by
      intro l
      induction l with
      | nil => rfl
      | cons x r ih =>
        rw [List.flatMap_cons]
        cases x <;> (simp only [nameCode, List.cons_append, List.nil_append, nameUncode]; rw [ih])
    simp only [h]
    rw [List.take_left, List.drop_left]

def jobA : Job := ⟨1, 3, 4, [10], [11, 12]⟩
def jobB : Job := ⟨2, 5, 6, [20], [21]⟩
def startFs : Fs := fun n => if n = .part 1 then some [10] else if n = .part 2 then some [20] else if n = .part 9 then some [90] else none

/-- the first one stops right before the removal of the old file, the second one is complete except for its service file -/
def sampleSched : List Nat := List.replicate (jobA.prep simpleText).length 0 ++ List.replicate ((jobB.ops simpleText).length - 1) 1

example : Distinct [jobA, jobB] ∧ Ready [jobA, jobB] startFs ∧
    (∀ j ∈ [jobA, jobB], let fs := (advance (fun i => [jobA, jobB][i]?.map (Job.ops simpleText)) sampleSched (fun _ => 0) startFs).2
      fs (.part j.a) ≠ none ∨ fs (.part j.b) ≠ none) := by
  refine ⟨⟨by decide⟩, ⟨?_, ?_, fun c => rfl⟩, ?_⟩
  · intro j hj; simp at hj; rcases hj with rfl | rfl <;> rfl
  · intro j hj; simp at hj; rcases hj with rfl | rfl <;> rfl
  · intro j hj; simp at hj; rcases hj with rfl | rfl <;> decide +kernel

example : (match crashed simpleText (advance (fun i => [jobA, jobB][i]?.map (Job.ops simpleText)) sampleSched (fun _ => 0) startFs).2 [([.svc 4, .svc 6], 1)] with
    | some fs => (match recOps simpleText fs [.svc 4, .svc 6, .partInc 3] with
      | some ops => [Name.part 1, .part 2, .part 3, .part 5, .svc 4, .svc 6, .partInc 3, .part 9].map (applyAll fs ops)
      | none => [])
    | none => []) = [some [10], none, none, some [21], none, none, none, some [90]] := by decide +kernel

/-- C36 fails: the refresh stops after the old file has been removed and before the new one has been renamed. The recovery removes the service file and
then the new file, which is still named incomplete: the partition has no file any more. -/
theorem C36_refresh_false :
    let fs := applyAll startFs ((jobA.ops simpleText).take ((jobA.prep simpleText).length + 1))
    ∃ ops, recOps simpleText fs [.svc 4, .partInc 3] = some ops ∧ fs (.partInc 3) = some [11, 12] ∧
      applyAll fs ops (.part 1) = none ∧ applyAll fs ops (.part 3) = none ∧ applyAll fs ops (.partInc 3) = none := by
  refine ⟨[.unlink (.part 3), .unlink (.svc 4), .unlink (.partInc 3)], by decide +kernel, by decide +kernel, by decide +kernel, by decide +kernel, by decide +kernel⟩

/-- C36 fails for a flush also after the new partition file has been renamed, before the branch file has: the recovery removes both -/
theorem C36_flush_false :
    let fs := applyAll startFs ((flushOps simpleText jobA 8 [80]).take ((flushOps simpleText jobA 8 [80]).length - 2))
    ∃ ops, recOps simpleText fs [.svc 4, .objInc 8] = some ops ∧ fs (.part 3) = some [11, 12] ∧
      applyAll fs ops (.part 1) = none ∧ applyAll fs ops (.part 3) = none ∧ applyAll fs ops (.obj 8) = none ∧ applyAll fs ops (.objInc 8) = none := by
  refine ⟨[.unlink (.part 3), .unlink (.obj 8), .unlink (.svc 4), .unlink (.objInc 8)], by decide +kernel, by decide +kernel, by decide +kernel, by decide +kernel,
    by decide +kernel, by decide +kernel⟩

/-! ## C58 -/

theorem catRead_some {fs : Fs} {d : Bytes} (h : fs .cat = some d) : (catRead fs).2 = some d := by simp [catRead, h]

/-- **C58**: once a catalog file exists, whatever is written and read later and wherever the process stops, the catalog can be read and is one of
the complete texts: the last one that was written completely, or one whose writing was interrupted since; and reading it again gives the same. -/
theorem C58_catalog (fs : Fs) (first : Bytes) (h0 : fs .cat = some first) (es : List CatEvent) (hr : readsFirst true es) :
    ∃ d ∈ catAllowed [first] es, (catRead (catRun fs es)).2 = some d ∧ (catRead (catStep (catRun fs es) .read)).2 = some d := by
  obtain ⟨up, h⟩ := cat_run es [first] true fs (Or.inl ⟨first, by simp, h0⟩) hr
  obtain ⟨d, h1, h2, h3⟩ := catRead_all h
  refine ⟨d, h1, h2, ?_⟩
  exact catRead_some h3

def catFs : Fs := fun n => if n = .cat then some [1, 2] else none

/-- interrupted writes, an interrupted read, and a completed write -/
def catSample : List CatEvent := [.writeStop [3, 4] 3, .read, .writeStop [5, 6] 5, .readStop 0, .read, .write [7], .writeStop [8] 1]

example : catFs .cat = some [1, 2] ∧ readsFirst true catSample ∧ catAllowed [[1, 2]] catSample = [[8], [7]] ∧ (catRead (catRun catFs catSample)).2 = some [7] := by
  refine ⟨rfl, by simp [catSample, readsFirst], by decide, by decide⟩

/-- when the write stops between the removal and the renaming, the new text is found -/
example : catRun catFs [.writeStop [5, 6] 5] .cat = none ∧ (catRead (catRun catFs [.writeStop [5, 6] 5])).2 = some [5, 6] := by decide

/-- the first catalog file (bootstrap) is not protected: it can be read incomplete -/
theorem C58_bootstrap_false : ∃ fs : Fs, fs .cat = none ∧ (catRead (catStep fs (.writeStop [5, 6] 3))).2 = some [5] :=
  ⟨fun _ => none, rfl, by decide⟩

end Verif.Recover
