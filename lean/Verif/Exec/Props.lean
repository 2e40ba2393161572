import Verif.Exec.LiveProofs
/-!
# Properties of the executor and the committer: C21, C22
-/
set_option linter.unusedSimpArgs false
namespace Verif.Exec

instance (log : List Nat) (i j : Nat) : Decidable (Before log i j) :=
  decidable_of_iff (∃ n < log.length, log[n]? = some j ∧ i ∈ log.take n) <| by
    constructor
    · rintro ⟨n, hn, h1, h2⟩
      have h3 := List.take_append_drop n log
      rw [List.drop_eq_getElem_cons hn] at h3
      refine ⟨log.take n, log.drop (n + 1), ?_, h2⟩
      rw [List.getElem?_eq_getElem hn, Option.some.injEq] at h1
      rw [← h1]; exact h3.symm
    · rintro ⟨a, b, rfl, h⟩
      exact ⟨a.length, by simp, by simp, by simpa using h⟩

/-! ## C21: every transaction is decided -/

/-- C21, the safe half: in all histories nothing is decided twice, and nothing that has not been submitted and finished -/
theorem C21_sound (ops : List Op) : Sound (run Ex.init ops) := by
  have B := run_base ops
  exact ⟨B.nodup, fun i hi => ⟨(B.logd i hi).1, (B.logd i hi).2.1⟩⟩

/-- every transaction overlaps with the one registered last, unless nothing is registered at that moment -/
def Chained (ops : List Op) : Prop := ∀ a parts b, ops = a ++ .submit parts :: b → Linked (run Ex.init a) parts

/-- C21 for histories in which a transaction overlaps with the last one that is still running: whatever the order in which they finish, when all have
finished all are decided. Missing: other histories, for which the statement is false (`C21_gc_false`, `C21_fork_false`) -/
theorem C21_chain_partial (ops : List Op) (h : Chained ops) : AllDecided (run Ex.init ops) :=
  (run_live ops Ex.init init_live h).decided

theorem base_parts {s : Ex} (B : Base [] s) {d : Dtr} (hd : d ∈ s.list) : d.parts ∈ s.subs := by
  obtain ⟨h1, h2⟩ := B.lt d hd
  rw [h2, List.getD_eq_getElem?_getD, List.getElem?_eq_getElem h1]
  exact List.getElem_mem h1

/-- the partitions of the transactions submitted by a history -/
def submitted (ops : List Op) : List (List Nat) := ops.filterMap fun | .submit p => some p | _ => none

theorem receive_subs (bs : List Dtr × Ex) (id : Nat) : (receive bs id).2.subs = bs.2.subs := by
  unfold receive
  split
  · rfl
  · split <;> rfl

theorem fold_subs : ∀ (ids : List Nat) (bs : List Dtr × Ex), (ids.foldl receive bs).2.subs = bs.2.subs := by
  intro ids
  induction ids with
  | nil => intro bs; rfl
  | cons i ids ih => intro bs; rw [List.foldl_cons, ih, receive_subs]

theorem step_subs (s : Ex) (op : Op) : (step s op).subs = s.subs ++ submitted [op] := by
  cases op with
  | submit p =>
    show (attach s p).subs = _
    unfold attach
    split <;> rfl
  | commit ids =>
    show (finish _).subs = s.subs ++ []
    rw [List.append_nil]
    unfold finish
    split
    · exact fold_subs ids ([], s)
    · exact fold_subs ids ([], s)

/-- the model numbers transactions in the order of the history -/
theorem run_subs : ∀ (ops : List Op) (s : Ex), (run s ops).subs = s.subs ++ submitted ops := by
  intro ops
  induction ops with
  | nil => intro s; exact (List.append_nil _).symm
  | cons op ops ih =>
    intro s
    have e : submitted (op :: ops) = submitted [op] ++ submitted ops := by cases op <;> rfl
    rw [e, ← List.append_assoc, ← step_subs]
    exact ih (step s op)

theorem overlaps_common {a b : List Nat} {p : Nat} (ha : p ∈ a) (hb : p ∈ b) : overlaps a b = true := by
  simp only [overlaps, List.any_eq_true, List.contains_iff_mem]
  exact ⟨p, ha, hb⟩

theorem common_chained {ops : List Op} {p : Nat} (h : ∀ parts ∈ submitted ops, p ∈ parts) : Chained ops := by
  intro a parts b e r hr
  have hin : ∀ q ∈ (run Ex.init a).subs, p ∈ q := by
    intro q hq
    rw [run_subs] at hq
    refine h q ?_
    rw [e]
    simp only [submitted, List.filterMap_append, List.mem_append]
    exact .inl (by simpa [Ex.init, submitted] using hq)
  have hp : p ∈ parts := h parts (by rw [e]; simp [submitted])
  have hrm : r ∈ (run Ex.init a).list := List.mem_of_getLast? hr
  exact overlaps_common (hin _ (base_parts (run_base a) hrm)) hp

/-- C21 for transactions that all use one common partition, e.g. a database with one partition or one table every transaction writes to as a whole -/
theorem C21_common_partial (ops : List Op) (p : Nat) (h : ∀ parts ∈ submitted ops, p ∈ parts) : AllDecided (run Ex.init ops) :=
  C21_chain_partial ops (common_chained h)

/-- the transaction with the number `d.id` is not decided while it is in the list -/
theorem dead_never {s : Ex} {γ : Nat} {d : Dtr} (D : Dead γ s) (hd : d ∈ s.list) (hg : d.group = γ) (ops more : List Op) (hs : s = run Ex.init ops) :
    d.id ∉ (run Ex.init (ops ++ more)).log := by
  have h1 : d ∈ (run Ex.init (ops ++ more)).list := by
    have := run_dead hg more s D hd
    rw [hs] at this
    unfold run at this ⊢
    rw [List.foldl_append]; exact this
  intro h
  exact ((run_base (ops ++ more)).logd _ h).2.2 d h1 rfl

instance (γ : Nat) (s : Ex) : Decidable (Dead γ s) :=
  decidable_of_iff ((γ < s.next ∧ ∀ d ∈ s.list, d.group = γ → d.order ≠ 0) ∧ (∀ g ∈ s.groups, g.id = γ → g.next = 0) ∧
    ∀ g ∈ s.groups, ∀ d ∈ g.list, d.group = g.id ∧ (d.group = γ → d.order ≠ 0))
    ⟨fun ⟨⟨a, b⟩, c, d⟩ => ⟨a, b, c, d⟩, fun ⟨a, b, c, d⟩ => ⟨⟨a, b⟩, c, d⟩⟩

/-- C21 is false: transactions 0 and 2 use partition 0, transaction 1 uses partition 1; 0 finishes first. When it is detached the first running transaction
is 1 of the second group, so the first group is forgotten although transaction 2 belongs to it. Transaction 2 is never decided, whatever happens later:
its session waits forever and so does everything after it on the partition -/
theorem C21_gc_false (more : List Op) :
    let ops := [Op.submit [0], .submit [1], .submit [0], .commit [0], .commit [1], .commit [2]]
    (∀ i, i < 3 → i ∈ (run Ex.init ops).sent) ∧ 2 ∉ (run Ex.init (ops ++ more)).log := by
  refine ⟨by decide, ?_⟩
  exact dead_never (s := run Ex.init [Op.submit [0], .submit [1], .submit [0], .commit [0], .commit [1], .commit [2]]) (γ := 1)
    (d := ⟨2, [0], 1, 1⟩) (by decide) (by decide) rfl _ more rfl

/-- C21 is false: 0 uses both partitions, 1 uses the first and 2 the second; both follow 0 directly and get the same position in the group. The committer
takes one of them (here 1) and waits for the position after it. When transaction 2 has finished nothing happens -/
theorem C21_fork_false :
    let ops := [Op.submit [0, 1], .submit [0], .submit [1], .commit [0], .commit [1], .commit [2]]
    (∀ i, i < 3 → i ∈ (run Ex.init ops).sent) ∧ (run Ex.init ops).log = [0, 1] ∧ ¬ AllDecided (run Ex.init ops) := by
  refine ⟨by decide, by decide, ?_⟩
  intro h
  have := h (by decide) 2 (by decide)
  revert this
  decide

/-- both are handed over together: one is decided, the other one is not -/
theorem C21_fork_batch_false : ¬ AllDecided (run Ex.init [Op.submit [0, 1], .submit [0], .submit [1], .commit [0, 1, 2]]) := by
  intro h
  have := h (by decide) 2 (by decide)
  revert this
  decide

/-- a history that meets `C21_chain_partial`: three transactions, every two neighbours overlap, 0 and 2 do not; they finish in the opposite order -/
example : Chained [.submit [0, 1], .submit [1, 2], .submit [2, 3], .commit [2], .commit [1], .commit [0]] := by
  intro a parts b e
  have hn : ∀ n, n < 6 → [Op.submit [0, 1], .submit [1, 2], .submit [2, 3], .commit [2], .commit [1], .commit [0]][n]? = some (.submit parts) →
      ∀ r, (run Ex.init ([Op.submit [0, 1], .submit [1, 2], .submit [2, 3], .commit [2], .commit [1], .commit [0]].take n)).list.getLast? = some r →
        overlaps r.parts parts = true := by
    intro n hn h r hr
    match n, hn with
    | 0, _ => simp at h; subst h; revert hr; simp [run, Ex.init]
    | 1, _ =>
      simp at h; subst h
      have e1 : (run Ex.init [Op.submit [0, 1]]).list.getLast? = some ⟨0, [0, 1], 1, 0⟩ := by decide
      rw [show List.take 1 _ = [Op.submit [0, 1]] from rfl, e1] at hr
      cases hr; decide
    | 2, _ =>
      simp at h; subst h
      have e1 : (run Ex.init [Op.submit [0, 1], .submit [1, 2]]).list.getLast? = some ⟨1, [1, 2], 1, 1⟩ := by decide
      rw [show List.take 2 _ = [Op.submit [0, 1], .submit [1, 2]] from rfl, e1] at hr
      cases hr; decide
    | 3, _ => simp at h
    | 4, _ => simp at h
    | 5, _ => simp at h
  have hlen : a.length < 6 := by
    have := congrArg List.length e
    simp at this; omega
  intro r hr
  refine hn a.length hlen ?_ r ?_
  · rw [e]; simp
  · rw [e]; simpa using hr

example : (run Ex.init [.submit [0, 1], .submit [1, 2], .submit [2, 3], .commit [2], .commit [1], .commit [0]]).log = [0, 1, 2] := by decide

/-! ## C22: order of conflicting transactions -/

/-- C22 for histories in which a transaction overlaps with the last one that is still running. Missing: other histories, for which the statement is false
(`C22_fork_false`, `C22_groups_false`) -/
theorem C22_chain_partial (ops : List Op) (h : Chained ops) : InOrder (run Ex.init ops) := by
  intro i j p hij _ _ hj
  exact (run_live ops Ex.init init_live h).cls.before hij rfl hj

/-- in such a history the log is the whole order of submission, not only that of conflicting transactions -/
theorem C22_chain_log_partial (ops : List Op) (h : Chained ops) : (run Ex.init ops).log = List.range (run Ex.init ops).log.length := by
  have C := (run_live ops Ex.init init_live h).cls
  have h1 := C.all 0
  have e1 : ((run Ex.init ops).log.filter fun i => decide (one ((run Ex.init ops).subs.getD i []) = 0)) = (run Ex.init ops).log :=
    List.filter_eq_self.2 fun x _ => rfl
  have e2 : ((List.range (run Ex.init ops).subs.length).filter fun i => decide (one ((run Ex.init ops).subs.getD i []) = 0)) =
      List.range (run Ex.init ops).subs.length := List.filter_eq_self.2 fun x _ => rfl
  rw [e1, e2] at h1
  generalize hl : (run Ex.init ops).log = l at h1 ⊢
  have := congrArg (List.take l.length) h1
  rw [List.take_left, List.take_range] at this
  have hle : l.length ≤ (run Ex.init ops).subs.length := by
    have := congrArg List.length h1
    simp at this; omega
  rw [Nat.min_eq_left hle] at this
  exact this

/-- C22 for transactions that all use one common partition -/
theorem C22_common_partial (ops : List Op) (p : Nat) (h : ∀ parts ∈ submitted ops, p ∈ parts) : InOrder (run Ex.init ops) :=
  C22_chain_partial ops (common_chained h)

/-- C22 for transactions on one partition each, over any number of partitions -/
theorem C22_single_partial (ops : List Op) (h : ∀ parts ∈ submitted ops, ∃ p, parts = [p]) : InOrder (run Ex.init ops) := by
  have hsub : ∀ q ∈ (run Ex.init ops).subs, ∃ p, q = [p] := by
    intro q hq
    rw [run_subs] at hq
    exact h q (by simpa [Ex.init] using hq)
  have C : Cls (fun q => q.headD 0) [] (run Ex.init ops) := by
    refine run_cls ops Ex.init init_cls ?_
    intro a parts b e
    have hin : ∀ q ∈ (run Ex.init a).subs, ∃ p, q = [p] := by
      intro q hq
      rw [run_subs] at hq
      refine h q ?_
      rw [e]
      simp only [submitted, List.filterMap_append, List.mem_append]
      exact .inl (by simpa [Ex.init, submitted] using hq)
    obtain ⟨p, rfl⟩ := h parts (by rw [e]; simp [submitted])
    unfold Found
    rw [find_last, find_last]
    refine congrArg List.getLast? (List.filter_congr ?_)
    intro r hr
    obtain ⟨q, hq⟩ := hin _ (base_parts (run_base a) hr)
    rw [hq]
    simp [overlaps, List.contains_iff_mem]
  intro i j p hij hi hj hl
  refine C.before hij ?_ hl
  have single : ∀ k, p ∈ partsOf (run Ex.init ops) k → partsOf (run Ex.init ops) k = [p] := by
    intro k hk
    unfold partsOf at hk ⊢
    by_cases hk' : k < (run Ex.init ops).subs.length
    · obtain ⟨q, hq⟩ := hsub ((run Ex.init ops).subs.getD k []) (by
        rw [List.getD_eq_getElem?_getD, List.getElem?_eq_getElem hk']
        exact List.getElem_mem hk')
      rw [hq] at hk ⊢
      simp only [List.mem_singleton] at hk
      rw [hk]
    · rw [List.getD_eq_getElem?_getD, List.getElem?_eq_none (by omega)] at hk
      simp at hk
  rw [single i hi, single j hj]

/-- C22 is false: 0 uses both partitions, 1 uses the first, 2 the second, 3 the first; 1 is slow. 2 takes the position of 1, so 3 is decided before 1
although both use partition 0 -/
theorem C22_fork_false :
    let s := run Ex.init [Op.submit [0, 1], .submit [0], .submit [1], .submit [0], .commit [0], .commit [2], .commit [3]]
    s.log = [0, 2, 3] ∧ 0 ∈ partsOf s 1 ∧ 0 ∈ partsOf s 3 ∧ ¬ InOrder s := by
  refine ⟨by decide, by decide, by decide, ?_⟩
  intro h
  have := h 1 3 0 (by decide) (by decide) (by decide) (by decide)
  revert this
  decide

/-- C22 is false: 0 uses the first partition, 1 the second, 2 both. 2 follows 1, its order with 0 is not kept -/
theorem C22_groups_false :
    let s := run Ex.init [Op.submit [0], .submit [1], .submit [0, 1], .commit [1], .commit [2]]
    s.log = [1, 2] ∧ 0 ∈ partsOf s 0 ∧ 0 ∈ partsOf s 2 ∧ ¬ InOrder s := by
  refine ⟨by decide, by decide, by decide, ?_⟩
  intro h
  have := h 0 2 0 (by decide) (by decide) (by decide) (by decide)
  revert this
  decide

/-- meets `C22_single_partial`: two partitions, transactions finish out of order -/
example : (∀ parts ∈ submitted [.submit [0], .submit [1], .submit [0], .submit [1], .commit [3], .commit [2, 1], .commit [0]], ∃ p, parts = [p]) ∧
    (run Ex.init [.submit [0], .submit [1], .submit [0], .submit [1], .commit [3], .commit [2, 1], .commit [0]]).log = [1, 3, 0, 2] := by
  refine ⟨?_, by decide⟩
  intro parts hp
  simp [submitted] at hp
  rcases hp with rfl | rfl | rfl | rfl <;> exact ⟨_, rfl⟩

/-- meets `C21_common_partial` and `C22_common_partial` -/
example : (∀ parts ∈ submitted [.submit [0, 1], .submit [2, 0], .commit [1], .submit [0], .commit [0, 2]], 0 ∈ parts) ∧
    (run Ex.init [.submit [0, 1], .submit [2, 0], .commit [1], .submit [0], .commit [0, 2]]).log = [0, 1, 2] := by
  refine ⟨?_, by decide⟩
  intro parts hp
  simp [submitted] at hp
  rcases hp with rfl | rfl | rfl <;> simp

end Verif.Exec
