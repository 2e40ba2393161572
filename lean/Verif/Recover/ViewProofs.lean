import Verif.Recover.Spec
set_option linter.unusedSimpArgs false
set_option linter.unusedVariables false
set_option linter.unusedSectionVars false
/-!
# A system that is not restarted: all operations, with DROP, TRUNCATE and unlogged changes
-/
namespace Verif.Recover
open Verif Verif.Wal
variable {K : Type} [DecidableEq K]

/-- memory holds the contents `w` -/
structure Holds (env : Env K) (w : World K) (s : Sys K) : Prop where
  tabs : s.tabs = w.tabs
  rows : ∀ t ∈ s.tabs, ∀ p k, env.slot t k = some p → (s.parts t p).rows k = w.rows t k
  out  : ∀ t k, t ∉ s.tabs ∨ env.slot t k = none → w.rows t k = none
  nofi : ∀ t, t ∉ s.tabs → ∀ p, s.img t p = none ∧ s.busy t p = none
  tnd  : s.tabs.Nodup

theorem Holds.view {env : Env K} {w : World K} {s : Sys K} (h : Holds env w s) : view env s = w := by
  cases w with
  | mk tabs rows =>
    unfold Recover.view
    have e : (fun t k => if t ∈ s.tabs then (match env.slot t k with | some p => (s.parts t p).rows k | none => none) else none) = rows := by
      funext t k
      by_cases ht : t ∈ s.tabs
      · rw [if_pos ht]
        cases hs : env.slot t k with
        | none => exact (h.out t k (.inr hs)).symm
        | some p => exact h.rows t ht p k hs
      · rw [if_neg ht]; exact (h.out t k (.inl ht)).symm
    have e2 : s.tabs = tabs := h.tabs
    rw [← e2]
    exact congrArg (World.mk s.tabs) e

theorem put_rows (m : Mem K) (k : K) (row : Bytes) : (m.put k row).rows = setRow m.rows k (some row) := rfl

/-- one change: refused on both sides, or made on both sides -/
theorem holds_change {env : Env K} {w : World K} {s : Sys K} (h : Holds env w s) (lsn : Nat) (c : Change) :
    (World.change env w c = none ∧ ∃ e, runChange env lsn s c = .error e) ∨
    ∃ w' s', World.change env w c = some w' ∧ runChange env lsn s c = .ok s' ∧ Holds env w' s' := by
  cases c with
  | row cmd a b row =>
    simp only [World.change, runChange, ← h.tabs]
    by_cases ht : (a, b) ∈ s.tabs
    · have hnt : ¬ ((a, b) ∉ s.tabs) := fun hh => hh ht
      rw [if_neg hnt]
      cases hs : env.slot (a, b) (env.key (a, b) row) with
      | none => left; exact ⟨by rw [if_pos (Or.inr rfl)], _, rfl⟩
      | some p =>
        have hno : ¬ ((a, b) ∉ s.tabs ∨ (some p : Option Nat) = none) := by
          rintro (hh | hh)
          · exact hnt hh
          · cases hh
        rw [if_neg hno]
        have hk := h.rows (a, b) ht p _ hs
        have fin : ∀ (v : Option Bytes) (m' : Mem K), m'.rows = setRow (s.parts (a, b) p).rows (env.key (a, b) row) v →
            Holds env (w.set (a, b) (env.key (a, b) row) v) { s with parts := setPart s.parts (a, b) p { m' with track := lsn } } := by
          intro v m' hm
          refine ⟨h.tabs, ?_, ?_, h.nofi, h.tnd⟩
          · intro t ht' q k hq
            show (setPart s.parts (a, b) p _ t q).rows k = if t = (a, b) ∧ k = env.key (a, b) row then v else w.rows t k
            unfold setPart
            by_cases e : t = (a, b) ∧ q = p
            · obtain ⟨rfl, rfl⟩ := e
              rw [if_pos ⟨rfl, rfl⟩]
              show m'.rows k = _
              rw [hm]
              unfold setRow
              by_cases ek : k = env.key (a, b) row
              · rw [if_pos ek, if_pos ⟨rfl, ek⟩]
              · rw [if_neg ek, if_neg (fun hh => ek hh.2)]
                exact h.rows _ ht' _ k hq
            · rw [if_neg e]
              have ne : ¬ (t = (a, b) ∧ k = env.key (a, b) row) := by
                rintro ⟨rfl, rfl⟩
                rw [hs] at hq
                exact e ⟨rfl, (Option.some.inj hq).symm⟩
              rw [if_neg ne]
              exact h.rows t ht' q k hq
          · intro t k hh
            show (if t = (a, b) ∧ k = env.key (a, b) row then v else w.rows t k) = none
            have ne : ¬ (t = (a, b) ∧ k = env.key (a, b) row) := by
              rintro ⟨rfl, rfl⟩
              rcases hh with hh | hh
              · exact hh ht
              · rw [hs] at hh; cases hh
            rw [if_neg ne]
            exact h.out t k hh
        unfold Mem.row
        by_cases hc : cmd = REPLACE
        · simp only [hc, if_true]
          exact .inr ⟨_, _, rfl, rfl, fin (some row) _ rfl⟩
        · simp only [hc, if_false]
          unfold Mem.del
          rw [hk]
          cases hv : w.rows (a, b) (env.key (a, b) row) with
          | none => exact .inl ⟨by simp, _, rfl⟩
          | some r => exact .inr ⟨w.set (a, b) (env.key (a, b) row) none, _, by simp, rfl, fin none _ rfl⟩
    · left
      exact ⟨by rw [if_pos (Or.inl ht)], _, by rw [if_pos ht]⟩
  | op cmd op =>
    simp only [World.change, runChange, execDdl, ← h.tabs]
    cases hd : env.ddl op with
    | create t =>
      simp only
      by_cases ht : t ∈ s.tabs
      · left; exact ⟨by rw [if_pos ht], _, by rw [if_pos ht]; rfl⟩
      · right
        rw [if_neg ht, if_neg ht]
        refine ⟨_, _, rfl, rfl, ?_⟩
        have hno := h.nofi t ht
        refine ⟨by show s.tabs ++ [t] = _; rfl, ?_, ?_, ?_, ?_⟩
        · intro t' ht' p k hs
          show ((if t' = t then load env t (s.img t p) else s.parts t' p)).rows k = if t' = t then none else w.rows t' k
          by_cases e : t' = t
          · rw [if_pos e, if_pos e, (hno p).1]; rfl
          · rw [if_neg e, if_neg e]
            have : t' ∈ s.tabs := by
              rcases List.mem_append.1 ht' with hh | hh
              · exact hh
              · exact absurd (by simpa using hh) e
            exact h.rows t' this p k hs
        · intro t' k hh
          show (if t' = t then none else w.rows t' k) = none
          split
          · rfl
          · exact h.out t' k (hh.imp (fun a b => a (List.mem_append_left _ b)) id)
        · intro t' ht' p
          have hne : t' ≠ t := fun e => ht' (by rw [e]; exact List.mem_append_right _ (by simp))
          have : t' ∉ s.tabs := fun hh => ht' (List.mem_append_left _ hh)
          refine ⟨?_, (h.nofi t' this p).2⟩
          show (if t' = t then some ((s.img t p).getD ⟨0, []⟩) else s.img t' p) = none
          rw [if_neg hne]; exact (h.nofi t' this p).1
        · show (s.tabs ++ [t]).Nodup
          rw [List.nodup_append]
          exact ⟨h.tnd, by simp, by intro x hx y hy; simp at hy; subst hy; exact fun e => ht (e ▸ hx)⟩
    | drop t =>
      simp only
      by_cases ht : t ∈ s.tabs
      · have hnt : ¬ (t ∉ s.tabs) := fun hh => hh ht
        right
        rw [if_neg hnt, if_neg hnt]
        refine ⟨_, _, rfl, rfl, ?_⟩
        have hmem : ∀ t', t' ∈ s.tabs.erase t ↔ t' ≠ t ∧ t' ∈ s.tabs := fun t' => h.tnd.mem_erase_iff
        refine ⟨rfl, ?_, ?_, ?_, h.tnd.sublist List.erase_sublist⟩
        · intro t' ht' p k hs
          obtain ⟨e, hin⟩ := (hmem t').1 ht'
          show ((if t' = t then _ else s.parts t' p) : Mem K).rows k = if t' = t then none else w.rows t' k
          rw [if_neg e, if_neg e]
          exact h.rows t' hin p k hs
        · intro t' k hh
          show (if t' = t then none else w.rows t' k) = none
          split
          · rfl
          · rename_i e
            exact h.out t' k (hh.imp (fun a b => a ((hmem t').2 ⟨e, b⟩)) id)
        · intro t' ht' p
          show (if t' = t then none else s.img t' p) = none ∧ (if t' = t then none else s.busy t' p) = none
          by_cases e : t' = t
          · rw [if_pos e, if_pos e]; exact ⟨rfl, rfl⟩
          · rw [if_neg e, if_neg e]
            exact h.nofi t' (fun hh => ht' ((hmem t').2 ⟨e, hh⟩)) p
      · left; exact ⟨by rw [if_pos ht], _, by rw [if_pos ht]; rfl⟩
    | truncate t =>
      simp only
      by_cases ht : t ∈ s.tabs
      · have hnt : ¬ (t ∉ s.tabs) := fun hh => hh ht
        right
        rw [if_neg hnt, if_neg hnt]
        refine ⟨_, _, rfl, rfl, ?_⟩
        refine ⟨rfl, ?_, ?_, h.nofi, h.tnd⟩
        · intro t' ht' p k hs
          show ((if t' = t then { s.parts t' p with rows := fun _ => none } else s.parts t' p) : Mem K).rows k = if t' = t then none else w.rows t' k
          by_cases e : t' = t
          · rw [if_pos e, if_pos e]
          · rw [if_neg e, if_neg e]; exact h.rows t' ht' p k hs
        · intro t' k hh
          show (if t' = t then none else w.rows t' k) = none
          split
          · rfl
          · exact h.out t' k hh
      · left; exact ⟨by rw [if_pos ht], _, by rw [if_pos ht]; rfl⟩
    | other => exact .inr ⟨_, _, rfl, rfl, h.tabs, h.rows, h.out, h.nofi, h.tnd⟩

theorem holds_changes {env : Env K} (lsn : Nat) (cs : List Change) : ∀ {w : World K} {s : Sys K}, Holds env w s →
    (cs.foldlM (World.change env) w = none ∧ ∃ e, cs.foldlM (runChange env lsn) s = .error e) ∨
    ∃ w' s', cs.foldlM (World.change env) w = some w' ∧ cs.foldlM (runChange env lsn) s = .ok s' ∧ Holds env w' s' := by
  induction cs with
  | nil => intro w s h; exact .inr ⟨w, s, rfl, rfl, h⟩
  | cons c cs ih =>
    intro w s h
    simp only [List.foldlM_cons]
    rcases holds_change h lsn c with ⟨h1, e, h2⟩ | ⟨w', s', h1, h2, h3⟩
    · left; rw [h1, h2]; exact ⟨rfl, e, rfl⟩
    · rw [h1, h2]; exact ih h3

theorem holds_log {env : Env K} {w : World K} {s : Sys K} (h : Holds env w s) (l : Nat) (g : List Bytes) : Holds env w { s with lsn := l, log := g } :=
  ⟨h.tabs, h.rows, h.out, h.nofi, h.tnd⟩

/-- tables can be UNLOGGED, DDL is always logged -/
def RowsOnly : Op → Prop
  | .unlogged (.op _ _) => False
  | _ => True

theorem holds_step {env : Env K} {w : World K} {s : Sys K} (h : Holds env w s) (o : Op) (ho : o ≠ .restart) (hu : RowsOnly o) :
    ∃ s', step env s o = .ok s' ∧ Holds env (w.step env o) s' := by
  cases o with
  | restart => exact absurd rfl ho
  | tx css =>
    simp only [step, World.step, World.tx]
    rcases holds_changes (s.lsn + 1) css.flatten h with ⟨h1, e, h2⟩ | ⟨w', s', h1, h2, h3⟩
    · rw [h1, h2]; exact ⟨s, rfl, h⟩
    · rw [h1, h2]; exact ⟨_, rfl, holds_log h3 _ _⟩
  | unlogged c =>
    cases c with
    | row cmd a b row =>
      simp only [step, World.step, World.tx]
      generalize hl : ((env.slot (a, b) (env.key (a, b) row)).map fun p => (s.parts (a, b) p).track).getD 0 = l
      have e : ([[Change.row cmd a b row]] : List (List Change)).flatten = [Change.row cmd a b row] := rfl
      rw [e]
      have hh := holds_changes l [Change.row cmd a b row] h
      have e2 : [Change.row cmd a b row].foldlM (runChange env l) s = runChange env l s (.row cmd a b row) := by
        simp only [List.foldlM_cons, List.foldlM_nil, bind_pure]
      rw [e2] at hh
      rcases hh with ⟨h1, e, h2⟩ | ⟨w', s', h1, h2, h3⟩
      · rw [h1, h2]; exact ⟨s, rfl, h⟩
      · rw [h1, h2]; exact ⟨s', rfl, h3⟩
    | op cmd op => exact absurd hu id
  | catalog =>
    simp only [step, World.step]
    split
    · exact ⟨_, rfl, h.tabs, h.rows, h.out, h.nofi, h.tnd⟩
    · exact ⟨s, rfl, h⟩
  | gc m => exact ⟨_, rfl, h.tabs, h.rows, h.out, h.nofi, h.tnd⟩
  | refreshStart t p =>
    simp only [step, World.step]
    split
    · rename_i hc
      refine ⟨_, rfl, h.tabs, ?_, h.out, ?_, h.tnd⟩
      · intro t' ht' q k hq
        show (setPart s.parts t p _ t' q).rows k = _
        unfold setPart
        split
        · rename_i e; obtain ⟨rfl, rfl⟩ := e; exact h.rows _ ht' _ k hq
        · exact h.rows t' ht' q k hq
      · intro t' ht' q
        refine ⟨(h.nofi t' ht' q).1, ?_⟩
        show setPart s.busy t p _ t' q = none
        unfold setPart
        rw [if_neg (fun e : t' = t ∧ q = p => ht' (e.1 ▸ hc.1))]
        exact (h.nofi t' ht' q).2
    · exact ⟨s, rfl, h⟩
  | refreshEnd t p =>
    simp only [step, World.step]
    cases hb : s.busy t p with
    | none => exact ⟨s, rfl, h⟩
    | some i =>
      refine ⟨_, rfl, h.tabs, h.rows, h.out, ?_, h.tnd⟩
      intro t' ht' q
      have hne : ¬ (t' = t ∧ q = p) := by
        rintro ⟨rfl, rfl⟩
        rw [(h.nofi _ ht' _).2] at hb; cases hb
      show setPart s.img t p _ t' q = none ∧ setPart s.busy t p _ t' q = none
      unfold setPart
      rw [if_neg hne, if_neg hne]
      exact h.nofi t' ht' q

theorem holds_run {env : Env K} (ops : List Op) (hr : .restart ∉ ops) (hu : ∀ o ∈ ops, RowsOnly o) : ∀ {w : World K} {s : Sys K}, Holds env w s →
    ∃ s', run env s ops = .ok s' ∧ Holds env (ops.foldl (World.step env) w) s' := by
  induction ops with
  | nil => intro w s h; exact ⟨s, rfl, h⟩
  | cons o ops ih =>
    intro w s h
    obtain ⟨s1, h1, h2⟩ := holds_step h o (fun e => hr (by rw [e]; simp)) (hu o (by simp))
    obtain ⟨s2, h3, h4⟩ := ih (fun hh => hr (List.mem_cons_of_mem _ hh)) (fun o' h' => hu o' (List.mem_cons_of_mem _ h')) h2
    refine ⟨s2, ?_, h4⟩
    unfold run at h3 ⊢
    rw [List.foldlM_cons, h1]
    exact h3

theorem holds_init (env : Env K) : Holds env World.init (Sys.init : Sys K) :=
  ⟨rfl, fun t ht => by simp [Sys.init] at ht, fun _ _ _ => rfl, fun _ _ _ => ⟨rfl, rfl⟩, List.nodup_nil⟩

end Verif.Recover
