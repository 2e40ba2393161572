import Verif.Recover.Spec
import Verif.Wal.LogProofs
set_option linter.unusedSimpArgs false
set_option linter.unusedVariables false
/-! # Replaying a record is replaying its changes one by one -/
namespace Verif.Recover
open Verif Verif.Wal
variable {K : Type} [DecidableEq K]

theorem groups_ok (lsn : Nat) (logs : List WLog) (gs : List Grp) (hc : logs.flatMap WLog.cmds = gs.map Grp.cmdOf)
    (hi : logs.flatMap WLog.iov = gs.flatMap Grp.ps) (hg : ∀ g ∈ gs, g.Good) (hs : (record lsn logs).length < 2 ^ 32) :
    ∀ (g2 g1 : List Grp), gs = g1 ++ g2 →
      groups (record lsn logs) g2.length g1.length (24 + gs.length * 25 + (g1.flatMap Grp.ps).flatten.length) =
        .ok (g2.map fun g => (g.cmdOf, g.ps)) := by
  have hdata : (logs.map WLog.data).flatten = (gs.flatMap Grp.ps).flatten := by
    rw [← hi]
    clear hc hi hg hs
    induction logs with
    | nil => rfl
    | cons l t ih => simp [ih, WLog.data]
  have hml : (((header logs).finish lsn).bytes ++ (logs.map WLog.meta).flatten).length = 24 + gs.length * 25 := by
    simp only [List.length_append, Hdr.bytes_length, metas_length, hc, List.length_map]; omega
  have hrec : record lsn logs = (((header logs).finish lsn).bytes ++ (logs.map WLog.meta).flatten) ++ (gs.flatMap Grp.ps).flatten := by
    rw [← hdata]; rfl
  intro g2
  induction g2 with
  | nil => intro g1 _; rfl
  | cons g t ih =>
    intro g1 e
    have hgg : g.Good := hg g (by rw [e]; simp)
    have hnext := ih (g1 ++ [g]) (by rw [e]; simp)
    generalize hP : (((header logs).finish lsn).bytes ++ (logs.map WLog.meta).flatten) ++ (g1.flatMap Grp.ps).flatten = P
    have hPl : P.length = 24 + gs.length * 25 + (g1.flatMap Grp.ps).flatten.length := by
      rw [← hP, List.length_append, hml]
    have hr : record lsn logs = P ++ (g.ps.flatten ++ (t.flatMap Grp.ps).flatten) := by
      rw [hrec, ← hP, e]; simp
    have hlt : g.ps.flatten.length < 2 ^ 32 := by
      have : (record lsn logs).length = P.length + (g.ps.flatten.length + ((t.flatMap Grp.ps).flatten).length) := by rw [hr]; simp
      omega
    have hsz : g.cmdOf.size = g.ps.flatten.length := Nat.mod_eq_of_lt hlt
    have hcrc : g.cmdOf.crc < 2 ^ 32 := crc32_lt _ _ (by decide) (isBytes_flatten hgg.by_)
    have hcmd : g.cmdOf.cmd < 256 := by
      show g.cmd < 256
      rcases hgg.kind with ⟨h, _⟩ | ⟨h, _⟩ <;> rcases h with h | h <;> rw [h] <;> decide
    have hread : Cmd.read (record lsn logs) g1.length = g.cmdOf := by
      have := record_cmd lsn logs (g1.map Grp.cmdOf) (t.map Grp.cmdOf) g.cmdOf [] (by rw [hc, e]; simp)
        ⟨hcmd, by rw [hsz]; exact hlt, hcrc, hgg.a, hgg.b⟩
      simpa using this
    have hslice : slice (record lsn logs) P.length g.ps.flatten.length = g.ps.flatten :=
      slice_at (a := P) (b := g.ps.flatten) (c := (t.flatMap Grp.ps).flatten) hr rfl rfl
    have hval : validateCmd g.cmdOf (record lsn logs) P.length = true := by
      unfold validateCmd
      rw [hsz, hslice]
      simp [Grp.cmdOf]
    rw [← hPl]
    have hnp : 24 + gs.length * 25 + ((g1 ++ [g]).flatMap Grp.ps).flatten.length = P.length + g.ps.flatten.length := by
      rw [hPl]; simp; omega
    rw [hnp] at hnext
    simp only [List.length_append, List.length_cons, List.length_nil] at hnext
    simp only [List.length_cons, groups, hread, hval, Bool.not_true, if_false, Bool.false_eq_true, hsz]
    rcases hgg.kind with ⟨hk, hrow⟩ | ⟨hk, op, hop⟩
    · rw [if_pos (show g.cmdOf.cmd = REPLACE ∨ g.cmdOf.cmd = DELETE from hk)]
      have hle : g.ps.length ≤ g.ps.flatten.length := by
        clear hval hslice hread hr hlt hsz hnp hnext hgg hk hcrc hcmd
        generalize g.ps = ps at hrow
        induction ps with
        | nil => simp
        | cons p ps ih =>
          have := (hrow p (by simp)).1
          have := ih (fun x hx => hrow x (by simp [hx]))
          simp only [List.length_cons, List.flatten_cons, List.length_append]; omega
      rw [rows_ok (record lsn logs) g.ps P _ (P.length + g.ps.flatten.length) g.ps.flatten.length hr rfl hrow hle]
      simp only [bind, Except.bind, hnext, List.map_cons]
    · have hn : ¬ (g.cmd = REPLACE ∨ g.cmd = DELETE) := by simp only [DDL, DDL_CREATE_INDEX, REPLACE, DELETE] at *; omega
      rw [if_neg (show ¬ (g.cmdOf.cmd = REPLACE ∨ g.cmdOf.cmd = DELETE) from hn),
        if_pos (show g.cmdOf.cmd = DDL ∨ g.cmdOf.cmd = DDL_CREATE_INDEX from hk)]
      simp only [bind, Except.bind, hnext, hslice, List.map_cons]
      rw [hop]
      simp

/-- replaying one change -/
def recoverChange (env : Env K) (lsn : Nat) (s : Sys K) : Change → Res (Sys K)
  | .row cmd a b row =>
    if (a, b) ∉ s.tabs then .ok s
    else
      match env.slot (a, b) (env.key (a, b) row) with
      | none => .error .err
      | some p =>
        let m := { s.parts (a, b) p with track := max (s.parts (a, b) p).track lsn }
        if lsn ≤ m.lsn then .ok { s with parts := setPart s.parts (a, b) p m }
        else
          match m.row cmd (env.key (a, b) row) row with
          | .error e => .error e
          | .ok m => .ok { s with parts := setPart s.parts (a, b) p m }
  | .op _ op =>
    if lsn ≤ s.cat then .ok s
    else
      match execDdl env s op with
      | .error e => .error e
      | .ok s => .ok { s with pending := lsn }

theorem setPart_same {α : Type} (f : Tid → Nat → α) (t : Tid) (p : Nat) (m : α) : setPart f t p m t p = m := by simp [setPart]

theorem setPart_twice {α : Type} (f : Tid → Nat → α) (t : Tid) (p : Nat) (m m' : α) : setPart (setPart f t p m) t p m' = setPart f t p m' := by
  funext t' p'
  simp only [setPart]
  split <;> rfl

theorem row_meta {m m' : Mem K} {cmd : Nat} {k : K} {row : Bytes} (h : m.row cmd k row = .ok m') : m'.lsn = m.lsn ∧ m'.track = m.track := by
  unfold Mem.row at h
  split at h
  · cases h; exact ⟨rfl, rfl⟩
  · unfold Mem.del at h
    split at h
    · cases h
    · cases h; exact ⟨rfl, rfl⟩

theorem foldlM_ok_cons {α β : Type} (f : β → α → Res β) (b : β) (a : α) (l : List α) :
    (a :: l).foldlM f b = (match f b a with | .error e => .error e | .ok b' => l.foldlM f b') := by
  rw [List.foldlM_cons]
  show Except.bind _ _ = _
  cases f b a <;> rfl

/-- rows of one partition, above its lsn -/
theorem rows_flat (env : Env K) (lsn cmd a b p : Nat) (rs : List Bytes) : ∀ (s : Sys K) (m : Mem K),
    (a, b) ∈ s.tabs → (∀ r ∈ rs, env.slot (a, b) (env.key (a, b) r) = some p) → ¬ lsn ≤ m.lsn → m.track = max m.track lsn →
    (rs.map (Change.row cmd a b)).foldlM (recoverChange env lsn) { s with parts := setPart s.parts (a, b) p m } =
      (match rs.foldlM (fun m row => m.row cmd (env.key (a, b) row) row) m with
       | .error e => .error e
       | .ok m => .ok { s with parts := setPart s.parts (a, b) p m }) := by
  induction rs with
  | nil => intro s m _ _ _ _; rfl
  | cons r rs ih =>
    intro s m ht hp hl hm
    rw [List.map_cons, foldlM_ok_cons, foldlM_ok_cons]
    simp only [recoverChange]
    rw [if_neg (by simpa using ht), hp r (by simp)]
    simp only [setPart_same]
    have hm' : ({ m with track := max m.track lsn } : Mem K) = m := by rw [← hm]
    rw [hm', if_neg hl]
    cases e : m.row cmd (env.key (a, b) r) r with
    | error x => rfl
    | ok m1 =>
      simp only [setPart_twice]
      obtain ⟨e1, e2⟩ := row_meta e
      exact ih s m1 ht (fun x hx => hp x (by simp [hx])) (by rw [e1]; exact hl) (by rw [e2]; exact hm)

/-- rows of one partition, already in it -/
theorem rows_skip (env : Env K) (lsn cmd a b p : Nat) (rs : List Bytes) : ∀ (s : Sys K) (m : Mem K),
    (a, b) ∈ s.tabs → (∀ r ∈ rs, env.slot (a, b) (env.key (a, b) r) = some p) → lsn ≤ m.lsn → m.track = max m.track lsn →
    (rs.map (Change.row cmd a b)).foldlM (recoverChange env lsn) { s with parts := setPart s.parts (a, b) p m } =
      .ok { s with parts := setPart s.parts (a, b) p m } := by
  induction rs with
  | nil => intro s m _ _ _ _; rfl
  | cons r rs ih =>
    intro s m ht hp hl hm
    rw [List.map_cons, foldlM_ok_cons (recoverChange env lsn)]
    simp only [recoverChange]
    rw [if_neg (by simpa using ht), hp r (by simp)]
    simp only [setPart_same]
    have hm' : ({ m with track := max m.track lsn } : Mem K) = m := by rw [← hm]
    rw [hm', if_pos hl]
    simp only [setPart_twice]
    exact ih s m ht (fun x hx => hp x (by simp [hx])) hl hm

theorem rows_notab (env : Env K) (lsn cmd a b : Nat) (rs : List Bytes) (s : Sys K) (h : (a, b) ∉ s.tabs) :
    (rs.map (Change.row cmd a b)).foldlM (recoverChange env lsn) s = .ok s := by
  induction rs with
  | nil => rfl
  | cons r rs ih =>
    rw [List.map_cons, foldlM_ok_cons (recoverChange env lsn)]
    simp only [recoverChange]
    rw [if_pos h]
    exact ih

theorem foldlM_append_ok {α β : Type} (f : β → α → Res β) (b : β) (l l' : List α) :
    (l ++ l').foldlM f b = (match l.foldlM f b with | .error e => .error e | .ok b' => l'.foldlM f b') := by
  rw [List.foldlM_append]
  show Except.bind _ _ = _
  cases l.foldlM f b <;> rfl

theorem cmd_flat (env : Env K) (lsn : Nat) (s : Sys K) (g : Grp) (hg : g.Good)
    (one : ∀ r ∈ g.ps, ∀ r' ∈ g.ps, (g.cmd = REPLACE ∨ g.cmd = DELETE) →
      env.slot (g.a, g.b) (env.key (g.a, g.b) r) = env.slot (g.a, g.b) (env.key (g.a, g.b) r')) :
    recoverCmd env lsn s (g.cmdOf, g.ps) = g.changes.foldlM (recoverChange env lsn) s := by
  unfold recoverCmd Grp.changes
  simp only [Grp.cmdOf]
  by_cases hk : g.cmd = REPLACE ∨ g.cmd = DELETE
  · simp only [hk, if_true]
    have hne := hg.ne
    cases hps : g.ps with
    | nil => exact absurd hps hne
    | cons first rest =>
      simp only
      by_cases ht : (g.a, g.b) ∉ s.tabs
      · rw [rows_notab env lsn g.cmd g.a g.b _ s ht]; simp only [ht, not_false_eq_true, if_true]
      · have ht' : (g.a, g.b) ∈ s.tabs := by simpa using ht
        simp only [ht', not_true_eq_false, if_false]
        cases hp : env.slot (g.a, g.b) (env.key (g.a, g.b) first) with
        | none =>
          rw [List.map_cons, foldlM_ok_cons (recoverChange env lsn)]
          simp only [recoverChange]
          simp only [ht', not_true_eq_false, if_false, hp]
        | some p =>
          have hall : ∀ r ∈ first :: rest, env.slot (g.a, g.b) (env.key (g.a, g.b) r) = some p := by
            intro r hr
            rw [← hp]
            exact one r (by rw [hps]; exact hr) first (by rw [hps]; simp) hk
          simp only
          by_cases hl : lsn ≤ (s.parts (g.a, g.b) p).lsn
          · simp only [hl, if_true]
            rw [List.map_cons, foldlM_ok_cons (recoverChange env lsn)]
            simp only [recoverChange]
            simp only [ht', not_true_eq_false, if_false, hp]
            simp only [hl, if_true]
            exact (rows_skip env lsn g.cmd g.a g.b p rest s { s.parts (g.a, g.b) p with track := max (s.parts (g.a, g.b) p).track lsn } ht' (fun r hr => hall r (by simp [hr])) hl (by show max _ lsn = max (max _ lsn) lsn; omega)).symm
          · simp only [hl, if_false]
            rw [List.map_cons, foldlM_ok_cons (recoverChange env lsn)]
            simp only [recoverChange]
            simp only [ht', not_true_eq_false, if_false, hp]
            simp only [hl, if_false]
            rw [foldlM_ok_cons]
            cases e : Mem.row { s.parts (g.a, g.b) p with track := max (s.parts (g.a, g.b) p).track lsn } g.cmd (env.key (g.a, g.b) first) first with
            | error x => rfl
            | ok m1 =>
              obtain ⟨e1, e2⟩ := row_meta e
              simp only
              rw [rows_flat env lsn g.cmd g.a g.b p rest s m1 ht' (fun r hr => hall r (by simp [hr])) (by rw [e1]; exact hl) (by rw [e2]; simp)]
              show Except.bind _ _ = _
              cases rest.foldlM (fun m row => m.row g.cmd (env.key (g.a, g.b) row) row) m1 <;> rfl
  · simp only [hk, if_false]
    rcases hg.kind with ⟨h, _⟩ | ⟨_, op, hop⟩
    · exact absurd h hk
    · rw [hop]
      simp only [List.map_cons, List.map_nil]
      rw [foldlM_ok_cons]
      simp only [recoverChange]
      by_cases hc : lsn ≤ s.cat
      · simp only [hc, if_true]; rfl
      · simp only [hc, if_false]
        show Except.bind _ _ = _
        cases execDdl env s op <;> rfl

theorem cmds_flat (env : Env K) (lsn : Nat) (gs : List Grp) (hg : ∀ g ∈ gs, g.Good)
    (one : ∀ g ∈ gs, ∀ r ∈ g.ps, ∀ r' ∈ g.ps, (g.cmd = REPLACE ∨ g.cmd = DELETE) →
      env.slot (g.a, g.b) (env.key (g.a, g.b) r) = env.slot (g.a, g.b) (env.key (g.a, g.b) r')) : ∀ s : Sys K,
    (gs.map fun g => (g.cmdOf, g.ps)).foldlM (recoverCmd env lsn) s = (gs.flatMap Grp.changes).foldlM (recoverChange env lsn) s := by
  induction gs with
  | nil => intro s; rfl
  | cons g t ih =>
    intro s
    rw [List.map_cons, foldlM_ok_cons, List.flatMap_cons, foldlM_append_ok, cmd_flat env lsn s g (hg g (by simp)) (one g (by simp))]
    cases g.changes.foldlM (recoverChange env lsn) s with
    | error e => rfl
    | ok s1 => exact ih (fun g h => hg g (by simp [h])) (fun g h => one g (by simp [h])) s1

/-- the record of a transaction is replayed change by change -/
theorem record_flat (env : Env K) (lsn : Nat) (css : List (List Change)) (hl : lsn < 2 ^ 64) (hg : GoodTx env css) (s : Sys K) :
    recoverRecord env s (record lsn (css.map WLog.ofChanges)) =
      (match css.flatten.foldlM (recoverChange env lsn) s with
       | .error e => .error e
       | .ok s => .ok { s with lsn := max s.lsn lsn }) := by
  have hs : (record lsn (css.map WLog.ofChanges)).length < 2 ^ 32 := Nat.lt_trans (hg.size lsn) (by decide)
  obtain ⟨gs, h1, h2, h3, h4, h5⟩ := rep_logs css hg.valid
  obtain ⟨r1, _, r3, _⟩ := record_read lsn (css.map WLog.ofChanges) hl hs []
  rw [List.append_nil] at r1 r3
  unfold recoverRecord
  simp only [r1, r3, h1, List.length_map]
  have hgr := groups_ok lsn _ gs h1 h2 h3 hs gs [] (by simp)
  simp only [List.flatMap_nil, List.flatten_nil, List.length_nil, Nat.add_zero] at hgr
  rw [hgr]
  simp only [bind, Except.bind]
  rw [cmds_flat env lsn gs h3 ?_ s, h4]
  · cases css.flatten.foldlM (recoverChange env lsn) s <;> rfl
  · intro g hgm r hr r' hr' hk
    obtain ⟨cs, hcs, hm⟩ := h5 g hgm
    have hc : g.changes = g.ps.map (Change.row g.cmd g.a g.b) := by unfold Grp.changes; rw [if_pos hk]
    refine hg.one cs hcs g.cmd g.a g.b r g.cmd r' (hm _ ?_) (hm _ ?_)
    · rw [hc]; exact List.mem_map.mpr ⟨r, hr, rfl⟩
    · rw [hc]; exact List.mem_map.mpr ⟨r', hr', rfl⟩

end Verif.Recover
