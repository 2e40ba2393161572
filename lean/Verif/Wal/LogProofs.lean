import Verif.Wal.RecProofs
import Verif.Wal.Spec
set_option linter.unusedSimpArgs false
set_option linter.unusedVariables false
/-! # The changes of a transaction are found in its record -/
namespace Verif.Wal
open Verif

/-- commands with the pieces of data they cover -/
structure Grp where
  cmd : Nat
  a   : Nat
  b   : Nat
  ps  : List Bytes

def Grp.cmdOf (g : Grp) : Cmd := ⟨g.cmd, g.ps.flatten.length % 2 ^ 32, crc32 0 g.ps.flatten, g.a, g.b⟩
def Grp.changes (g : Grp) : List Change := if g.cmd = REPLACE ∨ g.cmd = DELETE then g.ps.map (Change.row g.cmd g.a g.b) else g.ps.map (Change.op g.cmd)

structure Grp.Good (g : Grp) : Prop where
  a  : g.a < 2 ^ 64
  b  : g.b < 2 ^ 64
  by_ : ∀ p ∈ g.ps, IsBytes p
  ne : g.ps ≠ []
  kind : ((g.cmd = REPLACE ∨ g.cmd = DELETE) ∧ ∀ p ∈ g.ps, 0 < p.length ∧ ∀ rest, Row.rowSize (p ++ rest) = .ok p.length) ∨
         ((g.cmd = DDL ∨ g.cmd = DDL_CREATE_INDEX) ∧ ∃ op, g.ps = [op])

structure Rep (l : WLog) (gs : List Grp) : Prop where
  cmds : l.cmds = gs.map Grp.cmdOf
  iov  : l.iov = gs.flatMap Grp.ps
  good : ∀ g ∈ gs, g.Good

theorem rep_fresh {l : WLog} {gs : List Grp} (h : Rep l gs) (g : Grp) (hg : g.Good) :
    Rep ⟨l.cmds ++ [g.cmdOf], l.iov ++ g.ps⟩ (gs ++ [g]) := by
  refine ⟨?_, ?_, ?_⟩
  · simp [h.cmds]
  · simp [h.iov]
  · intro x hx
    rcases List.mem_append.mp hx with hx | hx
    · exact h.good x hx
    · simp at hx; subst hx; exact hg

theorem rep_change {l : WLog} {gs : List Grp} (h : Rep l gs) (c : Change) (hc : c.Valid) :
    ∃ gs', Rep (l.change c) gs' ∧ gs'.flatMap Grp.changes = gs.flatMap Grp.changes ++ [c] := by
  cases c with
  | op cmd op =>
    obtain ⟨h1, h2⟩ := hc
    have hg : (⟨cmd, 0, 0, [op]⟩ : Grp).Good :=
      ⟨Nat.two_pow_pos 64, Nat.two_pow_pos 64, by simpa using h2, by simp, Or.inr ⟨h1, op, rfl⟩⟩
    refine ⟨gs ++ [⟨cmd, 0, 0, [op]⟩], ?_, ?_⟩
    · have := rep_fresh h _ hg
      simpa [WLog.change, WLog.addOp, Grp.cmdOf] using this
    · have : ¬ (cmd = REPLACE ∨ cmd = DELETE) := by
        simp only [DDL, DDL_CREATE_INDEX, REPLACE, DELETE] at *; omega
      simp [Grp.changes, this]
  | row cmd a b row =>
    obtain ⟨h1, h2, h3, h4, h5, h6⟩ := hc
    have hg : (⟨cmd, a, b, [row]⟩ : Grp).Good := ⟨h2, h3, by simpa using h4, by simp, Or.inl ⟨h1, by simpa using ⟨h5, h6⟩⟩⟩
    have fresh : Rep ⟨l.cmds ++ [⟨cmd, row.length % 2 ^ 32, crc32 0 row, a, b⟩], l.iov ++ [row]⟩ (gs ++ [⟨cmd, a, b, [row]⟩]) := by
      have := rep_fresh h _ hg
      simpa [Grp.cmdOf] using this
    have freshC : (gs ++ [(⟨cmd, a, b, [row]⟩ : Grp)]).flatMap Grp.changes = gs.flatMap Grp.changes ++ [.row cmd a b row] := by
      simp [Grp.changes, h1]
    unfold WLog.change WLog.add
    rcases List.eq_nil_or_concat gs with e | ⟨gs0, g, e⟩
    · have : l.cmds.getLast? = none := by rw [h.cmds, e]; rfl
      simp only [this]
      exact ⟨_, fresh, freshC⟩
    · have hl : l.cmds.getLast? = some g.cmdOf := by rw [h.cmds, e]; simp
      simp only [hl]
      split
      · exact ⟨_, fresh, freshC⟩
      · next hne =>
        simp only [Grp.cmdOf, not_or, Decidable.not_not, ne_eq] at hne
        obtain ⟨e1, e2, e3⟩ := hne
        have hgg : g.Good := h.good g (by rw [e]; simp)
        refine ⟨gs0 ++ [⟨cmd, a, b, g.ps ++ [row]⟩], ⟨?_, ?_, ?_⟩, ?_⟩
        · simp only [h.cmds, e, List.concat_eq_append, List.map_append, List.map_cons, List.map_nil, List.dropLast_concat]
          simp only [Grp.cmdOf, List.flatten_append, List.flatten_cons, List.flatten_nil, List.append_nil, List.length_append, crc32_append,
            Nat.mod_add_mod, e1, e2, e3]
        · simp [h.iov, e]
        · intro x hx
          rcases List.mem_append.mp hx with hx | hx
          · exact h.good x (by rw [e]; simp [hx])
          · simp at hx; subst hx
            refine ⟨h2, h3, ?_, by simp, Or.inl ⟨h1, ?_⟩⟩
            · intro p hp
              simp at hp
              rcases hp with hp | hp
              · exact hgg.by_ p hp
              · subst hp; exact h4
            · intro p hp
              simp at hp
              rcases hp with hp | hp
              · rcases hgg.kind with ⟨_, hk⟩ | ⟨hk, _⟩
                · exact hk p hp
                · simp only [DDL, DDL_CREATE_INDEX, REPLACE, DELETE] at *; omega
              · subst hp; exact ⟨h5, h6⟩
        · subst e
          simp [Grp.changes, h1, e1, e2, e3]

theorem rep_changes (cs : List Change) : ∀ (l : WLog) (gs : List Grp), Rep l gs → (∀ c ∈ cs, c.Valid) →
    ∃ gs', Rep (cs.foldl WLog.change l) gs' ∧ gs'.flatMap Grp.changes = gs.flatMap Grp.changes ++ cs := by
  induction cs with
  | nil => intro l gs h _; exact ⟨gs, h, by simp⟩
  | cons c t ih =>
    intro l gs h hv
    obtain ⟨gs1, h1, e1⟩ := rep_change h c (hv c (by simp))
    obtain ⟨gs2, h2, e2⟩ := ih _ gs1 h1 (fun x hx => hv x (by simp [hx]))
    exact ⟨gs2, h2, by rw [e2, e1]; simp⟩

/-- all logs of a write -/
theorem rep_logs (css : List (List Change)) (hv : ∀ cs ∈ css, ∀ c ∈ cs, c.Valid) :
    ∃ gs : List Grp, (css.map WLog.ofChanges).flatMap WLog.cmds = gs.map Grp.cmdOf ∧ (css.map WLog.ofChanges).flatMap WLog.iov = gs.flatMap Grp.ps ∧
      (∀ g ∈ gs, g.Good) ∧ gs.flatMap Grp.changes = css.flatten ∧ ∀ g ∈ gs, ∃ cs ∈ css, ∀ c ∈ g.changes, c ∈ cs := by
  induction css with
  | nil => exact ⟨[], rfl, rfl, by simp, rfl, by simp⟩
  | cons cs t ih =>
    obtain ⟨gs1, h1, h2, h3, h4, h5⟩ := ih (fun x hx => hv x (by simp [hx]))
    obtain ⟨gs0, r, e⟩ := rep_changes cs WLog.empty [] ⟨rfl, rfl, by simp⟩ (hv cs (by simp))
    refine ⟨gs0 ++ gs1, ?_, ?_, ?_, ?_, ?_⟩
    · simp [h1, WLog.ofChanges, r.cmds]
    · simp [h2, WLog.ofChanges, r.iov]
    · intro g hg
      rcases List.mem_append.mp hg with h | h
      · exact r.good g h
      · exact h3 g h
    · simp [h4, e]
    · intro g hg
      rcases List.mem_append.mp hg with h | h
      · refine ⟨cs, by simp, ?_⟩
        intro c hc
        have : c ∈ gs0.flatMap Grp.changes := List.mem_flatMap.mpr ⟨g, h, hc⟩
        rw [e] at this
        simpa using this
      · obtain ⟨cs', h6, h7⟩ := h5 g h
        exact ⟨cs', by simp [h6], h7⟩

/-! ## decoding -/

theorem rows_ok (r : Bytes) (ps : List Bytes) : ∀ (P Q : Bytes) (stop fuel : Nat), r = P ++ (ps.flatten ++ Q) → stop = P.length + ps.flatten.length →
    (∀ p ∈ ps, 0 < p.length ∧ ∀ rest, Row.rowSize (p ++ rest) = .ok p.length) → ps.length ≤ fuel →
    rows r stop fuel P.length = .ok (ps, stop) := by
  induction ps with
  | nil =>
    intro P Q stop fuel hr hs _ _
    simp at hs
    cases fuel with
    | zero => simp [rows, hs]
    | succ n => simp [rows, hs]
  | cons p t ih =>
    intro P Q stop fuel hr hs hp hf
    cases fuel with
    | zero => simp at hf
    | succ n =>
      obtain ⟨h1, h2⟩ := hp p (by simp)
      have hlt : P.length < stop := by simp at hs; omega
      have hd : r.drop P.length = p ++ (t.flatten ++ Q) := by rw [hr]; simp
      have hsl : slice r P.length p.length = p := slice_at (a := P) (b := p) (c := t.flatten ++ Q) (by rw [hr]; simp) rfl rfl
      have hrec := ih (P ++ p) Q stop n (by rw [hr]; simp) (by simp at hs ⊢; omega) (fun x hx => hp x (by simp [hx])) (by simp at hf; omega)
      have hl : P.length + p.length = (P ++ p).length := by simp
      simp only [rows, if_pos hlt, hd, h2, bind, Except.bind]
      rw [hl, hrec]
      simp only [hsl]

theorem changes_ok (lsn : Nat) (logs : List WLog) (gs : List Grp) (hc : logs.flatMap WLog.cmds = gs.map Grp.cmdOf)
    (hi : logs.flatMap WLog.iov = gs.flatMap Grp.ps) (hg : ∀ g ∈ gs, g.Good) (hs : (record lsn logs).length < 2 ^ 32) :
    ∀ (g2 g1 : List Grp), gs = g1 ++ g2 →
      changes (record lsn logs) g2.length g1.length (24 + gs.length * 25 + (g1.flatMap Grp.ps).flatten.length) = .ok (g2.flatMap Grp.changes) := by
  have hdata : (logs.map WLog.data).flatten = (gs.flatMap Grp.ps).flatten := by
    rw [← hi]
    clear hc hi hg hs
    induction logs with
    | nil => rfl
    | cons l t ih => simp [ih, WLog.data]
  have hml : (((header logs).finish lsn).bytes ++ (logs.map WLog.meta).flatten).length = 24 + gs.length * 25 := by
    simp only [List.length_append, Hdr.bytes_length, metas_length, hc, List.length_map]; omega
  have hrec : record lsn logs = (((header logs).finish lsn).bytes ++ (logs.map WLog.meta).flatten) ++ (gs.flatMap Grp.ps).flatten := by
    rw [← hdata]; rfl
  intro g2
  induction g2 with
  | nil => intro g1 _; rfl
  | cons g t ih =>
    intro g1 e
    have hgg : g.Good := hg g (by rw [e]; simp)
    have hnext := ih (g1 ++ [g]) (by rw [e]; simp)
    -- split of the data
    generalize hP : (((header logs).finish lsn).bytes ++ (logs.map WLog.meta).flatten) ++ (g1.flatMap Grp.ps).flatten = P
    have hPl : P.length = 24 + gs.length * 25 + (g1.flatMap Grp.ps).flatten.length := by
      rw [← hP, List.length_append, hml]
    have hr : record lsn logs = P ++ (g.ps.flatten ++ (t.flatMap Grp.ps).flatten) := by
      rw [hrec, ← hP, e]; simp
    have hlt : g.ps.flatten.length < 2 ^ 32 := by
      have : (record lsn logs).length = P.length + (g.ps.flatten.length + ((t.flatMap Grp.ps).flatten).length) := by rw [hr]; simp
      omega
    have hsz : g.cmdOf.size = g.ps.flatten.length := Nat.mod_eq_of_lt hlt
    have hcrc : g.cmdOf.crc < 2 ^ 32 := crc32_lt _ _ (by decide) (isBytes_flatten hgg.by_)
    have hcmd : g.cmdOf.cmd < 256 := by
      show g.cmd < 256
      rcases hgg.kind with ⟨h, _⟩ | ⟨h, _⟩ <;> rcases h with h | h <;> rw [h] <;> decide
    have hread : Cmd.read (record lsn logs) g1.length = g.cmdOf := by
      have := record_cmd lsn logs (g1.map Grp.cmdOf) (t.map Grp.cmdOf) g.cmdOf [] (by rw [hc, e]; simp)
        ⟨hcmd, by rw [hsz]; exact hlt, hcrc, hgg.a, hgg.b⟩
      simpa using this
    have hslice : slice (record lsn logs) P.length g.ps.flatten.length = g.ps.flatten :=
      slice_at (a := P) (b := g.ps.flatten) (c := (t.flatMap Grp.ps).flatten) hr rfl rfl
    have hval : validateCmd g.cmdOf (record lsn logs) P.length = true := by
      unfold validateCmd
      rw [hsz, hslice]
      simp [Grp.cmdOf]
    rw [← hPl]
    have hnp : 24 + gs.length * 25 + ((g1 ++ [g]).flatMap Grp.ps).flatten.length = P.length + g.ps.flatten.length := by
      rw [hPl]; simp; omega
    rw [hnp] at hnext
    simp only [List.length_append, List.length_cons, List.length_nil] at hnext
    simp only [List.length_cons, changes, hread, hval, Bool.not_true, if_false, Bool.false_eq_true, hsz]
    rcases hgg.kind with ⟨hk, hrow⟩ | ⟨hk, op, hop⟩
    · rw [if_pos (show g.cmdOf.cmd = REPLACE ∨ g.cmdOf.cmd = DELETE from hk)]
      have hle : g.ps.length ≤ g.ps.flatten.length := by
        clear hval hslice hread hr hlt hsz hnp hnext hgg hk hcrc hcmd
        generalize g.ps = ps at hrow
        induction ps with
        | nil => simp
        | cons p ps ih =>
          have := (hrow p (by simp)).1
          have := ih (fun x hx => hrow x (by simp [hx]))
          simp only [List.length_cons, List.flatten_cons, List.length_append]; omega
      rw [rows_ok (record lsn logs) g.ps P _ (P.length + g.ps.flatten.length) g.ps.flatten.length hr rfl hrow hle]
      simp only [bind, Except.bind, hnext, List.flatMap_cons]
      congr 2
      show _ = if g.cmd = REPLACE ∨ g.cmd = DELETE then _ else _
      rw [if_pos hk]
      rfl
    · have hn : ¬ (g.cmd = REPLACE ∨ g.cmd = DELETE) := by simp only [DDL, DDL_CREATE_INDEX, REPLACE, DELETE] at *; omega
      rw [if_neg (show ¬ (g.cmdOf.cmd = REPLACE ∨ g.cmdOf.cmd = DELETE) from hn),
        if_pos (show g.cmdOf.cmd = DDL ∨ g.cmdOf.cmd = DDL_CREATE_INDEX from hk)]
      simp only [bind, Except.bind, hnext, hslice, List.flatMap_cons]
      have : g.changes = [Change.op g.cmd op] := by
        show (if g.cmd = REPLACE ∨ g.cmd = DELETE then _ else _) = _
        rw [if_neg hn, hop]; rfl
      rw [this, hop]
      simp [Grp.cmdOf]

/-- the record of a transaction decodes to its changes -/
theorem decode_ok (lsn : Nat) (css : List (List Change)) (hl : lsn < 2 ^ 64) (hv : ∀ cs ∈ css, ∀ c ∈ cs, c.Valid)
    (hs : (record lsn (css.map WLog.ofChanges)).length < 2 ^ 32) :
    decode (record lsn (css.map WLog.ofChanges)) = .ok css.flatten := by
  obtain ⟨gs, h1, h2, h3, h4, _⟩ := rep_logs css hv
  have hr := (record_read lsn (css.map WLog.ofChanges) hl hs []).2.2.1
  rw [List.append_nil] at hr
  unfold decode
  simp only [hr, h1, List.length_map]
  have := changes_ok lsn _ gs h1 h2 h3 hs gs [] (by simp)
  simp only [List.flatMap_nil, List.flatten_nil, List.length_nil, Nat.add_zero] at this
  rw [this, h4]

end Verif.Wal
