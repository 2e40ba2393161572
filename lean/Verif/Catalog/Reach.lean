import Verif.Catalog.Names
set_option linter.unusedSimpArgs false
set_option linter.unusedVariables false
namespace Verif.Catalog

/-! ## Catalogs the program can reach -/

/-- `"main"` -/
def mainName : Name := [109, 97, 105, 110]

/-- the catalog after `catalog_prepare` (catalog.c:57-86): a system storage and a system database, both
called `main` -/
def boot : Cat :=
  { stors := [⟨0, mainName, [], [122, 115, 116, 100], 0, true⟩], dbs := [⟨1, mainName, true⟩], tabs := [], udfs := []
    next := 2, broken := false }

/-- any sequence of DDL transactions: committed, aborted, or failed too late to be aborted
(`session_execute_utility`).  Aborted ones keep to the statements `careful` allows; see
`C89_unlogged_false`, `C89_spelling_false` and `C89_index_false` for the others. -/
inductive Reach : Cat → Prop
  | start : Reach boot
  | commit {c : Cat} {l : List (Env × Stmt)} : Reach c → ReqsOk l → (runTx l c).reply ≠ .error → Reach (committed (runTx l c))
  | late {c : Cat} {l : List (Env × Stmt)} : Reach c → ReqsOk l → (runTx l c).reply ≠ .error → Reach (runTx l c).cat
  | abort {c : Cat} {l : List (Env × Stmt)} : Reach c → CarefulTx l c → Reach (aborted (runTx l c))

theorem undo_next (c : Cat) (u : Undo) : (undo c u).next = c.next := by cases u <;> rfl
theorem undoAll_next : ∀ (l : List Undo) (c : Cat), (undoAll c l).next = c.next
  | [], _ => rfl
  | u :: l, c => (undoAll_next l (undo c u)).trans (undo_next c u)

theorem wf_boot : Wf boot :=
  ⟨⟨by simp [NodO, boot], by simp [NodO, boot], by simp [NodO, boot], by simp [NodO, boot]⟩,
   by simp [boot], by simp [boot], by simp [boot], by simp [boot], by simp [boot]⟩
theorem named_boot : Named boot := by
  refine ⟨wf_boot, ?_, ?_, ?_, ?_, ?_⟩ <;> simp [Keyed, boot]

theorem back_aborted {c : Cat} (h : Wf c) {l : List (Env × Stmt)} (hc : CarefulTx l c) :
    Same (aborted (runTx l c)) c ∧ Nod (aborted (runTx l c)) ∧ c.next ≤ (aborted (runTx l c)).next := by
  have s := step_runTx l c h hc
  obtain ⟨h1, h2⟩ := s.back (runTx l c).cat (Same.refl _) s.wf.nod
  exact ⟨h1, h2, by unfold aborted; rw [undoAll_next]; exact s.mono⟩

theorem Reach.named {c : Cat} (h : Reach c) : Named c := by
  induction h with
  | start => exact named_boot
  | commit _ hq he ih => exact named_finishAll (named_runTx _ _ ih hq he) _
  | late _ hq he ih => exact named_runTx _ _ ih hq he
  | abort _ hc ih =>
    obtain ⟨h1, h2, h3⟩ := back_aborted ih.wf hc
    exact named_of_same ih h1 h2 h3

theorem Reach.wf {c : Cat} (h : Reach c) : Wf c := h.named.wf

/-! ## Databases of objects -/

/-- every table and every function is in a database that exists -/
structure Homed (c : Cat) : Prop where
  tabs : ∀ t ∈ c.tabs, ∃ d ∈ c.dbs, same d.name t.db = true
  udfs : ∀ u ∈ c.udfs, ∃ d ∈ c.dbs, same d.name u.db = true

/-- the database named by a creating statement exists when the statement runs.  `session_set`
(session.c:56-70) checks this, but before the catalog is locked for the statement. -/
def HomeOk (c : Cat) : Stmt → Prop
  | .tabCreate t _ => (findDb c t.db).isSome
  | .udfCreate u | .udfReplace u => (findDb c u.db).isSome
  | _ => True

theorem findDb_home {c : Cat} {n : Name} (h : (findDb c n).isSome = true) : ∃ d ∈ c.dbs, same d.name n = true := by
  obtain ⟨d, hd⟩ := Option.isSome_iff_exists.1 h
  exact ⟨d, List.mem_of_find?_eq_some hd, by simpa using List.find?_some hd⟩

theorem not_isNone {α : Type} {o : Option α} (h : ¬ o.isNone = true) : o.isSome = true := by cases o <;> simp_all

/-- replacing tables by others of the same databases -/
theorem homed_tabs {c c' : Cat} (h : Homed c) (hd : c'.dbs = c.dbs) (hu : c'.udfs = c.udfs)
    (ht : ∀ t ∈ c'.tabs, (∃ t' ∈ c.tabs, t.db = t'.db) ∨ ∃ d ∈ c.dbs, same d.name t.db = true) : Homed c' := by
  refine ⟨fun t hm => ?_, fun u hm => by rw [hd]; exact h.udfs u (hu ▸ hm)⟩
  rw [hd]
  rcases ht t hm with ⟨t', ht', e⟩ | h'
  · rw [e]; exact h.tabs t' ht'
  · exact h'
theorem homed_udfs {c c' : Cat} (h : Homed c) (hd : c'.dbs = c.dbs) (hu : c'.tabs = c.tabs)
    (ht : ∀ t ∈ c'.udfs, (∃ t' ∈ c.udfs, t.db = t'.db) ∨ ∃ d ∈ c.dbs, same d.name t.db = true) : Homed c' := by
  refine ⟨fun u hm => by rw [hd]; exact h.tabs u (hu ▸ hm), fun t hm => ?_⟩
  rw [hd]
  rcases ht t hm with ⟨t', ht', e⟩ | h'
  · rw [e]; exact h.udfs t' ht'
  · exact h'

theorem homed_onTab {c : Cat} (h : Homed c) (o m : Nat) (f : Tab → Tab) (hf : ∀ t, (f t).db = t.db) : Homed { onTab c o f with next := m } :=
  homed_tabs h rfl rfl fun t ht => by
    obtain ⟨t', ht', rfl⟩ := mem_upd ht
    exact .inl ⟨t', ht', by split <;> simp [hf]⟩

/-! ### moving and dropping the objects of a database -/

theorem tabRename_cat {c : Cat} {db n db' m : Name} {i : Bool} (he : (tabRename c db n db' m i).reply = .done) :
    ∃ t, findTab c db n = some t ∧ (tabRename c db n db' m i).cat = onTab c t.oid fun t => { t with db := respell t.db db', name := respell t.name m } := by
  unfold tabRename at he ⊢
  cases ht : findTab c db n with
  | none => rw [ht] at he; cases i <;> simp [miss] at he
  | some t =>
    rw [ht] at he
    refine ⟨t, rfl, ?_⟩
    simp only [Option.elim] at he ⊢
    by_cases hk : (findTab c db' m).isSome = true
    · rw [if_pos hk] at he; simp [fail] at he
    · rw [if_neg hk]

theorem next_inv {r : R} {k : Cat → R} (h : (r.next k).reply ≠ .error) :
    r.reply ≠ .error ∧ (k r.cat).reply ≠ .error ∧ (r.next k).cat = (k r.cat).cat := by
  unfold R.next at h ⊢
  by_cases e : r.reply = .error
  · rw [if_pos e] at h; exact absurd e h
  · rw [if_neg e] at h ⊢; exact ⟨e, h, rfl⟩

/-- moved tables: those of `db` are respelled `new`, the others stay -/
def moveTab (db new : Name) (t : Tab) : Tab := if same t.db db then { t with db := respell t.db new } else t

theorem respell_self (n : Name) : respell n n = n := by unfold respell; rw [if_pos (same_refl n)]

theorem map_skip {α : Type} [HasOid α] {l : List α} {o : Nat} {f : α → α} (h : ∀ x ∈ l, HasOid.oid x ≠ o) : l.map (fun x => if HasOid.oid x = o then f x else x) = l := by
  have : l.map (fun x => if HasOid.oid x = o then f x else x) = l.map id :=
    List.map_congr_left fun x hx => by rw [if_neg (h x hx)]; rfl
  rw [this, List.map_id]

/-- the loop of `cascade_db_rename_execute`: the tables already visited are moved -/
theorem moveLoop (db new : Name) : ∀ (l p : List Tab) (c : Cat), Named c → c.tabs = p.map (moveTab db new) ++ l →
    (loop (fun c t => if same t.db db then tabRename c t.db t.name new t.name false else ⟨c, [], .done⟩) l c).reply ≠ .error →
    (loop (fun c t => if same t.db db then tabRename c t.db t.name new t.name false else ⟨c, [], .done⟩) l c).cat =
      { c with tabs := p.map (moveTab db new) ++ l.map (moveTab db new) }
  | [], p, c, h, e, _ => by
    simp only [loop, List.map_nil, List.append_nil] at e ⊢
    rw [← e]
  | t :: l, p, c, h, e, he => by
    obtain ⟨h1, h2, h3⟩ := next_inv he
    refine (h3).trans ?_
    by_cases hd : same t.db db = true
    · simp only [hd, if_true] at h1 h2 ⊢
      have hdone : (tabRename c t.db t.name new t.name false).reply = .done := by
        unfold tabRename at h1 ⊢
        cases ht : findTab c t.db t.name with
        | none => rw [ht] at h1; exact absurd rfl h1
        | some t' =>
          rw [ht] at h1; simp only [Option.elim] at h1 ⊢
          by_cases hk : (findTab c new t.name).isSome = true
          · rw [if_pos hk] at h1; exact absurd rfl h1
          · rw [if_neg hk]
      obtain ⟨t', ht', hcat⟩ := tabRename_cat hdone
      have htm : t ∈ c.tabs := by rw [e]; simp
      have ht'm := findTab_mem ht'
      have ht'' := List.find?_some ht'
      have : t' = t := h.only htm ht'm (h.tabs t' ht'm t htm ht'')
      subst this
      have hnamed : Named (tabRename c t'.db t'.name new t'.name false).cat := by
        refine named_tabRename h _ _ _ _ _ ?_
        rw [hdone]; simp
      have hc2 : (tabRename c t'.db t'.name new t'.name false).cat = { c with tabs := (p ++ [t']).map (moveTab db new) ++ l } := by
        rw [hcat]
        unfold onTab
        congr 1
        have hnd := h.wf.nod.tabs
        rw [e] at hnd ⊢
        unfold upd
        have hoid : ∀ x ∈ p.map (moveTab db new) ++ t' :: l, HasOid.oid x = t'.oid → x = t' := by
          intro x hx ex
          have h1 := at_of_mem hnd hx
          have h2 := at_of_mem hnd (x := t') (by simp)
          rw [ex] at h1
          exact Option.some.inj (h1.symm.trans h2)
        have hcnt : ∀ x ∈ p.map (moveTab db new), HasOid.oid x ≠ t'.oid := by
          intro x hx ex
          unfold NodO at hnd
          rw [List.map_append, List.nodup_append] at hnd
          exact hnd.2.2 _ (List.mem_map_of_mem hx) _ (List.mem_map_of_mem (List.mem_cons_self (a := t') (l := l))) ex
        have hcnt2 : ∀ x ∈ l, HasOid.oid x ≠ t'.oid := by
          intro x hx ex
          unfold NodO at hnd
          rw [List.map_append, List.nodup_append] at hnd
          have := hnd.2.1
          rw [List.map_cons, List.nodup_cons] at this
          exact this.1 (by rw [show HasOid.oid t' = HasOid.oid x from ex.symm]; exact List.mem_map_of_mem hx)
        rw [List.map_append, List.map_cons, List.map_append, List.append_assoc]
        congr 1
        · exact map_skip hcnt
        · show _ = [moveTab db new t'] ++ l
          rw [List.singleton_append]
          congr 1
          · rw [if_pos (show HasOid.oid t' = t'.oid from rfl)]
            unfold moveTab; rw [if_pos hd]; simp only [respell_self]
          · exact map_skip hcnt2
      have := moveLoop db new l (p ++ [t']) _ hnamed (by rw [hc2]) (by simpa only [hd, if_true] using h2)
      rw [this, hc2]
      simp [List.map_append]
    · have hd' : same t.db db = false := by simpa using hd
      simp only [hd', Bool.false_eq_true, if_false] at h1 h2 ⊢
      have hm : moveTab db new t = t := by unfold moveTab; rw [if_neg hd]
      have := moveLoop db new l (p ++ [t]) c h (by rw [e, List.map_append]; simp [hm]) h2
      rw [this]
      simp [List.map_append]

/-- the loops of `cascade_db_drop_execute` -/
theorem dropTabLoop (db : Name) (k : Bool) : ∀ (l p : List Tab) (c : Cat), Wf c → c.tabs = p.filter (fun t => !same t.db db) ++ l →
    (loop (fun c t => if same t.db db then (if k then tabDropOf c t else fail c) else ⟨c, [], .done⟩) l c).reply ≠ .error →
    (loop (fun c t => if same t.db db then (if k then tabDropOf c t else fail c) else ⟨c, [], .done⟩) l c).cat =
      { c with tabs := p.filter (fun t => !same t.db db) ++ l.filter (fun t => !same t.db db) } ∧
    (k = false → ∀ t ∈ l, same t.db db = false)
  | [], p, c, h, e, _ => by
    refine ⟨?_, fun _ t ht => absurd ht (by simp)⟩
    simp only [loop, List.filter_nil, List.append_nil] at e ⊢
    rw [← e]
  | t :: l, p, c, h, e, he => by
    obtain ⟨h1, h2, h3⟩ := next_inv he
    by_cases hd : same t.db db = true
    · have hk : k = true := by
        cases k with
        | true => rfl
        | false => simp only [hd, if_true, Bool.false_eq_true, if_false] at h1; exact absurd rfl h1
      subst hk
      have htm : t ∈ c.tabs := by rw [e]; simp
      simp only [hd, if_true] at h2
      have hc2 : (tabDropOf c t).cat = { c with tabs := (p ++ [t]).filter (fun t => !same t.db db) ++ l } := by
        show ({ c with tabs := del c.tabs t.oid } : Cat) = _
        congr 1
        have hnd := h.nod.tabs
        rw [e] at hnd ⊢
        unfold NodO at hnd
        rw [List.map_append, List.nodup_append] at hnd
        have hn2 := hnd.2.1
        rw [List.map_cons, List.nodup_cons] at hn2
        unfold del
        rw [List.filter_append, List.filter_append]
        simp only [List.filter_cons, hd, Bool.not_true, List.filter_nil, List.append_nil]
        have e1 : (p.filter (fun t => !same t.db db)).filter (fun x => decide (HasOid.oid x ≠ t.oid)) = p.filter (fun t => !same t.db db) := by
          refine List.filter_eq_self.2 fun x hx => ?_
          refine decide_eq_true fun ex => ?_
          exact hnd.2.2 _ (List.mem_map_of_mem hx) _ (List.mem_map_of_mem (List.mem_cons_self (a := t) (l := l))) ex
        have e2 : l.filter (fun x => decide (HasOid.oid x ≠ t.oid)) = l := by
          refine List.filter_eq_self.2 fun x hx => ?_
          refine decide_eq_true fun ex => ?_
          exact hn2.1 (by rw [show HasOid.oid t = HasOid.oid x from ex.symm]; exact List.mem_map_of_mem hx)
        rw [e1, e2]
        simp [show HasOid.oid t = t.oid from rfl]
      have := dropTabLoop db true l (p ++ [t]) _ (step_delTab h htm .done).wf (by rw [show (({ c with tabs := del c.tabs t.oid } : Cat)) = (tabDropOf c t).cat from rfl, hc2]) h2
      refine ⟨?_, fun hf => absurd hf (by simp)⟩
      rw [List.filter_cons, hd]
      simp only [Bool.not_true, Bool.false_eq_true, if_false]
      refine (h3).trans ?_
      have t1 := this.1
      simp only [hd, if_true] at t1 ⊢
      refine t1.trans ?_
      simp [List.filter_append, List.filter_cons, hd]
    · have hd' : same t.db db = false := by simpa using hd
      simp only [hd', Bool.false_eq_true, if_false] at h2
      have := dropTabLoop db k l (p ++ [t]) c h (by rw [e]; simp [List.filter_append, List.filter_cons, hd']) h2
      refine ⟨?_, fun hf x hx => ?_⟩
      · refine (h3).trans ?_
        simp only [hd', Bool.false_eq_true, if_false]
        refine this.1.trans ?_
        simp [List.filter_append, List.filter_cons, hd']
      · rcases List.mem_cons.1 hx with rfl | hx
        · exact hd'
        · exact this.2 hf x hx

theorem dropUdfLoop (db : Name) (k : Bool) : ∀ (l p : List Udf) (c : Cat), Wf c → c.udfs = p.filter (fun t => !same t.db db) ++ l →
    (loop (fun c t => if same t.db db then (if k then udfDropOf c t else fail c) else ⟨c, [], .done⟩) l c).reply ≠ .error →
    (loop (fun c t => if same t.db db then (if k then udfDropOf c t else fail c) else ⟨c, [], .done⟩) l c).cat =
      { c with udfs := p.filter (fun t => !same t.db db) ++ l.filter (fun t => !same t.db db) } ∧
    (k = false → ∀ t ∈ l, same t.db db = false)
  | [], p, c, h, e, _ => by
    refine ⟨?_, fun _ t ht => absurd ht (by simp)⟩
    simp only [loop, List.filter_nil, List.append_nil] at e ⊢
    rw [← e]
  | t :: l, p, c, h, e, he => by
    obtain ⟨h1, h2, h3⟩ := next_inv he
    by_cases hd : same t.db db = true
    · have hk : k = true := by
        cases k with
        | true => rfl
        | false => simp only [hd, if_true, Bool.false_eq_true, if_false] at h1; exact absurd rfl h1
      subst hk
      have htm : t ∈ c.udfs := by rw [e]; simp
      simp only [hd, if_true] at h2
      have hc2 : (udfDropOf c t).cat = { c with udfs := (p ++ [t]).filter (fun t => !same t.db db) ++ l } := by
        show ({ c with udfs := del c.udfs t.oid } : Cat) = _
        congr 1
        have hnd := h.nod.udfs
        rw [e] at hnd ⊢
        unfold NodO at hnd
        rw [List.map_append, List.nodup_append] at hnd
        have hn2 := hnd.2.1
        rw [List.map_cons, List.nodup_cons] at hn2
        unfold del
        rw [List.filter_append, List.filter_append]
        simp only [List.filter_cons, hd, Bool.not_true, List.filter_nil, List.append_nil]
        have e1 : (p.filter (fun t => !same t.db db)).filter (fun x => decide (HasOid.oid x ≠ t.oid)) = p.filter (fun t => !same t.db db) := by
          refine List.filter_eq_self.2 fun x hx => ?_
          refine decide_eq_true fun ex => ?_
          exact hnd.2.2 _ (List.mem_map_of_mem hx) _ (List.mem_map_of_mem (List.mem_cons_self (a := t) (l := l))) ex
        have e2 : l.filter (fun x => decide (HasOid.oid x ≠ t.oid)) = l := by
          refine List.filter_eq_self.2 fun x hx => ?_
          refine decide_eq_true fun ex => ?_
          exact hn2.1 (by rw [show HasOid.oid t = HasOid.oid x from ex.symm]; exact List.mem_map_of_mem hx)
        rw [e1, e2]
        simp [show HasOid.oid t = t.oid from rfl]
      have := dropUdfLoop db true l (p ++ [t]) _ (step_delUdf h htm .done).wf (by rw [show (({ c with udfs := del c.udfs t.oid } : Cat)) = (udfDropOf c t).cat from rfl, hc2]) h2
      refine ⟨?_, fun hf => absurd hf (by simp)⟩
      rw [List.filter_cons, hd]
      simp only [Bool.not_true, Bool.false_eq_true, if_false]
      refine (h3).trans ?_
      have t1 := this.1
      simp only [hd, if_true] at t1 ⊢
      refine t1.trans ?_
      simp [List.filter_append, List.filter_cons, hd]
    · have hd' : same t.db db = false := by simpa using hd
      simp only [hd', Bool.false_eq_true, if_false] at h2
      have := dropUdfLoop db k l (p ++ [t]) c h (by rw [e]; simp [List.filter_append, List.filter_cons, hd']) h2
      refine ⟨?_, fun hf x hx => ?_⟩
      · refine (h3).trans ?_
        simp only [hd', Bool.false_eq_true, if_false]
        refine this.1.trans ?_
        simp [List.filter_append, List.filter_cons, hd']
      · rcases List.mem_cons.1 hx with rfl | hx
        · exact hd'
        · exact this.2 hf x hx

end Verif.Catalog
