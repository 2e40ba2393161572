import Verif.Catalog.Reach
set_option linter.unusedSimpArgs false
set_option linter.unusedVariables false
namespace Verif.Catalog

theorem dbDrop_effect {c : Cat} (h : Wf c) {n : Name} {k i : Bool} {d : Db} (hf : findDb c n = some d) (he : (dbDrop c n k i).reply ≠ .error) :
    d.system = false ∧
    (dbDrop c n k i).cat = { c with tabs := c.tabs.filter (fun t => !same t.db n), udfs := c.udfs.filter (fun t => !same t.db n), dbs := del c.dbs d.oid } ∧
    (k = false → (∀ t ∈ c.tabs, same t.db n = false) ∧ ∀ u ∈ c.udfs, same u.db n = false) := by
  unfold dbDrop at he ⊢
  rw [hf] at he ⊢
  simp only [Option.elim] at he ⊢
  by_cases hs : d.system = true
  · rw [if_pos hs] at he; exact absurd rfl he
  · rw [if_neg hs] at he ⊢
    obtain ⟨h1, h2, h3⟩ := next_inv he
    unfold dbDropObjects at h1 h2 h3 ⊢
    obtain ⟨a1, a2, a3⟩ := next_inv h1
    obtain ⟨t1, t2⟩ := dropTabLoop n k c.tabs [] c h (by simp) a1
    have w1 : Wf (loop (fun c t => if same t.db n then (if k then tabDropOf c t else fail c) else ⟨c, [], .done⟩) c.tabs c).cat :=
      (step_tabDrops n k c.tabs c h (fun _ hx => hx) h.nod.tabs).wf
    simp only [List.filter_nil, List.nil_append] at t1
    rw [t1] at a2 a3 w1
    obtain ⟨u1, u2⟩ := dropUdfLoop n k c.udfs [] _ w1 (by simp) a2
    simp only [List.filter_nil, List.nil_append] at u1
    rw [u1] at a3
    refine ⟨by simpa using hs, ?_, fun hk => ⟨t2 hk, u2 hk⟩⟩
    refine h3.trans ?_
    rw [a3] at h2 ⊢
    have hf' : findDb ({ c with tabs := c.tabs.filter (fun t => !same t.db n), udfs := c.udfs.filter (fun t => !same t.db n) } : Cat) n = some d := hf
    unfold dbDropOnly
    rw [hf']
    simp only [Option.elim]
    rw [if_neg hs]

theorem moveCheck (n : Name) : ∀ (l : List Udf) (c : Cat),
    (loop (fun c u => if same u.db n then fail c else ⟨c, [], .done⟩) l c).reply ≠ .error →
    (loop (fun c u => if same u.db n then fail c else ⟨c, [], .done⟩) l c).cat = c ∧ ∀ u ∈ l, same u.db n = false
  | [], c, _ => ⟨rfl, by simp⟩
  | u :: l, c, he => by
    obtain ⟨h1, h2, h3⟩ := next_inv he
    by_cases hd : same u.db n = true
    · simp only [hd, if_true] at h1; exact absurd rfl h1
    · have hd' : same u.db n = false := by simpa using hd
      simp only [hd', Bool.false_eq_true, if_false] at h2
      obtain ⟨i1, i2⟩ := moveCheck n l c h2
      refine ⟨h3.trans ?_, fun x hx => ?_⟩
      · simp only [hd', Bool.false_eq_true, if_false]; exact i1
      · rcases List.mem_cons.1 hx with rfl | hx
        · exact hd'
        · exact i2 x hx

theorem dbRename_effect {c : Cat} (h : Named c) {n new : Name} {i : Bool} {d : Db} (hf : findDb c n = some d) (he : (dbRename c n new i).reply ≠ .error) :
    d.system = false ∧ findDb c new = none ∧ (∀ u ∈ c.udfs, same u.db n = false) ∧
    (dbRename c n new i).cat = { c with tabs := c.tabs.map (moveTab n new), dbs := upd c.dbs d.oid fun d => { d with name := new } } := by
  unfold dbRename at he ⊢
  rw [hf] at he ⊢
  simp only [Option.elim] at he ⊢
  by_cases hs : d.system = true
  · rw [if_pos hs] at he; exact absurd rfl he
  · rw [if_neg hs] at he ⊢
    obtain ⟨h1, h2, h3⟩ := next_inv he
    unfold dbRenameObjects at h1 h2 h3 ⊢
    obtain ⟨a1, a2, a3⟩ := next_inv h1
    have t1 := moveLoop n new c.tabs [] c h (by simp) a1
    simp only [List.map_nil, List.nil_append] at t1
    rw [t1] at a2 a3
    obtain ⟨u1, u2⟩ := moveCheck n c.udfs _ a2
    rw [u1] at a3
    have hn : findDb c new = none := by
      rw [a3] at h2
      unfold dbRenameOnly at h2
      rw [show findDb ({ c with tabs := c.tabs.map (moveTab n new) } : Cat) n = some d from hf] at h2
      simp only [Option.elim] at h2
      rw [if_neg hs] at h2
      cases hq : findDb c new with
      | none => rfl
      | some z =>
        rw [if_pos (show (findDb ({ c with tabs := c.tabs.map (moveTab n new) } : Cat) new).isSome = true by
          rw [show findDb ({ c with tabs := c.tabs.map (moveTab n new) } : Cat) new = some z from hq]; rfl)] at h2
        exact absurd rfl h2
    refine ⟨by simpa using hs, hn, u2, h3.trans ?_⟩
    rw [a3]
    unfold dbRenameOnly
    rw [show findDb ({ c with tabs := c.tabs.map (moveTab n new) } : Cat) n = some d from hf]
    simp only [Option.elim]
    rw [if_neg hs, if_neg (by rw [show findDb ({ c with tabs := c.tabs.map (moveTab n new) } : Cat) new = none from hn]; simp)]

/-! ## every object keeps a database -/

theorem dbOnly {c : Cat} (h : Wf c) {a b : Db} (ha : a ∈ c.dbs) (hb : b ∈ c.dbs) (e : a.oid = b.oid) : a = b := by
  have h1 := at_of_mem h.nod.dbs ha
  have h2 := at_of_mem h.nod.dbs hb
  rw [show HasOid.oid a = HasOid.oid b from e] at h1
  exact Option.some.inj (h1.symm.trans h2)

theorem homed_exec {c : Cat} (hn : Named c) (h : Homed c) (e : Env) (s : Stmt) (ho : HomeOk c s) : Keeps Homed c (exec e c s) := by
  have tab : ∀ (o m : Nat) (f : Tab → Tab) (l : List Undo) (p : Reply), (∀ t, (f t).db = t.db) → Keeps Homed c ⟨{ onTab c o f with next := m }, l, p⟩ :=
    fun o m f l p hf _ => homed_onTab h o m f hf
  cases s with
  | storCreate s i => exact keeps_if (fun _ => keeps_miss h i) fun _ _ => ⟨h.tabs, h.udfs⟩
  | storDrop n i => exact keeps_elim (keeps_miss h i) fun s _ => keeps_if (fun _ => keeps_fail c) fun _ _ => ⟨h.tabs, h.udfs⟩
  | storRename n m i =>
    exact keeps_elim (keeps_miss h i) fun s _ => keeps_if (fun _ => keeps_fail c) fun _ => keeps_if (fun _ => keeps_fail c) fun _ _ => ⟨h.tabs, h.udfs⟩
  | dbCreate d i =>
    refine keeps_if (fun _ => keeps_miss h i) fun _ _ => ⟨fun t ht => ?_, fun u hu => ?_⟩
    · obtain ⟨d', hd, hs⟩ := h.tabs t ht; exact ⟨d', List.mem_append.2 (.inl hd), hs⟩
    · obtain ⟨d', hd, hs⟩ := h.udfs u hu; exact ⟨d', List.mem_append.2 (.inl hd), hs⟩
  | dbDrop n k i =>
    intro he
    cases hf : findDb c n with
    | none =>
      show Homed (dbDrop c n k i).cat
      unfold dbDrop; rw [hf]; exact h
    | some d =>
      obtain ⟨_, h2, _⟩ := dbDrop_effect hn.wf hf he
      show Homed (dbDrop c n k i).cat
      rw [h2]
      have hdn : same d.name n = true := by simpa using List.find?_some hf
      have stay : ∀ m : Name, same m n = false → (∃ d' ∈ c.dbs, same d'.name m = true) → ∃ d' ∈ del c.dbs d.oid, same d'.name m = true := by
        intro m hm hex
        obtain ⟨d', hd', hs⟩ := hex
        refine ⟨d', mem_del.2 ⟨hd', fun eo => ?_⟩, hs⟩
        have : d' = d := dbOnly hn.wf hd' (List.mem_of_find?_eq_some hf) eo
        subst this
        rw [same_trans (same_symm hs) hdn] at hm
        simp at hm
      refine ⟨fun t ht => ?_, fun u hu => ?_⟩
      · obtain ⟨ht, hx⟩ := List.mem_filter.1 ht
        exact stay t.db (by simpa using hx) (h.tabs t ht)
      · obtain ⟨ht, hx⟩ := List.mem_filter.1 hu
        exact stay u.db (by simpa using hx) (h.udfs u ht)
  | dbRename n m i =>
    intro he
    cases hf : findDb c n with
    | none =>
      show Homed (dbRename c n m i).cat
      unfold dbRename; rw [hf]; exact h
    | some d =>
      obtain ⟨_, _, hu, h2⟩ := dbRename_effect hn hf he
      show Homed (dbRename c n m i).cat
      rw [h2]
      have hdn : same d.name n = true := by simpa using List.find?_some hf
      have hdm := List.mem_of_find?_eq_some hf
      have stay : ∀ x : Name, same x n = false → (∃ d' ∈ c.dbs, same d'.name x = true) →
          ∃ d' ∈ upd c.dbs d.oid (fun d => { d with name := m }), same d'.name x = true := by
        intro x hm hex
        obtain ⟨d', hd', hs⟩ := hex
        refine ⟨d', List.mem_map.2 ⟨d', hd', if_neg fun eo => ?_⟩, hs⟩
        have : d' = d := dbOnly hn.wf hd' hdm eo
        subst this
        rw [same_trans (same_symm hs) hdn] at hm
        simp at hm
      refine ⟨fun t ht => ?_, fun u hu' => stay u.db (hu u hu') (h.udfs u hu')⟩
      obtain ⟨t', ht', rfl⟩ := List.mem_map.1 ht
      unfold moveTab
      by_cases hq : same t'.db n = true
      · rw [if_pos hq]
        exact ⟨{ d with name := m }, List.mem_map.2 ⟨d, hdm, if_pos rfl⟩, same_symm (same_respell _ _)⟩
      · rw [if_neg hq]
        exact stay t'.db (by simpa using hq) (h.tabs t' ht')
  | tabCreate t i =>
    refine keeps_if (fun _ => keeps_miss h i) fun _ _ => homed_tabs h rfl rfl fun x hx => ?_
    rcases List.mem_append.1 hx with hx | hx
    · exact .inl ⟨x, hx, rfl⟩
    · rw [List.mem_singleton.1 hx]; exact .inr (findDb_home ho)
  | tabDrop d n i =>
    exact keeps_if (fun _ => keeps_fail c) fun _ => keeps_elim (keeps_miss h i) fun t _ _ =>
      homed_tabs h rfl rfl fun x hx => .inl ⟨x, (mem_del.1 hx).1, rfl⟩
  | tabRename d n d' m i =>
    refine keeps_if (fun _ => keeps_fail c) fun hd => keeps_if (fun _ => keeps_fail c) fun _ => keeps_elim (keeps_miss h i) fun t _ =>
      keeps_if (fun _ => keeps_fail c) fun _ _ => homed_tabs h rfl rfl fun x hx => ?_
    obtain ⟨y, hy, rfl⟩ := mem_upd hx
    split
    · obtain ⟨z, hz, hs⟩ := findDb_home (not_isNone hd)
      exact .inr ⟨z, hz, same_trans hs (same_symm (same_respell _ _))⟩
    · exact .inl ⟨y, hy, rfl⟩
  | tabTruncate d n i => exact keeps_elim (keeps_miss h i) fun _ _ _ => h
  | tabIdentity d n v i => exact keeps_elim (keeps_miss h i) fun t _ => tab t.oid c.next _ _ _ fun _ => rfl
  | tabUnlogged d n v i => exact keeps_elim (keeps_miss h i) fun t _ => tab t.oid c.next _ _ _ fun _ => rfl
  | colAdd d n x i j =>
    exact keeps_elim (keeps_miss h i) fun t _ => keeps_if (fun _ => keeps_miss h j) fun _ => keeps_if (fun _ => keeps_fail c) fun _ =>
      tab t.oid (c.next + 1) _ _ _ fun _ => rfl
  | colDrop d n x i j =>
    exact keeps_if (fun _ => keeps_fail c) fun _ => keeps_elim (keeps_miss h i) fun t _ => keeps_elim (keeps_miss h j) fun _ _ =>
      keeps_if (fun _ => keeps_fail c) fun _ => tab t.oid c.next _ _ _ fun _ => rfl
  | colRename d n x m i j =>
    exact keeps_if (fun _ => keeps_fail c) fun _ => keeps_elim (keeps_miss h i) fun t _ => keeps_elim (keeps_miss h j) fun _ _ =>
      keeps_if (fun _ => keeps_fail c) fun _ => tab t.oid c.next _ _ _ fun _ => rfl
  | colSet d n x s i j =>
    exact keeps_elim (keeps_miss h i) fun t _ => keeps_elim (keeps_miss h j) fun _ _ => tab t.oid c.next _ _ _ fun _ => rfl
  | idxCreate d n x i =>
    exact keeps_elim (keeps_fail c) fun t _ => keeps_if (fun _ => keeps_miss h i) fun _ => tab t.oid (c.next + 1) _ _ _ fun _ => rfl
  | idxDrop d n x i =>
    exact keeps_if (fun _ => keeps_fail c) fun _ => keeps_elim (keeps_fail c) fun t _ => keeps_elim (keeps_miss h i) fun _ _ _ => h
  | idxRename d n x m i =>
    exact keeps_if (fun _ => keeps_fail c) fun _ => keeps_elim (keeps_fail c) fun t _ => keeps_elim (keeps_miss h i) fun _ _ =>
      keeps_if (fun _ => keeps_fail c) fun _ => tab t.oid c.next _ _ _ fun _ => rfl
  | tierCreate d n x i =>
    exact keeps_elim (keeps_fail c) fun t _ => keeps_if (fun _ => keeps_miss h i) fun _ => tab t.oid (c.next + 1) _ _ _ fun _ => rfl
  | tierDrop d n x i => exact keeps_elim (keeps_fail c) fun t _ => keeps_elim (keeps_miss h i) fun _ _ _ => h
  | tierRename d n x m i =>
    exact keeps_elim (keeps_fail c) fun t _ => keeps_elim (keeps_miss h i) fun _ _ => keeps_if (fun _ => keeps_fail c) fun _ =>
      tab t.oid c.next _ _ _ fun _ => rfl
  | volAdd d n x v i j =>
    exact keeps_elim (keeps_fail c) fun t _ => keeps_elim (keeps_miss h i) fun _ _ => keeps_if (fun _ => keeps_fail c) fun _ =>
      keeps_if (fun _ => keeps_miss h j) fun _ => tab t.oid c.next _ _ _ fun _ => rfl
  | volDrop d n x v i j =>
    exact keeps_elim (keeps_fail c) fun t _ => keeps_elim (keeps_miss h i) fun _ _ => keeps_elim (keeps_miss h j) fun _ _ =>
      keeps_if (fun _ => keeps_fail c) fun _ _ => h
  | volPause d n x v p i j =>
    exact keeps_elim (keeps_fail c) fun t _ => keeps_elim (keeps_miss h i) fun _ _ => keeps_elim (keeps_miss h j) fun _ _ =>
      keeps_if (fun _ _ => h) fun _ => keeps_if (fun _ => keeps_fail c) fun _ => tab t.oid c.next _ _ _ fun _ => rfl
  | tierSet d n x r s i =>
    exact keeps_elim (keeps_fail c) fun t _ => keeps_elim (keeps_miss h i) fun _ _ => tab t.oid c.next _ _ _ fun _ => rfl
  | udfCreate u =>
    refine keeps_if (fun _ => keeps_fail c) fun _ => ?_
    dsimp only
    refine keeps_elim (fun he => absurd rfl he) fun uses _ _ => homed_udfs h rfl rfl fun x hx => ?_
    obtain ⟨y, hy, rfl⟩ := mem_upd hx
    rcases List.mem_append.1 hy with hy | hy
    · exact .inl ⟨y, hy, by split <;> rfl⟩
    · rw [List.mem_singleton.1 hy]; refine .inr ?_
      split <;> exact findDb_home ho
  | udfReplace u =>
    refine keeps_elim ?_ fun old hf => keeps_if (fun _ => keeps_fail c) fun _ => keeps_elim (keeps_fail c) fun uses _ _ =>
      homed_udfs h rfl rfl fun x hx => ?_
    · refine keeps_if (fun _ => keeps_fail c) fun _ => ?_
      dsimp only
      refine keeps_elim (fun he => absurd rfl he) fun uses _ _ => homed_udfs h rfl rfl fun x hx => ?_
      obtain ⟨y, hy, rfl⟩ := mem_upd hx
      rcases List.mem_append.1 hy with hy | hy
      · exact .inl ⟨y, hy, by split <;> rfl⟩
      · rw [List.mem_singleton.1 hy]; refine .inr ?_
        split <;> exact findDb_home ho
    · obtain ⟨y, hy, rfl⟩ := mem_upd hx
      split
      · exact .inr (findDb_home ho)
      · exact .inl ⟨y, hy, rfl⟩
  | udfDrop d n i =>
    exact keeps_if (fun _ => keeps_fail c) fun _ => keeps_elim (keeps_miss h i) fun t _ _ =>
      homed_udfs h rfl rfl fun x hx => .inl ⟨x, (mem_del.1 hx).1, rfl⟩
  | udfRename d n d' m i =>
    refine keeps_if (fun _ => keeps_fail c) fun hd => keeps_if (fun _ => keeps_fail c) fun _ => keeps_elim (keeps_miss h i) fun t _ =>
      keeps_if (fun _ => keeps_fail c) fun _ _ => homed_udfs h rfl rfl fun x hx => ?_
    obtain ⟨y, hy, rfl⟩ := mem_upd hx
    split
    · obtain ⟨z, hz, hs⟩ := findDb_home (not_isNone hd)
      exact .inr ⟨z, hz, same_trans hs (same_symm (same_respell _ _))⟩
    · exact .inl ⟨y, hy, rfl⟩

/-- the check of `session_set` still holds when each statement runs -/
def HomeTx : List (Env × Stmt) → Cat → Prop
  | [], _ => True
  | (e, s) :: l, c => HomeOk c s ∧ HomeTx l (exec e c s).cat

theorem homed_runTx : ∀ (l : List (Env × Stmt)) (c : Cat), Named c → Homed c → ReqsOk l → HomeTx l c → Keeps Homed c (runTx l c)
  | [], c, _, h, _, _ => fun _ => h
  | (e, s) :: l, c, hn, h, hr, ho => by
    intro he
    obtain ⟨h1, h2, h3⟩ := next_inv he
    show Homed (R.next _ _).cat
    rw [h3]
    exact homed_runTx l _ (named_exec hn e s (hr (e, s) (by simp)) h1) (homed_exec hn h e s ho.1 h1) (fun x hx => hr x (by simp [hx])) ho.2 h2

theorem homed_finish {c : Cat} (h : Homed c) (u : Undo) : Homed (finish c u) := by
  have tab : ∀ (o : Nat) (f : Tab → Tab), (∀ t, (f t).db = t.db) → Homed (onTab c o f) := fun o f hf => homed_onTab h o c.next f hf
  cases u with
  | idxDel o k => exact tab o _ fun _ => rfl
  | tierDel o k => exact tab o _ fun _ => rfl
  | volDel o k n => exact tab o _ fun _ => rfl
  | _ => exact h

theorem homed_finishAll {c : Cat} (h : Homed c) (log : List Undo) : Homed (finishAll c log) := by
  unfold finishAll
  generalize log.reverse = l
  induction l generalizing c with
  | nil => exact h
  | cons u l ih => exact ih (homed_finish h u)

theorem homed_of_same {c c' : Cat} (hw : Wf c) (h : Homed c) (hs : Same c' c) (hn : Nod c') : Homed c' := by
  have m3 : ∀ x ∈ c'.tabs, x ∈ c.tabs := fun x hx => (at_mem ((hs.tabs _).symm.trans (at_of_mem hn.tabs hx))).1
  have m4 : ∀ x ∈ c'.udfs, x ∈ c.udfs := fun x hx => (at_mem ((hs.udfs _).symm.trans (at_of_mem hn.udfs hx))).1
  have m2 : ∀ x ∈ c.dbs, x ∈ c'.dbs := fun x hx => (at_mem ((hs.dbs _).trans (at_of_mem hw.nod.dbs hx))).1
  refine ⟨fun t ht => ?_, fun t ht => ?_⟩
  · obtain ⟨d, hd, e⟩ := h.tabs t (m3 t ht); exact ⟨d, m2 d hd, e⟩
  · obtain ⟨d, hd, e⟩ := h.udfs t (m4 t ht); exact ⟨d, m2 d hd, e⟩

/-- `Reach` where the database check holds at the time a statement runs -/
inductive ReachH : Cat → Prop
  | start : ReachH boot
  | commit {c : Cat} {l : List (Env × Stmt)} : ReachH c → ReqsOk l → HomeTx l c → (runTx l c).reply ≠ .error → ReachH (committed (runTx l c))
  | late {c : Cat} {l : List (Env × Stmt)} : ReachH c → ReqsOk l → HomeTx l c → (runTx l c).reply ≠ .error → ReachH (runTx l c).cat
  | abort {c : Cat} {l : List (Env × Stmt)} : ReachH c → CarefulTx l c → ReachH (aborted (runTx l c))

theorem ReachH.reach {c : Cat} (h : ReachH c) : Reach c := by
  induction h with
  | start => exact .start
  | commit _ hq _ he ih => exact .commit ih hq he
  | late _ hq _ he ih => exact .late ih hq he
  | abort _ hc ih => exact .abort ih hc

theorem ReachH.homed {c : Cat} (h : ReachH c) : Homed c := by
  induction h with
  | start => exact ⟨by simp [boot], by simp [boot]⟩
  | commit h0 hq ho he ih => exact homed_finishAll (homed_runTx _ _ h0.reach.named ih hq ho he) _
  | late h0 hq ho he ih => exact homed_runTx _ _ h0.reach.named ih hq ho he
  | abort h0 hc ih =>
    obtain ⟨h1, h2, h3⟩ := back_aborted h0.reach.wf hc
    exact homed_of_same h0.reach.wf ih h1 h2

/-! ## nothing to do at commit -/

def Plain (r : R) : Prop := ∀ u ∈ r.log, ∀ c, finish c u = c
theorem plain_nil (c : Cat) (p : Reply) : Plain ⟨c, [], p⟩ := fun _ h => by simp at h
theorem plain_one {c : Cat} {p : Reply} {u : Undo} (h : ∀ c, finish c u = c) : Plain ⟨c, [u], p⟩ := fun _ hv => by rw [List.mem_singleton.1 hv]; exact h
theorem plain_next {r : R} {k : Cat → R} (h : Plain r) (hk : ∀ c, Plain (k c)) : Plain (r.next k) := by
  unfold R.next
  split
  · exact h
  · intro u hu
    rcases List.mem_append.1 hu with hu | hu
    · exact hk _ u hu
    · exact h u hu
theorem plain_loop {α : Type} {f : Cat → α → R} (hf : ∀ c x, Plain (f c x)) : ∀ (l : List α) (c : Cat), Plain (loop f l c)
  | [], c => plain_nil c _
  | x :: l, c => plain_next (hf c x) fun c => plain_loop hf l c
theorem plain_elim {α : Type} {o : Option α} {a : R} {k : α → R} (ha : Plain a) (hk : ∀ x, Plain (k x)) : Plain (o.elim a k) := by
  cases o with
  | none => exact ha
  | some x => exact hk x
theorem plain_if {p : Prop} [Decidable p] {a b : R} (ha : Plain a) (hb : Plain b) : Plain (if p then a else b) := by split <;> assumption
theorem plain_finishAll {r : R} (h : Plain r) (c : Cat) : finishAll c r.log = c := by
  have : ∀ (l : List Undo) (x : Cat), (∀ u ∈ l, ∀ c, finish c u = c) → l.foldl finish x = x := by
    intro l
    induction l with
    | nil => intros; rfl
    | cons u l ih => intro x hl; rw [List.foldl_cons, hl u (by simp)]; exact ih x fun v hv => hl v (by simp [hv])
  exact this _ c fun u hu => h u (List.mem_reverse.1 hu)
theorem plain_dbDrop (c : Cat) (n : Name) (k i : Bool) : Plain (dbDrop c n k i) :=
  plain_elim (plain_nil _ _) fun d => plain_if (plain_nil _ _) (plain_next
    (plain_next (plain_loop (fun c t => plain_if (plain_if (plain_one fun _ => rfl) (plain_nil _ _)) (plain_nil _ _)) _ _)
      fun c => plain_loop (fun c t => plain_if (plain_if (plain_one fun _ => rfl) (plain_nil _ _)) (plain_nil _ _)) _ _)
    fun c => plain_elim (plain_nil _ _) fun d => plain_if (plain_nil _ _) (plain_one fun _ => rfl))
theorem plain_dbRename (c : Cat) (n m : Name) (i : Bool) : Plain (dbRename c n m i) :=
  plain_elim (plain_nil _ _) fun d => plain_if (plain_nil _ _) (plain_next
    (plain_next (plain_loop (fun c t => plain_if (plain_elim (plain_nil _ _) fun t => plain_if (plain_nil _ _) (plain_one fun _ => rfl)) (plain_nil _ _)) _ _)
      fun c => plain_loop (fun c t => plain_if (plain_nil _ _) (plain_nil _ _)) _ _)
    fun c => plain_elim (plain_nil _ _) fun d => plain_if (plain_nil _ _) (plain_if (plain_nil _ _) (plain_one fun _ => rfl)))

/-! ## looking names up -/

theorem find_iff {α : Type} {l : List α} {p : α → Bool} (h : ∀ x ∈ l, ∀ y ∈ l, p x = true → p y = true → x = y) (x : α) :
    l.find? p = some x ↔ x ∈ l ∧ p x = true := by
  constructor
  · exact fun hf => ⟨List.mem_of_find?_eq_some hf, List.find?_some hf⟩
  · rintro ⟨hx, hp⟩
    cases hf : l.find? p with
    | none => exact absurd hp (by simpa using List.find?_eq_none.1 hf x hx)
    | some y => rw [h y (List.mem_of_find?_eq_some hf) x hx (List.find?_some hf) hp]

theorem tab_iff {c : Cat} (h : Named c) (d n : Name) (t : Tab) :
    findTab c d n = some t ↔ t ∈ c.tabs ∧ same t.db d = true ∧ same t.name n = true := by
  unfold findTab
  rw [find_iff]
  · simp [Bool.and_eq_true]
  · intro x hx y hy px py
    simp only [Bool.and_eq_true] at px py
    refine h.only hy hx (h.tabs x hx y hy ?_)
    simp only [tabEq, Bool.and_eq_true]
    exact ⟨same_trans px.1 (same_symm py.1), same_trans px.2 (same_symm py.2)⟩

theorem db_iff {c : Cat} (h : Named c) (n : Name) (t : Db) : findDb c n = some t ↔ t ∈ c.dbs ∧ same t.name n = true := by
  unfold findDb
  rw [find_iff]
  intro x hx y hy px py
  exact dbOnly h.wf hx hy (h.dbs x hx y hy (same_trans px (same_symm py)))

theorem udf_iff {c : Cat} (h : Named c) (d n : Name) (t : Udf) :
    findUdf c d n = some t ↔ t ∈ c.udfs ∧ same t.db d = true ∧ same t.name n = true := by
  unfold findUdf
  rw [find_iff]
  · simp [Bool.and_eq_true]
  · intro x hx y hy px py
    simp only [Bool.and_eq_true] at px py
    have e := h.udfs x hx y hy (by simp only [udfEq, Bool.and_eq_true]; exact ⟨same_trans px.1 (same_symm py.1), same_trans px.2 (same_symm py.2)⟩)
    have h1 := at_of_mem h.wf.nod.udfs hx
    have h2 := at_of_mem h.wf.nod.udfs hy
    rw [e] at h1
    exact Option.some.inj (h1.symm.trans h2)

end Verif.Catalog
