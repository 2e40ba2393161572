import Verif.Config.Run
/-!
# What holds in every history
-/
set_option autoImplicit false
set_option linter.unusedSimpArgs false
set_option linter.unusedVariables false
namespace Verif.Config
open Verif Verif.Json Verif.Json.Text
open Verif.Catalog (lit utf8_bytes textOK_wf skip_encP lit_ok utf8_ascii)

theorem names_ok {l : List Opt} {ds : List Def} (hs : Sound ds) (h : l.map Opt.d = ds) : ∀ o ∈ l, Utf8 o.d.name ∧ o.d.name.length < 2 ^ 31 :=
  fun o ho => (hs.2 o.d (def_of_mem h ho)).1

theorem fields_put_e {l : List Opt} {n : Bytes} {f : Opt → Opt} (hf : ∀ o, (f o).d = o.d) (h : ∀ o ∈ l, o.d.name = n → o.d.e = true) :
    fields (put l n f) = fields l := by
  induction l with
  | nil => rfl
  | cons o l ih =>
    have ih := ih fun x hx => h x (by simp [hx])
    unfold put at ih ⊢
    simp only [List.map_cons, fields]
    by_cases hn : o.d.name = n
    · have he := h o (by simp) hn
      simp only [hn, if_true, hf, he, ih]
    · simp only [hn, if_false, ih]

/-! ## names of the state -/

abbrev find (ds : List Def) (n : Bytes) : Option Def := ds.find? fun d => decide (d.name = n)

theorem d_users : find stateDefs (lit "users") = some ⟨lit "users", .json, true, false, false, 0, []⟩ := by decide +kernel
theorem d_prim : find stateDefs (lit "repl_primary") = some ⟨lit "repl_primary", .str, true, false, false, 0, []⟩ := by decide +kernel
theorem d_ro : find stateDefs (lit "read_only") = some ⟨lit "read_only", .bool, false, true, false, 0, []⟩ := by decide +kernel
theorem d_repl : find stateDefs (lit "repl") = some ⟨lit "repl", .bool, true, false, false, 0, []⟩ := by decide +kernel
theorem d_replicas : find stateDefs (lit "replicas") = some ⟨lit "replicas", .json, true, false, false, 0, []⟩ := by decide +kernel
theorem d_uuid : find configDefs (lit "uuid") = some ⟨lit "uuid", .str, true, false, false, 0, []⟩ := by decide +kernel

theorem fresh_opt (E : Env) (n : Bytes) (h : lit "directory" ≠ n) : opt (fresh E) n = opt (define stateDefs) n := by
  unfold fresh
  exact opt_put_ne _ _ _ _ (by intro o; rfl) h

theorem fresh_users (E : Env) : valueAt (fresh E) (lit "users") = [] := by
  rw [valueAt_opt, fresh_opt E _ (by decide)]; decide +kernel
theorem fresh_prim (E : Env) : valueAt (fresh E) (lit "repl_primary") = [] := by
  rw [valueAt_opt, fresh_opt E _ (by decide)]; decide +kernel
theorem fresh_ro (E : Env) : numberAt (fresh E) (lit "read_only") = 0 := by
  rw [numberAt_opt, fresh_opt E _ (by decide)]; decide +kernel

/-! ## the first start -/

theorem inv_first {L : Libc} {b : List Opt} {E : Env} {argv : List Bytes} {s : Server} {steps : List Dir} (hb : GoodL b)
    (h : start L E argv {} = .ok (s, steps)) (hc : s.config = b) : Inv L b s := by
  unfold start at h
  rw [if_pos rfl] at h
  unfold bootTexts at h
  rw [version_export L E] at h
  simp only [Except.bind] at h
  cases ha : setArgv L (define configDefs) argv with
  | error x => rw [ha] at h; cases h
  | ok c =>
    rw [ha] at h
    simp only at h
    cases hs : saveText L (bootstrap E c) with
    | error x => rw [hs] at h; cases h
    | ok ct =>
      rw [hs] at h
      simp only at h
      cases hst : saveText L (fresh E) with
      | error x => rw [hst] at h; cases h
      | ok st =>
        rw [hst] at h
        simp only at h
        have hu : openUsers (fresh E) = .ok [] := openUsers_ok (by simp) (.inl ⟨rfl, .inl (fresh_users E)⟩)
        rw [hu] at h
        simp only [Except.ok.injEq, Prod.mk.injEq] at h
        obtain ⟨rfl, -⟩ := h
        have hc : bootstrap E c = b := hc
        subst hc
        refine ⟨?_, fresh_d E, fresh_good E, ?_, ?_, ?_, ?_, ?_, ?_, ?_, rfl, ?_, ?_⟩
        · rw [bootstrap_d, setArgv_d argv ha]
          simp [define, List.map_map, Function.comp_def]
        · rw [lastOf_boot]
        · rw [lastOf_boot]
        · rw [lastOf_boot]
        · exact ⟨ct, hs, by rw [lastOf_boot]⟩
        · exact ⟨st, hst, by rw [lastOf_boot]⟩
        · exact .inl ⟨rfl, .inl (fresh_users E)⟩
        · intro u hu; simp at hu
        · show numberAt (fresh E) _ = if valueAt (fresh E) _ = [] then 0 else 1
          rw [fresh_prim, fresh_ro]; rfl
        · intro hn; exact absurd (fresh_prim E) hn

/-! ## a later start -/

theorem start_eq {L : Libc} {b : List Opt} {s : Server} (hb : GoodL b) (hi : Inv L b s) (E : Env) (argv : List Bytes) :
    start L E argv s.dir = (setArgv L (restore b (define configDefs)) argv).bind fun c =>
      (replOpen c (restore s.state (fresh E))).bind fun st => .ok (⟨c, st, s.users, s.dir⟩, []) := by
  unfold start
  rw [if_neg (by rw [hi.made]; simp), hi.version]
  simp only [Option.elim, version_open, Except.bind]
  obtain ⟨t, ht, hd⟩ := hi.config
  rw [hd]
  simp only
  have hcd : (define configDefs).map Opt.d = b.map Opt.d := by
    rw [hi.bd]; simp [define, List.map_map, Function.comp_def]
  obtain ⟨t', ht', hset⟩ := set_save L b (define configDefs) (by rw [hi.bd]; exact sound_config) hcd hb
  rw [ht] at ht'
  cases ht'
  rw [hset]
  simp only
  cases setArgv L (restore b (define configDefs)) argv with
  | error x => rfl
  | ok c =>
    simp only
    obtain ⟨t2, ht2, hd2⟩ := hi.state
    rw [hd2]
    simp only
    have hsd : (fresh E).map Opt.d = s.state.map Opt.d := by rw [hi.sd, fresh_d]
    obtain ⟨t3, ht3, hset2⟩ := set_save L s.state (fresh E) (by rw [hi.sd]; exact sound_state) hsd hi.sg
    rw [ht2] at ht3
    cases ht3
    rw [hset2]
    simp only
    have hu : openUsers (restore s.state (fresh E)) = .ok s.users := by
      apply openUsers_ok hi.gu
      obtain ⟨o, ho, hod, _⟩ := opt_some hi.sd d_users
      obtain ⟨o', ho', hod', _⟩ := opt_some (fresh_d E) d_users
      have hv : valueAt (restore s.state (fresh E)) (lit "users") = encP (value o) := by
        rw [valueAt_opt, opt_restore _ _ hsd, ho, ho']
        simp only [Option.bind, Option.map, hod, Option.getD]
        simp only [Bool.false_eq_true, if_false, setVal, hod']
      rw [hv]
      have hvo : valueAt s.state (lit "users") = o.str := by rw [valueAt_opt, ho]; rfl
      have hu := hi.users
      rw [hvo] at hu
      rcases hu with ⟨hn, e | e⟩ | e
      · refine .inl ⟨hn, .inr ?_⟩
        simp [value, hod, e]
      · refine .inl ⟨hn, .inr ?_⟩
        rw [value_json (v := .null) (by rw [hod]) trivial (.inr e)]
      · refine .inr ?_
        rw [value_json (by rw [hod]) (users_ok hi.gu) e]
    rw [hu]

theorem restore_prim {L : Libc} {b : List Opt} {s : Server} (hi : Inv L b s) (E : Env) :
    valueAt (restore s.state (fresh E)) (lit "repl_primary") = valueAt s.state (lit "repl_primary") := by
  have hsd : (fresh E).map Opt.d = s.state.map Opt.d := by rw [hi.sd, fresh_d]
  obtain ⟨o, ho, hod, _⟩ := opt_some hi.sd d_prim
  obtain ⟨o', ho', hod', _⟩ := opt_some (fresh_d E) d_prim
  rw [valueAt_opt, valueAt_opt, opt_restore _ _ hsd, ho, ho']
  simp only [Option.bind, Option.map, hod, Option.getD]
  simp only [Bool.false_eq_true, if_false, setVal, hod', value, hod]

theorem restore_ro {L : Libc} {b : List Opt} {s : Server} (hi : Inv L b s) (E : Env) :
    numberAt (restore s.state (fresh E)) (lit "read_only") = 0 := by
  have hsd : (fresh E).map Opt.d = s.state.map Opt.d := by rw [hi.sd, fresh_d]
  obtain ⟨o, ho, hod, _⟩ := opt_some hi.sd d_ro
  obtain ⟨o', ho', hod', _⟩ := opt_some (fresh_d E) d_ro
  have := fresh_ro E
  rw [numberAt_opt, ho'] at this
  rw [numberAt_opt, opt_restore _ _ hsd, ho, ho']
  simp only [Option.bind, Option.map, hod, Option.getD, if_true] at this ⊢
  exact this

theorem restore_users {L : Libc} {b : List Opt} {s : Server} (hi : Inv L b s) (E : Env) :
    UsersOf (valueAt (restore s.state (fresh E)) (lit "users")) s.users := by
  have hsd : (fresh E).map Opt.d = s.state.map Opt.d := by rw [hi.sd, fresh_d]
  obtain ⟨o, ho, hod, _⟩ := opt_some hi.sd d_users
  obtain ⟨o', ho', hod', _⟩ := opt_some (fresh_d E) d_users
  have hv : valueAt (restore s.state (fresh E)) (lit "users") = encP (value o) := by
    rw [valueAt_opt, opt_restore _ _ hsd, ho, ho']
    simp only [Option.bind, Option.map, hod, Option.getD]
    simp only [Bool.false_eq_true, if_false, setVal, hod']
  rw [hv]
  have hvo : valueAt s.state (lit "users") = o.str := by rw [valueAt_opt, ho]; rfl
  have hu := hi.users
  rw [hvo] at hu
  rcases hu with ⟨hn, e | e⟩ | e
  · exact .inl ⟨hn, .inr (by simp [value, hod, e])⟩
  · exact .inl ⟨hn, .inr (by rw [value_json (v := .null) (by rw [hod]) trivial (.inr e)])⟩
  · exact .inr (.inr (by rw [value_json (by rw [hod]) (users_ok hi.gu) e]))

/-- the state after repl_open: only `read_only` can differ -/
theorem replOpen_ok {c st : List Opt} (h : valueAt st (lit "repl_primary") ≠ [] → valueAt st (lit "repl_primary") ≠ valueAt c (lit "uuid")) :
    replOpen c st = .ok (if valueAt st (lit "repl_primary") = [] then st else put st (lit "read_only") fun o => { o with int := 1 }) := by
  unfold replOpen
  by_cases hp : valueAt st (lit "repl_primary") = []
  · rw [if_pos hp, if_pos hp]
  · rw [if_neg hp, if_neg hp, if_neg (h hp)]

theorem ro_def {l : List Opt} (h : l.map Opt.d = stateDefs) {o : Opt} (ho : o ∈ l) (hn : o.d.name = lit "read_only") : o.d.e = true := by
  rw [name_def h sound_state.1 ho hn d_ro]

theorem opened (st : List Opt) (hd : st.map Opt.d = stateDefs) (hg : GoodL st) (h0 : numberAt st (lit "read_only") = 0) :
    ∀ r, r = (if valueAt st (lit "repl_primary") = [] then st else put st (lit "read_only") fun o => { o with int := 1 }) →
      r.map Opt.d = stateDefs ∧ GoodL r ∧ fields r = fields st ∧ valueAt r (lit "repl_primary") = valueAt st (lit "repl_primary") ∧
        valueAt r (lit "users") = valueAt st (lit "users") ∧ numberAt r (lit "read_only") = if valueAt st (lit "repl_primary") = [] then 0 else 1 := by
  intro r hr
  by_cases hp : valueAt st (lit "repl_primary") = []
  · rw [if_pos hp] at hr ⊢; subst hr; exact ⟨hd, hg, rfl, rfl, rfl, h0⟩
  · rw [if_neg hp] at hr ⊢
    subst hr
    refine ⟨by rw [put_d _ _ _ (by intro o; rfl)]; exact hd, ?_, ?_, ?_, ?_, ?_⟩
    · exact goodL_put _ _ (by intro o; rfl) hg fun o ho hn he => by rw [ro_def hd ho hn] at he; cases he
    · exact fields_put_e (by intro o; rfl) fun o ho hn => ro_def hd ho hn
    · rw [valueAt_opt, valueAt_opt, opt_put_ne _ _ _ _ (by intro o; rfl) (by decide)]
    · rw [valueAt_opt, valueAt_opt, opt_put_ne _ _ _ _ (by intro o; rfl) (by decide)]
    · obtain ⟨o, ho, _⟩ := opt_some hd d_ro
      rw [numberAt_opt, opt_put_same _ _ _ (by intro o; rfl), ho]
      rfl

theorem saveText_fields {L : Libc} {l l' : List Opt} (hs : Sound (l.map Opt.d)) (hd : l'.map Opt.d = l.map Opt.d) (hg : GoodL l) (hg' : GoodL l')
    (hf : fields l' = fields l) : saveText L l' = saveText L l := by
  rw [saveText_eq L l hg (names_ok hs rfl), saveText_eq L l' hg' (names_ok (by rw [hd]; exact hs) rfl), hf]

theorem inv_again {L : Libc} {b : List Opt} {s s' : Server} {E : Env} {argv : List Bytes} {steps : List Dir} (hb : GoodL b) (hi : Inv L b s)
    (h : start L E argv s.dir = .ok (s', steps)) (hu : valueAt s'.config (lit "uuid") = valueAt b (lit "uuid")) :
    Inv L b s' ∧ s'.users = s.users ∧ fields s'.state = fields s.state ∧ s'.dir = s.dir ∧
      numberAt s'.state (lit "read_only") = numberAt s.state (lit "read_only") := by
  rw [start_eq hb hi] at h
  have hsd : (fresh E).map Opt.d = s.state.map Opt.d := by rw [hi.sd, fresh_d]
  have hRd : (restore s.state (fresh E)).map Opt.d = stateDefs := by rw [restore_d _ _ hsd, hi.sd]
  have hRg : GoodL (restore s.state (fresh E)) := restore_good _ _ hsd hi.sg (fresh_good E)
  have hRf := restore_fields _ _ hsd hi.sg
  cases ha : setArgv L (restore b (define configDefs)) argv with
  | error x => rw [ha] at h; cases h
  | ok c =>
    rw [ha] at h
    simp only [Except.bind] at h
    cases hr : replOpen c (restore s.state (fresh E)) with
    | error x => rw [hr] at h; cases h
    | ok st =>
      rw [hr] at h
      simp only [Except.ok.injEq, Prod.mk.injEq] at h
      obtain ⟨rfl, -⟩ := h
      simp only at hu
      have hrp := restore_prim hi E
      have hok := replOpen_ok (c := c) (st := restore s.state (fresh E)) (by rw [hrp, hu]; exact hi.prim)
      rw [hr] at hok
      injection hok with hst
      obtain ⟨a1, a2, a3, a4, a5, a6⟩ := opened _ hRd hRg (restore_ro hi E) st hst
      have hro : numberAt st (lit "read_only") = numberAt s.state (lit "read_only") := by rw [a6, hrp, hi.ro]
      refine ⟨⟨hi.bd, a1, a2, hi.made, hi.old, hi.version, hi.config, ?_, ?_, hi.gu, hu, ?_, ?_⟩, rfl, by rw [a3, hRf], rfl, hro⟩
      · obtain ⟨t, ht, hd⟩ := hi.state
        refine ⟨t, ?_, hd⟩
        rw [← ht]
        exact saveText_fields (by rw [hi.sd]; exact sound_state) (by rw [a1, hi.sd]) hi.sg a2 (by rw [a3, hRf])
      · show UsersOf (valueAt st (lit "users")) s.users
        rw [a5]; exact restore_users hi E
      · show numberAt st _ = if valueAt st _ = [] then 0 else 1
        rw [a6, a4]
      · show valueAt st _ ≠ [] → valueAt st _ ≠ valueAt b (lit "uuid")
        rw [a4, hrp]; exact hi.prim

/-! ## statements -/

theorem effect_inv {L : Libc} {b : List Opt} {s s' : Server} {x : Stmt} (hi : Inv L b s) (hx : GoodStmt x) (h : effect s x = .ok (some s')) :
    ∀ r, r = dumpUsers s' x → r.dir = s.dir ∧ r.config = s.config ∧ r.state.map Opt.d = stateDefs ∧ GoodL r.state ∧
      UsersOf (valueAt r.state (lit "users")) r.users ∧ (∀ u ∈ r.users, GoodUser u) ∧
      (numberAt r.state (lit "read_only") = if valueAt r.state (lit "repl_primary") = [] then 0 else 1) ∧
      (valueAt r.state (lit "repl_primary") ≠ [] → valueAt r.state (lit "repl_primary") ≠ valueAt b (lit "uuid")) := by
  intro r hr
  have users : ∀ us : List User, (∀ u ∈ us, GoodUser u) → ∀ r : Server, r = { s with users := us, state := put s.state (lit "users") fun o => { o with str := usersDoc us } } →
      r.dir = s.dir ∧ r.config = s.config ∧ r.state.map Opt.d = stateDefs ∧ GoodL r.state ∧
      UsersOf (valueAt r.state (lit "users")) r.users ∧ (∀ u ∈ r.users, GoodUser u) ∧
      (numberAt r.state (lit "read_only") = if valueAt r.state (lit "repl_primary") = [] then 0 else 1) ∧
      (valueAt r.state (lit "repl_primary") ≠ [] → valueAt r.state (lit "repl_primary") ≠ valueAt b (lit "uuid")) := by
    intro us hus r hr
    subst hr
    obtain ⟨o, ho, _⟩ := opt_some hi.sd d_users
    have e1 : valueAt (put s.state (lit "users") fun o => { o with str := usersDoc us }) (lit "repl_primary") = valueAt s.state (lit "repl_primary") := by
      rw [valueAt_opt, valueAt_opt, opt_put_ne _ _ _ _ (by intro o; rfl) (by decide)]
    have e2 : numberAt (put s.state (lit "users") fun o => { o with str := usersDoc us }) (lit "read_only") = numberAt s.state (lit "read_only") := by
      rw [numberAt_opt, numberAt_opt, opt_put_ne _ _ _ _ (by intro o; rfl) (by decide)]
    refine ⟨rfl, rfl, by dsimp only; rw [put_d _ _ _ (by intro o; rfl)]; exact hi.sd, ?_, ?_, hus, ?_, ?_⟩
    · refine goodL_put _ _ (by intro o; rfl) hi.sg fun o ho hn he => ?_
      have := name_def hi.sd sound_state.1 ho hn d_users
      unfold Good
      simp only [this]
      exact .inr ⟨_, users_ok hus, .inl rfl⟩
    · refine .inr (.inl ?_)
      dsimp only
      rw [valueAt_opt, opt_put_same _ _ _ (by intro o; rfl), ho]
      rfl
    · dsimp only; rw [e1, e2]; exact hi.ro
    · dsimp only; rw [e1]; exact hi.prim
  have other : ∀ (n : Bytes) (f : Opt → Opt), (∀ o, (f o).d = o.d) → n ≠ lit "users" → n ≠ lit "read_only" → n ≠ lit "repl_primary" →
      (∀ o ∈ s.state, o.d.name = n → Good (f o)) → ∀ r : Server, r = { s with state := put s.state n f } →
      r.dir = s.dir ∧ r.config = s.config ∧ r.state.map Opt.d = stateDefs ∧ GoodL r.state ∧
      UsersOf (valueAt r.state (lit "users")) r.users ∧ (∀ u ∈ r.users, GoodUser u) ∧
      (numberAt r.state (lit "read_only") = if valueAt r.state (lit "repl_primary") = [] then 0 else 1) ∧
      (valueAt r.state (lit "repl_primary") ≠ [] → valueAt r.state (lit "repl_primary") ≠ valueAt b (lit "uuid")) := by
    intro n f hf h1 h2 h3 hg r hr
    subst hr
    have e0 : valueAt (put s.state n f) (lit "users") = valueAt s.state (lit "users") := by
      rw [valueAt_opt, valueAt_opt, opt_put_ne _ _ _ _ hf h1]
    have e1 : valueAt (put s.state n f) (lit "repl_primary") = valueAt s.state (lit "repl_primary") := by
      rw [valueAt_opt, valueAt_opt, opt_put_ne _ _ _ _ hf h3]
    have e2 : numberAt (put s.state n f) (lit "read_only") = numberAt s.state (lit "read_only") := by
      rw [numberAt_opt, numberAt_opt, opt_put_ne _ _ _ _ hf h2]
    refine ⟨rfl, rfl, by dsimp only; rw [put_d _ _ _ hf]; exact hi.sd, goodL_put _ _ hf hi.sg fun o ho hn _ => hg o ho hn, ?_, hi.gu, ?_, ?_⟩
    · dsimp only; rw [e0]; exact hi.users
    · dsimp only; rw [e1, e2]; exact hi.ro
    · dsimp only; rw [e1]; exact hi.prim
  have prim : ∀ (i : Nat) (id : Bytes), Utf8 id ∧ id.length < 2 ^ 31 → (i = if id = [] then 0 else 1) → (id ≠ [] → id ≠ valueAt b (lit "uuid")) →
      ∀ r : Server, r = { s with state := put (put s.state (lit "read_only") fun o => { o with int := i }) (lit "repl_primary") fun o => { o with str := id } } →
      r.dir = s.dir ∧ r.config = s.config ∧ r.state.map Opt.d = stateDefs ∧ GoodL r.state ∧
      UsersOf (valueAt r.state (lit "users")) r.users ∧ (∀ u ∈ r.users, GoodUser u) ∧
      (numberAt r.state (lit "read_only") = if valueAt r.state (lit "repl_primary") = [] then 0 else 1) ∧
      (valueAt r.state (lit "repl_primary") ≠ [] → valueAt r.state (lit "repl_primary") ≠ valueAt b (lit "uuid")) := by
    intro i id hid hii hne r hr
    have hd1 : (put s.state (lit "read_only") fun o => { o with int := i }).map Opt.d = stateDefs := by
      rw [put_d _ _ _ (by intro o; rfl)]; exact hi.sd
    obtain ⟨o, ho, _⟩ := opt_some hd1 d_prim
    obtain ⟨o2, ho2, _⟩ := opt_some hi.sd d_ro
    have e0 : valueAt r.state (lit "users") = valueAt s.state (lit "users") := by
      subst hr; dsimp only
      rw [valueAt_opt, valueAt_opt, opt_put_ne _ _ _ _ (by intro o; rfl) (by decide), opt_put_ne _ _ _ _ (by intro o; rfl) (by decide)]
    have e1 : valueAt r.state (lit "repl_primary") = id := by
      subst hr; dsimp only
      rw [valueAt_opt, opt_put_same _ _ _ (by intro o; rfl), ho]; rfl
    have e2 : numberAt r.state (lit "read_only") = i := by
      subst hr; dsimp only
      rw [numberAt_opt, opt_put_ne _ _ _ _ (by intro o; rfl) (by decide), opt_put_same _ _ _ (by intro o; rfl), ho2]; rfl
    refine ⟨by subst hr; rfl, by subst hr; rfl, ?_, ?_, ?_, ?_, by rw [e1, e2]; exact hii, by rw [e1]; exact hne⟩
    · subst hr; dsimp only; rw [put_d _ _ _ (by intro o; rfl)]; exact hd1
    · subst hr; dsimp only
      refine goodL_put _ _ (by intro o; rfl) (goodL_put _ _ (by intro o; rfl) hi.sg fun o ho hn he => ?_) fun o ho hn he => ?_
      · rw [ro_def hi.sd ho hn] at he; cases he
      · have := name_def hd1 sound_state.1 ho hn d_prim
        unfold Good
        simp only [this]
        exact hid
    · rw [e0]; subst hr; exact hi.users
    · subst hr; exact hi.gu
  cases x with
  | createUser u ine =>
    simp only [effect] at h
    split at h
    · split at h <;> cases h
    · cases h
      exact users _ (by intro w hw; rcases List.mem_append.mp hw with hw | hw; exact hi.gu w hw; rw [List.mem_singleton.mp hw]; exact hx) r hr
  | dropUser n ie =>
    simp only [effect] at h
    split at h
    · cases h
      exact users _ (fun w hw => hi.gu w (List.mem_of_mem_eraseP hw)) r hr
    · split at h <;> cases h
  | alterUser u =>
    simp only [effect] at h
    split at h
    · cases h
      refine users _ (fun w hw => ?_) r hr
      obtain ⟨y, hy, rfl⟩ := List.mem_map.mp hw
      split
      · exact ⟨(hi.gu y hy).1, hx.2⟩
      · exact hi.gu y hy
    · cases h
  | replStart =>
    simp only [effect] at h
    cases h
    refine other _ _ (by intro o; rfl) (by decide) (by decide) (by decide) (fun o ho hn => ?_) r hr
    have := name_def hi.sd sound_state.1 ho hn d_repl
    unfold Good
    simp only [this]
  | replStop =>
    simp only [effect] at h
    cases h
    refine other _ _ (by intro o; rfl) (by decide) (by decide) (by decide) (fun o ho hn => ?_) r hr
    have := name_def hi.sd sound_state.1 ho hn d_repl
    unfold Good
    simp only [this]
  | subscribe id =>
    simp only [effect] at h
    split at h
    · cases h
    · split at h
      · cases h
      · rename_i hne
        cases h
        refine prim 1 id ⟨hx.1, hx.2.1⟩ ?_ ?_ r hr
        · rw [if_neg hx.2.2]
        · intro _; rw [hi.uuid] at hne; exact hne
  | unsubscribe =>
    simp only [effect] at h
    split at h
    · cases h
    · cases h
      exact prim 0 [] ⟨.nil, by simp⟩ (by simp) (fun h => absurd rfl h) r hr
  | replicas v =>
    simp only [effect] at h
    cases h
    refine other _ _ (by intro o; rfl) (by decide) (by decide) (by decide) (fun o ho hn => ?_) r hr
    have := name_def hi.sd sound_state.1 ho hn d_replicas
    unfold Good
    simp only [this]
    exact .inr ⟨v, hx, .inl rfl⟩

/-- a statement that changes something, as one step -/
theorem exec_eq {L : Libc} {b : List Opt} {s s' : Server} {x : Stmt} (hi : Inv L b s) (hx : GoodStmt x) (h : effect s x = .ok (some s')) :
    ∃ t, saveText L (dumpUsers s' x).state = .ok t ∧
      exec L s x = .ok ({ dumpUsers s' x with dir := { s.dir with state := some t } }, saveSteps t s.dir) ∧
      Inv L b { dumpUsers s' x with dir := { s.dir with state := some t } } := by
  obtain ⟨r1, r2, r3, r4, r5, r6, r7, r8⟩ := effect_inv hi hx h _ rfl
  have ht := saveText_eq L _ r4 (names_ok sound_state r3)
  refine ⟨_, ht, ?_, ?_⟩
  · unfold exec saveState
    rw [h]
    simp only [Except.bind, Option.elim]
    rw [ht]
    simp only [r1]
    rw [lastOf_saveSteps _ _ hi.old]
  · exact ⟨hi.bd, r3, r4, hi.made, hi.old, hi.version, hi.config, ⟨_, ht, rfl⟩, r5, r6, by dsimp only; rw [r2]; exact hi.uuid, r7, r8⟩

theorem inv_stmt {L : Libc} {b : List Opt} {s s' : Server} {x : Stmt} {steps : List Dir} (hi : Inv L b s) (hx : GoodStmt x) (h : exec L s x = .ok (s', steps)) : Inv L b s' := by
  cases he : effect s x with
  | error e => unfold exec at h; rw [he] at h; cases h
  | ok r =>
    cases r with
    | none =>
      unfold exec at h; rw [he] at h
      cases h; exact hi
    | some q =>
      obtain ⟨t, _, e, hi'⟩ := exec_eq hi hx he
      rw [e] at h
      cases h
      exact hi'

theorem inv_reach {L : Libc} {b : List Opt} {s : Server} (hb : GoodL b) (h : Reach L b s) : Inv L b s := by
  induction h with
  | first h hc => exact inv_first hb h hc
  | stmt _ hx h ih => exact inv_stmt ih hx h
  | again _ h hu ih => exact (inv_again hb ih h hu).1

end Verif.Config
