import Verif.Config.Proofs
/-!
# Histories of a server with restarts
-/
set_option autoImplicit false
set_option linter.unusedSimpArgs false
set_option linter.unusedVariables false
namespace Verif.Config
open Verif Verif.Json Verif.Json.Text
open Verif.Catalog (lit utf8_bytes textOK_wf skip_encP lit_ok utf8_ascii readKeys_fold readList_enc textOKList_iff readKeys readList strAt)

theorem sound_of {l : List Def} (h1 : (l.map Def.name).Nodup) (h2 : l.all (fun d => d.name.all (fun b => decide (b < 128)) && decide (d.name.length < 100) && (d.e || d.c)) = true) : Sound l := by
  refine ⟨h1, fun d hd => ?_⟩
  have := List.all_eq_true.mp h2 d hd
  simp only [Bool.and_eq_true, List.all_eq_true, decide_eq_true_eq, Bool.or_eq_true] at this
  refine ⟨⟨utf8_ascii this.1.1, by omega⟩, fun he => ?_⟩
  rcases this.2 with h | h
  · rw [he] at h; cases h
  · exact h

theorem sound_state : Sound stateDefs := sound_of (by decide +kernel) (by decide +kernel)
theorem sound_config : Sound configDefs := sound_of (by decide +kernel) (by decide +kernel)

/-! ## the option of a name -/

/-- opts_find -/
def opt (l : List Opt) (n : Bytes) : Option Opt := l.find? fun o => decide (o.d.name = n)

theorem valueAt_opt (l : List Opt) (n : Bytes) : valueAt l n = ((opt l n).map Opt.str).getD [] := rfl
theorem numberAt_opt (l : List Opt) (n : Bytes) : numberAt l n = ((opt l n).map Opt.int).getD 0 := rfl

theorem put_d (l : List Opt) (n : Bytes) (f : Opt → Opt) (hf : ∀ o, (f o).d = o.d) : (put l n f).map Opt.d = l.map Opt.d := by
  simp only [put, List.map_map]
  apply List.map_congr_left
  intro o _
  simp only [Function.comp]
  split
  · exact hf o
  · rfl

theorem opt_put_same (l : List Opt) (n : Bytes) (f : Opt → Opt) (hf : ∀ o, (f o).d = o.d) : opt (put l n f) n = (opt l n).map f := by
  induction l with
  | nil => rfl
  | cons o l ih =>
    unfold opt put at ih ⊢
    simp only [List.map_cons, List.find?_cons]
    by_cases h : o.d.name = n
    · simp [h, hf]
    · simp only [h, if_false, decide_false]
      exact ih

theorem opt_put_ne (l : List Opt) (n m : Bytes) (f : Opt → Opt) (hf : ∀ o, (f o).d = o.d) (hm : n ≠ m) : opt (put l n f) m = opt l m := by
  induction l with
  | nil => rfl
  | cons o l ih =>
    unfold opt put at ih ⊢
    simp only [List.map_cons, List.find?_cons]
    by_cases h : o.d.name = n
    · have : o.d.name ≠ m := by rw [h]; exact hm
      simp only [h, if_true, hf, hm, decide_false]
      exact ih
    · simp only [h, if_false]
      by_cases h2 : o.d.name = m
      · simp [h2]
      · simp only [h2, decide_false]
        exact ih

theorem opt_def {l : List Opt} {ds : List Def} (h : l.map Opt.d = ds) (n : Bytes) : (opt l n).map Opt.d = ds.find? fun d => decide (d.name = n) := by
  subst h
  induction l with
  | nil => rfl
  | cons o l ih =>
    unfold opt at ih ⊢
    simp only [List.map_cons, List.find?_cons]
    by_cases h : o.d.name = n
    · simp [h]
    · simp only [h, decide_false]; exact ih

theorem opt_some {l : List Opt} {ds : List Def} (h : l.map Opt.d = ds) {n : Bytes} {d : Def} (hd : ds.find? (fun d => decide (d.name = n)) = some d) :
    ∃ o, opt l n = some o ∧ o.d = d ∧ o ∈ l := by
  have := opt_def h n
  rw [hd] at this
  cases e : opt l n with
  | none => rw [e] at this; cases this
  | some o =>
    rw [e] at this
    exact ⟨o, rfl, by simpa using this, List.mem_of_find?_eq_some e⟩

theorem opt_restore : ∀ (l l' : List Opt), l'.map Opt.d = l.map Opt.d → ∀ n : Bytes,
    opt (restore l l') n = (opt l n).bind fun o => (opt l' n).map fun o' => if o.d.e then o' else setVal o' (value o)
  | [], l', h, n => by have : l' = [] := by simpa using h
                       subst this; rfl
  | o :: l, [], h, n => by simp at h
  | o :: l, o' :: l', h, n => by
    simp only [List.map_cons, List.cons.injEq] at h
    have ih := opt_restore l l' h.2 n
    unfold opt at ih ⊢
    simp only [restore, List.find?_cons]
    have hd : (if o.d.e then o' else setVal o' (value o)).d = o.d := by
      split
      · exact h.1
      · rw [setVal_d, h.1]
    rw [hd, h.1]
    by_cases hn : o.d.name = n
    · simp [hn]
    · simp only [hn, decide_false]; exact ih

theorem goodL_put {l : List Opt} (n : Bytes) (f : Opt → Opt) (hf : ∀ o, (f o).d = o.d) (hg : GoodL l)
    (h : ∀ o ∈ l, o.d.name = n → o.d.e = false → Good (f o)) : GoodL (put l n f) := by
  intro o ho he
  simp only [put, List.mem_map] at ho
  obtain ⟨x, hx, rfl⟩ := ho
  by_cases hn : x.d.name = n
  · simp only [hn, if_true, hf] at he ⊢
    exact h x hx hn he
  · simp only [hn, if_false] at he ⊢
    exact hg x hx he

theorem def_of_mem {l : List Opt} {ds : List Def} (h : l.map Opt.d = ds) {o : Opt} (ho : o ∈ l) : o.d ∈ ds := by
  rw [← h]; exact List.mem_map_of_mem ho

theorem name_def {l : List Opt} {ds : List Def} (h : l.map Opt.d = ds) (hs : (ds.map Def.name).Nodup) {o : Opt} (ho : o ∈ l) {n : Bytes} (hn : o.d.name = n)
    {d : Def} (hd : ds.find? (fun d => decide (d.name = n)) = some d) : o.d = d := by
  have h1 := def_of_mem h ho
  have h2 := List.mem_of_find?_eq_some hd
  have h3 : d.name = n := by simpa using List.find?_some hd
  have : ∀ (l : List Def), (l.map Def.name).Nodup → ∀ a ∈ l, ∀ b ∈ l, a.name = b.name → a = b := by
    intro l
    induction l with
    | nil => intro _ a ha; simp at ha
    | cons x l ih =>
      intro hn a ha b hb hab
      simp only [List.map_cons, List.nodup_cons] at hn
      simp only [List.mem_cons] at ha hb
      rcases ha with rfl | ha <;> rcases hb with rfl | hb
      · rfl
      · exact absurd (List.mem_map.mpr ⟨b, hb, hab.symm⟩) hn.1
      · exact absurd (List.mem_map.mpr ⟨a, ha, hab⟩) hn.1
      · exact ih hn.2 a ha b hb hab
  exact this ds hs _ h1 _ h2 (by rw [hn, h3])

/-! ## users -/

theorem readUser_enc {u : User} (h : TextOK (userJ u)) (rest : Bytes) : readUser (encP (userJ u) ++ rest) = .ok (u, rest) := by
  unfold readUser
  unfold userJ at h ⊢
  rw [readKeys_fold (.cons rfl rfl (.cons rfl rfl (.nil _))) h rfl]
  rfl

theorem userJ_ok {u : User} (h : GoodUser u) : TextOK (userJ u) := by
  simp only [userJ, TextOK, TextOKFields]
  exact ⟨lit_ok "name" (by decide) (by decide), h.1, lit_ok "secret" (by decide) (by decide), h.2, trivial⟩

theorem users_ok {us : List User} (h : ∀ u ∈ us, GoodUser u) : TextOK (.arr (us.map userJ)) := by
  simp only [TextOK]
  rw [textOKList_iff]
  intro v hv
  obtain ⟨u, hu, rfl⟩ := List.mem_map.mp hv
  exact userJ_ok (h u hu)

/-- what the option `users` says -/
def UsersOf (x : Bytes) (us : List User) : Prop :=
  (us = [] ∧ (x = [] ∨ x = encP .null)) ∨ (x = enc (.arr (us.map userJ)) ∨ x = encP (.arr (us.map userJ)))

theorem openUsers_ok {st : List Opt} {us : List User} (hg : ∀ u ∈ us, GoodUser u)
    (h : (us = [] ∧ (valueAt st (lit "users") = [] ∨ valueAt st (lit "users") = encP .null)) ∨ valueAt st (lit "users") = encP (.arr (us.map userJ))) :
    openUsers st = .ok us := by
  unfold openUsers
  rcases h with ⟨rfl, h | h⟩ | h
  · rw [h]; rfl
  · rw [h]; rfl
  · rw [h, if_neg (encP_ne_nil _)]
    have hl : readList readUser (encP (.arr (us.map userJ)) ++ []) = .ok (us.map id, []) :=
      readList_enc (fun u hu r => readUser_enc (userJ_ok (hg u hu)) r) []
    rw [List.append_nil] at hl
    rw [hl]
    simp [encP, peek, Except.bind, clsOf]

/-! ## the state of a new process -/

theorem fresh_d (E : Env) : (fresh E).map Opt.d = stateDefs := by
  unfold fresh
  rw [put_d _ _ _ (by intro o; rfl)]
  simp [define, List.map_map, Function.comp_def]

theorem fresh_good (E : Env) : GoodL (fresh E) := by
  have h1 : ∀ o ∈ define stateDefs, o.d.e = false → o.str = [] ∧ o.int = 0 ∧ o.d.z = false ∧ o.d.name ≠ lit "directory" := by decide +kernel
  have h2 : GoodL (define stateDefs) := by
    intro o ho he
    obtain ⟨a, b, c, _⟩ := h1 o ho he
    unfold Good
    cases o.d.ty with
    | bool => trivial
    | int => simp only [b]; exact ⟨by omega, by omega, fun h => by rw [c] at h; cases h⟩
    | str => simp only [a]; exact ⟨.nil, by simp⟩
    | json => exact .inl a
  exact goodL_put _ _ (fun _ => rfl) h2 fun o ho hn he => absurd hn (h1 o ho he).2.2.2

theorem config_good : GoodL (define configDefs) := by
  have h1 : ∀ o ∈ define configDefs, o.str.all (fun b => decide (b < 128)) = true ∧ o.str.length < 100 ∧ o.int < 2 ^ 63 ∧ (o.d.z = true → o.int ≠ 0) ∧ (o.d.ty = .json → o.str = []) := by
    decide +kernel
  intro o ho _
  obtain ⟨a, b, c, d, e⟩ := h1 o ho
  unfold Good
  cases ht : o.d.ty with
  | bool => trivial
  | int => exact ⟨by omega, by omega, d⟩
  | str => exact ⟨utf8_ascii (by simpa using a), by omega⟩
  | json => exact .inl (e ht)

theorem version_doc (E : Env) : versionDoc (fresh E) = .obj [(lit "version", .str (lit "1.0.0-rc1"))] := by
  unfold versionDoc
  have : valueAt (fresh E) (lit "version") = lit "1.0.0-rc1" := by
    unfold fresh
    rw [valueAt_opt, opt_put_ne _ _ _ _ (by intro o; rfl) (by decide)]
    decide +kernel
  rw [this]

/-- version.json -/
def versionText (L : Libc) : Bytes := textOf L true 0 (.obj [(lit "version", .str (lit "1.0.0-rc1"))])

theorem version_ok : TextOK (.obj [(lit "version", .str (lit "1.0.0-rc1"))]) := by
  simp only [TextOK, TextOKFields]
  exact ⟨lit_ok "version" (by decide) (by decide), lit_ok "1.0.0-rc1" (by decide) (by decide), trivial⟩

theorem version_export (L : Libc) (E : Env) : export_ L true (enc (versionDoc (fresh E))) = .ok (versionText L, []) := by
  rw [version_doc]
  have := export_enc L true _ (textOK_wf _ version_ok) ((enc (.obj [(lit "version", .str (lit "1.0.0-rc1"))])).length + 1) 0 [] (by omega)
  rw [stored_textOK _ version_ok, List.append_nil] at this
  exact this

theorem version_open (L : Libc) (E : Env) : versionOpen L (fresh E) (versionText L) = .ok () := by
  have hp := parse_textOf L true _ version_ok [] trivial 0
  rw [List.append_nil] at hp
  unfold versionOpen versionText
  rw [hp]
  have hv : valueAt (fresh E) (lit "version") = lit "1.0.0-rc1" := by
    have := version_doc E
    unfold versionDoc at this
    simpa using this
  have := readKeys_fold (keys := [(lit "version", .str)]) (rest := []) (.cons rfl rfl (.nil _)) version_ok rfl
  rw [List.append_nil] at this
  simp only [Except.bind, this, hv]
  rfl

/-! ## histories -/

/-- The servers of a directory: it is made by a start with the options `b`, then statements and restarts follow in any order. A restart may give other options, but not another uuid. -/
inductive Reach (L : Libc) (b : List Opt) : Server → Prop
  | first {E : Env} {argv : List Bytes} {s : Server} {steps : List Dir} : start L E argv {} = .ok (s, steps) → s.config = b → Reach L b s
  | stmt {s s' : Server} {x : Stmt} {steps : List Dir} : Reach L b s → GoodStmt x → exec L s x = .ok (s', steps) → Reach L b s'
  | again {s s' : Server} {E : Env} {argv : List Bytes} {steps : List Dir} : Reach L b s → start L E argv s.dir = .ok (s', steps) →
      valueAt s'.config (lit "uuid") = valueAt b (lit "uuid") → Reach L b s'

/-- what holds of them -/
structure Inv (L : Libc) (b : List Opt) (s : Server) : Prop where
  bd : b.map Opt.d = configDefs
  sd : s.state.map Opt.d = stateDefs
  sg : GoodL s.state
  made : s.dir.made = true
  old : s.dir.old = none
  version : s.dir.version = some (versionText L)
  config : ∃ t, saveText L b = .ok t ∧ s.dir.config = some t
  state : ∃ t, saveText L s.state = .ok t ∧ s.dir.state = some t
  users : UsersOf (valueAt s.state (lit "users")) s.users
  gu : ∀ u ∈ s.users, GoodUser u
  uuid : valueAt s.config (lit "uuid") = valueAt b (lit "uuid")
  ro : numberAt s.state (lit "read_only") = if valueAt s.state (lit "repl_primary") = [] then 0 else 1
  prim : valueAt s.state (lit "repl_primary") ≠ [] → valueAt s.state (lit "repl_primary") ≠ valueAt b (lit "uuid")

theorem lastOf_saveTo (text : Bytes) (d : Dir) (h : d.state = none) : (saveTo text d).getLast? = some { d with state := some text } := by
  unfold saveTo
  rw [List.range_succ, List.map_append, List.map_singleton, List.getLast?_concat, h]
  simp [written]

theorem lastOf_saveSteps (text : Bytes) (d : Dir) (ho : d.old = none) : lastOf d (saveSteps text d) = { d with state := some text } := by
  unfold lastOf saveSteps
  by_cases h : d.state = none
  · rw [if_pos h, lastOf_saveTo text d h]; rfl
  · rw [if_neg h, ← List.append_assoc, List.getLast?_concat]
    simp [ho]

theorem lastOf_boot (v ct st : Bytes) : lastOf {} (bootDirs v ct st {}) = { made := true, version := some v, config := some ct, state := some st } := by
  have e : saveSteps st { made := true, version := some v, config := some ct, state := none, old := none } =
      saveTo st { made := true, version := some v, config := some ct, state := none, old := none } := by
    unfold saveSteps; rw [if_pos rfl]
  unfold lastOf bootDirs
  dsimp only
  rw [e, List.getLast?_append, List.getLast?_append, List.getLast?_append, lastOf_saveTo _ _ rfl]
  rfl

theorem update_d (f : Opt → Res (Opt × Bytes)) (hf : ∀ o p, f o = .ok p → p.1.d = o.d) (n : Bytes) (l : List Opt) : ∀ (q : List Opt × Bytes),
    update f n l = .ok (some q) → q.1.map Opt.d = l.map Opt.d := by
  induction l with
  | nil => intro q h; simp [update] at h
  | cons o l ih =>
    intro q h
    simp only [update] at h
    by_cases hn : o.d.name = n
    · rw [if_pos hn] at h
      cases e : f o with
      | error x => rw [e] at h; cases h
      | ok p =>
        rw [e] at h
        simp only [Except.bind, Except.ok.injEq, Option.some.injEq] at h
        subst h
        simp [hf o p e]
    · rw [if_neg hn] at h
      cases e : update f n l with
      | error x => rw [e] at h; cases h
      | ok r =>
        rw [e] at h
        cases r with
        | none => simp [Except.bind] at h
        | some w =>
          simp only [Except.bind, Option.map, Except.ok.injEq, Option.some.injEq] at h
          subst h
          simp [ih w e]

theorem setJson_d (o : Opt) (bs : Bytes) (p : Opt × Bytes) (h : setJson o bs = .ok p) : p.1.d = o.d := by
  unfold setJson at h
  cases hp : peek bs with
  | error x => rw [hp] at h; cases h
  | ok t =>
    rw [hp] at h
    simp only [Except.bind] at h
    cases ht : o.d.ty <;> rw [ht] at h <;> simp only at h
    · split at h
      · cases e : readBool bs <;> rw [e] at h
        · cases h
        · cases h; rfl
      · cases h
    · split at h
      · cases e : readInteger bs <;> rw [e] at h
        · cases h
        · simp only at h
          split at h
          · cases h
          · cases h; rfl
      · cases h
    · split at h
      · cases e : readRaw bs <;> rw [e] at h
        · cases h
        · cases h; rfl
      · cases h
    · cases e : skip bs <;> rw [e] at h
      · cases h
      · cases h; rfl

theorem setText_d (L : Libc) (o : Opt) (v : Bytes) (q : Opt) (h : setText L o v = .ok q) : q.d = o.d := by
  unfold setText at h
  split at h
  · cases h
  · cases ht : o.d.ty <;> rw [ht] at h <;> simp only at h
    · split at h
      · cases h; rfl
      · split at h
        · cases h; rfl
        · split at h
          · cases h; rfl
          · cases h
    · cases hi : toInt 0 v <;> rw [hi] at h
      · cases h
      · simp only [Option.elim] at h
        split at h
        · cases h
        · cases h; rfl
    · cases h; rfl
    · cases hp : parse L v <;> rw [hp] at h
      · cases h
      · cases h; rfl

theorem guarded_d {f : Opt → Res (Opt × Bytes)} (hf : ∀ o p, f o = .ok p → p.1.d = o.d) (o : Opt) (p : Opt × Bytes) (h : guarded f o = .ok p) : p.1.d = o.d := by
  unfold guarded at h
  split at h
  · exact hf o p h
  · cases h

theorem setLoop_d (fuel : Nat) : ∀ (l l' : List Opt) (bs : Bytes), setLoop fuel l bs = .ok l' → l'.map Opt.d = l.map Opt.d := by
  induction fuel with
  | zero => intro l l' bs h; simp [setLoop] at h
  | succ f ih =>
    intro l l' bs h
    simp only [setLoop] at h
    cases he : readObjEnd bs with
    | error x => rw [he] at h; cases h
    | ok o =>
      rw [he] at h
      cases o with
      | some r => simp only [Except.bind, Option.elim] at h; cases h; rfl
      | none =>
        simp only [Except.bind, Option.elim] at h
        cases hk : readRaw bs with
        | error x => rw [hk] at h; cases h
        | ok k =>
          rw [hk] at h
          simp only at h
          cases hu : update (guarded fun o => setJson o k.2) k.1 l with
          | error x => rw [hu] at h; cases h
          | ok r =>
            rw [hu] at h
            cases r with
            | none => cases h
            | some q =>
              simp only at h
              rw [ih q.1 l' q.2 h]
              exact update_d _ (guarded_d fun o p hp => setJson_d o k.2 p hp) _ _ _ hu

theorem set_d {L : Libc} {l l' : List Opt} {t : Bytes} (h : set L l t = .ok l') : l'.map Opt.d = l.map Opt.d := by
  unfold set at h
  cases hp : parse L t with
  | error x => rw [hp] at h; cases h
  | ok p =>
    rw [hp] at h
    simp only [Except.bind] at h
    cases hr : readObj p.2 with
    | error x => rw [hr] at h; cases h
    | ok r => rw [hr] at h; exact setLoop_d _ _ _ _ h

theorem setArg_d {L : Libc} {l l' : List Opt} {a : Bytes} (h : setArg L l a = .ok l') : l'.map Opt.d = l.map Opt.d := by
  unfold setArg at h
  cases ha : argParse a with
  | none => rw [ha] at h; cases h
  | some nv =>
    rw [ha] at h
    simp only [Option.elim] at h
    split at h
    · split at h
      · cases h
      · exact set_d h
    · split at h
      · cases h; rfl
      · cases hu : update (guarded fun o => (setText L o nv.2).bind fun o => .ok (o, [])) nv.1 l with
        | error x => rw [hu] at h; cases h
        | ok r =>
          rw [hu] at h
          cases r with
          | none => cases h
          | some q =>
            simp only [Except.bind] at h
            cases h
            refine update_d _ (guarded_d fun o p hp => ?_) _ _ _ hu
            cases hs : setText L o nv.2 with
            | error x => rw [hs] at hp; cases hp
            | ok q => rw [hs] at hp; cases hp; exact setText_d L o nv.2 _ hs

theorem setArgv_d {L : Libc} : ∀ (argv : List Bytes) {l l' : List Opt}, setArgv L l argv = .ok l' → l'.map Opt.d = l.map Opt.d
  | [], l, l', h => by simp only [setArgv] at h; cases h; rfl
  | a :: as, l, l', h => by
    simp only [setArgv] at h
    cases ha : setArg L l a with
    | error x => rw [ha] at h; cases h
    | ok m => rw [ha] at h; rw [setArgv_d as h, setArg_d ha]

theorem bootstrap_d (E : Env) (l : List Opt) : (bootstrap E l).map Opt.d = l.map Opt.d := by
  unfold bootstrap fill
  have hf : ∀ (v : Bytes) (o : Opt), (if o.str = [] then { o with str := v } else o).d = o.d := by
    intro v o; split <;> rfl
  rw [put_d _ _ _ (hf _), put_d _ _ _ (hf _), put_d _ _ _ (hf _)]

end Verif.Config
