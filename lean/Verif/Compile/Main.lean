import Verif.Compile.Pure
/-!
# Every expression
-/
set_option linter.unusedSimpArgs false
set_option linter.unusedVariables false
namespace Verif.Compile
open Verif.Query (CmpOp)

variable {W : Type} {E : Env W} {vars : List Val} {S : Sig}

theorem ebind_assoc {A B C : Type} (x : Except Stop A) (f : A → Except Stop B) (g : B → Except Stop C) :
    (x.bind f).bind g = x.bind fun a => (f a).bind g := by cases x <;> rfl
theorem keep_bind (w : W) (r : Except Stop Val) (k : Val → Except Stop Val) :
    ((Compile.keep w r).bind fun p => Compile.keep p.2 (k p.1)) = Compile.keep w (r.bind k) := by cases r <;> rfl
theorem obind_assoc {A B C : Type} (x : Option A) (f : A → Option B) (g : B → Option C) :
    (x.bind f).bind g = x.bind fun a => (f a).bind g := by cases x <;> rfl
theorem keep_ok (w : W) (v : Val) : Compile.keep w (.ok v) = .ok (v, w) := rfl
theorem notIf_false : notIf false = fun v => .ok v := rfl
theorem notIf_true : notIf true = notSem := rfl
theorem bind_ok {A : Type} (r : Except Stop A) : (r.bind fun v => .ok v) = r := by cases r <;> rfl

theorem SimA.weaken {em ev} {lk mem lk' mem' : Prop} (h : SimA E vars em ev lk mem) (hl : lk → lk') (hm : mem' → mem) :
    SimA E vars em ev lk' mem' := by
  intro c ts c' ts' he
  obtain ⟨frag, tn, h1, h2, h3, hr⟩ := h c ts c' ts' he
  refine ⟨frag, tn, h1, h2, h3, fun code s hf hp hv => ?_⟩
  obtain ⟨r1, r2⟩ := hr code s hf hp hv
  refine ⟨fun vs w' hev => ?_, r2⟩
  obtain ⟨hl1, ht, s', hx, po⟩ := r1 vs w' hev
  exact ⟨hl1, fun hn => ht (fun h => hn (hl h)), s', hx, ⟨po.pc, po.world, po.stack, po.keep, fun h => po.mem (hm h)⟩⟩

theorem SimA.congr {em em' : CS → List Ty → Option (CS × List Ty)} {ev ev' : W → Except Stop (List Val × W)} {lk mem : Prop}
    (h : SimA E vars em ev lk mem) (h1 : ∀ c ts, em' c ts = em c ts) (h2 : ∀ w, ev' w = ev w) : SimA E vars em' ev' lk mem := by
  have e1 : em' = em := funext fun c => funext fun ts => h1 c ts
  have e2 : ev' = ev := funext h2
  rw [e1, e2]; exact h

theorem SimW.weaken {rres : Nat} {em ev} {mem mem' : Prop} (h : SimW E vars rres em ev mem) (hm : mem' → mem) : SimW E vars rres em ev mem' := by
  intro c js c' js' t0 he h0
  obtain ⟨t1, jn, frag, h1, h2, hr⟩ := h c js c' js' t0 he h0
  refine ⟨t1, jn, frag, h1, h2, fun e code s hf hp hv => ?_⟩
  obtain ⟨r1, r2, r3⟩ := hr e code s hf hp hv
  refine ⟨fun w' hev => ?_, fun v w' hev => ?_, r3⟩
  · obtain ⟨s', a1, a2, a3, a4, a5, a6⟩ := r1 w' hev
    exact ⟨s', a1, a2, a3, a4, a5, fun h => a6 (hm h)⟩
  · obtain ⟨ht, s', a1, a2, a3, a4, a5, a6, a7⟩ := r2 v w' hev
    exact ⟨ht, s', a1, a2, a3, a4, a5, a6, fun h => a7 (hm h)⟩

theorem SimW.congr {rres : Nat} {em em' : CS → List Nat → Option (CS × List Nat)} {ev ev' : W → Except Stop (Option Val × W)} {mem : Prop}
    (h : SimW E vars rres em ev mem) (h1 : ∀ c js, em' c js = em c js) (h2 : ∀ w, ev' w = ev w) : SimW E vars rres em' ev' mem := by
  have e1 : em' = em := funext fun c => funext fun ts => h1 c ts
  have e2 : ev' = ev := funext h2
  rw [e1, e2]; exact h

theorem SimP.congr {em em' : CS → Option (CS × Ty)} {ev ev' : W → Except Stop (Val × W)} {lk mem : Prop}
    (h : SimP E vars em ev lk mem) (h1 : ∀ c, em' c = em c) (h2 : ∀ w, ev' w = ev w) : SimP E vars em' ev' lk mem := by
  have e1 : em' = em := funext h1
  have e2 : ev' = ev := funext h2
  rw [e1, e2]; exact h

/-- the WHENs with the operand evaluated before each of them, as the code does -/
def evalW (E : Env W) (vars : List Val) (evo : W → Except Stop (Val × W)) : Whens → W → Except Stop (Option Val × W)
  | .nil, w => .ok (none, w)
  | .cons c t rest, w => ((evo w).bind fun p => (eval E.toSem vars c p.2).bind fun q => Compile.keep q.2 (binSem E.P (.cmp .equ) p.1 q.1)).bind fun p =>
      (isTrue p.1).bind fun holds => if holds then (eval E.toSem vars t p.2).bind fun q => .ok (some q.1, q.2) else evalW E vars evo rest p.2

theorem evalW_ok {evo : W → Except Stop (Val × W)} {o : Val} (h : ∀ w, evo w = .ok (o, w)) (ws : Whens) (w : W) :
    evalW E vars evo ws w = evalWhens E.toSem vars (some o) ws w := by
  cases ws with
  | nil => simp only [evalW, evalWhens]
  | cons c t rest =>
    simp only [evalW, evalWhens, h]
    simp only [ebind_assoc, Except.bind.eq_2, Option.elim]
    congr 1; funext p
    cases binSem E.P (.cmp .equ) o p.1 with
    | error x => rfl
    | ok v =>
      simp only [Compile.keep, Except.map, Except.bind.eq_2]
      congr 1; funext b
      rw [evalW_ok h rest]
termination_by sizeOf ws

theorem evalW_err {evo : W → Except Stop (Val × W)} {x : Stop} (h : ∀ w, evo w = .error x) (c t : Expr) (rest : Whens) (w : W) :
    evalW E vars evo (.cons c t rest) w = .error x := by
  simp only [evalW, h]; rfl

/-! ## Leaves -/

theorem leaf_const {v : Val} : SimF E vars (fun c => some (c.oppin v.ty fun r => .const r v)) (fun w => .ok (v, w)) False True := by
  refine SimF.leaf (.inr rfl) fun s a _ => ⟨fun u hu => ?_, fun x hx => by cases hx⟩
  cases hu
  obtain ⟨s1, h1, h2⟩ := one_put s a [] v false (by simp) (by simp)
  exact ⟨s1, by rw [h1]; rfl, h2⟩

theorem leaf_value {v : Val} {o : Bool} : SimF E vars (fun c => some (c.oppin v.ty fun r => .value r v o)) (fun w => .ok (v, w)) False True := by
  refine SimF.leaf (.inr rfl) fun s a _ => ⟨fun u hu => ?_, fun x hx => by cases hx⟩
  cases hu
  obtain ⟨s1, h1, h2⟩ := one_put s a [] v o (by simp) (by simp)
  exact ⟨s1, by rw [h1]; rfl, h2⟩

theorem leaf_col {rc n : Nat} {t : Ty} (h : ∀ v, E.col rc n = some v → HasTy v t) :
    SimF E vars (fun c => some (c.oppin t fun r => .col r rc n)) (fun w => (E.col rc n).elim (.error .ub) fun v => .ok (v, w)) False True := by
  cases hc : E.col rc n with
  | none => exact SimB.stopF fun s a => by simp [stepI, hc]
  | some v =>
    refine SimF.leaf (h v hc) fun s a _ => ⟨fun u hu => ?_, fun x hx => by cases hx⟩
    cases hu
    obtain ⟨s1, h1, h2⟩ := one_put s a [] v false (by simp) (by simp)
    exact ⟨s1, by rw [h1]; simp [stepI, hc], h2⟩

theorem leaf_colB {rc n : Nat} {t : Ty} :
    SimB E vars (fun c => some (c.oppin t fun r => .col r rc n)) (fun w => (E.col rc n).elim (.error .ub) fun v => .ok (v, w)) True := by
  cases hc : E.col rc n with
  | none => exact SimB.stop fun s a => by simp [stepI, hc]
  | some v => exact SimB.leaf fun s a => by simp [stepI, hc]

theorem leaf_var {n : Nat} {t : Ty} (h : HasTy (vars.getD n .null) t) (hn : n < vars.length) :
    SimF E vars (fun c => some (c.oppin t fun r => .var r n)) (fun w => .ok (vars.getD n .null, w)) False True := by
  refine SimF.leaf h fun s a hv => ⟨fun u hu => ?_, fun x hx => by cases hx⟩
  cases hu
  obtain ⟨c, hc, hcv⟩ := hv n hn
  obtain ⟨s1, h1, h2⟩ := one_put s a [] (vars.getD n .null) c.buf (by simp) (by simp)
  refine ⟨s1, ?_, h2⟩
  show (s.stack[n]?).elim _ _ = _
  rw [hc, h1, ← hcv]; rfl

theorem push_var {n : Nat} {t : Ty} (h : HasTy (vars.getD n .null) t) (hn : n < vars.length) :
    SimP E vars (fun c => some (c.op (.pushvar n), t)) (fun w => .ok (vars.getD n .null, w)) False True := by
  refine SimP.direct h fun s hv => ?_
  obtain ⟨c, hc, hcv⟩ := hv n hn
  refine ⟨c, hcv, ?_⟩
  show (s.stack[n]?).elim _ _ = _
  rw [hc]; rfl

theorem push_const {v : Val} {o : Bool} : SimP E vars (fun c => some (c.op (.pushc v o), v.ty)) (fun w => .ok (v, w)) False True :=
  SimP.direct (.inr rfl) fun s _ => ⟨⟨v, o⟩, rfl, rfl⟩

/-! ## Functions -/

theorem sim_array {ema eva} {lk mem : Prop} (h : SimA E vars ema eva lk mem) :
    SimF E vars (fun c => (ema c []).bind fun p => some (p.1.oppin .json fun r => .array r p.2.length))
      (fun w => (eva w).bind fun p => Compile.keep p.2 ((orErr (E.P.array p.1)).map .json)) False mem := by
  refine (SimF.popped (lk' := False) h (fun _ => some .json) (fun r n => .array r n) (fun w a => (E.P.array a).map fun j => (.json j, w)) (fun _ _ => true) ?_ ?_).congr
    (fun c => rfl) (fun w => ?_)
  · intro r n s
    show (if _ then _ else _) = _
    by_cases hl : s.stack.length < n
    · rw [if_pos hl, if_pos hl]
    · rw [if_neg hl, if_neg hl]
      cases E.P.array ((s.top n).map Cell.val) <;> rfl
  · intro ts t vs w v w' ht _ _ _ hf
    cases ht
    simp only [Option.map_eq_some_iff] at hf
    obtain ⟨j, _, hj⟩ := hf
    cases hj; exact .inr rfl
  · congr 1; funext p
    cases E.P.array p.1 <;> rfl

theorem sim_object {ema eva} {lk mem : Prop} (h : SimA E vars ema eva lk mem) :
    SimF E vars (fun c => (ema c []).bind fun p => some (p.1.oppin .json fun r => .object r p.2.length))
      (fun w => (eva w).bind fun p => Compile.keep p.2 ((orErr (E.P.object p.1)).map .json)) False mem := by
  refine (SimF.popped (lk' := False) h (fun _ => some .json) (fun r n => .object r n) (fun w a => (E.P.object a).map fun j => (.json j, w)) (fun _ _ => true) ?_ ?_).congr
    (fun c => rfl) (fun w => ?_)
  · intro r n s
    show (if _ then _ else _) = _
    by_cases hl : s.stack.length < n
    · rw [if_pos hl, if_pos hl]
    · rw [if_neg hl, if_neg hl]
      cases E.P.object ((s.top n).map Cell.val) <;> rfl
  · intro ts t vs w v w' ht _ _ _ hf
    cases ht
    simp only [Option.map_eq_some_iff] at hf
    obtain ⟨j, _, hj⟩ := hf
    cases hj; exact .inr rfl
  · congr 1; funext p
    cases E.P.object p.1 <;> rfl

theorem sim_call {ema eva} {lk mem : Prop} (hT : Typed E S vars) (f : Nat) (h : SimA E vars ema eva lk mem) (hl : S.fnDerive f = true → ¬ lk) :
    SimF E vars (fun c => (ema c []).bind fun p =>
        (if S.fnDerive f then p.2.foldlM (fun t this => derive this t) (S.fnTy f) else some (S.fnTy f)).bind fun t =>
        some (p.1.oppin t fun r => .call r f p.2.length))
      (fun w => (eva w).bind fun p => orErr (E.fn f p.2 p.1)) False mem := by
  refine SimF.popped (lk' := False) h (fun ts => if S.fnDerive f then ts.foldlM (fun t this => derive this t) (S.fnTy f) else some (S.fnTy f))
    (fun r n => .call r f n) (fun w a => E.fn f w a) (fun w a => E.fnOwns f w a) (fun r n s => rfl) ?_
  intro ts t vs w v w' ht _ hlen hz hf
  cases hd : S.fnDerive f with
  | false =>
    rw [hd] at ht
    cases ht
    exact hT.fn f w vs v w' hd hf
  | true =>
    rw [hd] at ht
    exact hT.derive f w vs v w' t hd (zip_all hlen (hz (hl hd)) (derive_fold ht).2) hf

/-! ## The theorem -/

theorem SimF.iff' {em ev} {lk lk' mem mem' : Prop} (h : SimF E vars em ev lk mem) (hl : lk → lk') (hm : mem' → mem)
    {em' : CS → Option (CS × Nat)} {ev' : W → Except Stop (Val × W)} (h1 : ∀ c, em' c = em c) (h2 : ∀ w, ev' w = ev w) :
    SimF E vars em' ev' lk' mem' := (h.weaken hl hm).congr h1 h2

theorem SimF.between {eme eve emx evx emy evy} {lke meme lkx memx lky memy : Prop} (h : SimF E vars eme eve lke meme)
    (hx : SimF E vars emx evx lkx memx) (hy : SimF E vars emy evy lky memy) (n1 : ¬ lke) (n2 : ¬ lkx) (n3 : ¬ lky) (hp : IsPure eve) :
    SimF E vars (fun c => (eme c).bind fun p => (emx p.1).bind fun q => (castOperator (.cmp .gte) p.2 q.2 q.1).bind fun g =>
      (eme g.1).bind fun p' => (emy p'.1).bind fun q' => (castOperator (.cmp .lte) p'.2 q'.2 q'.1).bind fun l =>
        some (l.1.bi .bool (fun a => .and a g.2 l.2) g.2 l.2))
      (fun w => (eve w).bind fun o => (evx o.2).bind fun p => (binSem E.P (.cmp .gte) o.1 p.1).bind fun g =>
      (evy p.2).bind fun q => Compile.keep q.2 ((binSem E.P (.cmp .lte) o.1 q.1).bind fun l => andSem g l)) False ((meme ∧ memx) ∧ (meme ∧ memy)) := by
  refine (SimF.and (SimF.bin h hx n1 n2 (.cmp .gte)) (SimF.bin h hy n1 n3 (.cmp .lte))).congr (fun c => ?_) (fun w => ?_)
  · simp only [obind_assoc]
  · obtain ⟨g, hg⟩ := hp
    simp only [hg]
    cases g with
    | error x => rfl
    | ok o =>
      simp only [Except.map, Except.bind.eq_2, ebind_assoc]
      congr 1; funext p
      cases binSem E.P (.cmp .gte) o p.1 with
      | error x => rfl
      | ok gv =>
        simp only [Except.bind.eq_2, Compile.keep, Except.map]
        congr 1; funext q
        cases binSem E.P (.cmp .lte) o q.1 <;> rfl

theorem heap_of_types {t : Ty} (h : t ≠ .string ∧ t ≠ .json ∧ t ≠ .vector) : t.heap = false := by
  cases t <;> simp_all [Ty.heap]

mutual
theorem sim (hT : Typed E S vars) (e : Expr) (hok : e.Ok E.fn S.fnDerive) (hv : e.VarsOk vars.length) :
    SimF E vars (emit S e) (eval E.toSem vars e) e.isLike (e.PlainIn S) := by
  cases e with
  | const v => exact leaf_const.iff' False.elim (fun _ => trivial) (fun c => by rw [emit]) (fun w => by rw [eval])
  | value v o => exact leaf_value.iff' False.elim (fun _ => trivial) (fun c => by rw [emit]) (fun w => by rw [eval])
  | var n => exact (leaf_var (hT.var n) hv).iff' False.elim (fun _ => trivial) (fun c => by rw [emit]) (fun w => by rw [eval])
  | col t n =>
    cases hrc : S.cursor t with
    | none => intro c c' r hem; rw [emit, hrc] at hem; cases hem
    | some rc =>
      have hl := hT.cursor t rc n hrc
      exact (leaf_col (fun v hv' => hT.col t n v (by rw [← hl]; exact hv'))).iff' False.elim (fun _ => trivial)
        (fun c => by rw [emit, hrc]; rfl) (fun w => by rw [eval, hl])
  | array a => exact (sim_array (sim_args hT a hok hv)).iff' False.elim (fun h => h) (fun c => by rw [emit]) (fun w => by rw [eval])
  | object a => exact (sim_object (sim_args hT a hok hv)).iff' False.elim (fun h => h) (fun c => by rw [emit]) (fun w => by rw [eval])
  | bin o l r =>
    obtain ⟨h1, h2, h3, h4⟩ := hok
    refine (SimF.bin (sim hT l h1 hv.1) (sim hT r h2 hv.2) h3 h4 o).iff' (fun h => ?_) (fun h => h) (fun c => by rw [emit]) (fun w => by rw [eval])
    subst h; exact trivial
  | nequ l r =>
    obtain ⟨h1, h2, h3, h4⟩ := hok
    exact (SimF.bin (sim hT l h1 hv.1) (sim hT r h2 hv.2) h3 h4 (.cmp .equ)).not.iff' False.elim (fun h => h)
      (fun c => by rw [emit]; simp only [obind_assoc]) (fun w => by rw [eval]; simp only [ebind_assoc, keep_bind])
  | like neg l r =>
    obtain ⟨h1, h2, h3, h4⟩ := hok
    have h := SimF.bin (sim hT l h1 hv.1) (sim hT r h2 hv.2) h3 h4 .like
    cases neg with
    | false =>
      refine h.iff' (fun _ => trivial) (fun h => h) (fun c => ?_) (fun w => ?_)
      · rw [emit]
        congr 1; funext p; congr 1; funext q
        cases castOperator .like p.2 q.2 q.1 <;> rfl
      · rw [eval]; simp only [notIf_false, bind_ok]
    | true =>
      refine h.not.iff' False.elim (fun h => h) (fun c => ?_) (fun w => ?_)
      · rw [emit]; simp only [obind_assoc, if_true]
      · rw [eval]; simp only [notIf_true, ebind_assoc, keep_bind]
  | and l r => exact (SimF.and (sim hT l hok.1 hv.1) (sim hT r hok.2 hv.2)).iff' False.elim (fun h => h) (fun c => by rw [emit]) (fun w => by rw [eval])
  | or l r => exact (SimF.or (sim hT l hok.1 hv.1) (sim hT r hok.2 hv.2)).iff' False.elim (fun h => h) (fun c => by rw [emit]) (fun w => by rw [eval])
  | not e => exact (SimF.not (sim hT e hok hv)).iff' False.elim (fun h => h) (fun c => by rw [emit]) (fun w => by rw [eval])
  | neg e => exact (SimF.neg (sim hT e hok.1 hv) hok.2).iff' False.elim (fun h => h) (fun c => by rw [emit]) (fun w => by rw [eval])
  | inv e => exact (SimF.inv (sim hT e hok.1 hv) hok.2).iff' False.elim (fun h => h) (fun c => by rw [emit]) (fun w => by rw [eval])
  | call f a =>
    exact (sim_call hT f (sim_args hT a hok.1 hv) (fun h hn => hn (hok.2 h))).iff' False.elim (fun h => h) (fun c => by rw [emit]) (fun w => by rw [eval])
  | case ws e =>
    obtain ⟨h1, h2, h3⟩ := hok
    exact (SimF.case (fun rres => sim_whens hT rres ws h1 hv.1) (sim hT e h2 hv.2) h3).iff' False.elim (fun h => h) (fun c => by rw [emit]) (fun w => by rw [eval])
  | caseOf o ws e =>
    obtain ⟨h1, h2, h3, h4, h5, h6⟩ := hok
    have h := SimF.case (fun rres => sim_whens_of hT rres (sim hT o h1 hv.1) h2 ws h4 hv.2.1) (sim hT e h5 hv.2.2) h6
    refine h.iff' False.elim (fun h => ⟨⟨h.1, h.2.1⟩, h.2.2⟩) (fun c => by rw [emit]) (fun w => ?_)
    cases ws with
    | nil => rw [eval]; simp only [evalW]; rfl
    | cons c t rest =>
      obtain ⟨g, hg⟩ := pure_expr (vars := vars) o h3
      rw [eval]
      cases g with
      | error x => rw [evalW_err (x := x) hg, hg]; rfl
      | ok v => rw [evalW_ok (o := v) hg, hg]; rfl
  | between neg e x y =>
    obtain ⟨h1, h2, h3, h4, h5, h6, h7⟩ := hok
    have h := SimF.between (sim hT e h1 hv.1) (sim hT x h2 hv.2.1) (sim hT y h3 hv.2.2) h4 h5 h6 (pure_expr e h7)
    cases neg with
    | false =>
      refine h.iff' False.elim (fun h => ⟨⟨h.1, h.2.1⟩, h.1, h.2.2⟩) (fun c => ?_) (fun w => ?_)
      · rw [emit]; rfl
      · rw [eval]; simp only [notIf_false, bind_ok]
    | true =>
      refine h.not.iff' False.elim (fun h => ⟨⟨h.1, h.2.1⟩, h.1, h.2.2⟩) (fun c => ?_) (fun w => ?_)
      · rw [emit]; simp only [obind_assoc, if_true, Option.bind_some]
      · rw [eval]; simp only [notIf_true, ebind_assoc, keep_bind]
  | isNull neg e =>
    have h := SimF.isNull (sim hT e hok hv)
    cases neg with
    | false => exact h.iff' False.elim (fun h => h) (fun c => by rw [emit]; rfl) (fun w => by rw [eval]; rfl)
    | true =>
      refine h.not.iff' False.elim (fun h => h) (fun c => ?_) (fun w => ?_)
      · rw [emit]; simp only [obind_assoc, if_true, Option.bind_some]
      · rw [eval]; simp only [notIf_true, ebind_assoc, keep_bind]; rfl
  | inlist neg e a =>
    obtain ⟨h1, h2⟩ := hok
    have he := sim hT e h1 hv.1
    have hb : SimB E vars (emit S e) (eval E.toSem vars e) (e.PlainIn S ∧ InPlain S e) := by
      by_cases hc : (∃ v, e = .const v) ∨ ∃ t n, e = .col t n
      · rcases hc with ⟨v, rfl⟩ | ⟨t, n, rfl⟩
        · have := SimB.leaf (E := E) (vars := vars) (t := v.ty) (i := fun r => .const r v) (v := v) (fun s a => rfl)
          intro c c' r hem
          rw [emit] at hem
          obtain ⟨frag, ty, hs, hr⟩ := this c c' r hem
          refine ⟨frag, ty, hs, fun code s hf hp hv => ?_⟩
          rw [eval]
          obtain ⟨r1, r2⟩ := hr code s hf hp hv
          refine ⟨fun v w' hev => ?_, r2⟩
          obtain ⟨s', a1, po, a3⟩ := r1 v w' hev
          exact ⟨s', a1, ⟨po.pc, po.val, po.world, po.stack, po.keep, fun _ => po.mem trivial⟩, fun _ => a3 trivial⟩
        · intro c c' r hem
          rw [emit, Option.bind_eq_some_iff] at hem
          obtain ⟨rc, hrc, hem⟩ := hem
          obtain ⟨frag, ty, hs, hr⟩ := leaf_colB (E := E) (vars := vars) (rc := rc) (n := n) (t := S.colTy t n) c c' r hem
          refine ⟨frag, ty, hs, fun code s hf hp hv => ?_⟩
          rw [eval, ← hT.cursor t rc n hrc]
          obtain ⟨r1, r2⟩ := hr code s hf hp hv
          refine ⟨fun v w' hev => ?_, r2⟩
          obtain ⟨s', a1, po, a3⟩ := r1 v w' hev
          exact ⟨s', a1, ⟨po.pc, po.val, po.world, po.stack, po.keep, fun _ => po.mem trivial⟩, fun _ => a3 trivial⟩
      · refine he.toB (fun h => h.1) (fun h => ?_)
        rcases h.2 with h' | h' | h'
        · exact absurd (.inl h') hc
        · exact absurd (.inr h') hc
        · exact ⟨h'.1, fun c c' r hem => heap_of_types (h'.2 c c' r hem)⟩
    have h := SimF.inlist hb (sim_args hT a h2 hv.2)
    cases neg with
    | false => exact h.iff' False.elim (fun h => ⟨⟨h.1, h.2.1⟩, h.2.2⟩) (fun c => by rw [emit]; rfl) (fun w => by rw [eval]; rfl)
    | true =>
      refine h.not.iff' False.elim (fun h => ⟨⟨h.1, h.2.1⟩, h.2.2⟩) (fun c => ?_) (fun w => ?_)
      · rw [emit]; simp only [obind_assoc, if_true, Option.bind_some]
      · rw [eval]; simp only [notIf_true, ebind_assoc, keep_bind]; rfl
  | quant all k a b => exact (SimF.quant (sim hT a hok.1 hv.1) (sim hT b hok.2 hv.2) all k).iff' False.elim (fun h => h) (fun c => by rw [emit]) (fun w => by rw [eval])
theorem sim_args (hT : Typed E S vars) (a : Args) (hok : a.Ok E.fn S.fnDerive) (hv : a.VarsOk vars.length) :
    SimA E vars (emitArgs S a) (evalArgs E.toSem vars a) (¬ a.NoLike) (a.PlainIn S) := by
  cases a with
  | nil => exact (SimA.nil.weaken False.elim (fun _ => trivial)).congr (fun c ts => by rw [emitArgs]) (fun w => by rw [evalArgs])
  | cons e r =>
    have he := sim hT e hok.1 hv.1
    have hp : SimP E vars (fun c => emitPush S e (emit S e) c) (eval E.toSem vars e) e.isLike (e.PlainIn S) := by
      have hd := SimP.reg he
      cases e with
      | const v => exact push_const.congr (fun c => rfl) (fun w => by rw [eval])
      | value v o => exact push_const.congr (fun c => rfl) (fun w => by rw [eval])
      | var n => exact (push_var (hT.var n) hv.1).congr (fun c => rfl) (fun w => by rw [eval])
      | col t n => exact hd.congr (fun c => rfl) (fun w => rfl)
      | array n => exact hd.congr (fun c => rfl) (fun w => rfl)
      | object n => exact hd.congr (fun c => rfl) (fun w => rfl)
      | bin o l r => exact hd.congr (fun c => rfl) (fun w => rfl)
      | nequ l r => exact hd.congr (fun c => rfl) (fun w => rfl)
      | like n l r => exact hd.congr (fun c => rfl) (fun w => rfl)
      | and l r => exact hd.congr (fun c => rfl) (fun w => rfl)
      | or l r => exact hd.congr (fun c => rfl) (fun w => rfl)
      | not e => exact hd.congr (fun c => rfl) (fun w => rfl)
      | neg e => exact hd.congr (fun c => rfl) (fun w => rfl)
      | inv e => exact hd.congr (fun c => rfl) (fun w => rfl)
      | call f a => exact hd.congr (fun c => rfl) (fun w => rfl)
      | case ws e => exact hd.congr (fun c => rfl) (fun w => rfl)
      | caseOf o ws e => exact hd.congr (fun c => rfl) (fun w => rfl)
      | between n e x y => exact hd.congr (fun c => rfl) (fun w => rfl)
      | isNull n e => exact hd.congr (fun c => rfl) (fun w => rfl)
      | inlist n e a => exact hd.congr (fun c => rfl) (fun w => rfl)
      | quant all k a b => exact hd.congr (fun c => rfl) (fun w => rfl)
    refine ((SimA.cons hp (sim_args hT r hok.2 hv.2)).weaken (fun h hn => ?_) (fun h => h)).congr (fun c ts => by rw [emitArgs]) (fun w => by rw [evalArgs])
    rcases h with h | h
    · exact hn.1 h
    · exact h hn.2
theorem sim_whens (hT : Typed E S vars) (rres : Nat) (ws : Whens) (hok : ws.Ok E.fn S.fnDerive False) (hv : ws.VarsOk vars.length) :
    SimW E vars rres (emitWhens S rres none ws) (evalWhens E.toSem vars none ws) (ws.PlainIn S) := by
  cases ws with
  | nil => exact ((SimW.nil rres).weaken (fun _ => trivial)).congr (fun c js => by rw [emitWhens]) (fun w => by rw [evalWhens])
  | cons c t rest =>
    obtain ⟨h1, h2, _, h4, h5⟩ := hok
    exact (SimW.cons (sim hT c h1 hv.1) (sim hT t h2 hv.2.1) h4 (sim_whens hT rres rest h5 hv.2.2)).congr
      (fun c js => by rw [emitWhens]; rfl) (fun w => by rw [evalWhens]; rfl)
theorem sim_whens_of (hT : Typed E S vars) (rres : Nat) {emo evo} {lko memo : Prop} (ho : SimF E vars emo evo lko memo) (hn : ¬ lko)
    (ws : Whens) (hok : ws.Ok E.fn S.fnDerive True) (hv : ws.VarsOk vars.length) :
    SimW E vars rres (emitWhens S rres (some emo) ws) (evalW E vars evo ws) (memo ∧ ws.PlainIn S) := by
  cases ws with
  | nil => exact ((SimW.nil rres).weaken (fun _ => trivial)).congr (fun c js => by rw [emitWhens]) (fun w => by rw [evalW])
  | cons c t rest =>
    obtain ⟨h1, h2, h3, h4, h5⟩ := hok
    exact ((SimW.cons (SimF.bin ho (sim hT c h1 hv.1) hn (h3 trivial) (.cmp .equ)) (sim hT t h2 hv.2.1) h4
      (sim_whens_of hT rres ho hn rest h5 hv.2.2)).weaken (fun h => ⟨⟨h.1, h.2.1⟩, h.2.2.1, h.1, h.2.2.2⟩)).congr
      (fun c js => by rw [emitWhens]; rfl) (fun w => by rw [evalW])
end

end Verif.Compile
