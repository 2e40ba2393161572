import Verif.Compile.Comb
/-!
# Arguments, and the instructions that take their operands from the stack
-/
set_option linter.unusedSimpArgs false
set_option linter.unusedVariables false
namespace Verif.Compile
open Verif.Query (CmpOp)

variable {W : Type} {E : Env W} {vars : List Val}

/-- the machine after code that pushes `vs` -/
structure PostS (m : List (Option Ty)) (pc' : Nat) (s s' : VM W) (vs : List Val) (w' : W) (mem : Prop) : Prop where
  pc : s'.pc = pc'
  world : s'.world = w'
  stack : ∃ cells, s'.stack = s.stack ++ cells ∧ cells.map Cell.val = vs
  keep : ∀ i, atR m i ≠ none → s'.reg i = s.reg i
  mem : mem → Clean m s → Clean m s' ∧ s'.leak = s.leak

/-- the code emitted by `em` computes `ev` and pushes it -/
def SimP (E : Env W) (vars : List Val) (em : CS → Option (CS × Ty)) (ev : W → Except Stop (Val × W)) (lk mem : Prop) : Prop :=
  ∀ c c' t, em c = some (c', t) → ∃ frag, c'.code = c.code ++ frag ∧ (∀ i, atR c'.map i = atR c.map i) ∧
    ∀ code s, Frag code c.code.length frag → s.pc = c.code.length → HasVars vars s.stack →
      (∀ v w', ev s.world = .ok (v, w') → (¬ lk → HasTy v t) ∧
        ∃ s', Exec E code s s' ∧ PostS c.map c'.code.length s s' [v] w' mem) ∧
      (∀ x, ev s.world = .error x → Fails E code s x)

/-- the same for a list of arguments -/
def SimA (E : Env W) (vars : List Val) (em : CS → List Ty → Option (CS × List Ty)) (ev : W → Except Stop (List Val × W)) (lk mem : Prop) : Prop :=
  ∀ c ts c' ts', em c ts = some (c', ts') → ∃ frag tnew, ts' = ts ++ tnew ∧ c'.code = c.code ++ frag ∧
    (∀ i, atR c'.map i = atR c.map i) ∧
    ∀ code s, Frag code c.code.length frag → s.pc = c.code.length → HasVars vars s.stack →
      (∀ vs w', ev s.world = .ok (vs, w') → vs.length = tnew.length ∧ (¬ lk → ∀ p ∈ vs.zip tnew, HasTy p.1 p.2) ∧
        ∃ s', Exec E code s s' ∧ PostS c.map c'.code.length s s' vs w' mem) ∧
      (∀ x, ev s.world = .error x → Fails E code s x)

theorem clean_congr {m m' : List (Option Ty)} (h : ∀ i, atR m' i = atR m i) {s : VM W} (hc : Clean m s) : Clean m' s :=
  ⟨hc.1, fun i hi => hc.2 i (by rw [← h]; exact hi)⟩

theorem one_pushc (s : VM W) (v : Val) (own : Bool) : stepI E (.pushc v own) s = .ok (s.pushCell ⟨v, own⟩).next := rfl

/-- a value pushed directly -/
theorem SimP.direct {t : Ty} {i : Instr} {v : Val} (ht : HasTy v t)
    (h : ∀ s : VM W, HasVars vars s.stack → ∃ c, c.val = v ∧ stepI E i s = .ok (s.pushCell c).next) :
    SimP E vars (fun c => some (c.op i, t)) (fun w => .ok (v, w)) False True := by
  intro c c' t' he
  simp only [Option.some.injEq, Prod.mk.injEq] at he
  obtain ⟨he, he'⟩ := he
  subst he; subst he'
  refine ⟨[i], rfl, fun _ => rfl, fun code s hf hp hv => ⟨fun v' w' hev => ?_, fun x hx => by cases hx⟩⟩
  cases hev
  obtain ⟨cell, h1, h2⟩ := h s hv
  refine ⟨fun _ => ht, _, .one (by rw [hp]; exact hf.one) h2, ⟨?_, rfl, ⟨[cell], rfl, by simp [h1]⟩, fun _ _ => rfl, fun _ hc => ⟨hc, rfl⟩⟩⟩
  show s.pc + 1 = _
  rw [hp]; simp [CS.op]

/-- a value computed into a register and pushed from there -/
theorem SimP.reg {em ev} {lk mem : Prop} (h : SimF E vars em ev lk mem) :
    SimP E vars (fun c => (em c).bind fun p => some ((p.1.op (.push p.2)).unpin p.2, p.1.rtype p.2)) ev lk mem := by
  intro c c' t he
  simp only [Option.bind_eq_some_iff, Option.some.injEq, Prod.mk.injEq] at he
  obtain ⟨⟨c1, r⟩, he1, he2, he3⟩ := he
  obtain ⟨frag, ty, hs, hr⟩ := h c c1 r he1
  have hb : atR c1.map r = some ty := by rw [hs.map, if_pos rfl]
  rw [rtype_of hb] at he3
  subst he3
  have hcode : c'.code = c.code ++ (frag ++ [.push r]) := by
    rw [← he2]; show c1.code ++ [.push r] = _; rw [hs.code, List.append_assoc]
  have hmap : ∀ i, atR c'.map i = atR c.map i := by
    intro i; rw [← he2]; show atR (c1.map.set r none) i = _
    rw [unpin_at, hs.map]
    by_cases e : i = r
    · rw [if_pos e, e, hs.fresh]
    · rw [if_neg e, if_neg e]
  refine ⟨_, hcode, hmap, fun code s hf hp hv => ?_⟩
  obtain ⟨hf1, hf2⟩ := hf.app
  obtain ⟨r1, r2⟩ := hr code s hf1 hp hv
  have hlen : c1.code.length = c.code.length + frag.length := by rw [hs.code]; simp
  refine ⟨fun v w' hev => ?_, r2⟩
  obtain ⟨ht, s1, hx, po⟩ := r1 v w' hev
  refine ⟨ht, _, hx.trans (.one (i := .push r) (b := ((s1.pushCell (s1.reg r)).reset r).next) (by rw [po.pc, hlen]; exact hf2.one) rfl), ?_⟩
  refine ⟨?_, po.world, ⟨[s1.reg r], ?_, by simp [po.val]⟩, fun i hi => ?_, fun hm hc => ?_⟩
  · show s1.pc + 1 = _
    rw [po.pc, hcode, hlen]; simp [Nat.add_assoc]
  · show s1.stack ++ _ = _
    rw [po.stack]
  · have : i ≠ r := by rintro rfl; exact hi hs.fresh
    show (if i = r then _ else s1.reg i) = _
    rw [if_neg this]; exact po.keep i hi
  · obtain ⟨hc1, hl⟩ := po.mem hm hc
    refine ⟨⟨fun i hi => ?_, fun i hi => ?_⟩, hl⟩
    · change (if i = r then (⟨.null, false⟩ : Cell) else s1.reg i).buf = true at hi
      show (if i = r then (⟨.null, false⟩ : Cell) else s1.reg i).val.heap = true
      by_cases e : i = r
      · rw [if_pos e] at hi; cases hi
      · rw [if_neg e] at hi ⊢; exact hc1.1 i hi
    · show (if i = r then (⟨.null, false⟩ : Cell) else s1.reg i).buf = false
      by_cases e : i = r
      · rw [if_pos e]
      · rw [if_neg e]; exact hc1.2 i (by rw [hs.map, if_neg e]; exact hi)

theorem SimA.nil : SimA E vars (fun c ts => some (c, ts)) (fun w => .ok ([], w)) False True := by
  intro c ts c' ts' he
  cases he
  refine ⟨[], [], by simp, by simp, fun _ => rfl, fun code s hf hp hv => ⟨fun vs w' hev => ?_, fun x hx => by cases hx⟩⟩
  cases hev
  exact ⟨rfl, fun _ p hp => by simp at hp, s, .refl _, ⟨hp, rfl, ⟨[], by simp, rfl⟩, fun _ _ => rfl, fun _ hc => ⟨hc, rfl⟩⟩⟩

theorem SimA.cons {emp evp emr evr} {lk mem lkr memr : Prop} (h : SimP E vars emp evp lk mem) (h' : SimA E vars emr evr lkr memr) :
    SimA E vars (fun c ts => (emp c).bind fun p => emr p.1 (ts ++ [p.2]))
      (fun w => (evp w).bind fun p => (evr p.2).bind fun q => .ok (p.1 :: q.1, q.2)) (lk ∨ lkr) (mem ∧ memr) := by
  intro c ts c' ts' he
  simp only [Option.bind_eq_some_iff] at he
  obtain ⟨⟨c1, t⟩, he1, he2⟩ := he
  obtain ⟨frag, hcode, hmap, hr⟩ := h c c1 t he1
  obtain ⟨frag', tnew, htn, hcode', hmap', hr'⟩ := h' c1 _ c' ts' he2
  refine ⟨frag ++ frag', t :: tnew, by rw [htn]; simp, by rw [hcode', hcode, List.append_assoc], fun i => by rw [hmap', hmap],
    fun code s hf hp hv => ?_⟩
  obtain ⟨hf1, hf2⟩ := hf.app
  obtain ⟨r1, r2⟩ := hr code s hf1 hp hv
  have hlen : c1.code.length = c.code.length + frag.length := by rw [hcode]; simp
  rw [← hlen] at hf2
  refine ⟨fun vs w' hev => ?_, fun x hx => ?_⟩
  · cases hv1 : evp s.world with
    | error e => dsimp only at hev; rw [hv1] at hev; cases hev
    | ok p =>
      dsimp only at hev; rw [hv1] at hev
      simp only [Except.bind] at hev
      obtain ⟨ht, s1, hx1, po⟩ := r1 p.1 p.2 hv1
      obtain ⟨cells, hst, hcv⟩ := po.stack
      obtain ⟨q1, q2⟩ := hr' code s1 hf2 po.pc (by rw [hst]; exact hv.app _)
      rw [po.world] at q1
      cases hv2 : evr p.2 with
      | error e => rw [hv2] at hev; cases hev
      | ok q =>
        rw [hv2] at hev
        cases hev
        obtain ⟨hl2, ht2, s2, hx2, po2⟩ := q1 q.1 q.2 hv2
        obtain ⟨cells2, hst2, hcv2⟩ := po2.stack
        refine ⟨by simp [hl2], fun hn => ?_, s2, hx1.trans hx2, ⟨po2.pc, po2.world, ⟨cells ++ cells2, ?_, ?_⟩, fun i hi => ?_, fun hm hc => ?_⟩⟩
        · rw [not_or] at hn
          intro p' hp'
          simp only [List.zip_cons_cons, List.mem_cons] at hp'
          rcases hp' with rfl | hp'
          · exact ht hn.1
          · exact ht2 hn.2 p' hp'
        · rw [hst2, hst, List.append_assoc]
        · rw [List.map_append, hcv, hcv2]; rfl
        · rw [po2.keep i (by rw [hmap]; exact hi), po.keep i hi]
        · obtain ⟨m1, m2⟩ := po.mem hm.1 hc
          obtain ⟨m3, m4⟩ := po2.mem hm.2 (clean_congr hmap m1)
          exact ⟨clean_congr (fun i => (hmap i).symm) m3, by rw [m4, m2]⟩
  · cases hv1 : evp s.world with
    | error e =>
      dsimp only at hx; rw [hv1] at hx
      have : e = x := by simpa [Except.bind] using hx
      subst this
      exact r2 e hv1
    | ok p =>
      dsimp only at hx; rw [hv1] at hx
      simp only [Except.bind] at hx
      obtain ⟨ht, s1, hx1, po⟩ := r1 p.1 p.2 hv1
      obtain ⟨cells, hst, hcv⟩ := po.stack
      obtain ⟨q1, q2⟩ := hr' code s1 hf2 po.pc (by rw [hst]; exact hv.app _)
      rw [po.world] at q2
      cases hv2 : evr p.2 with
      | error e =>
        rw [hv2] at hx
        have : e = x := by simpa [Except.bind] using hx
        subst this
        exact hx1.fails (q2 e hv2)
      | ok q => rw [hv2] at hx; cases hx

theorem top_app (s : VM W) (st cells : List Cell) (n : Nat) (h : s.stack = st ++ cells) (hn : cells.length = n) : s.top n = cells := by
  subst hn
  unfold VM.top
  rw [h]; simp
theorem take_app (s : VM W) (st cells : List Cell) (n : Nat) (h : s.stack = st ++ cells) (hn : cells.length = n) :
    s.stack.take (s.stack.length - n) = st := by
  subst hn
  rw [h]; simp

/-- an instruction that takes its arguments from the stack -/
theorem SimF.popped {ema eva} {lk mem lk' : Prop} (h : SimA E vars ema eva lk mem) (T : List Ty → Option Ty) (I : Nat → Nat → Instr)
    (f : W → List Val → Option (Val × W)) (own : W → List Val → Bool)
    (hstep : ∀ r n s, stepI E (I r n) s = if s.stack.length < n then .error .ub else
      (orErr (f s.world ((s.top n).map Cell.val))).bind fun v =>
        .ok (({ s.put r v.1 (own s.world ((s.top n).map Cell.val)) with world := v.2 }).popn n).next)
    (hty : ∀ ts t vs w v w', T ts = some t → ¬ lk' → vs.length = ts.length → (¬ lk → ∀ p ∈ vs.zip ts, HasTy p.1 p.2) → f w vs = some (v, w') → HasTy v t) :
    SimF E vars (fun c => (ema c []).bind fun p => (T p.2).bind fun t => some (p.1.oppin t fun r => I r p.2.length))
      (fun w => (eva w).bind fun p => orErr (f p.2 p.1)) lk' mem := by
  intro c c' r he
  simp only [Option.bind_eq_some_iff, Option.some.injEq] at he
  obtain ⟨⟨c1, ts⟩, he1, t, hT, he2⟩ := he
  dsimp only at hT he2
  obtain ⟨frag, tnew, htn, hcode1, hmap1, hr⟩ := h c [] c1 ts he1
  rw [List.nil_append] at htn
  subst htn
  have hcode : c'.code = c1.code ++ [I (pinAt c1.map t).2 ts.length] := by rw [← oppin_code c1 t (fun r => I r ts.length), he2]
  have hmap : c'.map = (pinAt c1.map t).1 := by rw [← oppin_map c1 t (fun r => I r ts.length), he2]
  have hreg : r = (pinAt c1.map t).2 := by rw [← oppin_reg c1 t (fun r => I r ts.length), he2]
  have hfr : atR c.map r = none := by rw [hreg, ← hmap1]; exact pin_fresh _ _
  rw [← hreg] at hcode
  refine ⟨frag ++ [I r ts.length], t, ⟨by rw [hcode, hcode1, List.append_assoc], hfr, fun i => ?_⟩, fun code s hf hp hv => ?_⟩
  · rw [hmap, pin_at, ← hreg, hmap1]
  · obtain ⟨hf1, hf2⟩ := hf.app
    obtain ⟨r1, r2⟩ := hr code s hf1 hp hv
    have hlen : c1.code.length = c.code.length + frag.length := by rw [hcode1]; simp
    rw [← hlen] at hf2
    refine ⟨fun v w' hev => ?_, fun x hx => ?_⟩
    · cases hv1 : eva s.world with
      | error e => dsimp only at hev; rw [hv1] at hev; cases hev
      | ok p =>
        dsimp only at hev; rw [hv1] at hev
        simp only [Except.bind] at hev
        have hfv : f p.2 p.1 = some (v, w') := by
          cases hq : f p.2 p.1 with
          | none => rw [hq] at hev; cases hev
          | some q => rw [hq] at hev; cases hev; rfl
        obtain ⟨hl, ht, s1, hx1, po⟩ := r1 p.1 p.2 hv1
        obtain ⟨cells, hst, hcv⟩ := po.stack
        have hcl : cells.length = ts.length := by rw [← hl, ← hcv]; simp
        have hstep' := hstep r ts.length s1
        rw [if_neg (by rw [hst]; simp [hcl]), top_app s1 _ _ _ hst hcl, hcv, po.world, hfv] at hstep'
        refine ⟨fun hn => hty ts t p.1 _ v w' hT hn hl ht hfv, _, hx1.trans (.one (by rw [po.pc]; exact hf2.one) hstep'), ?_⟩
        refine ⟨?_, put_val _ _ _ _, rfl, take_app s1 _ _ _ hst hcl, fun i hi => ?_, fun hm hc => ?_⟩
        · show s1.pc + 1 = _
          rw [po.pc, hcode]; simp
        · have : i ≠ r := by rintro rfl; exact hi hfr
          show (s1.put r _ _).reg i = _
          rw [put_ne _ _ _ _ this]; exact po.keep i hi
        · obtain ⟨m1, m2⟩ := po.mem hm hc
          have hb : (s1.reg r).buf = false := m1.2 r hfr
          refine ⟨⟨put_wf m1.1 r v (own p.2 p.1) hb, fun i hi => ?_⟩, ?_⟩
          · rw [hmap, pin_at, ← hreg] at hi
            by_cases e : i = r
            · rw [if_pos e] at hi; cases hi
            · rw [if_neg e, hmap1] at hi
              show ((s1.put r v (own p.2 p.1)).reg i).buf = false
              rw [put_ne _ _ _ _ e]; exact m1.2 i hi
          · show (s1.put r v (own p.2 p.1)).leak = _
            rw [put_leak _ _ _ _ hb, m2]
    · cases hv1 : eva s.world with
      | error e =>
        dsimp only at hx; rw [hv1] at hx
        have : e = x := by simpa [Except.bind] using hx
        subst this
        exact r2 e hv1
      | ok p =>
        dsimp only at hx; rw [hv1] at hx
        simp only [Except.bind] at hx
        have hfv : f p.2 p.1 = none ∧ x = .err := by
          cases hq : f p.2 p.1 with
          | none => rw [hq] at hx; cases hx; exact ⟨rfl, rfl⟩
          | some q => rw [hq] at hx; cases hx
        obtain ⟨hl, ht, s1, hx1, po⟩ := r1 p.1 p.2 hv1
        obtain ⟨cells, hst, hcv⟩ := po.stack
        have hcl : cells.length = ts.length := by rw [← hl, ← hcv]; simp
        have hstep' := hstep r ts.length s1
        rw [if_neg (by rw [hst]; simp [hcl]), top_app s1 _ _ _ hst hcl, hcv, po.world, hfv.1] at hstep'
        rw [hfv.2]
        exact hx1.fails (fails_now (by rw [po.pc]; exact hf2.one) hstep')

theorem derive_spec {this t u : Ty} (h : derive this t = some u) : (t = .null ∨ t = u) ∧ (this = .null ∨ this = u) := by
  unfold derive at h
  by_cases h1 : this = .null
  · rw [if_pos h1] at h; cases h; exact ⟨.inr rfl, .inl h1⟩
  · rw [if_neg h1] at h
    by_cases h2 : t = .null
    · rw [if_pos h2] at h; cases h; exact ⟨.inl h2, .inr rfl⟩
    · rw [if_neg h2] at h
      by_cases h3 : t = this
      · rw [if_pos h3] at h; cases h; exact ⟨.inr rfl, .inr h3.symm⟩
      · rw [if_neg h3] at h; cases h

theorem derive_fold {ts : List Ty} {t0 T : Ty} (h : ts.foldlM (fun t this => derive this t) t0 = some T) :
    (t0 = .null ∨ t0 = T) ∧ ∀ x ∈ ts, x = .null ∨ x = T := by
  induction ts generalizing t0 with
  | nil => simp [List.foldlM] at h; exact ⟨.inr h, fun x hx => by simp at hx⟩
  | cons a ts ih =>
    rw [List.foldlM_cons] at h
    cases hd : derive a t0 with
    | none => rw [hd] at h; cases h
    | some u =>
      rw [hd] at h
      obtain ⟨i1, i2⟩ := ih h
      obtain ⟨d1, d2⟩ := derive_spec hd
      have key : ∀ z, z = Ty.null ∨ z = u → z = .null ∨ z = T := by
        intro z hz
        rcases hz with hz | hz
        · exact .inl hz
        · rcases i1 with e | e
          · exact .inl (by rw [hz, e])
          · exact .inr (by rw [hz, e])
      refine ⟨key _ d1, fun x hx => ?_⟩
      rcases List.mem_cons.mp hx with rfl | hx
      · exact key _ d2
      · exact i2 x hx

theorem HasTy.up {v : Val} {t T : Ty} (h : HasTy v t) (ht : t = .null ∨ t = T) : HasTy v T := by
  rcases ht with e | e
  · subst e; exact .inl h.null_of
  · subst e; exact h

theorem zip_all {vs : List Val} {ts : List Ty} (hl : vs.length = ts.length) {T : Ty} (h : ∀ p ∈ vs.zip ts, HasTy p.1 p.2)
    (ht : ∀ x ∈ ts, x = .null ∨ x = T) : ∀ v ∈ vs, HasTy v T := by
  induction vs generalizing ts with
  | nil => intro v hv; simp at hv
  | cons a vs ih =>
    cases ts with
    | nil => simp at hl
    | cons t ts =>
      intro v hv
      rcases List.mem_cons.mp hv with rfl | hv
      · exact (h (v, t) (by simp)).up (ht t (by simp))
      · exact ih (by simpa using hl) (fun p hp => h p (by simp [hp])) (fun x hx => ht x (by simp [hx])) v hv

/-! ## IN -/

/-- as `SimF`, and the result owns no buffer -/
def SimB (E : Env W) (vars : List Val) (em : CS → Option (CS × Nat)) (ev : W → Except Stop (Val × W)) (mem : Prop) : Prop :=
  ∀ c c' r, em c = some (c', r) → ∃ frag ty, Shape c c' r ty frag ∧
    ∀ code s, Frag code c.code.length frag → s.pc = c.code.length → HasVars vars s.stack →
      (∀ v w', ev s.world = .ok (v, w') →
        ∃ s', Exec E code s s' ∧ Post c.map c'.map c'.code.length s s' r v w' mem ∧ (mem → Clean c.map s → (s'.reg r).buf = false)) ∧
      (∀ x, ev s.world = .error x → Fails E code s x)

theorem SimF.toB {em ev} {lk mem mem' : Prop} (h : SimF E vars em ev lk mem) (hm : mem' → mem)
    (ht : mem' → ¬ lk ∧ ∀ c c' r, em c = some (c', r) → (c'.rtype r).heap = false) : SimB E vars em ev mem' := by
  intro c c' r he
  obtain ⟨frag, ty, hs, hr⟩ := h c c' r he
  refine ⟨frag, ty, hs, fun code s hf hp hv => ?_⟩
  obtain ⟨h1, h2⟩ := hr code s hf hp hv
  refine ⟨fun v w' hev => ?_, h2⟩
  obtain ⟨hty, s', hx, po⟩ := h1 v w' hev
  refine ⟨s', hx, ⟨po.pc, po.val, po.world, po.stack, po.keep, fun h => po.mem (hm h)⟩, fun hm' hc => ?_⟩
  obtain ⟨m1, _⟩ := po.mem (hm hm') hc
  obtain ⟨n1, n2⟩ := ht hm'
  have hb : atR c'.map r = some ty := by rw [hs.map, if_pos rfl]
  have := n2 c c' r he
  rw [rtype_of hb] at this
  have hh := (hty n1).nonheap this
  cases h : (s'.reg r).buf with
  | false => rfl
  | true => have := m1.1 r h; rw [po.val, hh] at this; cases this

/-- a value without a buffer put by one instruction -/
theorem SimB.leaf {t : Ty} {i : Nat → Instr} {v : Val} (h : ∀ s a, stepI E (i a) s = .ok ((s.put a v false).next)) :
    SimB E vars (fun c => some (c.oppin t i)) (fun w => .ok (v, w)) True := by
  intro c c' r he
  have he : c.oppin t i = (c', r) := Option.some.inj he
  have hcode : c'.code = c.code ++ [i (pinAt c.map t).2] := by rw [← oppin_code, he]
  have hmap : c'.map = (pinAt c.map t).1 := by rw [← oppin_map c t i, he]
  have hreg : r = (pinAt c.map t).2 := by rw [← oppin_reg c t i, he]
  have hfr : atR c.map r = none := by rw [hreg]; exact pin_fresh _ _
  rw [← hreg] at hcode
  refine ⟨[i r], t, ⟨hcode, hfr, fun j => by rw [hmap, hreg]; exact pin_at _ _ _⟩, fun code s hf hp hv => ?_⟩
  refine ⟨fun v' w' hev => ?_, fun x hx => by cases hx⟩
  cases hev
  refine ⟨_, .one (by rw [hp]; exact hf.one) (h s r), ⟨?_, put_val _ _ _ _, rfl, rfl, fun j hj => ?_, fun _ hc => ?_⟩, fun _ hc => ?_⟩
  · show s.pc + 1 = _
    rw [hp, hcode]; simp
  · exact put_ne _ _ _ _ (by rintro rfl; exact hj hfr)
  · have hb := hc.2 r hfr
    refine ⟨⟨put_wf hc.1 r v false hb, fun j hj => ?_⟩, put_leak s r v false hb⟩
    rw [hmap, pin_at, ← hreg] at hj
    by_cases e : j = r
    · rw [if_pos e] at hj; cases hj
    · rw [if_neg e] at hj
      show ((s.put r v false).reg j).buf = false
      rw [put_ne _ _ _ _ e]; exact hc.2 j hj
  · show ((s.put r v false).reg r).buf = false
    rw [put_reg, if_pos rfl]
    split
    · rfl
    · exact hc.2 r hfr

/-- one instruction that always stops -/
theorem SimB.stop {t : Ty} {i : Nat → Instr} {x : Stop} (h : ∀ s a, stepI E (i a) s = .error x) :
    SimB E vars (fun c => some (c.oppin t i)) (fun w => .error x) True := by
  intro c c' r he
  have he : c.oppin t i = (c', r) := Option.some.inj he
  have hcode : c'.code = c.code ++ [i (pinAt c.map t).2] := by rw [← oppin_code, he]
  have hmap : c'.map = (pinAt c.map t).1 := by rw [← oppin_map c t i, he]
  have hreg : r = (pinAt c.map t).2 := by rw [← oppin_reg c t i, he]
  have hfr : atR c.map r = none := by rw [hreg]; exact pin_fresh _ _
  rw [← hreg] at hcode
  refine ⟨[i r], t, ⟨hcode, hfr, fun j => by rw [hmap, hreg]; exact pin_at _ _ _⟩, fun code s hf hp hv => ?_⟩
  refine ⟨fun v' w' hev => (by cases hev), fun y hy => ?_⟩
  cases hy
  exact fails_now (by rw [hp]; exact hf.one) (h s r)

/-- an instruction that always stops has any type -/
theorem SimB.stopF {t : Ty} {i : Nat → Instr} {x : Stop} (h : ∀ s a, stepI E (i a) s = .error x) :
    SimF E vars (fun c => some (c.oppin t i)) (fun w => .error x) False True := by
  intro c c' r he
  obtain ⟨frag, ty, hs, hr⟩ := SimB.stop (E := E) (vars := vars) h c c' r he
  refine ⟨frag, ty, hs, fun code s hf hp hv => ⟨fun v' w' hev => (by cases hev), (hr code s hf hp hv).2⟩⟩

theorem inLoop_ty (P : Prims) (a : Val) (l : List Val) (b : Bool) : HasTy (inLoop P a l b) .bool := by
  induction l generalizing b with
  | nil => cases b <;> simp [inLoop] <;> first | exact .inl rfl | exact vbool_ty _
  | cons v l ih =>
    unfold inLoop
    by_cases h : v = .null
    · rw [if_pos h]; exact ih _
    · rw [if_neg h]
      by_cases h2 : vcompare P v a = 0
      · rw [if_pos h2]; exact vbool_ty _
      · rw [if_neg h2]; exact ih _
theorem valueIn_ty (P : Prims) (a : Val) (l : List Val) : HasTy (valueIn P a l) .bool := by
  unfold valueIn
  split
  · exact .inl rfl
  · exact inLoop_ty _ _ _ _
theorem valueIn_nonheap (P : Prims) (a : Val) (l : List Val) : (valueIn P a l).heap = false := (valueIn_ty P a l).nonheap rfl

theorem SimF.inlist {em ev ema eva} {lk mem mem' : Prop} (h : SimB E vars em ev mem) (h' : SimA E vars ema eva lk mem') :
    SimF E vars (fun c => (em c).bind fun p => (ema p.1 []).bind fun q => some (q.1.un .bool (fun a => .inlist a p.2 q.2.length) p.2))
      (fun w => (ev w).bind fun o => (eva o.2).bind fun p => Compile.keep p.2 (.ok (valueIn E.P o.1 p.1))) False (mem ∧ mem') := by
  intro c c' r he
  simp only [Option.bind_eq_some_iff, Option.some.injEq] at he
  obtain ⟨⟨c1, b⟩, he1, ⟨c2, ts⟩, he2, he3⟩ := he
  dsimp only at he2 he3
  obtain ⟨frag1, ty, hs1, hr1⟩ := h c c1 b he1
  obtain ⟨frag2, tnew, htn, hcode2, hmap2, hr2⟩ := h' c1 [] c2 ts he2
  rw [List.nil_append] at htn
  subst htn
  have hb1 : atR c1.map b = some ty := by rw [hs1.map, if_pos rfl]
  have hb : atR c2.map b = some ty := by rw [hmap2, hb1]
  generalize ha : (pinAt c2.map .bool).2 = a at *
  have hfresh : atR c2.map a = none := by rw [← ha]; exact pin_fresh _ _
  have hab : a ≠ b := by intro e; rw [e, hb] at hfresh; cases hfresh
  have hca : atR c.map a = none := by rw [hmap2, hs1.map, if_neg hab] at hfresh; exact hfresh
  simp only [CS.un, Prod.mk.injEq] at he3
  obtain ⟨he3, he4⟩ := he3
  rw [oppin_reg, ha] at he4
  subst he4
  have hcode : c'.code = c.code ++ (frag1 ++ (frag2 ++ [.inlist a b ts.length])) := by
    rw [← he3]
    show (c2.oppin .bool fun a => .inlist a b ts.length).1.code = _
    rw [oppin_code, hcode2, hs1.code, ha]; simp [List.append_assoc]
  have hmap : ∀ j, atR c'.map j = if j = b then none else if j = a then some .bool else atR c2.map j := by
    intro j
    rw [← he3]
    show atR ((c2.oppin .bool fun a => .inlist a b ts.length).1.map.set b none) j = _
    rw [unpin_at, oppin_map, pin_at, ha]
  refine ⟨frag1 ++ (frag2 ++ [.inlist a b ts.length]), .bool, ⟨hcode, hca, fun j => ?_⟩, fun code s hf hp hv => ?_⟩
  · rw [hmap, hmap2, hs1.map]
    by_cases e : j = b
    · subst e; rw [if_pos rfl, if_neg (Ne.symm hab), hs1.fresh]
    · rw [if_neg e, if_neg e]
  · obtain ⟨hf1, hf'⟩ := hf.app
    obtain ⟨hf2, hf3⟩ := hf'.app
    obtain ⟨r1, r2⟩ := hr1 code s hf1 hp hv
    have hlen1 : c1.code.length = c.code.length + frag1.length := by rw [hs1.code]; simp
    have hlen2 : c2.code.length = c.code.length + frag1.length + frag2.length := by rw [hcode2, hs1.code]; simp [Nat.add_assoc]
    rw [← hlen1] at hf2
    rw [← hlen2] at hf3
    refine ⟨fun v w' hev => ?_, fun x hx => ?_⟩
    · cases hv1 : ev s.world with
      | error e => dsimp only at hev; rw [hv1] at hev; cases hev
      | ok p =>
        dsimp only at hev; rw [hv1] at hev
        simp only [Except.bind] at hev
        obtain ⟨s1, hx1, po1, hbuf⟩ := r1 p.1 p.2 hv1
        obtain ⟨q1, q2⟩ := hr2 code s1 hf2 po1.pc (by rw [po1.stack]; exact hv)
        rw [po1.world] at q1
        cases hv2 : eva p.2 with
        | error e => rw [hv2] at hev; cases hev
        | ok q =>
          rw [hv2] at hev
          cases hev
          obtain ⟨hl, _, s2, hx2, po2⟩ := q1 q.1 q.2 hv2
          obtain ⟨cells, hst, hcv⟩ := po2.stack
          have hcl : cells.length = ts.length := by rw [← hl, ← hcv]; simp
          have hbv : s2.reg b = s1.reg b := po2.keep b (by rw [hb1]; simp)
          have hstep : stepI E (.inlist a b ts.length) s2 = .ok (((s2.put a (valueIn E.P p.1 q.1) false).popn ts.length).next) := by
            show (if s2.stack.length < ts.length then _ else _) = _
            rw [if_neg (by rw [hst]; simp [hcl]), top_app s2 _ _ _ hst hcl, hcv, hbv, po1.val]
          refine ⟨fun _ => valueIn_ty _ _ _, _, hx1.trans (hx2.trans (.one (by rw [po2.pc]; exact hf3.one) hstep)), ?_⟩
          refine ⟨?_, put_val _ _ _ _, po2.world, ?_, fun j hj => ?_, fun hm hc => ?_⟩
          · show s2.pc + 1 = _
            rw [po2.pc, hcode, hlen2]; simp [Nat.add_assoc]
          · show s2.stack.take (s2.stack.length - ts.length) = _
            rw [take_app s2 _ _ _ hst hcl, po1.stack]
          · have jb : j ≠ b := by rintro rfl; exact hj hs1.fresh
            have ja : j ≠ a := by rintro rfl; exact hj hca
            show (s2.put a (valueIn E.P p.1 q.1) false).reg j = _
            rw [put_ne _ _ _ _ ja, po2.keep j (by rw [hs1.map, if_neg jb]; exact hj), po1.keep j hj]
          · obtain ⟨hc1, hlk1⟩ := po1.mem hm.1 hc
            obtain ⟨hc2, hlk2⟩ := po2.mem hm.2 hc1
            have hba : (s2.reg a).buf = false := hc2.2 a (by rw [← hmap2]; exact hfresh)
            refine ⟨⟨put_wf hc2.1 a (valueIn E.P p.1 q.1) false hba, fun j hj => ?_⟩, ?_⟩
            · show ((s2.put a (valueIn E.P p.1 q.1) false).reg j).buf = false
              rw [hmap] at hj
              by_cases e : j = b
              · rw [e, put_ne _ _ _ _ (Ne.symm hab), hbv]; exact hbuf hm.1 hc
              · rw [if_neg e] at hj
                by_cases e' : j = a
                · rw [if_pos e'] at hj; cases hj
                · rw [if_neg e', hmap2] at hj
                  rw [put_ne _ _ _ _ e']; exact hc2.2 j hj
            · show (s2.put a (valueIn E.P p.1 q.1) false).leak = _
              rw [put_leak _ _ _ _ hba, hlk2, hlk1]
    · cases hv1 : ev s.world with
      | error e =>
        dsimp only at hx; rw [hv1] at hx
        have : e = x := by simpa [Except.bind] using hx
        subst this
        exact r2 e hv1
      | ok p =>
        dsimp only at hx; rw [hv1] at hx
        simp only [Except.bind] at hx
        obtain ⟨s1, hx1, po1, hbuf⟩ := r1 p.1 p.2 hv1
        obtain ⟨q1, q2⟩ := hr2 code s1 hf2 po1.pc (by rw [po1.stack]; exact hv)
        rw [po1.world] at q2
        cases hv2 : eva p.2 with
        | error e =>
          rw [hv2] at hx
          have : e = x := by simpa [Except.bind] using hx
          subst this
          exact hx1.fails (q2 e hv2)
        | ok q => rw [hv2] at hx; cases hx

end Verif.Compile
