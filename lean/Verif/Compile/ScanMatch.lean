import Verif.Compile.ScanSim
/-!
# Scans: conditions, and what happens for one combination of rows
-/
set_option linter.unusedSimpArgs false
set_option linter.unusedVariables false
namespace Verif.Compile

variable {W : Type} {T : Tables W}

theorem Kept.refl (m : List (Option Ty)) (x : XVM W) : Kept m x x := ⟨rfl, fun _ _ => rfl, rfl, rfl⟩
theorem Kept.trans {m : List (Option Ty)} {x y z : XVM W} (h : Kept m x y) (h' : Kept m y z) : Kept m x z :=
  ⟨h'.stack.trans h.stack, fun i hi => (h'.reg i hi).trans (h.reg i hi), h'.cur.trans h.cur, h'.out.trans h.out⟩

theorem CurOk.of {S : Sig} {cur cur' rows} (h : CurOk S cur rows) (hc : ∀ t rc, S.cursor t = some rc → cur' rc = cur rc) : CurOk S cur' rows where
  cur t rc ht := by
    obtain ⟨r, rest, h1, h2⟩ := h.cur t rc ht
    exact ⟨r, rest, by rw [hc t rc ht, h1], h2⟩
  ty := h.ty

/-! ## A condition and its jump -/

theorem cond_sim {S : Sig} {vars : List Val} (hf : FnsOk T S vars) {e : Expr} (hok : e.Ok T.fn S.fnDerive)
    (hv : e.VarsOk vars.length) {c c' : XCS} {r : Nat} (h : xemit S e c = some (c', r)) :
    Ext c c' ∧ (∀ i, atR (c'.map.set r none) i = atR c.map i) ∧
    ∀ code js B to, Agree code c' c.code.length js B → (∀ j ∈ js, j < c.code.length ∨ c'.code.length ≤ j) →
      code[c'.code.length]? = some (.base (.jntr to r)) →
    ∀ rows x, CurOk S x.cur rows → x.vm.pc = c.code.length → HasVars vars x.vm.stack →
      (∀ b w, condSem (T.sem rows) vars e x.vm.world = .ok (b, w) → ∃ x', XExec T code x x' ∧
        x'.vm.pc = (if b then c'.code.length + 1 else to) ∧ x'.vm.world = w ∧ Kept c.map x x') ∧
      (∀ er, condSem (T.sem rows) vars e x.vm.world = .error er → XFails T code x er) := by
  obtain ⟨h1, h2, ⟨ty, h3⟩, h4⟩ := xemit_sim hf hok hv h
  refine ⟨h1, fun i => ?_, fun code js B to ha hj hjn rows x hc hp hvs => ?_⟩
  · rw [unpin_at]
    by_cases hi : i = r
    · rw [if_pos hi, hi, h2]
    · rw [if_neg hi, h3, if_neg hi]
  obtain ⟨r1, r2⟩ := h4 code js B ha hj rows x hc hp hvs
  unfold condSem
  cases hev : eval (T.sem rows) vars e x.vm.world with
  | error er => exact ⟨fun b w h => (by cases h), fun er' h => (by cases h; exact r2 er hev)⟩
  | ok p =>
    obtain ⟨v, w⟩ := p
    obtain ⟨x1, hx1, hp1, hv1, hw1, hk1⟩ := r1 v w hev
    have hst : stepX T (.base (.jntr to r)) x1 = ((isTrue v).bind fun b => .ok { x1 with vm := if b then (x1.vm.free r).next else (x1.vm.free r).goto to }) := by
      show ((isTrue (x1.vm.reg r).val).bind _).map _ = _
      rw [hv1]
      cases isTrue v with
      | error _ => rfl
      | ok b => cases b <;> rfl
    have keep : ∀ vm', vm'.reg = (x1.vm.free r).reg → vm'.stack = x1.vm.stack → Kept c.map x { x1 with vm := vm' } := by
      intro vm' e1 e2
      refine ⟨by rw [e2]; exact hk1.stack, fun i hi => ?_, hk1.cur, hk1.out⟩
      show vm'.reg i = _
      rw [e1, free_ne _ _ (by rintro rfl; exact hi h2)]
      exact hk1.reg i hi
    refine ⟨fun b w' h => ?_, fun er h => ?_⟩
    · simp only [Except.bind] at h
      cases ht : isTrue v with
      | error _ => rw [ht] at h; cases h
      | ok b' =>
        rw [ht] at h
        cases h
        refine ⟨_, hx1.trans (.one (i := .base (.jntr to r)) (by rw [hp1]; exact hjn) (by rw [hst, ht]; rfl)), ?_, ?_, ?_⟩
        · cases b with
          | true => show x1.vm.pc + 1 = _; rw [hp1]; rfl
          | false => rfl
        · cases b <;> exact hw1
        · cases b <;> exact keep _ rfl rfl
    · simp only [Except.bind] at h
      cases ht : isTrue v with
      | ok _ => rw [ht] at h; cases h
      | error er' =>
        rw [ht] at h
        cases h
        exact hx1.fails (xfails_now (i := .base (.jntr to r)) (by rw [hp1]; exact hjn) (by rw [hst, ht]; rfl))

/-! ## Stop conditions -/

theorem stop_sim {S : Sig} {vars : List Val} (hf : FnsOk T S vars) : ∀ (es : List Expr) (hok : ∀ e ∈ es, e.Ok T.fn S.fnDerive)
    (hv : ∀ e ∈ es, e.VarsOk vars.length) {c c' : XCS} {js js' : List Nat} (h : scanStop S es c js = some (c', js')),
    Ext c c' ∧ (∀ i, atR c'.map i = atR c.map i) ∧ (∃ new, js' = js ++ new ∧ ∀ j ∈ new, c.code.length ≤ j ∧ j < c'.code.length) ∧
    ∀ code to, (∀ j ∈ js, j < c.code.length) → Agree code c' c.code.length js' to →
    ∀ rows x, CurOk S x.cur rows → x.vm.pc = c.code.length → HasVars vars x.vm.stack →
      (∀ b w, condsSem (T.sem rows) vars es x.vm.world = .ok (b, w) → ∃ x', XExec T code x x' ∧
        x'.vm.pc = (if b then c'.code.length else to) ∧ x'.vm.world = w ∧ Kept c.map x x') ∧
      (∀ er, condsSem (T.sem rows) vars es x.vm.world = .error er → XFails T code x er) := by
  intro es
  induction es with
  | nil =>
    intro hok hv c c' js js' h
    cases h
    refine ⟨.refl _, fun _ => rfl, ⟨[], by simp, by simp⟩, fun code to hj ha rows x hc hp hvs => ⟨fun b w h => ?_, fun er h => by cases h⟩⟩
    cases h
    exact ⟨x, .refl _, hp, rfl, .refl _ _⟩
  | cons e es ih =>
    intro hok hv c c' js js' h
    unfold scanStop at h
    rw [Option.bind_eq_some_iff] at h
    obtain ⟨⟨c1, r⟩, hem, h⟩ := h
    dsimp only at h
    obtain ⟨g1, g2, g3⟩ := cond_sim hf (hok e (by simp)) (hv e (by simp)) hem
    obtain ⟨i1, i2, ⟨new, i3, i4⟩, i5⟩ := ih (fun e' h' => hok e' (by simp [h'])) (fun e' h' => hv e' (by simp [h'])) h
    have e1 : Ext c1 c' := (Ext.op c1 _).trans i1
    have hlen : ((c1.op (.base (.jntr 0 r))).unpin r).code.length = c1.code.length + 1 := op_len _ _
    have hl1 := g1.len
    have hl2 := i1.len
    refine ⟨g1.trans e1, fun i => by rw [i2]; exact g2 i, ⟨c1.code.length :: new, by rw [i3]; simp, ?_⟩, ?_⟩
    · intro j hj
      simp only [List.mem_cons] at hj
      rcases hj with rfl | hj
      · omega
      · have := i4 j hj; omega
    · intro code to hj ha rows x hc hp hvs
      have hjump : code[c1.code.length]? = some (.base (.jntr to r)) := by
        have := ha c1.code.length (.base (.jntr 0 r)) hl1 (i1.at (op_at c1 _))
        rw [if_pos (by rw [i3]; simp)] at this
        exact this
      obtain ⟨r1, r2⟩ := g3 code js' to to (ha.sub e1 (Nat.le_refl _)) (by
        intro j hj'
        rw [i3] at hj'
        simp only [List.mem_append, List.mem_singleton] at hj'
        rcases hj' with (h | h) | h
        · exact .inl (hj j h)
        · right; omega
        · have := i4 j h; right; omega) hjump rows x hc hp hvs
      unfold condsSem
      cases hev : condSem (T.sem rows) vars e x.vm.world with
      | error er => exact ⟨fun b w h => (by cases h), fun er' h => (by cases h; exact r2 er hev)⟩
      | ok p =>
        obtain ⟨b, w⟩ := p
        obtain ⟨x1, hx1, hp1, hw1, hk1⟩ := r1 b w hev
        cases b with
        | false =>
          refine ⟨fun b' w' h => ?_, fun er h => by cases h⟩
          cases h
          exact ⟨x1, hx1, hp1, hw1, hk1⟩
        | true =>
          obtain ⟨s1, s2⟩ := i5 code to (by
            intro j hj'
            simp only [List.mem_append, List.mem_singleton] at hj'
            rcases hj' with h | h
            · have := hj j h; omega
            · omega) (fun p i hp' hi => ha p i (by omega) hi) rows x1 (hk1.cur ▸ hc) (by rw [hp1, hlen]; rfl) (hk1.stack ▸ hvs)
          refine ⟨fun b' w' h => ?_, fun er h => ?_⟩
          · simp only [Except.bind, if_true] at h
            rw [← hw1] at h
            obtain ⟨x2, hx2, hp2, hw2, hk2⟩ := s1 b' w' h
            refine ⟨x2, hx1.trans hx2, hp2, hw2, hk1.trans ⟨hk2.stack, fun i hi => hk2.reg i ?_, hk2.cur, hk2.out⟩⟩
            rw [show atR ((c1.op (.base (.jntr 0 r))).unpin r).map i = _ from g2 i]; exact hi
          · simp only [Except.bind, if_true] at h
            rw [← hw1] at h
            exact hx1.fails (s2 er h)

/-! ## One combination of rows -/

/-- a counter and its register -/
def CntOk (r : Option Nat) (x : XVM W) (v : Option Int) : Prop :=
  (r = none ∧ v = none) ∨ ∃ i k, r = some i ∧ v = some k ∧ (x.vm.reg i).val = .int k

/-- the machine is in the middle of the query -/
structure St (S : Sig) (vars : List Val) (roff rlim : Option Nat) (rows : Nat → Option Row) (x : XVM W) (a : Acc W) : Prop where
  world : x.vm.world = a.world
  out : x.out = a.out
  vars : HasVars vars x.vm.stack
  cur : CurOk S x.cur rows
  off : CntOk roff x a.off
  lim : CntOk rlim x a.lim

/-- the registers of counters and cursors are in use -/
structure Pins (S : Sig) (m : List (Option Ty)) (roff rlim : Option Nat) : Prop where
  off : ∀ i, roff = some i → atR m i ≠ none
  lim : ∀ i, rlim = some i → atR m i ≠ none
  ne : ∀ i, roff = some i → rlim ≠ some i
  cur : ∀ t rc, S.cursor t = some rc → atR m rc ≠ none

/-- what the code of a scan may not touch -/
structure Done (m : List (Option Ty)) (roff rlim : Option Nat) (x x' : XVM W) : Prop where
  stack : x'.vm.stack = x.vm.stack
  reg : ∀ i, atR m i ≠ none → roff ≠ some i → rlim ≠ some i → x'.vm.reg i = x.vm.reg i
  cur : ∀ i, atR m i ≠ none → x'.cur i = x.cur i

theorem Done.refl (m : List (Option Ty)) (roff rlim) (x : XVM W) : Done m roff rlim x x := ⟨rfl, fun _ _ _ _ => rfl, fun _ _ => rfl⟩
theorem Done.trans {m : List (Option Ty)} {roff rlim} {x y z : XVM W} (h : Done m roff rlim x y) (h' : Done m roff rlim y z) : Done m roff rlim x z :=
  ⟨h'.stack.trans h.stack, fun i a b c => (h'.reg i a b c).trans (h.reg i a b c), fun i a => (h'.cur i a).trans (h.cur i a)⟩
theorem Kept.done {m : List (Option Ty)} {x x' : XVM W} (h : Kept m x x') (roff rlim) : Done m roff rlim x x' :=
  ⟨h.stack, fun i a _ _ => h.reg i a, fun i _ => by rw [h.cur]⟩

theorem CntOk.of {r : Option Nat} {x x' : XVM W} {v : Option Int} (h : CntOk r x v) (hr : ∀ i, r = some i → x'.vm.reg i = x.vm.reg i) : CntOk r x' v := by
  rcases h with h | ⟨i, k, h1, h2, h3⟩
  · exact .inl h
  · exact .inr ⟨i, k, h1, h2, by rw [hr i h1]; exact h3⟩

theorem St.kept {S : Sig} {vars : List Val} {roff rlim : Option Nat} {rows} {x x' : XVM W} {a : Acc W} {m : List (Option Ty)} (h : St S vars roff rlim rows x a)
    (hp : Pins S m roff rlim) (hk : Kept m x x') : St S vars roff rlim rows x' { a with world := x'.vm.world } where
  world := rfl
  out := by rw [hk.out]; exact h.out
  vars := by rw [hk.stack]; exact h.vars
  cur := by rw [hk.cur]; exact h.cur
  off := h.off.of fun i hi => hk.reg i (hp.off i hi)
  lim := h.lim.of fun i hi => hk.reg i (hp.lim i hi)

/-- the number of arguments -/
def Args.count : Args → Nat
  | .nil => 0
  | .cons _ r => r.count + 1

theorem evalArgs_length {E : Sem W} {vars : List Val} : ∀ (a : Args) (w : W) (vs : List Val) (w' : W), evalArgs E vars a w = .ok (vs, w') → vs.length = a.count := by
  intro a
  induction a using Args.rec (motive_1 := fun _ => True) (motive_3 := fun _ => True) with
  | nil => intro w vs w' h; rw [evalArgs] at h; cases h; rfl
  | cons e r _ ih =>
    intro w vs w' h
    rw [evalArgs] at h
    cases h1 : eval E vars e w with
    | error x => rw [h1] at h; cases h
    | ok p =>
      rw [h1] at h
      simp only [Except.bind] at h
      cases h2 : evalArgs E vars r p.2 with
      | error x => rw [h2] at h; cases h
      | ok q =>
        rw [h2] at h
        cases h
        simp only [List.length_cons, Args.count]
        rw [ih p.2 q.1 q.2 h2]
  | _ => trivial

/-- what the machine does for a result of the meaning -/
def Runs (S : Sig) (vars : List Val) (roff rlim : Option Nat) (m : List (Option Ty)) (rows : Nat → Option Row) (code : List XInstr) (x : XVM W) (fin B : Nat)
    (T : Tables W) (r : Except Stop (Acc W × Bool)) : Prop :=
  (∀ a' b, r = .ok (a', b) → ∃ x', XExec T code x x' ∧ x'.vm.pc = (if b then B else fin) ∧ St S vars roff rlim rows x' a' ∧ Done m roff rlim x x' ∧
    (b = false → (∀ i, atR m i = none → x.cur i = none) → ∀ i, atR m i = none → x'.cur i = none)) ∧
  (∀ er, r = .error er → XFails T code x er)

theorem Runs.before {S : Sig} {vars : List Val} {roff rlim : Option Nat} {m : List (Option Ty)} {rows code} {x y : XVM W} {fin B r}
    (h : Runs S vars roff rlim m rows code y fin B T r) (hx : XExec T code x y) (hd : Done m roff rlim x y) (hc : y.cur = x.cur) :
    Runs S vars roff rlim m rows code x fin B T r := by
  refine ⟨fun a' b hr => ?_, fun er hr => hx.fails (h.2 er hr)⟩
  obtain ⟨x', h1, h2, h3, h4, h5⟩ := h.1 a' b hr
  exact ⟨x', hx.trans h1, h2, h3, hd.trans h4, fun hb hcl => h5 hb (by rw [hc]; exact hcl)⟩

/-- a counter is decremented -/
theorem dec_ok {roff rlim : Option Nat} {S : Sig} {vars : List Val} {rows} {x : XVM W} {a : Acc W} {m : List (Option Ty)} (hs : St S vars roff rlim rows x a) (hp : Pins S m roff rlim)
    {i : Nat} {k : Int} (vm' : VM W) (hreg : vm'.reg = (x.vm.put i (.int k) false).reg) (hw : vm'.world = x.vm.world) (hst : vm'.stack = x.vm.stack) (hi : roff = some i ∨ rlim = some i) :
    Done m roff rlim x { x with vm := vm' } ∧
    (roff = some i → St S vars roff rlim rows { x with vm := vm' } { a with off := some k }) ∧
    (rlim = some i → St S vars roff rlim rows { x with vm := vm' } { a with lim := some k }) := by
  have hne : ∀ j, j ≠ i → vm'.reg j = x.vm.reg j := fun j hj => by rw [hreg, put_ne _ _ _ _ hj]
  have hv : (vm'.reg i).val = .int k := by rw [hreg, put_val]
  refine ⟨⟨hst, fun j h1 h2 h3 => hne j ?_, fun _ _ => rfl⟩, fun h => ?_, fun h => ?_⟩
  · rintro rfl
    rcases hi with h | h
    · exact h2 h
    · exact h3 h
  · exact ⟨by rw [← hs.world]; exact hw, hs.out, by rw [show ({ x with vm := vm' } : XVM W).vm.stack = x.vm.stack from hst]; exact hs.vars, hs.cur,
      .inr ⟨i, k, h, rfl, hv⟩, hs.lim.of fun j hj => hne j (by rintro rfl; exact hp.ne j h hj)⟩
  · exact ⟨by rw [← hs.world]; exact hw, hs.out, by rw [show ({ x with vm := vm' } : XVM W).vm.stack = x.vm.stack from hst]; exact hs.vars, hs.cur,
      hs.off.of fun j hj => hne j (by rintro rfl; exact hp.ne j hj h), .inr ⟨i, k, h, rfl, hv⟩⟩

end Verif.Compile
