import Verif.Compile.ScanMatch
/-!
# Scans: what happens for one combination of rows
-/
set_option linter.unusedSimpArgs false
set_option linter.unusedVariables false
namespace Verif.Compile

variable {W : Type} {T : Tables W}

theorem St.eq {S : Sig} {vars : List Val} {roff rlim : Option Nat} {rows} {x : XVM W} {a a' : Acc W} (h : St S vars roff rlim rows x a) (e : a = a') :
    St S vars roff rlim rows x a' := e ▸ h

/-- the select list and CSET_ADD -/
theorem add_sim {S : Sig} {vars : List Val} (hf : FnsOk T S vars) {sel : Args} (hok : sel.Ok T.fn S.fnDerive)
    (hv : sel.VarsOk vars.length) {l z : XCS} {n : Nat} (h : xargs S sel l = some (z, n)) {m : List (Option Ty)} (hm : ∀ i, atR l.map i = atR m i)
    {roff rlim : Option Nat} (hp : Pins S m roff rlim) {code : List XInstr} {js : List Nat} {B : Nat} (ha : Agree code z l.code.length js B)
    (hj : ∀ j ∈ js, j < l.code.length ∨ z.code.length ≤ j) (hadd : code[z.code.length]? = some (.setadd sel.count)) (B' : Nat)
    {rows} {x : XVM W} {a : Acc W} (hs : St S vars roff rlim rows x a) (hpc : x.vm.pc = l.code.length) :
    Runs S vars roff rlim m rows code x (z.code.length + 1) B' T
      ((evalArgs (T.sem rows) vars sel a.world).map fun p => (⟨p.2, a.off, a.lim, a.out ++ [p.1]⟩, false)) := by
  obtain ⟨_, _, g⟩ := xargs_sim hf hok hv h
  obtain ⟨g1, g2⟩ := g code js B ha hj rows x hs.cur hpc hs.vars
  rw [← hs.world]
  cases hev : evalArgs (T.sem rows) vars sel x.vm.world with
  | error er => exact ⟨fun a' b h => (by cases h), fun er' h => (by cases h; exact g2 er hev)⟩
  | ok p =>
    obtain ⟨vs, w⟩ := p
    obtain ⟨hn, x1, hx1, hp1, hw1, ⟨⟨cells, hst, hcv⟩, hreg, hcur, hout⟩⟩ := g1 vs w hev
    have hcl : cells.length = sel.count := by
      rw [← List.length_map (f := Cell.val), hcv, evalArgs_length sel _ _ _ hev]
    have htop : x1.vm.top sel.count = cells := top_app x1.vm _ cells _ hst hcl
    have hpop : (x1.vm.popn sel.count).stack = x.vm.stack := by
      show x1.vm.stack.take _ = _
      exact take_app x1.vm _ cells _ hst hcl
    have hstep : stepX T (.setadd sel.count) x1 = .ok ⟨(x1.vm.popn sel.count).next, x1.cur, x1.out ++ [vs]⟩ := by
      show (if x1.vm.stack.length < sel.count then _ else _) = _
      rw [if_neg (by rw [hst]; simp [hcl]), htop, hcv]
    refine ⟨fun a' b hr => ?_, fun er hr => by cases hr⟩
    cases hr
    refine ⟨_, hx1.trans (.one (i := .setadd sel.count) (by rw [hp1]; exact hadd) hstep), ?_, ⟨hw1, ?_, ?_, ?_, ?_, ?_⟩, ⟨hpop, fun i hi _ _ => ?_, fun i _ => ?_⟩, fun _ hcl i hi => ?_⟩
    · show x1.vm.pc + 1 = _
      rw [hp1]; rfl
    · show x1.out ++ [vs] = a.out ++ [vs]
      rw [hout, hs.out]
    · show HasVars vars (x1.vm.popn sel.count).stack
      rw [hpop]; exact hs.vars
    · show CurOk S x1.cur rows
      rw [hcur]; exact hs.cur
    · exact hs.off.of fun i hi => hreg i (by rw [hm]; exact hp.off i hi)
    · exact hs.lim.of fun i hi => hreg i (by rw [hm]; exact hp.lim i hi)
    · exact hreg i (by rw [hm]; exact hi)
    · show x1.cur i = _
      rw [hcur]
    · show x1.cur i = none
      rw [hcur]; exact hcl i hi

/-- LIMIT -/
theorem limit_sim {S : Sig} {vars : List Val} {sel : Args} {roff rlim : Option Nat} {m : List (Option Ty)} (hp : Pins S m roff rlim) {code : List XInstr} {P N B : Nat} {rows}
    (hl : ∀ i, rlim = some i → code[P]? = some (.jltd B i))
    (hadd : ∀ (x : XVM W) (a : Acc W), St S vars roff rlim rows x a → x.vm.pc = (if rlim.isSome then P + 1 else P) →
      Runs S vars roff rlim m rows code x N B T ((evalArgs (T.sem rows) vars sel a.world).map fun p => (⟨p.2, a.off, a.lim, a.out ++ [p.1]⟩, false)))
    {x : XVM W} {a : Acc W} (hs : St S vars roff rlim rows x a) (hpc : x.vm.pc = P) :
    Runs S vars roff rlim m rows code x N B T
      (if ∃ k, a.lim = some k ∧ k - 1 < 0 then .ok ({ a with lim := a.lim.map (· - 1) }, true)
       else (evalArgs (T.sem rows) vars sel a.world).map fun p => (⟨p.2, a.off, a.lim.map (· - 1), a.out ++ [p.1]⟩, false)) := by
  rcases hs.lim with ⟨h1, h2⟩ | ⟨i, k, h1, h2, h3⟩
  · rw [if_neg (by rw [h2]; rintro ⟨_, h, _⟩; cases h), h2]
    have := hadd x a hs (by rw [h1]; exact hpc)
    rw [h2] at this
    exact this
  · have hst : stepX T (.jltd B i) x = .ok { x with vm := if k - 1 < 0 then (x.vm.put i (.int (k - 1)) false).goto B else (x.vm.put i (.int (k - 1)) false).next } := by
      show (fInt (x.vm.reg i).val).bind _ = _
      rw [h3]; rfl
    by_cases hk : k - 1 < 0
    · rw [if_pos ⟨k, h2, hk⟩, h2]
      rw [if_pos hk] at hst
      obtain ⟨d1, _, d3⟩ := dec_ok hs hp ((x.vm.put i (.int (k - 1)) false).goto B) (i := i) (k := k - 1) rfl rfl rfl (.inr h1)
      refine ⟨fun a' b hr => ?_, fun er hr => by cases hr⟩
      cases hr
      exact ⟨_, .one (by rw [hpc]; exact hl i h1) hst, rfl, d3 h1, d1, fun h => by cases h⟩
    · rw [if_neg (by rw [h2]; rintro ⟨_, h, h'⟩; cases h; exact hk h'), h2]
      rw [if_neg hk] at hst
      obtain ⟨d1, _, d3⟩ := dec_ok hs hp ((x.vm.put i (.int (k - 1)) false).next) (i := i) (k := k - 1) rfl rfl rfl (.inr h1)
      exact (hadd _ _ (d3 h1) (by rw [h1]; show x.vm.pc + 1 = _; rw [hpc]; rfl)).before (.one (by rw [hpc]; exact hl i h1) hst) d1 rfl

/-- OFFSET, LIMIT and the select list -/
theorem emit_sim {S : Sig} {vars : List Val} {sel : Args} {roff rlim : Option Nat} {m : List (Option Ty)} (hp : Pins S m roff rlim) {code : List XInstr} {P N B : Nat} {rows}
    (ho : ∀ i, roff = some i → code[P]? = some (.jgted N i))
    (hl : ∀ i, rlim = some i → code[if roff.isSome then P + 1 else P]? = some (.jltd B i))
    (hadd : ∀ (x : XVM W) (a : Acc W), St S vars roff rlim rows x a → x.vm.pc = (if rlim.isSome then (if roff.isSome then P + 1 else P) + 1 else (if roff.isSome then P + 1 else P)) →
      Runs S vars roff rlim m rows code x N B T ((evalArgs (T.sem rows) vars sel a.world).map fun p => (⟨p.2, a.off, a.lim, a.out ++ [p.1]⟩, false)))
    {x : XVM W} {a : Acc W} (hs : St S vars roff rlim rows x a) (hpc : x.vm.pc = P) :
    Runs S vars roff rlim m rows code x N B T (emitSem (T.sem rows) vars sel a) := by
  unfold emitSem
  rcases hs.off with ⟨h1, h2⟩ | ⟨i, k, h1, h2, h3⟩
  · rw [if_neg (by rw [h2]; rintro ⟨_, h, _⟩; cases h), h2]
    have := limit_sim hp hl hadd hs (by rw [h1]; exact hpc)
    rw [h2] at this
    exact this
  · have hst : stepX T (.jgted N i) x = .ok { x with vm := if 0 ≤ k - 1 then (x.vm.put i (.int (k - 1)) false).goto N else (x.vm.put i (.int (k - 1)) false).next } := by
      show (fInt (x.vm.reg i).val).bind _ = _
      rw [h3]; rfl
    by_cases hk : 0 ≤ k - 1
    · rw [if_pos ⟨k, h2, hk⟩, h2]
      rw [if_pos hk] at hst
      obtain ⟨d1, d2, _⟩ := dec_ok hs hp ((x.vm.put i (.int (k - 1)) false).goto N) (i := i) (k := k - 1) rfl rfl rfl (.inl h1)
      refine ⟨fun a' b hr => ?_, fun er hr => by cases hr⟩
      cases hr
      exact ⟨_, .one (by rw [hpc]; exact ho i h1) hst, rfl, d2 h1, d1, fun _ hcl => hcl⟩
    · rw [if_neg (by rw [h2]; rintro ⟨_, h, h'⟩; cases h; exact hk h'), h2]
      rw [if_neg hk] at hst
      obtain ⟨d1, d2, _⟩ := dec_ok hs hp ((x.vm.put i (.int (k - 1)) false).next) (i := i) (k := k - 1) rfl rfl rfl (.inl h1)
      exact (limit_sim hp hl hadd (d2 h1) (by rw [h1]; show x.vm.pc + 1 = _; rw [hpc]; rfl)).before (.one (by rw [hpc]; exact ho i h1) hst) d1 rfl

theorem ext_of {c c' : XCS} (h : ∀ p, p < c.code.length → c'.code[p]? = c.code[p]?) (hl : c.code.length ≤ c'.code.length) : Ext c c' := by
  refine ⟨c'.code.drop c.code.length, ?_⟩
  have : c'.code.take c.code.length = c.code := by
    apply List.ext_getElem?
    intro p
    rw [List.getElem?_take]
    by_cases hp : p < c.code.length
    · rw [if_pos hp, h p hp]
    · rw [if_neg hp, List.getElem?_eq_none (by omega)]
  conv => lhs; rw [← List.take_append_drop c.code.length c'.code, this]

theorem patchIf_at (c : XCS) (q : Option Nat) (t p : Nat) : (c.patchIf q t).code[p]? = (c.code[p]?).map fun i => if q = some p then i.setTo t else i := by
  cases q with
  | none => simp [XCS.patchIf]
  | some q =>
    show (c.patch q t).code[p]? = _
    rw [patch_at]
    by_cases h : p = q
    · subst h; simp
    · simp [h, Ne.symm h]
theorem patchIf_len (c : XCS) (q : Option Nat) (t : Nat) : (c.patchIf q t).code.length = c.code.length := by
  cases q with
  | none => rfl
  | some q => exact patch_len _ _ _
theorem patchIf_map (c : XCS) (q : Option Nat) (t : Nat) : (c.patchIf q t).map = c.map := by cases q <;> rfl

/-- the counter instructions -/
def cntOp (c : XCS) (r : Option Nat) (i : Nat → XInstr) : XCS := r.elim c fun r => c.op (i r)
theorem cntOp_len (c : XCS) (r : Option Nat) (i : Nat → XInstr) : (cntOp c r i).code.length = if r.isSome then c.code.length + 1 else c.code.length := by
  cases r <;> simp [cntOp, XCS.op]
theorem cntOp_map (c : XCS) (r : Option Nat) (i : Nat → XInstr) : (cntOp c r i).map = c.map := by cases r <;> rfl
theorem cntOp_ext (c : XCS) (r : Option Nat) (i : Nat → XInstr) : Ext c (cntOp c r i) := by
  cases r with
  | none => exact .refl _
  | some r => exact .op _ _
theorem cntOp_at (c : XCS) {r : Option Nat} (i : Nat → XInstr) {k : Nat} (h : r = some k) : (cntOp c r i).code[c.code.length]? = some (i k) := by
  subst h; exact op_at _ _

/-- the query is one the theorems are about -/
structure QueryOk (T : Tables W) (S : Sig) (vars : List Val) (q : Query) : Prop where
  wh : ∀ e, q.wh = some e → e.Ok T.fn S.fnDerive ∧ e.VarsOk vars.length
  sel : q.sel.Ok T.fn S.fnDerive ∧ q.sel.VarsOk vars.length
  width : q.width = q.sel.count

theorem match_sim {S : Sig} {vars : List Val} (hf : FnsOk T S vars) {q : Query} (hq : QueryOk T S vars q)
    {roff rlim : Option Nat} {c c' : XCS} {brks : List Nat} (h : scanOnMatch S q roff rlim c = some (c', brks)) (hp : Pins S c.map roff rlim) :
    Ext c c' ∧ (∀ i, atR c'.map i = atR c.map i) ∧ (∀ b ∈ brks, c.code.length ≤ b ∧ b < c'.code.length) ∧
    ∀ code B, Agree code c' c.code.length brks B → ∀ rows x a, St S vars roff rlim rows x a → x.vm.pc = c.code.length →
      Runs S vars roff rlim c.map rows code x c'.code.length B T (matchSem (T.sem rows) vars q.wh q.sel a) := by
  unfold scanOnMatch at h
  rw [Option.bind_eq_some_iff] at h
  obtain ⟨⟨p, wpos⟩, hwh, h⟩ := h
  rw [Option.map_eq_some_iff] at h
  obtain ⟨⟨z, n⟩, hsel, h⟩ := h
  simp only [Prod.mk.injEq] at h
  obtain ⟨hc', hb⟩ := h
  have hsel : xargs S q.sel (cntOp (cntOp p roff fun r => .jgted 0 r) rlim fun r => .jltd 0 r) = some (z, n) := hsel
  -- WHERE
  have hW : Ext c p ∧ (∀ i, atR p.map i = atR c.map i) ∧ (∀ w, wpos = some w → c.code.length ≤ w ∧ w < p.code.length) ∧
      ∀ code (N B : Nat), (∀ k i, c.code.length ≤ k → p.code[k]? = some i → code[k]? = some (if wpos = some k then i.setTo N else i)) →
      ∀ rows x a, St S vars roff rlim rows x a → x.vm.pc = c.code.length →
      (∀ x a, St S vars roff rlim rows x a → x.vm.pc = p.code.length → Runs S vars roff rlim c.map rows code x N B T (emitSem (T.sem rows) vars q.sel a)) →
      Runs S vars roff rlim c.map rows code x N B T (matchSem (T.sem rows) vars q.wh q.sel a) := by
    unfold scanWhere at hwh
    cases hw : q.wh with
    | none =>
      rw [hw] at hwh
      cases hwh
      exact ⟨.refl _, fun _ => rfl, fun w h => (by cases h), fun code N B _ rows x a hs hpc hrest => hrest x a hs hpc⟩
    | some e =>
      rw [hw] at hwh
      simp only [Option.elim, Option.map_eq_some_iff] at hwh
      obtain ⟨⟨c1, r⟩, hem, hpw⟩ := hwh
      simp only [Prod.mk.injEq] at hpw
      obtain ⟨hp1, hp2⟩ := hpw
      subst hp1
      subst hp2
      obtain ⟨g1, g2, g3⟩ := cond_sim hf (hq.wh e hw).1 (hq.wh e hw).2 hem
      have hl1 := g1.len
      have hl2 : ((c1.op (.base (.jntr 0 r))).unpin r).code.length = c1.code.length + 1 := op_len _ _
      refine ⟨g1.trans (Ext.op c1 _), g2, fun w h => (by cases h; omega), fun code N B ha rows x a hs hpc hrest => ?_⟩
      have hjump : code[c1.code.length]? = some (.base (.jntr N r)) := by
        have := ha c1.code.length (.base (.jntr 0 r)) hl1 (op_at c1 _)
        rw [if_pos rfl] at this; exact this
      obtain ⟨r1, r2⟩ := g3 code [c1.code.length] N N (fun k i hk hi => by
        have := ha k i hk ((Ext.op c1 (.base (.jntr 0 r))).at hi)
        have hlt := (List.getElem?_eq_some_iff.mp hi).1
        rw [if_neg (by simp; omega)] at this
        rw [if_neg (by simp; omega)]; exact this) (by simp) hjump rows x hs.cur hpc hs.vars
      show Runs _ _ _ _ _ _ _ _ _ _ _ ((condSem (T.sem rows) vars e a.world).bind _)
      rw [← hs.world]
      cases hev : condSem (T.sem rows) vars e x.vm.world with
      | error er => exact ⟨fun a' b h => (by cases h), fun er' h => (by cases h; exact r2 er hev)⟩
      | ok pr =>
        obtain ⟨b, w⟩ := pr
        obtain ⟨x1, hx1, hpc1, hw1, hk1⟩ := r1 b w hev
        have hs1 := hs.kept hp hk1
        rw [hw1] at hs1
        cases b with
        | true => exact (hrest x1 _ hs1 (by rw [hpc1, hl2]; rfl)).before hx1 (hk1.done _ _) hk1.cur
        | false =>
          refine ⟨fun a' b h => ?_, fun er h => by cases h⟩
          cases h
          exact ⟨x1, hx1, hpc1, hs1, hk1.done _ _, fun _ hcl => by rw [hk1.cur]; exact hcl⟩
  obtain ⟨w1, w2, w3, w4⟩ := hW
  have eo := cntOp_ext p roff fun r => .jgted 0 r
  have el := cntOp_ext (cntOp p roff fun r => .jgted 0 r) rlim fun r => .jltd 0 r
  obtain ⟨z1, z2, _⟩ := xargs_sim hf hq.sel.1 hq.sel.2 hsel
  have lo := cntOp_len p roff fun r => .jgted 0 r
  have ll := cntOp_len (cntOp p roff fun r => .jgted 0 r) rlim fun r => .jltd 0 r
  have l1 := w1.len
  have l2 := eo.len
  have l3 := el.len
  have l4 := z1.len
  have ezz := Ext.op z (.setadd q.width)
  have hat : ∀ k, c'.code[k]? = ((z.op (.setadd q.width)).code[k]?).map fun i =>
      if (roff.map fun _ => p.code.length) = some k then (if wpos = some k then i.setTo (z.code.length + 1) else i).setTo (z.code.length + 1)
      else (if wpos = some k then i.setTo (z.code.length + 1) else i) := by
    intro k
    rw [← hc', patchIf_at, patchIf_at, Option.map_map]
    rfl
  have hlen : c'.code.length = z.code.length + 1 := by rw [← hc', patchIf_len, patchIf_len, op_len]
  have hbk : ∀ b ∈ brks, rlim.isSome = true ∧ b = (cntOp p roff fun r => .jgted 0 r).code.length := by
    intro b hb'
    rw [← hb] at hb'
    cases rlim with
    | none => simp at hb'
    | some r => simp only [Option.elim, List.mem_singleton] at hb'; exact ⟨rfl, hb'⟩
  refine ⟨ext_of (fun k hk => ?_) (by omega), fun i => ?_, fun b hb' => ?_, fun code B ha rows x a hs hpc => ?_⟩
  · rw [hat]
    have hcz := ((w1.trans eo).trans (el.trans (z1.trans ezz)))
    cases hck : c.code[k]? with
    | none => rw [List.getElem?_eq_none_iff] at hck; omega
    | some i =>
      rw [hcz.at hck, Option.map_some, if_neg, if_neg]
      · intro hw'; have := (w3 k hw').1; omega
      · intro hro
        cases roff with
        | none => cases hro
        | some r => simp only [Option.map_some, Option.some.injEq] at hro; omega
  · rw [← hc', patchIf_map, patchIf_map]
    show atR z.map i = _
    rw [z2, cntOp_map, cntOp_map]; exact w2 i
  · obtain ⟨h1, h2⟩ := hbk b hb'
    rw [h1, if_pos rfl] at ll
    omega
  · rw [hlen]
    -- the program at a position of the code
    have hcode : ∀ k i, c.code.length ≤ k → (z.op (.setadd q.width)).code[k]? = some i → k ∉ brks →
        code[k]? = some (if (roff.map fun _ => p.code.length) = some k then (if wpos = some k then i.setTo (z.code.length + 1) else i).setTo (z.code.length + 1)
          else (if wpos = some k then i.setTo (z.code.length + 1) else i)) := by
      intro k i hk hi hnb
      have := ha k _ hk (by rw [hat, hi, Option.map_some])
      rw [if_neg hnb] at this
      exact this
    have hwlt : ∀ k, p.code.length ≤ k → wpos ≠ some k := fun k hk h => by have := (w3 k h).2; omega
    have hoff : ∀ k, k ≠ p.code.length → (roff.map fun _ => p.code.length) ≠ some k := by
      intro k hk h
      cases roff with
      | none => cases h
      | some r => simp only [Option.map_some, Option.some.injEq] at h; exact hk h.symm
    have hno : ∀ k, k ≠ (cntOp p roff fun r => .jgted 0 r).code.length → k ∉ brks := fun k hk h => hk (hbk k h).2
    refine w4 code (z.code.length + 1) B (fun k i hk hi => ?_) rows x a hs hpc (fun x a hs hpc => ?_)
    · have hlt := (List.getElem?_eq_some_iff.mp hi).1
      have := hcode k i hk ((eo.trans (el.trans (z1.trans ezz))).at hi) (hno k (by omega))
      rw [if_neg (hoff k (by omega))] at this
      exact this
    · refine emit_sim hp (P := p.code.length) ?_ ?_ ?_ hs hpc
      · intro i hi
        rw [hi] at lo
        simp only [Option.isSome_some, if_true] at lo
        have := hcode p.code.length _ l1 ((el.trans (z1.trans ezz)).at (cntOp_at p _ hi)) (hno _ (by rw [hi]; omega))
        rw [if_pos (by rw [hi]; rfl), if_neg (hwlt _ (Nat.le_refl _))] at this
        exact this
      · intro i hi
        rw [← lo]
        have hpos := hat (cntOp p roff fun r => .jgted 0 r).code.length
        rw [(z1.trans ezz).at (cntOp_at (cntOp p roff fun r => .jgted 0 r) _ hi), Option.map_some] at hpos
        have := ha (cntOp p roff fun r => .jgted 0 r).code.length _ (by omega) hpos
        rw [if_pos (by rw [← hb, hi]; exact List.mem_singleton.mpr rfl)] at this
        rw [this]
        split <;> split <;> rfl
      · intro x a hs hpc
        rw [← lo, ← ll] at hpc
        refine add_sim hf hq.sel.1 hq.sel.2 hsel (fun i => by rw [cntOp_map, cntOp_map]; exact w2 i) hp (js := brks) (B := B) (fun k i hk hi => ?_) (fun j hj => ?_) ?_ B hs hpc
        · by_cases hkb : k ∈ brks
          · obtain ⟨h1, h2⟩ := hbk k hkb
            rw [h1, if_pos rfl] at ll
            omega
          · have hk' : k ≠ p.code.length ∨ roff = none := by
              by_cases h0 : roff = none
              · exact .inr h0
              · left
                cases roff with
                | none => exact absurd rfl h0
                | some r => simp only [Option.isSome_some, if_true] at lo; omega
            have := hcode k i (by omega) (ezz.at hi) hkb
            rw [if_neg (by
              rcases hk' with h | h
              · exact hoff k h
              · rw [h]; exact fun h => by cases h), if_neg (hwlt k (by omega))] at this
            rw [if_neg hkb]
            exact this
        · obtain ⟨h1, h2⟩ := hbk j hj
          rw [h1, if_pos rfl] at ll
          left; omega
        · have hz : (z.op (.setadd q.width)).code[z.code.length]? = some (.setadd q.width) := op_at _ _
          have hnb : z.code.length ∉ brks := fun h => by
            obtain ⟨h1, h2⟩ := hbk _ h
            rw [h1, if_pos rfl] at ll
            omega
          have := hcode z.code.length _ (by omega) hz hnb
          rw [hq.width] at this
          rw [this]
          split <;> split <;> rfl

end Verif.Compile
