import Verif.Compile.ScanRow
/-!
# Scans: the loops
-/
set_option linter.unusedSimpArgs false
set_option linter.unusedVariables false
namespace Verif.Compile

variable {W : Type} {T : Tables W}

/-- a table of FROM is one the theorems are about: its keys and stop conditions are expressions the theorems are about, it has no stop
conditions if the index is a hash index, and its rows have the types of its columns -/
structure TargetOk (T : Tables W) (S : Sig) (vars : List Val) (t : Target) : Prop where
  start : t.start.Ok T.fn S.fnDerive ∧ t.start.VarsOk vars.length
  stop : ∀ e ∈ t.stop, e.Ok T.fn S.fnDerive ∧ e.VarsOk vars.length
  tree : t.tree = true ∨ t.stop = []
  ty : ∀ key r n v, r ∈ T.rows t.table t.point key → r[n]? = some v → HasTy v (S.colTy t.id n)

/-- what a loop does, before its cursor is closed -/
def RunsL (S : Sig) (vars : List Val) (roff rlim : Option Nat) (m m' : List (Option Ty)) (rows : Nat → Option Row) (code : List XInstr) (x : XVM W) (fin B : Nat)
    (T : Tables W) (r : Except Stop (Acc W × Bool)) : Prop :=
  (∀ a' b, r = .ok (a', b) → ∃ x', XExec T code x x' ∧ x'.vm.pc = (if b then B else fin) ∧ St S vars roff rlim rows x' a' ∧ Done m roff rlim x x' ∧
    (b = false → (∀ i, atR m' i = none → x.cur i = none) → ∀ i, atR m' i = none → x'.cur i = none)) ∧
  (∀ er, r = .error er → XFails T code x er)

theorem loop_sim {S : Sig} {vars : List Val} (hf : FnsOk T S vars) {t : Target} (ht : TargetOk T S vars t) {roff rlim : Option Nat}
    {m m' : List (Option Ty)} (hp : Pins S m roff rlim) {rc : Nat} (hfr : atR m rc = none) {ty : Ty} (hm' : ∀ i, atR m' i = if i = rc then some ty else atR m i)
    {o st : XCS} {sjs : List Nat} (hst : scanStop (S.bindCursor t.id rc) t.stop o [] = some (st, sjs)) (hom : o.map = m')
    {code : List XInstr} {e B ml : Nat} (hag : Agree code st o.code.length sjs e)
    {once : Bool} (hnx : once = false → code[ml]? = some (.next rc o.code.length) ∧ e = ml + 1) (hon : once = true → e = ml)
    {rows : Nat → Option Row} {body : Row → Acc W → Except Stop (Acc W × Bool)}
    (hbody : ∀ r x a, St (S.bindCursor t.id rc) vars roff rlim (setRow rows t.id r) x a → x.vm.pc = st.code.length →
      Runs (S.bindCursor t.id rc) vars roff rlim st.map (setRow rows t.id r) code x ml B T (body r a)) :
    ∀ (l : List Row) (hl : l ≠ []) (hty : ∀ r ∈ l, ∀ n v, r[n]? = some v → HasTy v (S.colTy t.id n)) (x : XVM W) (a : Acc W),
      St S vars roff rlim rows x a → x.vm.pc = o.code.length → x.cur rc = some l →
      RunsL S vars roff rlim m m' rows code x e B T
        (loopSem body (fun r w => condsSem (T.sem (setRow rows t.id r)) vars t.stop w) once l a) := by
  have hp' : Pins (S.bindCursor t.id rc) o.map roff rlim := by
    have hne : ∀ i, atR m i ≠ none → atR o.map i ≠ none := by
      intro i hi
      rw [hom, hm']
      split
      · exact fun h => by cases h
      · exact hi
    refine ⟨fun i h => hne i (hp.off i h), fun i h => hne i (hp.lim i h), hp.ne, fun t' rc' h => ?_⟩
    simp only [Sig.bindCursor] at h
    split at h
    · cases h
      rw [hom, hm', if_pos rfl]; exact fun h => by cases h
    · exact hne _ (hp.cur t' rc' h)
  obtain ⟨s1, s2, _, s4⟩ := stop_sim (S := S.bindCursor t.id rc) (⟨hf.var, hf.fn, hf.derive⟩ : FnsOk T (S.bindCursor t.id rc) vars) t.stop (fun e he => (ht.stop e he).1) (fun e he => (ht.stop e he).2) hst
  intro l
  induction l with
  | nil => intro hl; exact absurd rfl hl
  | cons r rs ih =>
    intro _ hty x a hs hpc hcur
    -- the state of the body
    have hcur' : CurOk (S.bindCursor t.id rc) x.cur (setRow rows t.id r) := by
      refine ⟨fun t' rc' h => ?_, fun t' r' n v h1 h2 => ?_⟩
      · simp only [Sig.bindCursor] at h
        by_cases htt : t' = t.id
        · rw [if_pos htt] at h
          cases h
          exact ⟨r, rs, hcur, by simp [setRow, htt]⟩
        · rw [if_neg htt] at h
          obtain ⟨r', rest, h1, h2⟩ := hs.cur.cur t' rc' h
          exact ⟨r', rest, h1, by simp [setRow, htt, h2]⟩
      · simp only [setRow] at h1
        show HasTy v (S.colTy t' n)
        by_cases htt : t' = t.id
        · rw [if_pos htt] at h1
          cases h1
          rw [htt]
          exact hty r (List.mem_cons_self ..) n v h2
        · rw [if_neg htt] at h1
          exact hs.cur.ty t' r' n v h1 h2
    have hs' : St (S.bindCursor t.id rc) vars roff rlim (setRow rows t.id r) x a := ⟨hs.world, hs.out, hs.vars, hcur', hs.off, hs.lim⟩
    -- back
    have hback : ∀ (y : XVM W) (a' : Acc W), St (S.bindCursor t.id rc) vars roff rlim (setRow rows t.id r) y a' → Done m roff rlim x y → St S vars roff rlim rows y a' := by
      intro y a' hy hd
      exact ⟨hy.world, hy.out, hy.vars, hs.cur.of fun t' rc' h => hd.cur rc' (hp.cur t' rc' h), hy.off, hy.lim⟩
    have hup : ∀ i, atR m i ≠ none → atR m' i ≠ none := by
      intro i hi
      rw [hm']
      split
      · exact fun h => by cases h
      · exact hi
    have hdown : ∀ {y z : XVM W}, Done m' roff rlim y z → Done m roff rlim y z := fun h =>
      ⟨h.stack, fun i hi => h.reg i (hup i hi), fun i hi => h.cur i (hup i hi)⟩
    obtain ⟨q1, q2⟩ := s4 code e (by simp) hag (setRow rows t.id r) x hcur' hpc hs.vars
    rw [loopSem]
    rw [← hs.world]
    cases hev : condsSem (T.sem (setRow rows t.id r)) vars t.stop x.vm.world with
    | error er => exact ⟨fun a' b h => (by cases h), fun er' h => (by cases h; exact q2 er hev)⟩
    | ok pr =>
      obtain ⟨b, w⟩ := pr
      obtain ⟨x1, hx1, hpc1, hw1, hk1⟩ := q1 b w hev
      have hs1 := hs'.kept hp' hk1
      rw [hw1] at hs1
      have hd1 : Done m roff rlim x x1 := hdown (hom ▸ hk1.done roff rlim)
      cases b with
      | false =>
        refine ⟨fun a' b h => ?_, fun er h => by cases h⟩
        cases h
        exact ⟨x1, hx1, hpc1, hback _ _ hs1 hd1, hd1, fun _ hcl => by rw [hk1.cur]; exact hcl⟩
      | true =>
        simp only [Except.bind, if_true]
        obtain ⟨b1, b2⟩ := hbody r x1 _ hs1 (by rw [hpc1]; rfl)
        cases hbe : body r { a with world := w } with
        | error er => exact ⟨fun a' b h => (by cases h), fun er' h => (by cases h; exact hx1.fails (b2 er hbe))⟩
        | ok br =>
          obtain ⟨a2, bb⟩ := br
          obtain ⟨x2, hx2, hpc2, hs2, hd2, hc2⟩ := b1 a2 bb hbe
          have hst' : ∀ i, atR st.map i = atR m' i := fun i => by rw [s2, hom]
          have hd2' : Done m' roff rlim x1 x2 := ⟨hd2.stack, fun i hi => hd2.reg i (by rw [hst']; exact hi), fun i hi => hd2.cur i (by rw [hst']; exact hi)⟩
          have hd12 : Done m roff rlim x x2 := hd1.trans (hdown hd2')
          have hcl2 : bb = false → (∀ i, atR m' i = none → x.cur i = none) → ∀ i, atR m' i = none → x2.cur i = none := by
            intro hb hcl i hi
            exact hc2 hb (fun j hj => by rw [hk1.cur]; exact hcl j (by rw [← hst']; exact hj)) i (by rw [hst']; exact hi)
          dsimp only
          cases bb with
          | true =>
            refine ⟨fun a' b h => ?_, fun er h => by cases h⟩
            cases h
            exact ⟨x2, hx1.trans hx2, hpc2, hback _ _ hs2 hd12, hd12, fun h => by cases h⟩
          | false =>
            simp only [Bool.false_eq_true, if_false] at hpc2 ⊢
            cases honce : once with
            | true =>
              simp only [if_true]
              refine ⟨fun a' b h => ?_, fun er h => by cases h⟩
              cases h
              exact ⟨x2, hx1.trans hx2, by simp only [Bool.false_eq_true, if_false]; rw [hpc2, hon honce], hback _ _ hs2 hd12, hd12, hcl2⟩
            | false =>
              simp only [Bool.false_eq_true, if_false]
              obtain ⟨n1, n2⟩ := hnx honce
              have hrc : x2.cur rc = some (r :: rs) := by
                rw [hd2'.cur rc (by rw [hm', if_pos rfl]; exact fun h => by cases h), hk1.cur, hcur]
              have hstep : stepX T (.next rc o.code.length) x2 =
                  .ok { x2 with vm := if rs = [] then x2.vm.next else x2.vm.goto o.code.length, cur := setCur x2.cur rc (some rs) } := by
                show (x2.cur rc).elim _ _ = _
                rw [hrc]; rfl
              have hne : ∀ i, i ≠ rc → setCur x2.cur rc (some rs) i = x2.cur i := fun i hi => by simp [setCur, hi]
              -- after the step
              have key : ∀ (v : VM W), v.world = x2.vm.world → v.stack = x2.vm.stack → v.reg = x2.vm.reg →
                  St S vars roff rlim rows { x2 with vm := v, cur := setCur x2.cur rc (some rs) } a2 ∧
                  Done m roff rlim x { x2 with vm := v, cur := setCur x2.cur rc (some rs) } := by
                intro v e1 e2 e3
                have hdd : Done m roff rlim x2 { x2 with vm := v, cur := setCur x2.cur rc (some rs) } :=
                  ⟨e2, fun i _ _ _ => by show v.reg i = _; rw [e3], fun i hi => hne i (by rintro rfl; exact hi hfr)⟩
                have hsb := hback _ _ hs2 hd12
                refine ⟨⟨by rw [← hs2.world]; exact e1, hs2.out, by show HasVars vars v.stack; rw [e2]; exact hs2.vars,
                  hsb.cur.of fun t' rc' h => hdd.cur rc' (hp.cur t' rc' h), hs2.off.of fun i _ => by show v.reg i = _; rw [e3],
                  hs2.lim.of fun i _ => by show v.reg i = _; rw [e3]⟩, hd12.trans hdd⟩
              have hclk : ∀ (v : VM W), (∀ i, atR m' i = none → x.cur i = none) → ∀ i, atR m' i = none → setCur x2.cur rc (some rs) i = none := by
                intro v hcl i hi
                rw [hne i (by rintro rfl; rw [hm', if_pos rfl] at hi; cases hi)]
                exact hcl2 rfl hcl i hi
              by_cases hrs : rs = []
              · subst hrs
                rw [if_pos rfl] at hstep
                obtain ⟨k1, k2⟩ := key x2.vm.next rfl rfl rfl
                refine ⟨fun a' b h => ?_, fun er h => by cases h⟩
                cases h
                exact ⟨_, hx1.trans (hx2.trans (.one (by rw [hpc2]; exact n1) hstep)),
                  by show x2.vm.pc + 1 = _; rw [hpc2, n2]; rfl, k1, k2, fun _ hcl => hclk x2.vm hcl⟩
              · rw [if_neg hrs] at hstep
                obtain ⟨k1, k2⟩ := key (x2.vm.goto o.code.length) rfl rfl rfl
                obtain ⟨r1, r2⟩ := ih hrs (fun r' hr' => hty r' (List.mem_cons_of_mem _ hr')) _ a2 k1 rfl (by simp [setCur])
                have hto := hx1.trans (hx2.trans (.one (by rw [hpc2]; exact n1) hstep))
                rw [honce] at r1 r2
                refine ⟨fun a' b h => ?_, fun er h => hto.fails (r2 er h)⟩
                obtain ⟨x3, g1, g2, g3, g4, g5⟩ := r1 a' b h
                exact ⟨x3, hto.trans g1, g2, g3, k2.trans g4, fun hb hcl => g5 hb (fun i hi => hclk x2.vm hcl i hi)⟩

/-- the scan of the tables from one on -/
theorem from_sim {vars : List Val} {q : Query} {roff rlim : Option Nat} {junk : List Nat} : ∀ (ts : List Target) (outer : Bool) (S : Sig) (c c' : XCS) (brks : List Nat),
    scanFrom junk q roff rlim outer ts S c = some (c', brks) → FnsOk T S vars → QueryOk T S vars q → (∀ t ∈ ts, TargetOk T S vars t) → Pins S c.map roff rlim →
    Ext c c' ∧ (∀ i, atR c'.map i = atR c.map i) ∧ (∀ b ∈ brks, c.code.length ≤ b ∧ b < c'.code.length) ∧
    ∀ code B, (outer = true → ts ≠ [] → B = c'.code.length) → Agree code c' c.code.length brks B → ∀ rows x a, St S vars roff rlim rows x a → x.vm.pc = c.code.length →
      Runs S vars roff rlim c.map rows code x c'.code.length B T (nestSem T vars q ts rows a) := by
  intro ts
  induction ts with
  | nil =>
    intro outer S c c' brks h hf hq _ hp
    rw [scanFrom] at h
    obtain ⟨g1, g2, g3, g4⟩ := match_sim hf hq h hp
    exact ⟨g1, g2, g3, fun code B _ => g4 code B⟩
  | cons t ts ih =>
    intro outer S c c' brks h hf hq hts hp
    have ht := hts t (List.mem_cons_self ..)
    rw [scanFrom] at h
    rw [Option.bind_eq_some_iff] at h
    obtain ⟨⟨k, nk⟩, hk, h⟩ := h
    rw [Option.bind_eq_some_iff] at h
    obtain ⟨⟨st, sjs⟩, hst, h⟩ := h
    rw [Option.bind_eq_some_iff] at h
    obtain ⟨⟨m1, mb⟩, hm, h⟩ := h
    dsimp only at hst hm h
    have hstops : (if t.tree = true then t.stop else []) = t.stop := by
      rcases ht.tree with h | h
      · rw [if_pos h]
      · rw [h, ite_self]
    rw [hstops] at hst
    have hsj : (if t.tree = true then sjs else junk.take t.stop.length) = sjs := by
      rcases ht.tree with h | h
      · rw [if_pos h]
      · rw [h] at hst ⊢
        cases hst
        split <;> simp
    rw [hsj] at h
    generalize hrc : k.pinCur.2 = rc at hst hm h
    generalize ho : k.pinCur.1.op (.open_ rc t.table t.point nk 0) = o at hst
    generalize hn : (if (t.point && t.unique) = true then m1 else m1.op (.next rc (k.code.length + 1))) = n at h
    simp only [Option.some.injEq, Prod.mk.injEq] at h
    obtain ⟨hc', hb⟩ := h
    have hf' : FnsOk T (S.bindCursor t.id rc) vars := ⟨hf.var, hf.fn, hf.derive⟩
    have hq' : QueryOk T (S.bindCursor t.id rc) vars q := ⟨hq.wh, hq.sel, hq.width⟩
    have hts' : ∀ u ∈ ts, TargetOk T (S.bindCursor t.id rc) vars u := fun u hu =>
      ⟨(hts u (List.mem_cons_of_mem _ hu)).start, (hts u (List.mem_cons_of_mem _ hu)).stop, (hts u (List.mem_cons_of_mem _ hu)).tree, (hts u (List.mem_cons_of_mem _ hu)).ty⟩
    obtain ⟨k1, k2, k3⟩ := xargs_sim hf ht.start.1 ht.start.2 hk
    obtain ⟨s1, s2, ⟨new, snew, snb⟩, _⟩ := stop_sim hf' t.stop (fun e he => (ht.stop e he).1) (fun e he => (ht.stop e he).2) hst
    rw [List.nil_append] at snew
    subst snew
    have hfr : atR c.map rc = none := by
      rw [← k2, ← hrc]; exact pin_fresh _ _
    have hom : ∀ i, atR o.map i = if i = rc then some .null else atR c.map i := by
      intro i
      rw [← ho, ← k2, ← hrc]
      exact pin_at _ _ _
    have hol : o.code.length = k.code.length + 1 := by rw [← ho]; exact op_len _ _
    have hko : Ext k o := by rw [← ho]; exact ⟨[_], rfl⟩
    have hoat : o.code[k.code.length]? = some (.open_ rc t.table t.point nk 0) := by rw [← ho]; exact op_at _ _
    have hp' : Pins (S.bindCursor t.id rc) st.map roff rlim := by
      have hne : ∀ i, atR c.map i ≠ none → atR st.map i ≠ none := by
        intro i hi
        rw [s2, hom]
        split
        · exact fun h => by cases h
        · exact hi
      refine ⟨fun i h => hne i (hp.off i h), fun i h => hne i (hp.lim i h), hp.ne, fun t' rc' h => ?_⟩
      simp only [Sig.bindCursor] at h
      split at h
      · cases h
        rw [s2, hom, if_pos rfl]; exact fun h => by cases h
      · exact hne _ (hp.cur t' rc' h)
    obtain ⟨i1, i2, i3, i4⟩ := ih false _ st m1 mb hm hf' hq' hts' hp'
    have hmn : Ext m1 n := by
      rw [← hn]
      split
      · exact .refl _
      · exact .op _ _
    have hnm : n.map = m1.map := by
      rw [← hn]
      split <;> rfl
    have l1 := k1.len
    have l2 := s1.len
    have l3 := i1.len
    have l4 := hmn.len
    have ezz : Ext c n := k1.trans (hko.trans (s1.trans (i1.trans hmn)))
    have hlen : c'.code.length = n.code.length + 1 := by
      rw [← hc']
      show ((XCS.op _ _).code).length = _
      rw [op_len]
      split <;> simp only [patchAll_len, patch_len]
    have hmid : ∀ p i, n.code[p]? = some i →
        c'.code[p]? = some (if outer = true ∧ p ∈ mb then i.setTo n.code.length else if p = k.code.length ∨ p ∈ sjs then i.setTo n.code.length else i) := by
      intro p i hi
      have hlt := (List.getElem?_eq_some_iff.mp hi).1
      rw [← hc']
      show (XCS.op _ _).code[p]? = _
      have hz : ((n.patch k.code.length n.code.length).patchAll sjs n.code.length).code[p]? = some (if p = k.code.length ∨ p ∈ sjs then i.setTo n.code.length else i) := by
        rw [patchAll_at, patch_at, hi]
        simp only [Option.map_some, Option.some.injEq]
        by_cases h1 : p = k.code.length <;> by_cases h2 : p ∈ sjs <;> simp [h1, h2, setTo_idem]
      refine (Ext.op _ _).at ?_
      cases outer with
      | false => simpa using hz
      | true =>
        simp only [if_true]
        rw [patchAll_at, hz]
        simp only [Option.map_some, Option.some.injEq, true_and]
        by_cases h1 : p ∈ mb
        · rw [if_pos h1, if_pos h1]
          split
          · exact setTo_idem _ _
          · rfl
        · rw [if_neg h1, if_neg h1]
    have hfree : c'.code[n.code.length]? = some (.free rc) := by
      rw [← hc']
      show (XCS.op _ _).code[n.code.length]? = _
      have : ((if outer = true then ((n.patch k.code.length n.code.length).patchAll sjs n.code.length).patchAll mb n.code.length
          else (n.patch k.code.length n.code.length).patchAll sjs n.code.length)).code.length = n.code.length := by
        split <;> simp only [patchAll_len, patch_len]
      have h2 := op_at (if outer = true then ((n.patch k.code.length n.code.length).patchAll sjs n.code.length).patchAll mb n.code.length
          else (n.patch k.code.length n.code.length).patchAll sjs n.code.length) (.free rc)
      rw [this] at h2
      exact h2
    have hbr : ∀ b ∈ brks, outer = false ∧ b ∈ mb := by
      intro b hb'
      rw [← hb] at hb'
      cases outer with
      | true => simp at hb'
      | false => exact ⟨rfl, by simpa using hb'⟩
    refine ⟨ext_of (fun p hpl => ?_) (by omega), fun i => ?_, fun b hb' => ?_, fun code B hB ha rows x a hs hpc => ?_⟩
    · cases hck : c.code[p]? with
      | none => rw [List.getElem?_eq_none_iff] at hck; omega
      | some i =>
        rw [hmid p i (ezz.at hck), if_neg, if_neg]
        · rintro (h | h)
          · omega
          · have := snb p h; omega
        · rintro ⟨_, h⟩
          have := i3 p h; omega
    · rw [← hc']
      show atR ((XCS.op _ _).map.set rc none) i = _
      rw [unpin_at]
      by_cases hir : i = rc
      · rw [if_pos hir, hir, hfr]
      · rw [if_neg hir]
        have : atR n.map i = atR c.map i := by rw [hnm, i2, s2, hom, if_neg hir]
        rw [← this]
        show atR (XCS.map (if outer = true then _ else _)) i = _
        split <;> simp only [patchAll_map, patch_map]
    · obtain ⟨_, h⟩ := hbr b hb'
      have := i3 b h
      omega
    · -- the program
      have hat : ∀ p i, c.code.length ≤ p → n.code[p]? = some i →
          code[p]? = some (if p ∈ mb then i.setTo (if outer = true then n.code.length else B) else if p = k.code.length ∨ p ∈ sjs then i.setTo n.code.length else i) := by
        intro p i hlo hi
        have := ha p _ hlo (hmid p i hi)
        rw [this]
        cases outer with
        | true =>
          rw [← hb]
          simp
        | false =>
          rw [← hb]
          by_cases h1 : p ∈ mb
          · have := i3 p h1
            have h2 : ¬ (p = k.code.length ∨ p ∈ sjs) := by
              rintro (h | h)
              · omega
              · have := snb p h; omega
            simp [h1, h2]
          · simp [h1]
      have hfr' : code[n.code.length]? = some (.free rc) := by
        have := ha n.code.length _ (by omega) hfree
        rw [this]
        split <;> rfl
      have hnmb : ∀ p, p < st.code.length → p ∉ mb := fun p hp h => by have := i3 p h; omega
      have hnsj : ∀ p, p < o.code.length ∨ st.code.length ≤ p → p ∉ sjs := fun p hp h => by have := snb p h; omega
      -- what follows the loop
      have hclose : ∀ (y : XVM W) (a' : Acc W) (b : Bool), St S vars roff rlim rows y a' → Done c.map roff rlim x y → XExec T code x y →
          y.vm.pc = (if b then (if outer = true then n.code.length else B) else n.code.length) →
          (b = false → (∀ i, atR c.map i = none → x.cur i = none) → ∀ i, atR c.map i = none → i ≠ rc → y.cur i = none) →
          ∃ x', XExec T code x x' ∧ x'.vm.pc = (if b then B else c'.code.length) ∧ St S vars roff rlim rows x' a' ∧ Done c.map roff rlim x x' ∧
            (b = false → (∀ i, atR c.map i = none → x.cur i = none) → ∀ i, atR c.map i = none → x'.cur i = none) := by
        intro y a' b hy hd hx hypc hcl
        by_cases hbo : b = true ∧ outer = false
        · obtain ⟨rfl, rfl⟩ := hbo
          simp only [if_true, Bool.false_eq_true, if_false] at hypc
          exact ⟨y, hx, by rw [if_pos rfl]; exact hypc, hy, hd, fun h => by cases h⟩
        · have hpcn : y.vm.pc = n.code.length := by
            cases b with
            | false => simpa using hypc
            | true =>
              cases outer with
              | false => exact absurd ⟨rfl, rfl⟩ hbo
              | true => simpa using hypc
          have hfin : (if b then B else c'.code.length) = c'.code.length := by
            cases b with
            | false => rfl
            | true =>
              cases outer with
              | false => exact absurd ⟨rfl, rfl⟩ hbo
              | true => rw [if_pos rfl]; exact hB rfl (by simp)
          have hstep : stepX T (.free rc) y = .ok { y with vm := y.vm.next, cur := setCur y.cur rc none } := rfl
          have hne : ∀ i, i ≠ rc → setCur y.cur rc none i = y.cur i := fun i hi => by simp [setCur, hi]
          have hdd : Done c.map roff rlim y { y with vm := y.vm.next, cur := setCur y.cur rc none } :=
            ⟨rfl, fun _ _ _ _ => rfl, fun i hi => hne i (by rintro rfl; exact hi hfr)⟩
          refine ⟨_, hx.trans (.one (by rw [hpcn]; exact hfr') hstep), ?_, ⟨hy.world, hy.out, hy.vars, hy.cur.of fun t' rc' h => hdd.cur rc' (hp.cur t' rc' h), hy.off, hy.lim⟩, hd.trans hdd, fun hbf hclosed i hi => ?_⟩
          · rw [hfin]
            show y.vm.pc + 1 = _
            rw [hpcn, hlen]
          · show setCur y.cur rc none i = none
            by_cases hir : i = rc
            · simp [setCur, hir]
            · rw [hne i hir]
              exact hcl hbf hclosed i hi hir
      -- the keys
      have hagk : Agree code k c.code.length [] 0 := by
        intro p i hlo hi
        have hlt := (List.getElem?_eq_some_iff.mp hi).1
        have := hat p i hlo ((hko.trans (s1.trans (i1.trans hmn))).at hi)
        rw [if_neg (hnmb p (by omega)), if_neg (by rintro (h | h); omega; exact hnsj p (by omega) h)] at this
        simpa using this
      obtain ⟨q1, q2⟩ := k3 code [] 0 hagk (by simp) rows x hs.cur hpc hs.vars
      rw [nestSem, ← hs.world]
      cases hev : evalArgs (T.sem rows) vars t.start x.vm.world with
      | error er => exact ⟨fun a' b h => (by cases h), fun er' h => (by cases h; exact q2 er hev)⟩
      | ok pr =>
        obtain ⟨key, w⟩ := pr
        obtain ⟨hnk, x1, hx1, hpc1, hw1, ⟨⟨cells, hstk, hcv⟩, hreg, hcur, hout⟩⟩ := q1 key w hev
        have hcl : cells.length = nk := by rw [← hnk, ← hcv, List.length_map]
        have htop : x1.vm.top nk = cells := top_app x1.vm _ cells _ hstk hcl
        have hpop : (x1.vm.popn nk).stack = x.vm.stack := by
          show x1.vm.stack.take _ = _
          exact take_app x1.vm _ cells _ hstk hcl
        have hopen : code[k.code.length]? = some (.open_ rc t.table t.point nk n.code.length) := by
          have := hat k.code.length _ l1 ((s1.trans (i1.trans hmn)).at hoat)
          rw [if_neg (hnmb _ (by omega)), if_pos (.inl rfl)] at this
          exact this
        have hlts : ¬ x1.vm.stack.length < nk := by rw [hstk]; simp [hcl]
        simp only [Except.bind]
        -- the state after the cursor was opened
        have key' : ∀ (v : VM W) (l : List Row), v.world = x1.vm.world → v.stack = x.vm.stack → v.reg = x1.vm.reg →
            St S vars roff rlim rows { x1 with vm := v, cur := setCur x1.cur rc (some l) } { a with world := w } ∧
            Done c.map roff rlim x { x1 with vm := v, cur := setCur x1.cur rc (some l) } := by
          intro v l e1 e2 e3
          have hdd : Done c.map roff rlim x { x1 with vm := v, cur := setCur x1.cur rc (some l) } :=
            ⟨e2, fun i hi _ _ => by show v.reg i = _; rw [e3]; exact hreg i hi,
              fun i hi => by
                show setCur x1.cur rc (some l) i = _
                have : i ≠ rc := by rintro rfl; exact hi hfr
                simp [setCur, this, hcur]⟩
          refine ⟨⟨by rw [← hw1]; exact e1, by rw [← hs.out]; exact hout, by show HasVars vars v.stack; rw [e2]; exact hs.vars,
            hs.cur.of fun t' rc' h => hdd.cur rc' (hp.cur t' rc' h), hs.off.of fun i hi => by show v.reg i = _; rw [e3]; exact hreg i (hp.off i hi),
            hs.lim.of fun i hi => by show v.reg i = _; rw [e3]; exact hreg i (hp.lim i hi)⟩, hdd⟩
        by_cases hemp : T.rows t.table t.point key = []
        · have hstep : stepX T (.open_ rc t.table t.point nk n.code.length) x1 =
              .ok { x1 with vm := (x1.vm.popn nk).goto n.code.length, cur := setCur x1.cur rc (some []) } := by
            show (if _ then _ else _) = _
            rw [if_neg hlts, htop, hcv, if_pos hemp]
          obtain ⟨y1, y2⟩ := key' ((x1.vm.popn nk).goto n.code.length) [] rfl hpop rfl
          rw [hemp]
          refine ⟨fun a' b h => ?_, fun er h => by cases h⟩
          cases h
          refine hclose _ _ false y1 y2 (hx1.trans (.one (by rw [hpc1]; exact hopen) hstep)) rfl (fun _ hcl i hi hir => ?_)
          show setCur x1.cur rc (some []) i = none
          simp only [setCur, if_neg hir, hcur]
          exact hcl i hi
        · have hstep : stepX T (.open_ rc t.table t.point nk n.code.length) x1 =
              .ok { x1 with vm := (x1.vm.popn nk).next, cur := setCur x1.cur rc (some (T.rows t.table t.point key)) } := by
            show (if _ then _ else _) = _
            rw [if_neg hlts, htop, hcv, if_neg hemp]
          obtain ⟨y1, y2⟩ := key' (x1.vm.popn nk).next (T.rows t.table t.point key) rfl hpop rfl
          have hto := hx1.trans (.one (by rw [hpc1]; exact hopen) hstep)
          have hags : Agree code st o.code.length sjs n.code.length := by
            intro p i hlo hi
            have hlt := (List.getElem?_eq_some_iff.mp hi).1
            have := hat p i (by omega) ((i1.trans hmn).at hi)
            rw [if_neg (hnmb p hlt)] at this
            rw [this]
            by_cases h2 : p ∈ sjs
            · simp [h2]
            · have h3 : p ≠ k.code.length := by omega
              simp [h2, h3]
          have hagm : Agree code m1 st.code.length mb (if outer = true then n.code.length else B) := by
            intro p i hlo hi
            have := hat p i (by omega) (hmn.at hi)
            rw [this]
            have h3 : ¬ (p = k.code.length ∨ p ∈ sjs) := by
              rintro (h | h)
              · omega
              · exact hnsj p (.inr hlo) h
            simp [h3]
          have hloop := loop_sim hf ht hp hfr hom hst rfl (code := code) (e := n.code.length) (B := if outer = true then n.code.length else B) (ml := m1.code.length) hags
            (once := t.point && t.unique) (fun ho => by
              rw [ho, if_neg (by simp)] at hn
              have hl : n.code.length = m1.code.length + 1 := by rw [← hn]; exact op_len _ _
              refine ⟨?_, hl⟩
              have := hat m1.code.length (.next rc (k.code.length + 1)) (by omega) (by rw [← hn]; exact op_at _ _)
              rw [this, hol]
              split
              · rfl
              · split <;> rfl) (fun ho => by
              rw [ho, if_pos rfl] at hn
              rw [hn]) (rows := rows) (body := fun r a => nestSem T vars q ts (setRow rows t.id r) a)
            (fun r x a hs hpc => i4 code _ (fun h => by cases h) hagm _ x a hs hpc)
            (T.rows t.table t.point key) hemp (fun r hr n v hv => ht.ty key r n v hr hv) _ _ y1 (by show x1.vm.pc + 1 = _; rw [hpc1, hol]) (by simp [setCur])
          refine ⟨fun a' b h => ?_, fun er h => hto.fails (hloop.2 er h)⟩
          obtain ⟨x3, g1, g2, g3, g4, g5⟩ := hloop.1 a' b h
          refine hclose x3 a' b g3 (y2.trans g4) (hto.trans g1) g2 (fun hbf hcl i hi hir => ?_)
          refine g5 hbf (fun j hj => ?_) i (by rw [hom, if_neg hir]; exact hi)
          rw [hom] at hj
          by_cases hjr : j = rc
          · rw [if_pos hjr] at hj; cases hj
          · rw [if_neg hjr] at hj
            show setCur x1.cur rc _ j = none
            simp only [setCur, if_neg hjr, hcur]
            exact hcl j hj

end Verif.Compile
