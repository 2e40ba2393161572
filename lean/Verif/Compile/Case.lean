import Verif.Compile.Args
/-!
# CASE: the WHENs, the jumps between them and the patching of their targets
-/
set_option linter.unusedSimpArgs false
set_option linter.unusedVariables false
namespace Verif.Compile
open Verif.Query (CmpOp)

variable {W : Type} {E : Env W} {vars : List Val}

theorem modify_mid (a : List Instr) (x : Instr) (b : List Instr) (f : Instr → Instr) (n : Nat) (hn : n = a.length) :
    (a ++ x :: b).modify n f = a ++ f x :: b := by
  subst hn
  induction a with
  | nil => simp [List.modify_zero_cons]
  | cons y a ih => simp [List.modify_succ_cons, ih]

/-- the patches of a list of jumps on a program -/
def patchL (js : List Nat) (t : Nat) (code : List Instr) : List Instr := js.foldl (fun l j => l.modify j (Instr.setA t)) code

theorem patchAll_code (js : List Nat) (t : Nat) (c : CS) : (patchAll js t c).code = patchL js t c.code ∧ (patchAll js t c).map = c.map := by
  induction js generalizing c with
  | nil => exact ⟨rfl, rfl⟩
  | cons j js ih => exact ih (c.patch j t)

/-- what the WHENs add to the program: `frag e` is their code with the jumps to the end aimed at `e` -/
structure ShapeW (c c' : CS) (rres : Nat) (t0 t1 : Ty) (jn : List Nat) (frag : Nat → List Instr) : Prop where
  code : c'.code = c.code ++ frag 0
  len : ∀ e, (frag e).length = (frag 0).length
  patch : ∀ pre post e, pre.length = c.code.length → patchL jn e (pre ++ frag 0 ++ post) = pre ++ frag e ++ post
  map : ∀ i, atR c'.map i = if i = rres then some t1 else atR c.map i
  up : t0 = .null ∨ t0 = t1

def SimW (E : Env W) (vars : List Val) (rres : Nat) (em : CS → List Nat → Option (CS × List Nat))
    (ev : W → Except Stop (Option Val × W)) (mem : Prop) : Prop :=
  ∀ c js c' js' t0, em c js = some (c', js') → atR c.map rres = some t0 → ∃ t1 jn frag, js' = js ++ jn ∧ ShapeW c c' rres t0 t1 jn frag ∧
    ∀ e code s, Frag code c.code.length (frag e) → s.pc = c.code.length → HasVars vars s.stack →
      (∀ w', ev s.world = .ok (none, w') → ∃ s', Exec E code s s' ∧ s'.pc = c'.code.length ∧ s'.world = w' ∧ s'.stack = s.stack ∧
        (∀ i, atR c.map i ≠ none → s'.reg i = s.reg i) ∧ (mem → Clean c.map s → Clean c.map s' ∧ s'.leak = s.leak)) ∧
      (∀ v w', ev s.world = .ok (some v, w') → HasTy v t1 ∧ ∃ s', Exec E code s s' ∧ s'.pc = e ∧ s'.world = w' ∧ s'.stack = s.stack ∧
        (s'.reg rres).val = v ∧ (∀ i, i ≠ rres → atR c.map i ≠ none → s'.reg i = s.reg i) ∧
        (mem → Clean c.map s → (s.reg rres).buf = false → Clean c.map s' ∧ s'.leak = s.leak)) ∧
      (∀ x, ev s.world = .error x → Fails E code s x)

theorem SimW.nil (rres : Nat) : SimW E vars rres (fun c js => some (c, js)) (fun w => .ok (none, w)) True := by
  intro c js c' js' t0 he h0
  cases he
  refine ⟨t0, [], fun _ => [], by simp, ⟨by simp, fun _ => rfl, fun _ _ _ _ => rfl, fun i => ?_, .inr rfl⟩, fun e code s hf hp hv => ⟨fun w' hev => ?_, fun v w' hev => (by cases hev), fun x hx => (by cases hx)⟩⟩
  · by_cases h : i = rres
    · rw [if_pos h, h, h0]
    · rw [if_neg h]
  · cases hev
    exact ⟨s, .refl _, hp, rfl, rfl, fun _ _ => rfl, fun _ hc => ⟨hc, rfl⟩⟩

theorem set_some_at {m : List (Option Ty)} {r : Nat} {u : Ty} (h : atR m r = some u) (t : Ty) (i : Nat) :
    atR (m.set r (some t)) i = if i = r then some t else atR m i := set_at m r _ i (.inl (by rw [h]; simp))

theorem caseMove_spec {rres rt : Nat} {c d : CS} {t0 t : Ty} (h0 : atR c.map rres = some t0) (ht : atR c.map rt = some t) (hne : rres ≠ rt)
    (h : caseMove rres rt c = some d) : d.code = c.code ++ [.mov rres rt] ∧ ∃ t1, (t0 = .null ∨ t0 = t1) ∧ (t = .null ∨ t = t1) ∧
      ∀ i, atR d.map i = if i = rt then none else if i = rres then some t1 else atR c.map i := by
  unfold caseMove at h
  rw [Option.bind_eq_some_iff] at h
  obtain ⟨c1, h1, h2⟩ := h
  cases h2
  unfold caseType at h1
  rw [rtype_of h0, rtype_of ht] at h1
  by_cases hn : t0 = .null
  · rw [if_pos hn] at h1
    cases h1
    refine ⟨rfl, t, .inl hn, .inr rfl, fun i => ?_⟩
    show atR ((c.map.set rres (some t)).set rt none) i = _
    rw [unpin_at, set_some_at h0]
  · rw [if_neg hn] at h1
    by_cases hm : t0 ≠ t ∧ t ≠ .null
    · rw [if_pos hm] at h1; cases h1
    · rw [if_neg hm] at h1
      cases h1
      refine ⟨rfl, t0, .inr rfl, ?_, fun i => ?_⟩
      · by_cases e : t0 = t
        · exact .inr e.symm
        · exact .inl (Decidable.byContradiction fun h => hm ⟨e, h⟩)
      · show atR (c.map.set rt none) i = _
        rw [unpin_at]
        by_cases e : i = rt
        · rw [if_pos e, if_pos e]
        · rw [if_neg e, if_neg e]
          by_cases e' : i = rres
          · rw [if_pos e', e', h0]
          · rw [if_neg e']

/-- the move of a THEN or ELSE into the result -/
theorem move_ok (s : VM W) (a b : Nat) (hne : a ≠ b) : stepI E (.mov a b) s = .ok (s.move a b).next ∧
    ((s.move a b).next.reg a).val = (s.reg b).val ∧ (∀ i, i ≠ a → i ≠ b → (s.move a b).next.reg i = s.reg i) ∧
    (Wf s → (s.reg a).buf = false → (s.move a b).next.leak = s.leak ∧ ((s.move a b).next.reg b).buf = false ∧ Wf (s.move a b).next) := by
  refine ⟨rfl, ?_, fun i ha hb => ?_, fun hw hb => ⟨?_, ?_, ?_⟩⟩
  · show (if a = b then (⟨.null, false⟩ : Cell) else if a = a then s.reg b else s.reg a).val = _
    rw [if_neg hne, if_pos rfl]
  · show (if i = b then (⟨.null, false⟩ : Cell) else if i = a then s.reg b else s.reg i) = _
    rw [if_neg hb, if_neg ha]
  · show (if (s.reg a).val = Val.null ∧ (s.reg a).buf then s.leak + 1 else s.leak) = _
    rw [if_neg (by rw [hb]; simp)]
  · show (if b = b then (⟨.null, false⟩ : Cell) else _).buf = false
    rw [if_pos rfl]
  · intro i hi
    change (if i = b then (⟨.null, false⟩ : Cell) else if i = a then s.reg b else s.reg i).buf = true at hi
    show (if i = b then (⟨.null, false⟩ : Cell) else if i = a then s.reg b else s.reg i).val.heap = true
    by_cases e : i = b
    · rw [if_pos e] at hi; cases hi
    · rw [if_neg e] at hi ⊢
      by_cases e' : i = a
      · rw [if_pos e'] at hi ⊢; exact hw b hi
      · rw [if_neg e'] at hi ⊢; exact hw i hi

theorem SimW.cons {rres : Nat} {emc evc emt evt emr evr} {lkc memc lkt memt memr : Prop} (hc : SimF E vars emc evc lkc memc)
    (ht : SimF E vars emt evt lkt memt) (hnl : ¬ lkt) (hw : SimW E vars rres emr evr memr) :
    SimW E vars rres (fun c js => (emc c).bind fun k => (emt (k.1.op (Instr.jntr 0 k.2))).bind fun q => (caseMove rres q.2 q.1).bind fun d =>
        emr (((d.op (Instr.jmp 0)).patch k.1.code.length (d.code.length + 1)).unpin k.2) (js ++ [d.code.length]))
      (fun w => (evc w).bind fun p => (isTrue p.1).bind fun holds =>
        if holds then (evt p.2).bind fun q => .ok (some q.1, q.2) else evr p.2) (memc ∧ memt ∧ memr) := by
  intro c js c' js' t0 he h0
  simp only [Option.bind_eq_some_iff] at he
  obtain ⟨⟨c1, k⟩, he1, ⟨c2, q⟩, he2, d, he3, he4⟩ := he
  dsimp only at he2 he3 he4
  obtain ⟨fc, tc, hs1, hr1⟩ := hc c c1 k he1
  obtain ⟨ft, tt, hs2, hr2⟩ := ht _ c2 q he2
  have hm1' : (c1.op (Instr.jntr 0 k)).map = c1.map := rfl
  rw [hm1'] at hr2
  have hfr2 : atR c1.map q = none := hs2.fresh
  have hmap2 : ∀ i, atR c2.map i = if i = q then some tt else atR c1.map i := hs2.map
  have hk1 : atR c1.map k = some tc := by rw [hs1.map, if_pos rfl]
  have hrk : rres ≠ k := by intro e; have := hs1.fresh; rw [← e, h0] at this; cases this
  have h01 : atR c1.map rres = some t0 := by rw [hs1.map, if_neg hrk, h0]
  have hrq : rres ≠ q := by intro e; rw [← e, h01] at hfr2; cases hfr2
  have hkq : k ≠ q := by intro e; rw [← e, hk1] at hfr2; cases hfr2
  have h02 : atR c2.map rres = some t0 := by rw [hmap2, if_neg hrq, h01]
  have hq2 : atR c2.map q = some tt := by rw [hmap2, if_pos rfl]
  have hcq : atR c.map q = none := by rw [hs1.map, if_neg (Ne.symm hkq)] at hfr2; exact hfr2
  obtain ⟨hdc, t1, hu0, hut, hdm⟩ := caseMove_spec h02 hq2 hrq he3
  -- the code so far
  have l1 : c1.code = c.code ++ fc := hs1.code
  have l2 : c2.code = c.code ++ fc ++ [Instr.jntr 0 k] ++ ft := by
    have : c2.code = (c1.code ++ [Instr.jntr 0 k]) ++ ft := hs2.code
    rw [this, l1]
  generalize hd' : (((d.op (Instr.jmp 0)).patch c1.code.length (d.code.length + 1)).unpin k) = d' at he4
  have hL : d.code.length = c.code.length + fc.length + 1 + ft.length + 1 := by rw [hdc, l2]; simp; omega
  have hdcode : d'.code = c.code ++ (fc ++ Instr.jntr (d.code.length + 1) k :: (ft ++ [Instr.mov rres q, Instr.jmp 0])) := by
    rw [← hd']
    show (d.code ++ [Instr.jmp 0]).modify c1.code.length (Instr.setA (d.code.length + 1)) = _
    rw [show d.code ++ [Instr.jmp 0] = (c.code ++ fc) ++ Instr.jntr 0 k :: (ft ++ [Instr.mov rres q, Instr.jmp 0]) by rw [hdc, l2]; simp,
      modify_mid _ _ _ _ _ (by rw [l1])]
    simp [Instr.setA]
  have hdlen : d'.code.length = d.code.length + 1 := by rw [hdcode, hL]; simp; omega
  have hdmap : ∀ i, atR d'.map i = if i = rres then some t1 else atR c.map i := by
    intro i
    rw [← hd']
    show atR (d.map.set k none) i = _
    rw [unpin_at, hdm, hmap2, hs1.map]
    by_cases e : i = k
    · rw [if_pos e, if_neg (by rw [e]; exact Ne.symm hrk), e, hs1.fresh]
    · rw [if_neg e, if_neg e]
      by_cases e2 : i = q
      · rw [if_pos e2, if_neg (by rw [e2]; exact Ne.symm hrq), e2, hcq]
      · rw [if_neg e2, if_neg e2]
  obtain ⟨t2, jn, fr, hjs, hsw, hrr⟩ := hw d' _ c' js' t1 he4 (by rw [hdmap, if_pos rfl])
  have hfl : ∀ e, (fc ++ Instr.jntr (d.code.length + 1) k :: (ft ++ [Instr.mov rres q, Instr.jmp e])).length = fc.length + 1 + ft.length + 2 := by
    intro e; simp; omega
  refine ⟨t2, d.code.length :: jn, fun e => fc ++ Instr.jntr (d.code.length + 1) k :: (ft ++ [Instr.mov rres q, Instr.jmp e]) ++ fr e,
    by rw [hjs]; simp, ⟨?_, fun e => ?_, fun pre post e hpre => ?_, fun i => ?_, ?_⟩, fun e code s hf hp hv => ?_⟩
  · rw [hsw.code, hdcode]; simp
  · have := hsw.len e
    simp only [List.length_append, List.length_cons, List.length_nil]; omega
  · show patchL jn e ((pre ++ _ ++ post).modify d.code.length (Instr.setA e)) = _
    have e1 : pre ++ (fc ++ Instr.jntr (d.code.length + 1) k :: (ft ++ [Instr.mov rres q, Instr.jmp 0]) ++ fr 0) ++ post
        = (pre ++ fc ++ Instr.jntr (d.code.length + 1) k :: (ft ++ [Instr.mov rres q])) ++ Instr.jmp 0 :: (fr 0 ++ post) := by simp
    rw [e1, modify_mid _ _ _ _ _ (by rw [hL]; simp; omega)]
    have e2 : (pre ++ fc ++ Instr.jntr (d.code.length + 1) k :: (ft ++ [Instr.mov rres q])) ++ Instr.setA e (Instr.jmp 0) :: (fr 0 ++ post)
        = (pre ++ (fc ++ Instr.jntr (d.code.length + 1) k :: (ft ++ [Instr.mov rres q, Instr.jmp e]))) ++ fr 0 ++ post := by simp [Instr.setA]
    rw [e2, hsw.patch _ post e (by rw [hdlen, hL]; simp; omega)]
    simp
  · rw [hsw.map, hdmap]
    by_cases e : i = rres
    · rw [if_pos e, if_pos e]
    · rw [if_neg e, if_neg e, if_neg e]
  · rcases hu0 with e | e
    · exact .inl e
    · rcases hsw.up with e' | e'
      · exact .inl (by rw [e, e'])
      · exact .inr (by rw [e, e'])
  · obtain ⟨hfA, hfR⟩ := hf.app
    rw [hfl, show c.code.length + (fc.length + 1 + ft.length + 2) = d'.code.length by rw [hdlen, hL]; omega] at hfR
    obtain ⟨hf1, hfB⟩ := hfA.app
    have hlen1 : c1.code.length = c.code.length + fc.length := by rw [l1]; simp
    rw [← hlen1] at hfB
    have hjn := hfB.one
    have hfC : Frag code (c1.code.length + 1) (ft ++ [Instr.mov rres q, Instr.jmp e]) := (Frag.app (f := [_]) hfB).2
    obtain ⟨hfT, hfD⟩ := hfC.app
    have hlen2 : c2.code.length = c1.code.length + 1 + ft.length := by rw [l2, l1]; simp; omega
    rw [← hlen2] at hfD
    have hmv := hfD.one
    have hjm : code[c2.code.length + 1]? = some (Instr.jmp e) := ((Frag.app (f := [_]) hfD).2).one
    obtain ⟨r1, r2⟩ := hr1 code s hf1 hp hv
    have hopl : (c1.op (Instr.jntr 0 k)).code.length = c1.code.length + 1 := by simp [CS.op]
    -- the condition
    cases hv1 : evc s.world with
    | error x0 =>
      refine ⟨fun w' hev => (by dsimp only at hev; rw [hv1] at hev; cases hev), fun v w' hev => (by dsimp only at hev; rw [hv1] at hev; cases hev), fun x hx => ?_⟩
      dsimp only at hx; rw [hv1] at hx
      have : x0 = x := by simpa [Except.bind] using hx
      subst this
      exact r2 _ hv1
    | ok p =>
      obtain ⟨_, s1, hx1, po1⟩ := r1 p.1 p.2 hv1
      have hst : stepI E (Instr.jntr (d.code.length + 1) k) s1 = (isTrue p.1).bind fun x =>
          if x then .ok (s1.free k).next else .ok { s1.free k with pc := d.code.length + 1 } := by
        show (isTrue (s1.reg k).val).bind _ = _
        rw [po1.val]
      have hcode1 : code[s1.pc]? = some (Instr.jntr (d.code.length + 1) k) := by rw [po1.pc]; exact hjn
      -- what is clean after the jump
      have hclean : memc → Clean c.map s → Clean c.map (s1.free k) := by
        intro hm hcl
        obtain ⟨m1, m2⟩ := po1.mem hm hcl
        refine ⟨free_wf m1.1 k, fun i hi => ?_⟩
        by_cases e : i = k
        · rw [e]; exact free_buf m1.1 k
        · rw [free_ne _ _ e]; exact m1.2 i (by rw [hs1.map, if_neg e]; exact hi)
      have hkeep : ∀ i, atR c.map i ≠ none → (s1.free k).reg i = s.reg i := by
        intro i hi
        have : i ≠ k := by rintro rfl; exact hi hs1.fresh
        rw [free_ne _ _ this]; exact po1.keep i hi
      cases hb : isTrue p.1 with
      | error x0 =>
        rw [hb] at hst
        refine ⟨fun w' hev => ?_, fun v w' hev => ?_, fun x hx => ?_⟩
        · dsimp only at hev; rw [hv1] at hev; simp only [Except.bind, hb] at hev; cases hev
        · dsimp only at hev; rw [hv1] at hev; simp only [Except.bind, hb] at hev; cases hev
        · dsimp only at hx; rw [hv1] at hx; simp only [Except.bind, hb] at hx; cases hx
          exact hx1.fails (fails_now hcode1 hst)
      | ok b =>
        rw [hb] at hst
        cases b with
        | false =>
          have hst : stepI E (Instr.jntr (d.code.length + 1) k) s1 = .ok { s1.free k with pc := d.code.length + 1 } := hst
          have hx2 := hx1.trans (.one hcode1 hst)
          obtain ⟨q1, q2, q3⟩ := hrr e code { s1.free k with pc := d.code.length + 1 } hfR (by rw [hdlen]) (by show HasVars vars s1.stack; rw [po1.stack]; exact hv)
          have hwd : ({ s1.free k with pc := d.code.length + 1 } : VM W).world = p.2 := po1.world
          rw [hwd] at q1 q2 q3
          have hcl : memc → Clean c.map s → Clean d'.map { s1.free k with pc := d.code.length + 1 } := by
            intro hm hcl
            obtain ⟨n1, n2⟩ := hclean hm hcl
            refine ⟨n1, fun i hi => ?_⟩
            rw [hdmap] at hi
            by_cases e : i = rres
            · rw [if_pos e] at hi; cases hi
            · rw [if_neg e] at hi; exact n2 i hi
          have hdn : ∀ i, atR c.map i ≠ none → atR d'.map i ≠ none := by
            intro i hi; rw [hdmap]
            by_cases e : i = rres
            · rw [if_pos e]; simp
            · rw [if_neg e]; exact hi
          have back : ∀ s2 : VM W, (s2.reg rres).buf = (s2.reg rres).buf → Clean d'.map s2 → Clean c.map s2 := by
            intro s2 _ hc2
            refine ⟨hc2.1, fun i hi => hc2.2 i ?_⟩
            rw [hdmap, if_neg (by rintro rfl; rw [h0] at hi; cases hi)]; exact hi
          refine ⟨fun w' hev => ?_, fun v w' hev => ?_, fun x hx => ?_⟩
          · dsimp only at hev; rw [hv1] at hev; simp only [Except.bind, hb] at hev
            obtain ⟨s2, y1, y2, y3, y4, y5, y6⟩ := q1 w' hev
            refine ⟨s2, hx2.trans y1, y2, y3, by rw [y4]; exact po1.stack, fun i hi => by rw [y5 i (hdn i hi)]; exact hkeep i hi, fun hm hc => ?_⟩
            obtain ⟨z1, z2⟩ := y6 hm.2.2 (hcl hm.1 hc)
            exact ⟨back _ rfl z1, by rw [z2]; exact (po1.mem hm.1 hc).2⟩
          · dsimp only at hev; rw [hv1] at hev; simp only [Except.bind, hb] at hev
            obtain ⟨hty, s2, y1, y2, y3, y4, y5, y6, y7⟩ := q2 v w' hev
            refine ⟨hty, s2, hx2.trans y1, y2, y3, by rw [y4]; exact po1.stack, y5, fun i hr hi => by rw [y6 i hr (hdn i hi)]; exact hkeep i hi, fun hm hc hbr => ?_⟩
            obtain ⟨z1, z2⟩ := y7 hm.2.2 (hcl hm.1 hc) (by show ((s1.free k).reg rres).buf = false; rw [hkeep rres (by rw [h0]; simp)]; exact hbr)
            exact ⟨back _ rfl z1, by rw [z2]; exact (po1.mem hm.1 hc).2⟩
          · dsimp only at hx; rw [hv1] at hx; simp only [Except.bind, hb] at hx
            exact hx2.fails (q3 x hx)
        | true =>
          have hst : stepI E (Instr.jntr (d.code.length + 1) k) s1 = .ok (s1.free k).next := hst
          have hx2 := hx1.trans (.one hcode1 hst)
          rw [hopl] at hr2
          obtain ⟨q1, q2⟩ := hr2 code (s1.free k).next hfT (by show s1.pc + 1 = _; rw [po1.pc]) (by show HasVars vars s1.stack; rw [po1.stack]; exact hv)
          have hwd : (s1.free k).next.world = p.2 := po1.world
          rw [hwd] at q1 q2
          cases hv2 : evt p.2 with
          | error x0 =>
            refine ⟨fun w' hev => ?_, fun v w' hev => ?_, fun x hx => ?_⟩
            · dsimp only at hev; rw [hv1] at hev; simp only [Except.bind, hb, if_true, hv2] at hev; cases hev
            · dsimp only at hev; rw [hv1] at hev; simp only [Except.bind, hb, if_true, hv2] at hev; cases hev
            · dsimp only at hx; rw [hv1] at hx; simp only [Except.bind, hb, if_true, hv2] at hx; cases hx
              exact hx2.fails (q2 _ hv2)
          | ok z =>
            refine ⟨fun w' hev => ?_, fun v w' hev => ?_, fun x hx => ?_⟩
            · dsimp only at hev; rw [hv1] at hev; simp only [Except.bind, hb, if_true, hv2] at hev; cases hev
            · dsimp only at hev; rw [hv1] at hev; simp only [Except.bind, hb, if_true, hv2] at hev; cases hev
              obtain ⟨hty, s2, y1, po2⟩ := q1 z.1 z.2 hv2
              obtain ⟨g1, g2, g3, g4⟩ := move_ok (E := E) s2 rres q hrq
              have hj : stepI E (Instr.jmp e) (s2.move rres q).next = .ok { (s2.move rres q).next with pc := e } := rfl
              have hx3 : Exec E code s { (s2.move rres q).next with pc := e } :=
                hx2.trans (y1.trans ((Exec.one (by rw [po2.pc]; exact hmv) g1).trans
                  (.one (by show code[s2.pc + 1]? = _; rw [po2.pc]; exact hjm) hj)))
              have hpin : ∀ i, atR c.map i ≠ none → atR c1.map i ≠ none ∧ i ≠ q := by
                intro i hi
                refine ⟨?_, by rintro rfl; exact hi hcq⟩
                rw [hs1.map]
                by_cases e : i = k
                · rw [if_pos e]; simp
                · rw [if_neg e]; exact hi
              have hkr : s2.reg rres = s.reg rres := by
                rw [po2.keep rres (by rw [h01]; simp)]; exact hkeep rres (by rw [h0]; simp)
              refine ⟨((hty hnl).up hut).up hsw.up, _, hx3, rfl, po2.world, ?_, ?_, fun i hr hi => ?_, fun hm hc hbr => ?_⟩
              · show s2.stack = _
                rw [po2.stack]; exact po1.stack
              · show ((s2.move rres q).next.reg rres).val = _
                rw [g2, po2.val]
              · show (s2.move rres q).next.reg i = _
                rw [g3 i hr (hpin i hi).2, po2.keep i (hpin i hi).1]; exact hkeep i hi
              · have hc1 : Clean c1.map (s1.free k).next := by
                  obtain ⟨n1, n2⟩ := hclean hm.1 hc
                  refine ⟨n1, fun i hi => n2 i ?_⟩
                  rw [hs1.map] at hi
                  by_cases e : i = k
                  · rw [if_pos e] at hi; cases hi
                  · rw [if_neg e] at hi; exact hi
                obtain ⟨m1, m2⟩ := po2.mem hm.2.1 hc1
                obtain ⟨w1, w2, w3⟩ := g4 m1.1 (by rw [hkr]; exact hbr)
                refine ⟨⟨w3, fun i hi => ?_⟩, ?_⟩
                · show ((s2.move rres q).next.reg i).buf = false
                  have hir : i ≠ rres := by rintro rfl; rw [h0] at hi; cases hi
                  by_cases e : i = q
                  · rw [e]; exact w2
                  · rw [g3 i hir e]
                    by_cases e' : i = k
                    · subst e'
                      rw [po2.keep i (by rw [hk1]; simp)]
                      exact free_buf (po1.mem hm.1 hc).1.1 i
                    · exact m1.2 i (by rw [hmap2, if_neg e, hs1.map, if_neg e']; exact hi)
                · show (s2.move rres q).next.leak = _
                  rw [w1, m2]; exact (po1.mem hm.1 hc).2
            · dsimp only at hx; rw [hv1] at hx; simp only [Except.bind, hb, if_true, hv2] at hx; cases hx

/-- the whole of CASE -/
theorem SimF.case {emw : Nat → CS → List Nat → Option (CS × List Nat)} {evw eme eve} {memw lke meme : Prop} (hw : ∀ rres, SimW E vars rres (emw rres) evw memw)
    (he : SimF E vars eme eve lke meme) (hnl : ¬ lke) :
    SimF E vars (fun c => (emw (c.pin .null).2 (c.pin .null).1 []).bind fun p => (eme p.1).bind fun q =>
        (caseMove (c.pin .null).2 q.2 q.1).bind fun d => some (patchAll p.2 d.code.length d, (c.pin .null).2))
      (fun w => (evw w).bind fun p => p.1.elim (eve p.2) fun v => .ok (v, p.2)) False (memw ∧ meme) := by
  intro c c' r hem
  dsimp only at hem
  generalize hr : (c.pin .null).2 = rres at hem
  have hr' : (pinAt c.map .null).2 = rres := hr
  have hfr : atR c.map rres = none := by rw [← hr']; exact pin_fresh _ _
  have hpm : ∀ i, atR (c.pin .null).1.map i = if i = rres then some .null else atR c.map i := by
    intro i; show atR (pinAt c.map .null).1 i = _; rw [pin_at, hr']
  have hpc : (c.pin .null).1.code = c.code := rfl
  generalize (c.pin .null).1 = cp at hem hpm hpc
  simp only [Option.bind_eq_some_iff, Option.some.injEq, Prod.mk.injEq] at hem
  obtain ⟨⟨c1, js⟩, he1, ⟨c2, q⟩, he2, d, he3, he4, he5⟩ := hem
  dsimp only at he2 he3 he4 he5
  subst he5
  obtain ⟨t1, jn, fr, hjs, hsw, hrr⟩ := hw rres cp [] c1 js .null he1 (by rw [hpm, if_pos rfl])
  rw [List.nil_append] at hjs
  subst hjs
  obtain ⟨fe, te, hs2, hr2⟩ := he c1 c2 q he2
  have h01 : atR c1.map rres = some t1 := by rw [hsw.map, if_pos rfl]
  have hrq : rres ≠ q := by intro e; have := hs2.fresh; rw [← e, h01] at this; cases this
  have h02 : atR c2.map rres = some t1 := by rw [hs2.map, if_neg hrq, h01]
  have hq2 : atR c2.map q = some te := by rw [hs2.map, if_pos rfl]
  have hcq : atR c.map q = none := by
    have := hs2.fresh
    rw [hsw.map, if_neg (Ne.symm hrq), hpm, if_neg (Ne.symm hrq)] at this; exact this
  obtain ⟨hdc, t2, hu1, hue, hdm⟩ := caseMove_spec h02 hq2 hrq he3
  have l1 : c1.code = c.code ++ fr 0 := by rw [hsw.code, hpc]
  have l2 : d.code = c.code ++ fr 0 ++ (fe ++ [Instr.mov rres q]) := by rw [hdc, hs2.code, l1]; simp
  generalize hL : d.code.length = L at he4
  have hcode : c'.code = c.code ++ (fr L ++ (fe ++ [Instr.mov rres q])) := by
    rw [← he4, (patchAll_code js L d).1, l2, hsw.patch _ _ L (by rw [hpc])]; simp
  have hcl : c'.code.length = L := by
    have := hsw.len L
    have h2 := hL
    rw [l2] at h2
    rw [hcode]
    simp only [List.length_append, List.length_cons, List.length_nil] at h2 ⊢; omega
  have hmap : ∀ i, atR c'.map i = if i = rres then some t2 else atR c.map i := by
    intro i
    rw [← he4, (patchAll_code js L d).2, hdm, hs2.map, hsw.map, hpm]
    by_cases e : i = q
    · rw [if_pos e, if_neg (by rw [e]; exact Ne.symm hrq), e, hcq]
    · rw [if_neg e, if_neg e]
      by_cases e' : i = rres
      · rw [if_pos e', if_pos e']
      · rw [if_neg e', if_neg e', if_neg e', if_neg e']
  refine ⟨fr L ++ (fe ++ [Instr.mov rres q]), t2, ⟨hcode, hfr, hmap⟩, fun code s hf hp hv => ?_⟩
  obtain ⟨hf1, hf'⟩ := hf.app
  obtain ⟨hf2, hf3⟩ := hf'.app
  have hlen1 : c1.code.length = c.code.length + (fr L).length := by rw [l1, hsw.len L]; simp
  have hlen2 : c2.code.length = c.code.length + (fr L).length + fe.length := by rw [hs2.code]; simp [hlen1]
  have hlL : L = c2.code.length + 1 := by rw [← hL, hdc]; simp
  rw [← hlen1] at hf2
  rw [← hlen2] at hf3
  obtain ⟨q1, q2, q3⟩ := hrr L code s (by rw [hpc]; exact hf1) (by rw [hpc]; exact hp) hv
  have hcp : ∀ i, i ≠ rres → atR cp.map i = atR c.map i := fun i hi => by rw [hpm, if_neg hi]
  have hnr : ∀ i, atR c.map i ≠ none → i ≠ rres := by rintro i hi rfl; exact hi hfr
  have hclp : Clean c.map s → Clean cp.map s := by
    intro hc
    refine ⟨hc.1, fun i hi => ?_⟩
    rw [hpm] at hi
    by_cases e : i = rres
    · rw [if_pos e] at hi; cases hi
    · rw [if_neg e] at hi; exact hc.2 i hi
  cases hv1 : evw s.world with
  | error x0 =>
    refine ⟨fun v w' hev => (by dsimp only at hev; rw [hv1] at hev; cases hev), fun x hx => ?_⟩
    dsimp only at hx; rw [hv1] at hx
    have : x0 = x := by simpa [Except.bind] using hx
    subst this
    exact q3 _ hv1
  | ok p =>
    obtain ⟨o, w1⟩ := p
    cases o with
    | some v0 =>
      refine ⟨fun v w' hev => ?_, fun x hx => by dsimp only at hx; rw [hv1] at hx; cases hx⟩
      dsimp only at hev; rw [hv1] at hev; cases hev
      obtain ⟨hty, s2, y1, y2, y3, y4, y5, y6, y7⟩ := q2 _ _ hv1
      refine ⟨fun _ => hty.up hu1, s2, y1, ⟨by rw [y2, hcl], y5, y3, y4, fun i hi => y6 i (hnr i hi) (by rw [hcp i (hnr i hi)]; exact hi), fun hm hc => ?_⟩⟩
      obtain ⟨z1, z2⟩ := y7 hm.1 (hclp hc) (hc.2 rres hfr)
      refine ⟨⟨z1.1, fun i hi => ?_⟩, z2⟩
      rw [hmap] at hi
      by_cases e : i = rres
      · rw [if_pos e] at hi; cases hi
      · rw [if_neg e] at hi; exact z1.2 i (by rw [hcp i e]; exact hi)
    | none =>
      obtain ⟨s1, y1, y2, y3, y4, y5, y6⟩ := q1 _ hv1
      obtain ⟨e1, e2⟩ := hr2 code s1 hf2 y2 (by rw [y4]; exact hv)
      rw [y3] at e1 e2
      refine ⟨fun v w' hev => ?_, fun x hx => ?_⟩
      · dsimp only at hev; rw [hv1] at hev
        have hev : eve w1 = .ok (v, w') := hev
        obtain ⟨hty, s2, z1, po⟩ := e1 v w' hev
        obtain ⟨g1, g2, g3, g4⟩ := move_ok (E := E) s2 rres q hrq
        have hrk : s2.reg rres = s.reg rres := by
          rw [po.keep rres (by rw [h01]; simp)]; exact y5 rres (by rw [hpm, if_pos rfl]; simp)
        refine ⟨fun _ => (hty hnl).up hue, _, y1.trans (z1.trans (.one (by rw [po.pc]; exact hf3.one) g1)), ⟨?_, by rw [g2, po.val], po.world, ?_, fun i hi => ?_, fun hm hc => ?_⟩⟩
        · show s2.pc + 1 = _
          rw [po.pc, hcl, hlL]
        · show s2.stack = _
          rw [po.stack, y4]
        · have hiq : i ≠ q := by rintro rfl; exact hi hcq
          rw [g3 i (hnr i hi) hiq, po.keep i (by rw [hsw.map, if_neg (hnr i hi), hcp i (hnr i hi)]; exact hi),
            y5 i (by rw [hcp i (hnr i hi)]; exact hi)]
        · obtain ⟨a1, a2⟩ := y6 hm.1 (hclp hc)
          have hc1 : Clean c1.map s1 := by
            refine ⟨a1.1, fun i hi => ?_⟩
            rw [hsw.map] at hi
            by_cases e : i = rres
            · rw [if_pos e] at hi; cases hi
            · rw [if_neg e] at hi; exact a1.2 i hi
          obtain ⟨m1, m2⟩ := po.mem hm.2 hc1
          obtain ⟨w1', w2, w3⟩ := g4 m1.1 (by rw [hrk]; exact hc.2 rres hfr)
          refine ⟨⟨w3, fun i hi => ?_⟩, by rw [w1', m2, a2]⟩
          rw [hmap] at hi
          by_cases e : i = rres
          · rw [if_pos e] at hi; cases hi
          · rw [if_neg e] at hi
            by_cases e' : i = q
            · rw [e']; exact w2
            · rw [g3 i e e']; exact m1.2 i (by rw [hs2.map, if_neg e', hsw.map, if_neg e, hcp i e]; exact hi)
      · dsimp only at hx; rw [hv1] at hx
        have hx : eve w1 = .error x := hx
        exact y1.fails (e2 x hx)

end Verif.Compile
