import Verif.Compile.Ones
/-!
# Code that computes a value: the pieces and how they are put together
-/
set_option linter.unusedSimpArgs false
set_option linter.unusedVariables false
namespace Verif.Compile
open Verif.Query (CmpOp)

variable {W : Type}

/-- the variables are at the bottom of the stack -/
def HasVars (vars : List Val) (st : List Cell) : Prop := ∀ n, n < vars.length → ∃ c, st[n]? = some c ∧ c.val = vars.getD n .null

theorem HasVars.app {vars : List Val} {st : List Cell} (h : HasVars vars st) (more : List Cell) : HasVars vars (st ++ more) := by
  intro n hn
  obtain ⟨c, hc, hv⟩ := h n hn
  exact ⟨c, by rw [List.getElem?_append_left (List.getElem?_eq_some_iff.mp hc).1]; exact hc, hv⟩

/-- what a piece of code adds to the program and to the register map: one register `r`, free before, now pinned -/
structure Shape (c c' : CS) (r : Nat) (ty : Ty) (frag : List Instr) : Prop where
  code : c'.code = c.code ++ frag
  fresh : atR c.map r = none
  map : ∀ i, atR c'.map i = if i = r then some ty else atR c.map i

/-- the machine after it -/
structure Post (m m' : List (Option Ty)) (pc' : Nat) (s s' : VM W) (r : Nat) (v : Val) (w' : W) (mem : Prop) : Prop where
  pc : s'.pc = pc'
  val : (s'.reg r).val = v
  world : s'.world = w'
  stack : s'.stack = s.stack
  keep : ∀ i, atR m i ≠ none → s'.reg i = s.reg i
  mem : mem → Clean m s → Clean m' s' ∧ s'.leak = s.leak

/-- the code emitted by `em` computes `ev` into the register it returns -/
def SimF (E : Env W) (vars : List Val) (em : CS → Option (CS × Nat)) (ev : W → Except Stop (Val × W)) (lk mem : Prop) : Prop :=
  ∀ c c' r, em c = some (c', r) → ∃ frag ty, Shape c c' r ty frag ∧
    ∀ code s, Frag code c.code.length frag → s.pc = c.code.length → HasVars vars s.stack →
      (∀ v w', ev s.world = .ok (v, w') → (¬ lk → HasTy v ty) ∧
        ∃ s', Exec E code s s' ∧ Post c.map c'.map c'.code.length s s' r v w' mem) ∧
      (∀ x, ev s.world = .error x → Fails E code s x)

variable {E : Env W} {vars : List Val}

theorem SimF.weaken {em ev} {lk mem lk' mem' : Prop} (h : SimF E vars em ev lk mem) (hl : lk → lk') (hm : mem' → mem) :
    SimF E vars em ev lk' mem' := by
  intro c c' r he
  obtain ⟨frag, ty, hs, hr⟩ := h c c' r he
  refine ⟨frag, ty, hs, fun code s hf hp hv => ?_⟩
  obtain ⟨h1, h2⟩ := hr code s hf hp hv
  refine ⟨fun v w' hev => ?_, h2⟩
  obtain ⟨ht, s', hx, hpost⟩ := h1 v w' hev
  exact ⟨fun hn => ht (fun h => hn (hl h)), s', hx, ⟨hpost.pc, hpost.val, hpost.world, hpost.stack, hpost.keep, fun h => hpost.mem (hm h)⟩⟩

theorem SimF.congr {em em' : CS → Option (CS × Nat)} {ev ev' : W → Except Stop (Val × W)} {lk mem : Prop}
    (h : SimF E vars em ev lk mem) (h1 : ∀ c, em' c = em c) (h2 : ∀ w, ev' w = ev w) : SimF E vars em' ev' lk mem := by
  have e1 : em' = em := funext h1
  have e2 : ev' = ev := funext h2
  rw [e1, e2]; exact h

theorem oppin_code (c : CS) (t : Ty) (i : Nat → Instr) : (c.oppin t i).1.code = c.code ++ [i (pinAt c.map t).2] := rfl
theorem oppin_map (c : CS) (t : Ty) (i : Nat → Instr) : (c.oppin t i).1.map = (pinAt c.map t).1 := rfl
theorem oppin_reg (c : CS) (t : Ty) (i : Nat → Instr) : (c.oppin t i).2 = (pinAt c.map t).2 := rfl

/-- one instruction that puts a value -/
theorem SimF.leaf {t : Ty} {i : Nat → Instr} {v : Val} (ht : HasTy v t)
    (h : ∀ s a, HasVars vars s.stack → One E (i a) s a [] (.ok v)) :
    SimF E vars (fun c => some (c.oppin t i)) (fun w => .ok (v, w)) False True := by
  intro c c' r he
  have he : c.oppin t i = (c', r) := Option.some.inj he
  have hcode : c'.code = c.code ++ [i (pinAt c.map t).2] := by rw [← oppin_code, he]
  have hmap : c'.map = (pinAt c.map t).1 := by rw [← oppin_map c t i, he]
  have hreg : r = (pinAt c.map t).2 := by rw [← oppin_reg c t i, he]
  subst hreg
  refine ⟨[i (pinAt c.map t).2], t, ⟨hcode, pin_fresh _ _, fun j => by rw [hmap]; exact pin_at _ _ _⟩, fun code s hf hp hv => ?_⟩
  refine ⟨fun v' w' hev => ?_, fun x hx => by cases hx⟩
  cases hev
  obtain ⟨s1, h1, h2, h3, h4, h5, h6, h7⟩ := (h s (pinAt c.map t).2 hv).ok v rfl
  refine ⟨fun _ => ht, s1, .one (by rw [hp]; exact hf.one) h1, ?_⟩
  refine ⟨by rw [h2, hp, hcode]; simp, h3, h4, h5, fun j hj => ?_, fun _ hc => ?_⟩
  · refine h6 j ?_ (by simp)
    intro hj'; apply hj; rw [hj']; exact pin_fresh _ _
  · have ha := hc.2 _ (pin_fresh c.map t)
    obtain ⟨m1, m2, m3⟩ := h7 hc.1 ha
    refine ⟨⟨m3, fun j hj => ?_⟩, m1⟩
    rw [hmap, pin_at] at hj
    by_cases e : j = (pinAt c.map t).2
    · simp [e] at hj
    · rw [if_neg e] at hj
      rw [h6 j e (by simp)]; exact hc.2 j hj

/-- a unary operation chosen by the type of its operand -/
def emUn (em : CS → Option (CS × Nat)) (sel : Ty → Option (Ty × (Nat → Nat → Instr))) (c : CS) : Option (CS × Nat) :=
  (em c).bind fun p => (sel (p.1.rtype p.2)).bind fun x => some (p.1.un x.1 (fun a => x.2 a p.2) p.2)

theorem rtype_of {c : CS} {r : Nat} {t : Ty} (h : atR c.map r = some t) : c.rtype r = t := by
  unfold CS.rtype; rw [h]; rfl

theorem SimF.un {em ev} {lk mem lk' : Prop} (h : SimF E vars em ev lk mem)
    (sel : Ty → Option (Ty × (Nat → Nat → Instr))) (sem : Val → Except Stop Val)
    (h1 : ∀ ty t i, sel ty = some (t, i) → ∀ s a b, a ≠ b → (¬ lk → HasTy (s.reg b).val ty) →
      One E (i a b) s a [b] (sem (s.reg b).val))
    (h2 : ∀ ty t i, sel ty = some (t, i) → ¬ lk' → ∀ v v', (¬ lk → HasTy v ty) → sem v = .ok v' → HasTy v' t) :
    SimF E vars (emUn em sel) (fun w => (ev w).bind fun p => Compile.keep p.2 (sem p.1)) lk' mem := by
  intro c c' r he
  unfold emUn at he
  simp only [Option.bind_eq_some_iff, Option.some.injEq] at he
  obtain ⟨⟨c1, b⟩, he1, ⟨t, i⟩, hsel, he2⟩ := he
  obtain ⟨frag, ty, hs, hr⟩ := h c c1 b he1
  have hb : atR c1.map b = some ty := by rw [hs.map, if_pos rfl]
  simp only [rtype_of hb] at hsel
  generalize ha : (pinAt c1.map t).2 = a at *
  have hfresh : atR c1.map a = none := by rw [← ha]; exact pin_fresh _ _
  have hab : a ≠ b := by intro e; rw [e, hb] at hfresh; cases hfresh
  have hca : atR c.map a = none := by rw [hs.map, if_neg hab] at hfresh; exact hfresh
  simp only [CS.un, Prod.mk.injEq] at he2
  obtain ⟨he2, he3⟩ := he2
  rw [oppin_reg, ha] at he3
  subst he3
  have hcode : c'.code = c.code ++ (frag ++ [i a b]) := by
    rw [← he2]
    show (c1.oppin t fun a => i a b).1.code = _
    rw [oppin_code, hs.code, ha, List.append_assoc]
  have hmap : ∀ j, atR c'.map j = if j = b then none else if j = a then some t else atR c1.map j := by
    intro j
    rw [← he2]
    show atR ((c1.oppin t fun a => i a b).1.map.set b none) j = _
    rw [unpin_at, oppin_map, pin_at, ha]
  refine ⟨frag ++ [i a b], t, ⟨hcode, hca, fun j => ?_⟩, fun code s hf hp hv => ?_⟩
  · rw [hmap, hs.map]
    by_cases e : j = b
    · subst e; rw [if_pos rfl, if_neg (Ne.symm hab), hs.fresh]
    · rw [if_neg e, if_neg e]
  · obtain ⟨hf1, hf2⟩ := hf.app
    obtain ⟨r1, r2⟩ := hr code s hf1 hp hv
    have hlen : c1.code.length = c.code.length + frag.length := by rw [hs.code]; simp
    refine ⟨fun v w' hev => ?_, fun x hx => ?_⟩
    · cases hv1 : ev s.world with
      | error e => dsimp only at hev; rw [hv1] at hev; cases hev
      | ok p =>
        dsimp only at hev; rw [hv1] at hev
        simp only [Except.bind, Compile.keep] at hev
        obtain ⟨v0, hv0, hp0⟩ := map_ok hev
        cases hp0
        obtain ⟨ht, s1, hx, po⟩ := r1 p.1 p.2 hv1
        have hone := h1 ty t i hsel s1 a b hab (by rw [po.val]; exact ht)
        rw [po.val] at hone
        obtain ⟨s2, o1, o2, o3, o4, o5, o6, o7⟩ := hone.ok v hv0
        refine ⟨fun hn => h2 ty t i hsel hn _ _ ht hv0, s2,
          hx.trans (.one (by rw [po.pc, hlen]; exact hf2.one) o1), ?_⟩
        refine ⟨by rw [o2, po.pc, hcode, hlen]; simp [Nat.add_assoc], o3, by rw [o4, po.world], by rw [o5, po.stack], fun j hj => ?_, fun hm hc => ?_⟩
        · rw [o6 j (by rintro rfl; exact hj hca) (by simp only [List.mem_singleton]; rintro rfl; exact hj hs.fresh)]
          exact po.keep j hj
        · obtain ⟨hc1, hl1⟩ := po.mem hm hc
          obtain ⟨m1, m2, m3⟩ := o7 hc1.1 (hc1.2 a hfresh)
          refine ⟨⟨m3, fun j hj => ?_⟩, by rw [m1, hl1]⟩
          rw [hmap] at hj
          by_cases e : j = b
          · exact m2 j (by simp [e])
          · rw [if_neg e] at hj
            by_cases e' : j = a
            · rw [if_pos e'] at hj; cases hj
            · rw [if_neg e'] at hj
              rw [o6 j e' (by simp [e])]; exact hc1.2 j hj
    · cases hv1 : ev s.world with
      | error e =>
        dsimp only at hx; rw [hv1] at hx
        have : e = x := by simpa [Except.bind] using hx
        subst this
        exact r2 e hv1
      | ok p =>
        dsimp only at hx; rw [hv1] at hx
        simp only [Except.bind, Compile.keep] at hx
        obtain ⟨ht, s1, hxe, po⟩ := r1 p.1 p.2 hv1
        have hone := h1 ty t i hsel s1 a b hab (by rw [po.val]; exact ht)
        rw [po.val] at hone
        have hse : sem p.1 = .error x := by
          cases hq : sem p.1 with
          | error e => rw [hq] at hx; simp [Except.map] at hx; rw [hx]
          | ok v => rw [hq] at hx; simp [Except.map] at hx
        exact hxe.fails (fails_now (by rw [po.pc, hlen]; exact hf2.one) (hone.err x hse))

/-- a binary operation chosen by the types of its operands -/
def emBi (em1 em2 : CS → Option (CS × Nat)) (sel : Ty → Ty → Option (Ty × (Nat → Nat → Nat → Instr))) (c : CS) : Option (CS × Nat) :=
  (em1 c).bind fun p => (em2 p.1).bind fun q =>
    (sel (q.1.rtype p.2) (q.1.rtype q.2)).bind fun x => some (q.1.bi x.1 (fun a => x.2 a p.2 q.2) p.2 q.2)

theorem SimF.bi {em1 ev1 em2 ev2} {lk1 mem1 lk2 mem2 lk' : Prop} (h : SimF E vars em1 ev1 lk1 mem1) (h' : SimF E vars em2 ev2 lk2 mem2)
    (sel : Ty → Ty → Option (Ty × (Nat → Nat → Nat → Instr))) (sem : Val → Val → Except Stop Val)
    (h1 : ∀ tl tr t i, sel tl tr = some (t, i) → ∀ s a l r, a ≠ l → a ≠ r → (¬ lk1 → HasTy (s.reg l).val tl) →
      (¬ lk2 → HasTy (s.reg r).val tr) → One E (i a l r) s a [l, r] (sem (s.reg l).val (s.reg r).val))
    (h2 : ∀ tl tr t i, sel tl tr = some (t, i) → ¬ lk' → ∀ v u v', (¬ lk1 → HasTy v tl) → (¬ lk2 → HasTy u tr) →
      sem v u = .ok v' → HasTy v' t) :
    SimF E vars (emBi em1 em2 sel)
      (fun w => (ev1 w).bind fun p => (ev2 p.2).bind fun q => Compile.keep q.2 (sem p.1 q.1)) lk' (mem1 ∧ mem2) := by
  intro c c' r he
  unfold emBi at he
  simp only [Option.bind_eq_some_iff, Option.some.injEq] at he
  obtain ⟨⟨c1, l⟩, he1, ⟨c2, b⟩, he2, ⟨t, i⟩, hsel, he3⟩ := he
  obtain ⟨frag1, tl, hs1, hr1⟩ := h c c1 l he1
  obtain ⟨frag2, tr, hs2, hr2⟩ := h' c1 c2 b he2
  have hl1 : atR c1.map l = some tl := by rw [hs1.map, if_pos rfl]
  have hlb : l ≠ b := by intro e; have := hs2.fresh; rw [← e, hl1] at this; cases this
  have hl : atR c2.map l = some tl := by rw [hs2.map, if_neg hlb, hl1]
  have hb : atR c2.map b = some tr := by rw [hs2.map, if_pos rfl]
  simp only [rtype_of hl, rtype_of hb] at hsel
  have hcb : atR c.map b = none := by
    have := hs2.fresh; rw [hs1.map, if_neg (Ne.symm hlb)] at this; exact this
  generalize ha : (pinAt c2.map t).2 = a at *
  have hfresh : atR c2.map a = none := by rw [← ha]; exact pin_fresh _ _
  have hal : a ≠ l := by intro e; rw [e, hl] at hfresh; cases hfresh
  have hab : a ≠ b := by intro e; rw [e, hb] at hfresh; cases hfresh
  have hca : atR c.map a = none := by rw [hs2.map, if_neg hab, hs1.map, if_neg hal] at hfresh; exact hfresh
  simp only [CS.bi, Prod.mk.injEq] at he3
  obtain ⟨he3, he4⟩ := he3
  rw [oppin_reg, ha] at he4
  subst he4
  have hcode : c'.code = c.code ++ (frag1 ++ (frag2 ++ [i a l b])) := by
    rw [← he3]
    show (c2.oppin t fun a => i a l b).1.code = _
    rw [oppin_code, hs2.code, hs1.code, ha]; simp [List.append_assoc]
  have hmap : ∀ j, atR c'.map j = if j = b then none else if j = l then none else if j = a then some t else atR c2.map j := by
    intro j
    rw [← he3]
    show atR (((c2.oppin t fun a => i a l b).1.map.set l none).set b none) j = _
    rw [unpin_at, unpin_at, oppin_map, pin_at, ha]
  refine ⟨frag1 ++ (frag2 ++ [i a l b]), t, ⟨hcode, hca, fun j => ?_⟩, fun code s hf hp hv => ?_⟩
  · rw [hmap, hs2.map, hs1.map]
    by_cases e : j = b
    · subst e; rw [if_pos rfl, if_neg (Ne.symm hab), hcb]
    · rw [if_neg e, if_neg e]
      by_cases e' : j = l
      · subst e'; rw [if_pos rfl, if_neg (Ne.symm hal), hs1.fresh]
      · rw [if_neg e', if_neg e']
  · obtain ⟨hf1, hf'⟩ := hf.app
    obtain ⟨hf2, hf3⟩ := hf'.app
    obtain ⟨r1, r2⟩ := hr1 code s hf1 hp hv
    have hlen1 : c1.code.length = c.code.length + frag1.length := by rw [hs1.code]; simp
    have hlen2 : c2.code.length = c.code.length + frag1.length + frag2.length := by rw [hs2.code, hs1.code]; simp [Nat.add_assoc]
    rw [← hlen1] at hf2
    rw [← hlen2] at hf3
    refine ⟨fun v w' hev => ?_, fun x hx => ?_⟩
    · cases hv1 : ev1 s.world with
      | error e => dsimp only at hev; rw [hv1] at hev; cases hev
      | ok p =>
        dsimp only at hev; rw [hv1] at hev
        simp only [Except.bind] at hev
        obtain ⟨ht1, s1, hx1, po1⟩ := r1 p.1 p.2 hv1
        obtain ⟨q1, q2⟩ := hr2 code s1 hf2 po1.pc (by rw [po1.stack]; exact hv)
        rw [po1.world] at q1
        cases hv2 : ev2 p.2 with
        | error e => rw [hv2] at hev; cases hev
        | ok q =>
          rw [hv2] at hev
          simp only [Compile.keep] at hev
          obtain ⟨v0, hv0, hp0⟩ := map_ok hev
          cases hp0
          obtain ⟨ht2, s2, hx2, po2⟩ := q1 q.1 q.2 hv2
          have hlv : (s2.reg l).val = p.1 := by rw [po2.keep l (by rw [hl1]; simp), po1.val]
          have hone := h1 tl tr t i hsel s2 a l b hal hab (by rw [hlv]; exact ht1) (by rw [po2.val]; exact ht2)
          rw [hlv, po2.val] at hone
          obtain ⟨s3, o1, o2, o3, o4, o5, o6, o7⟩ := hone.ok v hv0
          refine ⟨fun hn => h2 tl tr t i hsel hn _ _ _ ht1 ht2 hv0, s3,
            hx1.trans (hx2.trans (.one (by rw [po2.pc]; exact hf3.one) o1)), ?_⟩
          refine ⟨by rw [o2, po2.pc, hcode, hlen2]; simp [Nat.add_assoc], o3, by rw [o4, po2.world], by rw [o5, po2.stack, po1.stack], fun j hj => ?_, fun hm hc => ?_⟩
          · have jl : j ≠ l := by rintro rfl; exact hj hs1.fresh
            have jb : j ≠ b := by rintro rfl; exact hj hcb
            rw [o6 j (by rintro rfl; exact hj hca) (by simp [jl, jb]), po2.keep j (by rw [hs1.map, if_neg jl]; exact hj)]
            exact po1.keep j hj
          · obtain ⟨hc1, hlk1⟩ := po1.mem hm.1 hc
            obtain ⟨hc2, hlk2⟩ := po2.mem hm.2 hc1
            obtain ⟨m1, m2, m3⟩ := o7 hc2.1 (hc2.2 a hfresh)
            refine ⟨⟨m3, fun j hj => ?_⟩, by rw [m1, hlk2, hlk1]⟩
            rw [hmap] at hj
            by_cases e : j = b
            · exact m2 j (by simp [e])
            · rw [if_neg e] at hj
              by_cases e'' : j = l
              · exact m2 j (by simp [e''])
              · rw [if_neg e''] at hj
                by_cases e' : j = a
                · rw [if_pos e'] at hj; cases hj
                · rw [if_neg e'] at hj
                  rw [o6 j e' (by simp [e, e''])]; exact hc2.2 j hj
    · cases hv1 : ev1 s.world with
      | error e =>
        dsimp only at hx; rw [hv1] at hx
        have : e = x := by simpa [Except.bind] using hx
        subst this
        exact r2 e hv1
      | ok p =>
        dsimp only at hx; rw [hv1] at hx
        simp only [Except.bind] at hx
        obtain ⟨ht1, s1, hx1, po1⟩ := r1 p.1 p.2 hv1
        obtain ⟨q1, q2⟩ := hr2 code s1 hf2 po1.pc (by rw [po1.stack]; exact hv)
        rw [po1.world] at q1 q2
        cases hv2 : ev2 p.2 with
        | error e =>
          rw [hv2] at hx
          have : e = x := by simpa [Except.bind] using hx
          subst this
          exact hx1.fails (q2 e hv2)
        | ok q =>
          rw [hv2] at hx
          simp only [Compile.keep] at hx
          obtain ⟨ht2, s2, hx2, po2⟩ := q1 q.1 q.2 hv2
          have hlv : (s2.reg l).val = p.1 := by rw [po2.keep l (by rw [hl1]; simp), po1.val]
          have hone := h1 tl tr t i hsel s2 a l b hal hab (by rw [hlv]; exact ht1) (by rw [po2.val]; exact ht2)
          rw [hlv, po2.val] at hone
          have hse : sem p.1 q.1 = .error x := by
            cases hq : sem p.1 q.1 with
            | error e => rw [hq] at hx; simp [Except.map] at hx; rw [hx]
            | ok v => rw [hq] at hx; simp [Except.map] at hx
          exact hx1.fails (hx2.fails (fails_now (by rw [po2.pc]; exact hf3.one) (hone.err x hse)))

/-! ## Operators -/

/-- cast_operator as a choice by types -/
def selCast (o : Op) (l r : Ty) : Option (Ty × (Nat → Nat → Nat → Instr)) :=
  if l = .null ∨ r = .null then some (.null, .nullop) else (castOp o l r).map fun e => (e.1, .op e.2)

theorem castOperator_eq (o : Op) (l r : Nat) (c : CS) : castOperator o l r c =
    (selCast o (c.rtype l) (c.rtype r)).bind fun x => some (c.bi x.1 (fun a => x.2 a l r) l r) := by
  unfold castOperator selCast
  by_cases h : c.rtype l = .null ∨ c.rtype r = .null
  · rw [if_pos h, if_pos h]; rfl
  · rw [if_neg h, if_neg h]
    cases castOp o (c.rtype l) (c.rtype r) <;> rfl

theorem selCast_one {o : Op} {tl tr t : Ty} {i : Nat → Nat → Nat → Instr} (h : selCast o tl tr = some (t, i))
    (s : VM W) (a l r : Nat) (hl : a ≠ l) (hr : a ≠ r) (htl : HasTy (s.reg l).val tl) (htr : HasTy (s.reg r).val tr) :
    One E (i a l r) s a [l, r] (binSem E.P o (s.reg l).val (s.reg r).val) := by
  unfold selCast at h
  by_cases hn : tl = .null ∨ tr = .null
  · rw [if_pos hn] at h
    cases h
    have hn' : (s.reg l).val = .null ∨ (s.reg r).val = .null := by
      rcases hn with e | e
      · subst e; exact .inl htl.null_of
      · subst e; exact .inr htr.null_of
    rw [binSem, if_pos hn']
    exact one_nullop E s a l r hl hr
  · rw [if_neg hn] at h
    cases hc : castOp o tl tr with
    | none => rw [hc] at h; cases h
    | some e =>
      rw [hc] at h
      simp only [Option.map] at h
      cases h
      exact one_op E s a l r hl hr (castOp_ok E.P (t := e.1) (c := e.2) hc) htl htr

theorem selCast_ty {o : Op} {tl tr t : Ty} {i : Nat → Nat → Nat → Instr} (h : selCast o tl tr = some (t, i)) (P : Prims)
    (ho : o ≠ .like) {v u v' : Val} (hv : HasTy v tl) (hu : HasTy u tr) (hb : binSem P o v u = .ok v') : HasTy v' t := by
  unfold selCast at h
  by_cases hn' : v = .null ∨ u = .null
  · rw [binSem, if_pos hn'] at hb; cases hb; exact .inl rfl
  · by_cases hn : tl = .null ∨ tr = .null
    · exfalso; apply hn'
      rcases hn with e | e
      · subst e; exact .inl hv.null_of
      · subst e; exact .inr hu.null_of
    · rw [if_neg hn] at h
      rw [binSem, if_neg hn'] at hb
      rw [not_or] at hn'
      cases hc : castOp o tl tr with
      | none => rw [hc] at h; cases h
      | some e =>
        rw [hc] at h
        simp only [Option.map] at h
        cases h
        have hk := castOp_ok P (t := e.1) (c := e.2) hc
        have e1 := hv.resolve_left hn'.1
        have e2 := hu.resolve_left hn'.2
        rw [← hk.sem _ _ e1 e2] at hb
        exact hk.ty ho _ _ _ e1 e2 hb

/-- an operator -/
theorem SimF.bin {em1 ev1 em2 ev2} {lk1 mem1 lk2 mem2 : Prop} (h : SimF E vars em1 ev1 lk1 mem1) (h' : SimF E vars em2 ev2 lk2 mem2)
    (n1 : ¬ lk1) (n2 : ¬ lk2) (o : Op) :
    SimF E vars (fun c => (em1 c).bind fun p => (em2 p.1).bind fun q => castOperator o p.2 q.2 q.1)
      (fun w => (ev1 w).bind fun p => (ev2 p.2).bind fun q => Compile.keep q.2 (binSem E.P o p.1 q.1)) (o = .like) (mem1 ∧ mem2) := by
  refine (SimF.bi (lk' := o = .like) h h' (selCast o) (binSem E.P o) ?_ ?_).congr (fun c => ?_) (fun w => rfl)
  · intro tl tr t i hs s a l r hl hr ht1 ht2
    exact selCast_one hs s a l r hl hr (ht1 n1) (ht2 n2)
  · intro tl tr t i hs ho v u v' ht1 ht2 hb
    exact selCast_ty hs E.P ho (ht1 n1) (ht2 n2) hb
  · unfold emBi
    simp only [castOperator_eq]

theorem notSem_ty {v v' : Val} (h : notSem v = .ok v') : HasTy v' .bool := by
  unfold notSem at h
  split at h
  · cases h; exact .inl rfl
  · obtain ⟨x, _, hx⟩ := map_ok h; subst hx; exact .inr rfl

theorem andSem_ty {u v v' : Val} (h : andSem u v = .ok v') : HasTy v' .bool := by
  unfold andSem at h
  split at h
  · cases h; exact .inl rfl
  · cases hx : isTrue u with
    | error e => rw [hx] at h; cases h
    | ok x =>
      rw [hx] at h
      obtain ⟨y, _, hy⟩ := map_ok h; subst hy; exact .inr rfl

theorem orSem_ty {u v v' : Val} (h : orSem u v = .ok v') : HasTy v' .bool := by
  unfold orSem at h
  split at h
  · cases h; exact .inl rfl
  · cases hx : isTrue u with
    | error e => rw [hx] at h; cases h
    | ok x =>
      rw [hx] at h
      obtain ⟨y, _, hy⟩ := map_ok h; subst hy; exact .inr rfl

/-- NOT -/
theorem SimF.not {em ev} {lk mem : Prop} (h : SimF E vars em ev lk mem) :
    SimF E vars (fun c => (em c).bind fun p => some (p.1.notOf p.2)) (fun w => (ev w).bind fun p => Compile.keep p.2 (notSem p.1)) False mem := by
  refine (SimF.un (lk' := False) h (fun _ => some (.bool, .not)) notSem ?_ ?_).congr (fun c => rfl) (fun w => rfl)
  · intro ty t i hs s a b hab _
    cases hs; exact one_not E s a b hab
  · intro ty t i hs _ v v' _ hb
    cases hs; exact notSem_ty hb

theorem SimF.and {em1 ev1 em2 ev2} {lk1 mem1 lk2 mem2 : Prop} (h : SimF E vars em1 ev1 lk1 mem1) (h' : SimF E vars em2 ev2 lk2 mem2) :
    SimF E vars (fun c => (em1 c).bind fun p => (em2 p.1).bind fun q => some (q.1.bi .bool (fun a => .and a p.2 q.2) p.2 q.2))
      (fun w => (ev1 w).bind fun p => (ev2 p.2).bind fun q => Compile.keep q.2 (andSem p.1 q.1)) False (mem1 ∧ mem2) := by
  refine (SimF.bi (lk' := False) h h' (fun _ _ => some (.bool, .and)) andSem ?_ ?_).congr (fun c => rfl) (fun w => rfl)
  · intro tl tr t i hs s a l r hl hr _ _
    cases hs; exact one_and E s a l r hl hr
  · intro tl tr t i hs _ v u v' _ _ hb
    cases hs; exact andSem_ty hb

theorem SimF.or {em1 ev1 em2 ev2} {lk1 mem1 lk2 mem2 : Prop} (h : SimF E vars em1 ev1 lk1 mem1) (h' : SimF E vars em2 ev2 lk2 mem2) :
    SimF E vars (fun c => (em1 c).bind fun p => (em2 p.1).bind fun q => some (q.1.bi .bool (fun a => .or a p.2 q.2) p.2 q.2))
      (fun w => (ev1 w).bind fun p => (ev2 p.2).bind fun q => Compile.keep q.2 (orSem p.1 q.1)) False (mem1 ∧ mem2) := by
  refine (SimF.bi (lk' := False) h h' (fun _ _ => some (.bool, .or)) orSem ?_ ?_).congr (fun c => rfl) (fun w => rfl)
  · intro tl tr t i hs s a l r hl hr _ _
    cases hs; exact one_or E s a l r hl hr
  · intro tl tr t i hs _ v u v' _ _ hb
    cases hs; exact orSem_ty hb

theorem vopt_ty (o : Option Bool) : HasTy (vopt o) .bool := by
  cases o
  · exact .inl rfl
  · exact .inr rfl

theorem quantSem_ty {P : Prims} {all : Bool} {k : CmpOp} {u v v' : Val} (h : quantSem P all k u v = .ok v') : HasTy v' .bool := by
  unfold quantSem at h
  split at h
  · cases h; exact .inl rfl
  · cases h; exact .inl rfl
  · obtain ⟨x, _, hx⟩ := map_ok h; subst hx; exact vopt_ty _
  · cases h

theorem SimF.quant {em1 ev1 em2 ev2} {lk1 mem1 lk2 mem2 : Prop} (h : SimF E vars em1 ev1 lk1 mem1) (h' : SimF E vars em2 ev2 lk2 mem2)
    (all : Bool) (k : CmpOp) :
    SimF E vars (fun c => (em1 c).bind fun p => (em2 p.1).bind fun q => some (q.1.bi .bool (fun a => .quant all k a p.2 q.2) p.2 q.2))
      (fun w => (ev1 w).bind fun p => (ev2 p.2).bind fun q => Compile.keep q.2 (quantSem E.P all k p.1 q.1)) False (mem1 ∧ mem2) := by
  refine (SimF.bi (lk' := False) h h' (fun _ _ => some (.bool, .quant all k)) (quantSem E.P all k) ?_ ?_).congr (fun c => rfl) (fun w => rfl)
  · intro tl tr t i hs s a l r hl hr _ _
    cases hs; exact one_quant E s all k a l r hl hr
  · intro tl tr t i hs _ v u v' _ _ hb
    cases hs; exact quantSem_ty hb

theorem SimF.isNull {em ev} {lk mem : Prop} (h : SimF E vars em ev lk mem) :
    SimF E vars (fun c => (em c).bind fun p => some (p.1.un .bool (fun a => .is a p.2) p.2))
      (fun w => (ev w).bind fun p => Compile.keep p.2 (.ok (vbool (decide (p.1 = .null))))) False mem := by
  refine (SimF.un (lk' := False) h (fun _ => some (.bool, .is)) (fun v => .ok (vbool (decide (v = .null)))) ?_ ?_).congr (fun c => rfl) (fun w => rfl)
  · intro ty t i hs s a b hab _
    cases hs; exact one_is E s a b hab
  · intro ty t i hs _ v v' _ hb
    cases hs; cases hb; exact vbool_ty _

/-- the choice of a negation -/
def selNeg (t : Ty) : Option (Ty × (Nat → Nat → Instr)) :=
  if t = .int then some (.int, .negI) else if t = .double then some (.double, .negF)
  else if t = .interval then some (.interval, .negL) else none

theorem negSem_ty {P : Prims} {t : Ty} {v v' : Val} (ht : HasTy v t) (h : negSem P v = .ok v') : HasTy v' t := by
  rcases ht with e | e
  · subst e; cases h; exact .inl rfl
  · cases v <;> simp only [negSem] at h <;> try (cases h; done)
    · cases h; exact .inl rfl
    · split at h
      · cases h
      · cases h; exact .inr e
    · cases h; exact .inr e
    · cases h; exact .inr e

theorem SimF.neg {em ev} {lk mem : Prop} (h : SimF E vars em ev lk mem) (hn : ¬ lk) :
    SimF E vars (fun c => (em c).bind fun p =>
      if p.1.rtype p.2 = .int then some (p.1.un .int (fun a => .negI a p.2) p.2)
      else if p.1.rtype p.2 = .double then some (p.1.un .double (fun a => .negF a p.2) p.2)
      else if p.1.rtype p.2 = .interval then some (p.1.un .interval (fun a => .negL a p.2) p.2)
      else none)
      (fun w => (ev w).bind fun p => Compile.keep p.2 (negSem E.P p.1)) False mem := by
  refine (SimF.un (lk' := False) h selNeg (negSem E.P) ?_ ?_).congr (fun c => ?_) (fun w => rfl)
  · intro ty t i hs s a b hab ht
    have ht := ht hn
    unfold selNeg at hs
    by_cases h1 : ty = .int
    · subst h1; rw [if_pos rfl] at hs; cases hs; exact one_negI E s a b hab ht
    · rw [if_neg h1] at hs
      by_cases h2 : ty = .double
      · subst h2; rw [if_pos rfl] at hs; cases hs; exact one_negF E s a b hab ht
      · rw [if_neg h2] at hs
        by_cases h3 : ty = .interval
        · subst h3; rw [if_pos rfl] at hs; cases hs; exact one_negL E s a b hab ht
        · rw [if_neg h3] at hs; cases hs
  · intro ty t i hs _ v v' ht hb
    have ht := negSem_ty (ht hn) hb
    unfold selNeg at hs
    by_cases h1 : ty = .int
    · subst h1; rw [if_pos rfl] at hs; cases hs; exact ht
    · rw [if_neg h1] at hs
      by_cases h2 : ty = .double
      · subst h2; rw [if_pos rfl] at hs; cases hs; exact ht
      · rw [if_neg h2] at hs
        by_cases h3 : ty = .interval
        · subst h3; rw [if_pos rfl] at hs; cases hs; exact ht
        · rw [if_neg h3] at hs; cases hs
  · unfold emUn
    congr 1; funext p
    unfold selNeg
    by_cases h1 : p.1.rtype p.2 = .int
    · simp only [h1, if_true]; rfl
    · simp only [h1, if_false]
      by_cases h2 : p.1.rtype p.2 = .double
      · simp only [h2, if_true]; rfl
      · simp only [h2, if_false]
        by_cases h3 : p.1.rtype p.2 = .interval
        · simp only [h3, if_true]; rfl
        · simp only [h3, if_false]; rfl

theorem SimF.inv {em ev} {lk mem : Prop} (h : SimF E vars em ev lk mem) (hn : ¬ lk) :
    SimF E vars (fun c => (em c).bind fun p =>
      if p.1.rtype p.2 = .int then some (p.1.un .int (fun a => .inv a p.2) p.2) else none)
      (fun w => (ev w).bind fun p => Compile.keep p.2 (invSem p.1)) False mem := by
  refine (SimF.un (lk' := False) h (fun t => if t = .int then some (.int, .inv) else none) invSem ?_ ?_).congr (fun c => ?_) (fun w => rfl)
  · intro ty t i hs s a b hab ht
    have ht := ht hn
    by_cases h1 : ty = .int
    · subst h1; rw [if_pos rfl] at hs; cases hs; exact one_inv E s a b hab ht
    · rw [if_neg h1] at hs; cases hs
  · intro ty t i hs _ v v' ht hb
    have ht := ht hn
    by_cases h1 : ty = .int
    · subst h1; rw [if_pos rfl] at hs; cases hs
      rcases ht.int_cases with e | ⟨j, e⟩
      · subst e; cases hb; exact .inl rfl
      · subst e; cases hb; exact .inr rfl
    · rw [if_neg h1] at hs; cases hs
  · unfold emUn
    congr 1; funext p
    by_cases h1 : p.1.rtype p.2 = .int
    · simp only [h1, if_true]; rfl
    · simp only [h1, if_false]; rfl

end Verif.Compile
