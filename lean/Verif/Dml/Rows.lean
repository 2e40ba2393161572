import Verif.Dml.Proofs
/-! Proofs: one row -/
set_option autoImplicit false
set_option linter.unusedVariables false
set_option linter.unusedSimpArgs false
namespace Verif.Dml
open Verif Verif.Row Verif.Index

theorem cell_iff (c : Col) (v y : Val) : cell c v = .ok y ↔ Takes c v y := by
  unfold cell Takes
  cases hi : c.identity with
  | true => simp
  | false =>
    by_cases hv : v = .null
    · cases hn : c.notNull <;> simp [hv, hn, eq_comm]
    · cases he : encodeTy c.ty v with
      | error e => simp [hv, bind_err]
      | ok bs =>
        simp only [Bool.false_eq_true, if_false, hv, bind_ok, true_and, false_and, false_or, Except.ok.injEq, ne_eq, not_false_eq_true, exists_eq', exists_eq_left']
        exact ⟨fun h => h.symm, fun h => h.symm⟩

/-- the value of a right side -/
def rhsVal (c : Col) (x : Ctx) : Rhs → Res Val
  | .dflt => .ok c.dflt
  | .expr e => e.ev x

theorem rhsVal_iff (fnSet : Val → Bytes → Val → Res Val) (cols : List Col) (op : SetOp) (i : Nat) (c : Col) (h : IsCol cols op.column i c) (hp : Plain op) (x : Ctx) (v : Val) :
    rhsVal c x (op.rhs' fnSet cols) = .ok v ↔ op.Gives fnSet i c x v := by
  have hf := findCol_iff.2 ⟨c, h⟩
  unfold SetOp.rhs' SetOp.Gives
  cases hc : op.compound with
  | false =>
    cases hr : op.rhs with
    | dflt => simp [rhsVal, eq_comm]
    | expr e => simp [rhsVal]
  | true =>
    obtain ⟨e, he⟩ := hp hc
    simp only [he, if_true, rhsVal, oldOf, hf, readCol, bind_ok]
    cases hv : e.ev x with
    | error er => simp [bind_err]
    | ok w => simp [bind_ok]

theorem pushValues_spec (cols : List Col) (x : Ctx) : ∀ (list : List (Nat × Rhs)), (∀ p ∈ list, ∃ c, cols[p.1]? = some c) →
    (∀ vs, pushValues cols x list = .ok vs → vs.map Prod.fst = list.map Prod.fst ∧
      (∀ p ∈ list, ∀ c, cols[p.1]? = some c → ∃ v, rhsVal c x p.2 = .ok v ∧ (p.1, v) ∈ vs) ∧
      (∀ q ∈ vs, ∃ r c, (q.1, r) ∈ list ∧ cols[q.1]? = some c ∧ rhsVal c x r = .ok q.2)) ∧
    ((∀ p ∈ list, ∀ c, cols[p.1]? = some c → ∃ v, rhsVal c x p.2 = .ok v) → ∃ vs, pushValues cols x list = .ok vs)
  | [], _ => by
    refine ⟨?_, fun _ => ⟨[], rfl⟩⟩
    intro vs h
    cases h
    simp
  | (i, r) :: ps, hc => by
    obtain ⟨c, hci⟩ := hc (i, r) (by simp)
    simp only at hci
    obtain ⟨ih1, ih2⟩ := pushValues_spec cols x ps (fun p hp => hc p (by simp [hp]))
    have step : pushValues cols x ((i, r) :: ps) = (rhsVal c x r >>= fun v => pushValues cols x ps >>= fun vs => .ok ((i, v) :: vs)) := by
      cases r with
      | dflt => simp only [pushValues, hci, rhsVal, bind_ok]
      | expr e => rfl
    rw [step]
    constructor
    · intro vs h
      obtain ⟨v, h1, h⟩ := bind_eq_ok h
      obtain ⟨vs', h2, h⟩ := bind_eq_ok h
      cases h
      obtain ⟨g1, g2, g3⟩ := ih1 vs' h2
      refine ⟨by simp [g1], ?_, ?_⟩
      · intro p hp d hd
        rcases List.mem_cons.1 hp with rfl | hp
        · simp only at hd
          rw [hci] at hd
          cases hd
          exact ⟨v, h1, by simp⟩
        · obtain ⟨w, k1, k2⟩ := g2 p hp d hd
          exact ⟨w, k1, by simp [k2]⟩
      · intro q hq
        rcases List.mem_cons.1 hq with rfl | hq
        · exact ⟨r, c, by simp, hci, h1⟩
        · obtain ⟨r', c', k1, k2, k3⟩ := g3 q hq
          exact ⟨r', c', by simp [k1], k2, k3⟩
    · intro h
      obtain ⟨v, hv⟩ := h (i, r) (by simp) c hci
      obtain ⟨vs, hvs⟩ := ih2 fun p hp => h p (by simp [hp])
      rw [hv, bind_ok, hvs, bind_ok]
      exact ⟨_, rfl⟩

theorem getD_drop (old : Tuple) (i : Nat) : ((old.drop 1)[i]?).getD Val.null = (old[i + 1]?).getD .null := by
  rw [List.getElem?_drop, Nat.add_comm]

theorem headD_get (old : Tuple) : old.headD Val.null = (old[0]?).getD .null := by cases old <;> rfl

theorem rowUpdate_spec : ∀ (cols : List Col) (k : Nat) (old : Tuple) (upd : List (Nat × Val)), upd.Pairwise (fun a b => a.1 < b.1) → (∀ p ∈ upd, k ≤ p.1) →
    (∀ new, rowUpdate cols k old upd = .ok new → new.length = cols.length ∧ ∀ (i : Nat) (c : Col), cols[i]? = some c →
      (∀ v, (k + i, v) ∈ upd → ∃ y, cell c v = .ok y ∧ new[i]? = some y) ∧ ((∀ v, (k + i, v) ∉ upd) → new[i]? = some ((old[i]?).getD .null))) ∧
    ((∀ (i : Nat) (c : Col) (v : Val), cols[i]? = some c → (k + i, v) ∈ upd → ∃ y, cell c v = .ok y) → ∃ new, rowUpdate cols k old upd = .ok new)
  | [], k, old, upd, _, _ => by
    refine ⟨?_, fun _ => ⟨[], rfl⟩⟩
    intro new h
    cases h
    simp
  | c :: cs, k, old, [], hs, hk => by
    obtain ⟨ih1, ih2⟩ := rowUpdate_spec cs (k + 1) (old.drop 1) [] hs (by simp)
    constructor
    · intro new h
      simp only [rowUpdate] at h
      obtain ⟨l, h1, h⟩ := bind_eq_ok h
      cases h
      obtain ⟨g1, g2⟩ := ih1 l h1
      refine ⟨by simp [g1], ?_⟩
      intro i d hd
      refine ⟨by simp, fun _ => ?_⟩
      cases i with
      | zero => rw [List.getElem?_cons_zero, headD_get]
      | succ i =>
        have := (g2 i d (by simpa using hd)).2 (by simp)
        rw [getD_drop] at this
        simpa using this
    · intro h
      obtain ⟨l, hl⟩ := ih2 (by simp)
      simp only [rowUpdate, hl, bind_ok]
      exact ⟨_, rfl⟩
  | c :: cs, k, old, (o, v) :: upd, hs, hk => by
    have hs' := hs
    rw [List.pairwise_cons] at hs
    by_cases ho : o = k
    · subst ho
      obtain ⟨ih1, ih2⟩ := rowUpdate_spec cs (o + 1) (old.drop 1) upd hs.2 (fun p hp => hs.1 p hp)
      have rest : ∀ (i : Nat) (w : Val), (o + 1 + i, w) ∈ upd ↔ (o + (i + 1), w) ∈ (o, v) :: upd := by
        intro i w
        rw [show o + 1 + i = o + (i + 1) by omega, List.mem_cons]
        constructor
        · exact .inr
        · rintro (h | h)
          · simp at h
          · exact h
      constructor
      · intro new h
        simp only [rowUpdate, if_true] at h
        obtain ⟨y, h1, h⟩ := bind_eq_ok h
        obtain ⟨l, h2, h⟩ := bind_eq_ok h
        cases h
        obtain ⟨g1, g2⟩ := ih1 l h2
        refine ⟨by simp [g1], ?_⟩
        intro i d hd
        cases i with
        | zero =>
          simp only [List.getElem?_cons_zero, Option.some.injEq] at hd
          subst hd
          refine ⟨?_, fun hn => absurd (List.mem_cons_self) (hn v)⟩
          intro w hw
          rcases List.mem_cons.1 hw with e | hw
          · simp only [Nat.add_zero, Prod.mk.injEq, true_and] at e
            subst e
            exact ⟨y, h1, by simp⟩
          · have := hs.1 _ hw
            simp at this
        | succ i =>
          obtain ⟨q1, q2⟩ := g2 i d (by simpa using hd)
          refine ⟨?_, ?_⟩
          · intro w hw
            obtain ⟨z, z1, z2⟩ := q1 w ((rest i w).2 hw)
            exact ⟨z, z1, by simpa using z2⟩
          · intro hn
            have := q2 fun w hw => hn w ((rest i w).1 hw)
            rw [getD_drop] at this
            simpa using this
      · intro h
        obtain ⟨y, hy⟩ := h 0 c v (by simp) (by simp)
        obtain ⟨l, hl⟩ := ih2 fun i d w hd hw => h (i + 1) d w (by simpa using hd) ((rest i w).1 hw)
        simp only [rowUpdate, if_true, hy, bind_ok, hl]
        exact ⟨_, rfl⟩
    · have hok : k < o := by
        have := hk (o, v) (by simp)
        simp only at this
        omega
      obtain ⟨ih1, ih2⟩ := rowUpdate_spec cs (k + 1) (old.drop 1) ((o, v) :: upd) hs' (by
        intro p hp
        rcases List.mem_cons.1 hp with rfl | hp
        · exact hok
        · have := hs.1 p hp
          simp only at this
          omega)
      have not0 : ∀ w, (k, w) ∉ (o, v) :: upd := by
        intro w hw
        rcases List.mem_cons.1 hw with e | hw
        · simp only [Prod.mk.injEq] at e
          omega
        · have := hs.1 _ hw
          simp only at this
          omega
      constructor
      · intro new h
        simp only [rowUpdate, if_neg ho] at h
        obtain ⟨l, h2, h⟩ := bind_eq_ok h
        cases h
        obtain ⟨g1, g2⟩ := ih1 l h2
        refine ⟨by simp [g1], ?_⟩
        intro i d hd
        cases i with
        | zero =>
          refine ⟨fun w hw => absurd hw (not0 w), fun _ => ?_⟩
          rw [List.getElem?_cons_zero, headD_get]
        | succ i =>
          obtain ⟨q1, q2⟩ := g2 i d (by simpa using hd)
          rw [show k + 1 + i = k + (i + 1) by omega] at q1 q2
          refine ⟨?_, ?_⟩
          · intro w hw
            obtain ⟨z, z1, z2⟩ := q1 w hw
            exact ⟨z, z1, by simpa using z2⟩
          · intro hn
            have := q2 hn
            rw [getD_drop] at this
            simpa using this
      · intro h
        obtain ⟨l, hl⟩ := ih2 fun i d w hd hw => h (i + 1) d w (by simpa using hd) (by rw [show k + (i + 1) = k + 1 + i by omega]; exact hw)
        simp only [rowUpdate, if_neg ho, hl, bind_ok]
        exact ⟨_, rfl⟩

/-- the SET list of an UPDATE that is allowed and compiled to `list` -/
theorem updated_spec (fnSet : Val → Bytes → Val → Res Val) (cols : List Col) (ops : List SetOp) (ha : Allowed cols ops) (list : List (Nat × Rhs))
    (hl : Compiled fnSet cols ops list) (x : Ctx) :
    (∀ new, updated cols list x = .ok new → UpdateTo fnSet cols ops x new) ∧
    ((∃ new, UpdateTo fnSet cols ops x new) → ∃ new, updated cols list x = .ok new) := by
  obtain ⟨ho, l, hr, hp⟩ := hl
  have plain : ∀ op ∈ ops, Plain op := by
    intro op hop hc
    obtain ⟨i, c, _, _, hf⟩ := ha.live op hop
    unfold Fits at hf
    rw [if_pos hc] at hf
    exact hf.2
  -- a pair of the list is a SET, and the other way around
  have mem1 : ∀ p ∈ list, ∃ op ∈ ops, ∃ c, IsCol cols op.column p.1 c ∧ p.2 = op.rhs' fnSet cols := by
    intro p hpl
    obtain ⟨name, c, m1, m2, _⟩ := (resolved_mem hr).1 p (hp.mem_iff.1 hpl)
    obtain ⟨op, hop, e⟩ := List.mem_map.1 m1
    simp only [Prod.mk.injEq] at e
    exact ⟨op, hop, c, by rw [e.1]; exact m2, e.2.symm⟩
  have mem2 : ∀ op ∈ ops, ∀ i c, IsCol cols op.column i c → (i, op.rhs' fnSet cols) ∈ list := by
    intro op hop i c hc
    obtain ⟨j, d, m1, m2, _⟩ := (resolved_mem hr).2 (op.column, op.rhs' fnSet cols) (List.mem_map_of_mem hop)
    rw [(hc.unique m2).1]
    exact hp.mem_iff.2 m1
  have hcols : ∀ p ∈ list, ∃ c, cols[p.1]? = some c := fun p hpl => resolved_cols hr p (hp.mem_iff.1 hpl)
  obtain ⟨pv1, pv2⟩ := pushValues_spec cols x list hcols
  have sorted : ∀ vs : List (Nat × Val), vs.map Prod.fst = list.map Prod.fst → vs.Pairwise (fun a b => a.1 < b.1) := by
    intro vs hvs
    have h1 : (list.map Prod.fst).Pairwise (· < ·) := by rw [List.pairwise_map]; exact ho
    rw [← hvs, List.pairwise_map] at h1
    exact h1
  -- a column has one value in the list
  have uniq : ∀ {vs : List (Nat × Val)}, vs.Pairwise (fun a b => a.1 < b.1) → ∀ {i : Nat} {v w : Val}, (i, v) ∈ vs → (i, w) ∈ vs → v = w := by
    intro vs hpw
    induction vs with
    | nil => simp
    | cons a as ih =>
      rw [List.pairwise_cons] at hpw
      intro i v w h1 h2
      rcases List.mem_cons.1 h1 with e1 | h1 <;> rcases List.mem_cons.1 h2 with e2 | h2
      · rw [← e1] at e2
        simp only [Prod.mk.injEq, true_and] at e2
        exact e2.symm
      · have := hpw.1 _ h2
        rw [← e1] at this
        simp at this
      · have := hpw.1 _ h1
        rw [← e2] at this
        simp at this
      · exact ih hpw.2 h1 h2
  unfold updated
  constructor
  · intro new h
    obtain ⟨vs, h1, h⟩ := bind_eq_ok h
    obtain ⟨f1, f2, f3⟩ := pv1 vs h1
    obtain ⟨r1, r2⟩ := (rowUpdate_spec cols 0 x.cur vs (sorted vs f1) (by simp)).1 new h
    refine ⟨r1, ?_⟩
    intro i c hc
    obtain ⟨s1, s2⟩ := r2 i c hc
    rw [Nat.zero_add] at s1 s2
    constructor
    · intro op hop hi
      obtain ⟨v, hv, hm⟩ := f2 _ (mem2 op hop i c hi) c hc
      obtain ⟨y, y1, y2⟩ := s1 v hm
      exact ⟨v, y, (rhsVal_iff fnSet cols op i c hi (plain op hop) x v).1 hv, (cell_iff c v y).1 y1, y2⟩
    · intro hn
      refine s2 ?_
      intro v hv
      obtain ⟨r, d, g1, g2, _⟩ := f3 _ hv
      obtain ⟨op, hop, c', hc', _⟩ := mem1 _ g1
      have : c' = c := by
        have := hc'.1
        rw [hc] at this
        exact (Option.some.inj this).symm
      exact hn op hop (this ▸ hc')
  · rintro ⟨new, hlen, hu⟩
    obtain ⟨vs, hvs⟩ := pv2 (by
      intro p hpl c hc
      obtain ⟨op, hop, c', hc', e⟩ := mem1 p hpl
      have : c' = c := by
        have := hc'.1
        rw [hc] at this
        exact (Option.some.inj this).symm
      subst this
      obtain ⟨v, y, g1, _⟩ := (hu p.1 c' hc).1 op hop hc'
      rw [e]
      exact ⟨v, (rhsVal_iff fnSet cols op p.1 c' hc' (plain op hop) x v).2 g1⟩)
    rw [hvs, bind_ok]
    obtain ⟨f1, f2, f3⟩ := pv1 vs hvs
    refine (rowUpdate_spec cols 0 x.cur vs (sorted vs f1) (by simp)).2 ?_
    intro i c v hc hv
    rw [Nat.zero_add] at hv
    obtain ⟨r, d, g1, g2, g3⟩ := f3 _ hv
    simp only at g2 g3
    obtain ⟨op, hop, c', hc', e⟩ := mem1 _ g1
    simp only at e hc'
    have e1 : c' = c := by
      have := hc'.1
      rw [hc] at this
      exact (Option.some.inj this).symm
    have e2 : d = c := by
      rw [hc] at g2
      exact (Option.some.inj g2).symm
    subst e1
    subst e2
    obtain ⟨w, y, k1, k2, _⟩ := (hu i d hc).1 op hop hc'
    have := (rhsVal_iff fnSet cols op i d hc' (plain op hop) x w).2 k1
    rw [← e, g3] at this
    have hvw := Except.ok.inj this
    subst hvw
    exact ⟨y, (cell_iff d _ y).2 k2⟩

/-- the updated row is determined -/
theorem UpdateTo.unique {fnSet : Val → Bytes → Val → Res Val} {cols : List Col} {ops : List SetOp} {x : Ctx} {a b : Tuple}
    (ha : UpdateTo fnSet cols ops x a) (hb : UpdateTo fnSet cols ops x b) : a = b := by
  apply List.ext_getElem?
  intro i
  by_cases hi : i < cols.length
  · have hc := List.getElem?_eq_getElem hi
    obtain ⟨a1, a2⟩ := ha.2 i _ hc
    obtain ⟨b1, b2⟩ := hb.2 i _ hc
    by_cases h : ∀ op ∈ ops, ¬IsCol cols op.column i cols[i]
    · rw [a2 h, b2 h]
    · have : ∃ op ∈ ops, IsCol cols op.column i cols[i] := by
        simp only [Classical.not_forall, Classical.not_not] at h
        obtain ⟨op, hop, hc⟩ := h
        exact ⟨op, hop, hc⟩
      obtain ⟨op, hop, hcol⟩ := this
      obtain ⟨v, y, p1, p2, p3⟩ := a1 op hop hcol
      obtain ⟨v', y', q1, q2, q3⟩ := b1 op hop hcol
      have hv : v = v' := by
        unfold SetOp.Gives at p1 q1
        cases hr : op.rhs with
        | dflt =>
          simp only [hr] at p1 q1
          rw [p1.2, q1.2]
        | expr e =>
          simp only [hr] at p1 q1
          cases hcp : op.compound with
          | false =>
            simp only [hcp, Bool.false_eq_true, if_false] at p1 q1
            rw [p1] at q1
            exact Except.ok.inj q1
          | true =>
            simp only [hcp, if_true] at p1 q1
            obtain ⟨w, w1, w2⟩ := p1
            obtain ⟨w', w1', w2'⟩ := q1
            rw [w1] at w1'
            cases w1'
            rw [w2] at w2'
            exact Except.ok.inj w2'
      subst hv
      have := (cell_iff _ _ _).2 p2
      rw [(cell_iff _ _ _).2 q2] at this
      cases this
      rw [p3, q3]
  · rw [List.getElem?_eq_none (by rw [ha.1]; omega), List.getElem?_eq_none (by rw [hb.1]; omega)]

theorem holds_iff (wh : Option Expr) (x : Ctx) (b : Bool) : holds wh x = .ok b ↔ WhereIs wh x b := by
  unfold holds WhereIs
  cases wh with
  | none => simp [eq_comm]
  | some e =>
    cases h : e.ev x with
    | error er => simp [h, bind_err]
    | ok v => simp [h, bind_ok]

theorem evalAll_iff (x : Ctx) : ∀ (es : List Expr) (vs : List Val), evalAll x es = .ok vs ↔ vs.length = es.length ∧ ∀ (k : Nat) (e : Expr), es[k]? = some e → ∃ v, vs[k]? = some v ∧ e.ev x = .ok v
  | [], vs => by
    simp only [evalAll, Except.ok.injEq]
    constructor
    · rintro rfl; simp
    · rintro ⟨h, _⟩
      exact (List.length_eq_zero_iff.1 h).symm
  | e :: es, vs => by
    simp only [evalAll]
    constructor
    · intro h
      obtain ⟨v, h1, h⟩ := bind_eq_ok h
      obtain ⟨vs', h2, h⟩ := bind_eq_ok h
      cases h
      obtain ⟨g1, g2⟩ := (evalAll_iff x es vs').1 h2
      refine ⟨by simp [g1], ?_⟩
      intro k f hf
      cases k with
      | zero =>
        simp only [List.getElem?_cons_zero, Option.some.injEq] at hf
        subst hf
        exact ⟨v, by simp, h1⟩
      | succ k => simpa using g2 k f (by simpa using hf)
    · rintro ⟨h1, h2⟩
      cases vs with
      | nil => simp at h1
      | cons v vs =>
        obtain ⟨v', k1, k2⟩ := h2 0 e (by simp)
        simp only [List.getElem?_cons_zero, Option.some.injEq] at k1
        subst k1
        have := (evalAll_iff x es vs).2 ⟨by simpa using h1, fun k f hf => by simpa using h2 (k + 1) f (by simpa using hf)⟩
        rw [k2, bind_ok, this, bind_ok]

theorem returning_iff (ret : Option (List Expr)) (x : Ctx) (out : List (List Val)) : returning ret x = .ok out ↔ Returned ret x out := by
  unfold returning Returned
  cases ret with
  | none => simp [eq_comm]
  | some es =>
    simp only
    constructor
    · intro h
      obtain ⟨vs, h1, h⟩ := bind_eq_ok h
      cases h
      exact ⟨vs, rfl, (evalAll_iff x es vs).1 h1⟩
    · rintro ⟨vs, rfl, h⟩
      rw [(evalAll_iff x es vs).2 h, bind_ok]

theorem created_iff (id : Int) : ∀ (cols : List Col) (g row : Tuple), createRow id cols g = .ok row ↔ Created cols (g, id) row
  | [], g, row => by
    simp only [createRow, Created, Except.ok.injEq]
    constructor
    · rintro rfl; simp
    · rintro ⟨h, _⟩
      exact (List.length_eq_zero_iff.1 h).symm
  | c :: cs, g, row => by
    have first : ∀ y, createCell id c (g.headD .null) = .ok y ↔
        (if c.identity then y = narrow c.ty (.int id) else Takes c ((g[0]?).getD .null) y) := by
      intro y
      unfold createCell
      cases c.identity with
      | true => simp [eq_comm]
      | false => simp only [Bool.false_eq_true, if_false]; rw [headD_get]; exact cell_iff c _ y
    simp only [createRow]
    constructor
    · intro h
      obtain ⟨y, h1, h⟩ := bind_eq_ok h
      obtain ⟨l, h2, h⟩ := bind_eq_ok h
      cases h
      obtain ⟨g1, g2⟩ := (created_iff id cs (g.drop 1) l).1 h2
      refine ⟨by simp [g1], ?_⟩
      intro i d hd
      cases i with
      | zero =>
        simp only [List.getElem?_cons_zero, Option.some.injEq] at hd
        subst hd
        exact ⟨y, by simp, (first y).1 h1⟩
      | succ i =>
        obtain ⟨z, z1, z2⟩ := g2 i d (by simpa using hd)
        simp only [getD_drop] at z2
        exact ⟨z, by simpa using z1, z2⟩
    · rintro ⟨h1, h2⟩
      cases row with
      | nil => simp at h1
      | cons y l =>
        obtain ⟨z, z1, z2⟩ := h2 0 c (by simp)
        simp only [List.getElem?_cons_zero, Option.some.injEq] at z1
        subst z1
        rw [(first y).2 z2, bind_ok, (created_iff id cs (g.drop 1) l).2, bind_ok]
        refine ⟨by simpa using h1, ?_⟩
        intro i d hd
        obtain ⟨w, w1, w2⟩ := h2 (i + 1) d (by simpa using hd)
        simp only [getD_drop]
        exact ⟨w, by simpa using w1, w2⟩

end Verif.Dml
