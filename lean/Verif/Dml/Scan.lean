import Verif.Dml.Rows
/-! Proofs: statements -/
set_option autoImplicit false
set_option linter.unusedVariables false
set_option linter.unusedSimpArgs false
namespace Verif.Dml
open Verif Verif.Row Verif.Index

/-- an action through the iterator -/
def applyAct (t : Tree Tuple) (it : Index.Iter Tuple) : Act Tuple → Option (Tree Tuple × Index.Iter Tuple)
  | .keep => some (t, it)
  | .replace r => iterReplace t it r
  | .delete => iterDelete t it

/-- the body made of what is decided by the row -/
def bodyOf (one : Tuple → Res (Act Tuple × List (List Val))) (t : Tree Tuple) (it : Index.Iter Tuple) (row : Tuple) : Res (Tree Tuple × Index.Iter Tuple × List (List Val)) := do
  let (a, out) ← one row
  match applyAct t it a with
  | none => .error .ub
  | some (t', it') => .ok (t', it', out)

/-- the rows one after the other -/
def runAll (one : Tuple → Res (Act Tuple × List (List Val))) : List Tuple → Res (List Tuple × List (List Val))
  | [] => .ok ([], [])
  | r :: rs => do
    let (a, out) ← one r
    let (l, outs) ← runAll one rs
    .ok (a.result r ++ l, out ++ outs)

theorem loop_none (body : Tree Tuple → Index.Iter Tuple → Tuple → Res (Tree Tuple × Index.Iter Tuple × List (List Val))) (fuel : Nat) (t : Tree Tuple) (l : Option Pos) (b : Bool) :
    loop body fuel t ⟨none, l, b⟩ = .ok (t, []) := by
  cases fuel <;> rfl

theorem loop_spec {cmp : Tuple → Tuple → Int} (L : CmpLaws cmp) (body : Tree Tuple → Index.Iter Tuple → Tuple → Res (Tree Tuple × Index.Iter Tuple × List (List Val)))
    (one : Tuple → Res (Act Tuple × List (List Val))) (hbody : ∀ t q row, body t ⟨some row, some q, false⟩ row = bodyOf one t ⟨some row, some q, false⟩ row)
    (hone : ∀ r r' out, one r = .ok (.replace r', out) → cmp r r' = 0) {n : Nat}
    (fuel : Nat) {t : Tree Tuple} (I : Inv cmp n t) {q : Pos} {X : List Tuple} {y : Tuple} {Y : List Tuple} (h : AtPos t q X y Y) (hf : Y.length < fuel) :
    (∀ l os, runAll one (y :: Y) = .ok (l, os) → ∃ t', loop body fuel t ⟨some y, some q, false⟩ = .ok (t', os) ∧ Inv cmp n t' ∧ t'.flat = X ++ l) ∧
    (∀ e, runAll one (y :: Y) = .error e → loop body fuel t ⟨some y, some q, false⟩ = .error e) := by
  induction fuel generalizing t q X y Y with
  | zero => omega
  | succ fuel ih =>
    have hloop : loop body (fuel + 1) t ⟨some y, some q, false⟩ =
        (bodyOf one t ⟨some y, some q, false⟩ y >>= fun (t', it', out) => loop body fuel t' (iterNext t' it') >>= fun (t'', outs) => .ok (t'', out ++ outs)) := by
      rw [loop]
      simp only [hbody]
    rw [hloop]
    simp only [bodyOf, runAll]
    cases ho : one y with
    | error e =>
      simp only [bind_err]
      exact ⟨fun _ _ h => (by cases h), fun e' h => (by cases h; rfl)⟩
    | ok ao =>
      obtain ⟨a, out⟩ := ao
      simp only [bind_ok]
      have key : ∀ (t1 : Tree Tuple) (it1 : Index.Iter Tuple) (X1 : List Tuple), Inv cmp n t1 → X1 = X ++ a.result y →
          (Y = [] → iterNext t1 it1 = ⟨none, none, false⟩ ∧ t1.flat = X1) →
          (∀ z Z, Y = z :: Z → ∃ q', iterNext t1 it1 = ⟨some z, some q', false⟩ ∧ AtPos t1 q' X1 z Z) →
          (∀ l os, (runAll one Y >>= fun (p : List Tuple × List (List Val)) => (.ok (a.result y ++ p.1, out ++ p.2) : Res _)) = .ok (l, os) →
            ∃ t', (loop body fuel t1 (iterNext t1 it1) >>= fun (p : Tree Tuple × List (List Val)) => (.ok (p.1, out ++ p.2) : Res _)) = .ok (t', os) ∧ Inv cmp n t' ∧ t'.flat = X ++ l) ∧
          (∀ e, (runAll one Y >>= fun (p : List Tuple × List (List Val)) => (.ok (a.result y ++ p.1, out ++ p.2) : Res _)) = .error e →
            (loop body fuel t1 (iterNext t1 it1) >>= fun (p : Tree Tuple × List (List Val)) => (.ok (p.1, out ++ p.2) : Res _)) = .error e) := by
        intro t1 it1 X1 I1 hX1 hn hc
        cases Y with
        | nil =>
          obtain ⟨e1, e2⟩ := hn rfl
          rw [e1, loop_none]
          simp only [runAll, bind_ok]
          refine ⟨?_, fun e h => by cases h⟩
          intro l os h
          cases h
          exact ⟨t1, rfl, I1, by rw [e2, hX1]; simp⟩
        | cons z Z =>
          obtain ⟨q', e1, e2⟩ := hc z Z rfl
          rw [e1]
          obtain ⟨g1, g2⟩ := ih I1 e2 (by simp at hf; omega)
          cases hr : runAll one (z :: Z) with
          | error e =>
            rw [g2 e hr, bind_err, bind_err]
            exact ⟨fun _ _ h => (by cases h), fun e' h => (by cases h; rfl)⟩
          | ok p =>
            obtain ⟨l, os⟩ := p
            obtain ⟨t', f1, f2, f3⟩ := g1 l os hr
            rw [f1]
            simp only [bind_ok]
            refine ⟨?_, fun e h => by cases h⟩
            intro l' os' h
            cases h
            exact ⟨t', rfl, f2, by rw [f3, hX1, List.append_assoc]⟩
      cases a with
      | keep =>
        simp only [applyAct, bind_ok]
        obtain ⟨n1, n2⟩ := iterNext_spec I h y
        exact key t _ (X ++ [y]) I rfl (fun e => ⟨n1 e, by rw [h.flat, e]⟩) n2
      | replace r' =>
        simp only [applyAct, iterReplace, bind_ok]
        obtain ⟨p1, p2, p3⟩ := put_spec L I h r' (hone y r' out ho)
        obtain ⟨n1, n2⟩ := iterNext_spec p1 p2 r'
        exact key _ _ (X ++ [r']) p1 rfl (fun e => ⟨n1 e, by rw [p2.flat, e]⟩) n2
      | delete =>
        simp only [applyAct, iterDelete]
        obtain ⟨t1, q1, d1, d2, d3, d4, d5, d6⟩ := treeDelete_spec I h
        simp only [d1, h.rowAt, bind_ok]
        exact key t1 ⟨some y, q1, true⟩ X d2 (by simp [Act.result])
          (fun e => by
            have := d5 e; subst this
            exact ⟨by simp [iterNext], by rw [d3, e]; simp⟩)
          (fun z Z e => by
            obtain ⟨q'', e1, e2⟩ := d6 z Z e
            subst e1
            exact ⟨q'', by simp [iterNext, e2.rowAt], e2⟩)

theorem open_first {cmp : Tuple → Tuple → Int} {n : Nat} {t : Tree Tuple} (I : Inv cmp n t) :
    (t.flat = [] → iterOpen cmp t none = some (false, ⟨none, none, false⟩)) ∧
    (∀ x X, t.flat = x :: X → ∃ b q, iterOpen cmp t none = some (b, ⟨some x, some q, false⟩) ∧ AtPos t q [] x X) := by
  unfold iterOpen
  constructor
  · intro h
    rw [if_pos (by rw [I.count, h]; rfl)]
  · intro x X hf
    have h0 : t.count ≠ 0 := by rw [I.count, hf]; simp
    rw [if_neg h0]
    have hat := first_at I x X hf
    have hp0 : t.countPages ≠ 0 := by
      intro e; rw [I.countPages] at e
      have := List.length_eq_zero_iff.1 e
      simp [Tree.flat, this] at hf
    simp only [treeGet, hp0, if_false]
    have hat' := hat
    obtain ⟨A, P1, P2, B, e1, e2, e3, e4⟩ := hat'
    have hA : A = [] := by simp at e2; exact List.length_eq_zero_iff.1 e2.1.symm
    have hP : P1 = [] := by simp at e2; exact List.length_eq_zero_iff.1 e2.2.symm
    subst hA hP
    have hpg : t.tree.toList[0]? = some (x :: P2) := by simp [e1]
    simp only [hpg]
    rw [if_neg (by simp)]
    simp only [List.length_cons, Nat.zero_lt_succ, List.getElem?_cons_zero]
    exact ⟨_, _, rfl, hat⟩

theorem scanWith_spec {cmp : Tuple → Tuple → Int} (L : CmpLaws cmp) (body : Tree Tuple → Index.Iter Tuple → Tuple → Res (Tree Tuple × Index.Iter Tuple × List (List Val)))
    (one : Tuple → Res (Act Tuple × List (List Val))) (hbody : ∀ t q row, body t ⟨some row, some q, false⟩ row = bodyOf one t ⟨some row, some q, false⟩ row)
    (hone : ∀ r r' out, one r = .ok (.replace r', out) → cmp r r' = 0) {n : Nat} {t : Tree Tuple} (I : Inv cmp n t) :
    (∀ l os, runAll one t.flat = .ok (l, os) → ∃ t', scanWith cmp body t = .ok (t', os) ∧ Inv cmp n t' ∧ t'.flat = l) ∧
    (∀ e, runAll one t.flat = .error e → scanWith cmp body t = .error e) := by
  unfold scanWith
  obtain ⟨o1, o2⟩ := open_first I
  cases hf : t.flat with
  | nil =>
    rw [o1 hf]
    simp only [loop_none, runAll]
    refine ⟨?_, fun e h => by cases h⟩
    intro l os h
    cases h
    exact ⟨t, rfl, I, hf⟩
  | cons x X =>
    obtain ⟨b, q, h1, h2⟩ := o2 x X hf
    rw [h1]
    simp only
    obtain ⟨g1, g2⟩ := loop_spec L body one hbody hone t.count I h2 (by rw [I.count, hf]; simp)
    refine ⟨?_, g2⟩
    intro l os h
    obtain ⟨t', f1, f2, f3⟩ := g1 l os h
    exact ⟨t', f1, f2, by simpa using f3⟩

theorem content_eq {cmp : Tuple → Tuple → Int} (L : CmpLaws cmp) {n : Nat} {t : Tree Tuple} (I : Inv cmp n t) : content cmp t = some t.flat := by
  obtain ⟨t1, a1, -, -⟩ := scan_all L (fun _ => Act.keep) (by intro r r' h; contradiction) I
  simp [content, a1]

/-! ## UPDATE -/

/-- what UPDATE decides at a row -/
def oneUpdate (d : Dml) (list : List (Nat × Rhs)) (row : Tuple) : Res (Act Tuple × List (List Val)) := do
  let b ← holds d.wh ⟨row, none⟩
  if b then do
    let new ← updated d.cols list ⟨row, none⟩
    let out ← returning d.ret ⟨new, none⟩
    .ok (.replace new, out)
  else .ok (.keep, [])

theorem updateBody_eq (d : Dml) (list : List (Nat × Rhs)) (t : Tree Tuple) (q : Pos) (row : Tuple) :
    updateBody d list t ⟨some row, some q, false⟩ row = bodyOf (oneUpdate d list) t ⟨some row, some q, false⟩ row := by
  unfold updateBody bodyOf oneUpdate
  cases holds d.wh ⟨row, none⟩ with
  | error e => rfl
  | ok b =>
    cases b with
    | false => rfl
    | true =>
      simp only [bind_ok, if_true]
      cases updated d.cols list ⟨row, none⟩ with
      | error e => rfl
      | ok new =>
        simp only [bind_ok, iterReplace, Option.getD_some]
        cases returning d.ret ⟨new, none⟩ with
        | error e => rfl
        | ok out => rfl

theorem oneUpdate_iff (fnSet : Val → Bytes → Val → Res Val) (d : Dml) (ops : List SetOp) (ha : Allowed d.cols ops) (list : List (Nat × Rhs)) (hl : Compiled fnSet d.cols ops list) (r : Tuple) :
    (∀ a out, oneUpdate d list r = .ok (a, out) → ∃ new, UpdateRow fnSet d ops r new out ∧ a.result r = [new]) ∧
    ((∃ new out, UpdateRow fnSet d ops r new out) → ∃ a out, oneUpdate d list r = .ok (a, out)) := by
  obtain ⟨u1, u2⟩ := updated_spec fnSet d.cols ops ha list hl ⟨r, none⟩
  unfold oneUpdate
  constructor
  · intro a out h
    obtain ⟨b, h1, h⟩ := bind_eq_ok h
    have hw := (holds_iff _ _ _).1 h1
    cases b with
    | false =>
      simp only [Bool.false_eq_true, if_false, Except.ok.injEq, Prod.mk.injEq] at h
      obtain ⟨rfl, rfl⟩ := h
      exact ⟨r, .inl ⟨hw, rfl, rfl⟩, rfl⟩
    | true =>
      simp only [if_true] at h
      obtain ⟨new, h2, h⟩ := bind_eq_ok h
      obtain ⟨o, h3, h⟩ := bind_eq_ok h
      simp only [Except.ok.injEq, Prod.mk.injEq] at h
      obtain ⟨rfl, rfl⟩ := h
      exact ⟨new, .inr ⟨hw, u1 new h2, (returning_iff _ _ _).1 h3⟩, rfl⟩
  · rintro ⟨new, out, ⟨h1, h2, h3⟩ | ⟨h1, h2, h3⟩⟩
    · rw [(holds_iff _ _ _).2 h1, bind_ok]
      exact ⟨_, _, rfl⟩
    · obtain ⟨new', hn⟩ := u2 ⟨new, h2⟩
      have := (u1 new' hn).unique h2
      subst this
      rw [(holds_iff _ _ _).2 h1, bind_ok, if_pos rfl, hn, bind_ok, (returning_iff _ _ _).2 h3, bind_ok]
      exact ⟨_, _, rfl⟩

/-- key columns are not changed -/
theorem update_key {fnSet : Val → Bytes → Val → Res Val} {cols : List Col} {ops : List SetOp} {cmp : Tuple → Tuple → Int} (hk : ByKey cols cmp) (ha : Allowed cols ops)
    {x : Ctx} {new : Tuple} (h : UpdateTo fnSet cols ops x new) : cmp x.cur new = 0 := by
  apply hk
  intro i c hc hr
  rw [(h.2 i c hc).2]
  · rfl
  · intro op ho hi
    obtain ⟨j, d, h1, h2, _⟩ := ha.live op ho
    have := (hi.unique h1).2
    subst this
    omega

/-- functions from what happened at each row -/
theorem runAll_map (one : Tuple → Res (Act Tuple × List (List Val))) (P : Tuple → Tuple → List (List Val) → Prop)
    (h : ∀ r a out, one r = .ok (a, out) → ∃ new, P r new out ∧ a.result r = [new]) (rows : List Tuple) (l : List Tuple) (os : List (List Val))
    (hr : runAll one rows = .ok (l, os)) : ∃ (new : Tuple → Tuple) (ret : Tuple → List (List Val)), (∀ r ∈ rows, P r (new r) (ret r)) ∧ l = rows.map new ∧ os = rows.flatMap ret := by
  refine ⟨fun r => match one r with | .ok (a, _) => (a.result r).headD [] | _ => [], fun r => match one r with | .ok (_, out) => out | _ => [], ?_⟩
  induction rows generalizing l os with
  | nil => cases hr; simp
  | cons r rs ih =>
    simp only [runAll] at hr
    obtain ⟨p, h1, hr⟩ := bind_eq_ok hr
    obtain ⟨p2, h2, hr⟩ := bind_eq_ok hr
    cases hr
    obtain ⟨i1, i2, i3⟩ := ih p2.1 p2.2 h2
    obtain ⟨new, hn, e⟩ := h r p.1 p.2 h1
    refine ⟨?_, ?_, ?_⟩
    · intro r' hr'
      rcases List.mem_cons.1 hr' with rfl | hr'
      · simp only [h1]
        simp only [e, List.headD_cons]
        exact hn
      · exact i1 r' hr'
    · rw [List.map_cons, ← i2]
      simp only [h1]
      simp [e]
    · rw [List.flatMap_cons, ← i3]
      simp only [h1]

theorem runAll_ok (one : Tuple → Res (Act Tuple × List (List Val))) : ∀ (rows : List Tuple), (∀ r ∈ rows, ∃ a out, one r = .ok (a, out)) → ∃ l os, runAll one rows = .ok (l, os)
  | [], _ => ⟨[], [], rfl⟩
  | r :: rs, h => by
    obtain ⟨a, out, h1⟩ := h r (by simp)
    obtain ⟨l, os, h2⟩ := runAll_ok one rs fun r' hr' => h r' (by simp [hr'])
    simp only [runAll, h1, h2, bind_ok]
    exact ⟨_, _, rfl⟩

theorem execUpdate_spec {cmp : Tuple → Tuple → Int} (L : CmpLaws cmp) (fnSet : Val → Bytes → Val → Res Val) (d : Dml) (hk : ByKey d.cols cmp) (ops : List SetOp) {n : Nat} {t : Tree Tuple} (I : Inv cmp n t) :
    (∀ t' out, execUpdate fnSet cmp d ops t = .ok (t', out) → Inv cmp n t' ∧ Does fnSet cmp d.cols t.flat t'.flat out (.update ops d.wh d.ret)) ∧
    (Allowed d.cols ops → (∀ r ∈ t.flat, ∃ new out, UpdateRow fnSet d ops r new out) → ∃ t' out, execUpdate fnSet cmp d ops t = .ok (t', out)) := by
  unfold execUpdate
  rcases compileSets_spec fnSet d.cols ops with ⟨ha, list, h1, hl⟩ | ⟨ha, h1⟩
  · rw [h1, bind_ok]
    have hone : ∀ r r' out, oneUpdate d list r = .ok (.replace r', out) → cmp r r' = 0 := by
      intro r r' out h
      obtain ⟨new, hn, e⟩ := (oneUpdate_iff fnSet d ops ha list hl r).1 _ _ h
      simp only [Act.result, List.cons.injEq, and_true] at e
      subst e
      rcases hn with ⟨_, rfl, _⟩ | ⟨_, hu, _⟩
      · exact L.refl _
      · exact update_key hk ha hu
    obtain ⟨s1, s2⟩ := scanWith_spec L (updateBody d list) (oneUpdate d list) (updateBody_eq d list) hone I
    constructor
    · intro t' out h
      cases hr : runAll (oneUpdate d list) t.flat with
      | error e => rw [s2 e hr] at h; cases h
      | ok p =>
        obtain ⟨l, os⟩ := p
        obtain ⟨t'', f1, f2, f3⟩ := s1 l os hr
        rw [f1] at h
        cases h
        obtain ⟨new, ret, k1, k2, k3⟩ := runAll_map (oneUpdate d list) (UpdateRow fnSet d ops) (fun r a out h => (oneUpdate_iff fnSet d ops ha list hl r).1 a out h) t.flat l _ hr
        exact ⟨f2, ha, new, ret, k1, by rw [f3, k2], k3⟩
    · intro _ h
      obtain ⟨l, os, hr⟩ := runAll_ok (oneUpdate d list) t.flat fun r hr => (oneUpdate_iff fnSet d ops ha list hl r).2 (h r hr)
      obtain ⟨t', f1, _⟩ := s1 l os hr
      exact ⟨t', os, f1⟩
  · rw [h1, bind_err]
    exact ⟨fun _ _ h => (by cases h), fun h => absurd h ha⟩

/-! ## DELETE -/

def oneDelete (d : Dml) (row : Tuple) : Res (Act Tuple × List (List Val)) := do
  let b ← holds d.wh ⟨row, none⟩
  if b then do
    let out ← returning d.ret ⟨row, none⟩
    .ok (.delete, out)
  else .ok (.keep, [])

theorem deleteBody_eq (d : Dml) (t : Tree Tuple) (q : Pos) (row : Tuple) :
    deleteBody d t ⟨some row, some q, false⟩ row = bodyOf (oneDelete d) t ⟨some row, some q, false⟩ row := by
  unfold deleteBody bodyOf oneDelete
  cases holds d.wh ⟨row, none⟩ with
  | error e => rfl
  | ok b =>
    cases b with
    | false => rfl
    | true =>
      simp only [bind_ok, if_true]
      cases returning d.ret ⟨row, none⟩ with
      | error e => rfl
      | ok out => rfl

theorem oneDelete_iff (d : Dml) (r : Tuple) (out : List (List Val)) (b : Bool) :
    oneDelete d r = .ok (if b then .delete else .keep, out) ↔ DeleteRow d r b out := by
  unfold oneDelete DeleteRow
  constructor
  · intro h
    obtain ⟨b', h1, h⟩ := bind_eq_ok h
    have hw := (holds_iff _ _ _).1 h1
    cases b' with
    | false =>
      simp only [Bool.false_eq_true, if_false, Except.ok.injEq, Prod.mk.injEq] at h
      cases b with
      | true => exact absurd h.1 (by simp)
      | false => exact ⟨hw, by simp [h.2.symm]⟩
    | true =>
      simp only [if_true] at h
      obtain ⟨o, h3, h⟩ := bind_eq_ok h
      simp only [Except.ok.injEq, Prod.mk.injEq] at h
      cases b with
      | false => exact absurd h.1 (by simp)
      | true =>
        refine ⟨hw, ?_⟩
        rw [if_pos rfl, ← h.2]
        exact (returning_iff _ _ _).1 h3
  · rintro ⟨h1, h2⟩
    rw [(holds_iff _ _ _).2 h1, bind_ok]
    cases b with
    | false =>
      simp only [Bool.false_eq_true, if_false] at h2 ⊢
      rw [h2]
    | true =>
      simp only [if_true] at h2 ⊢
      rw [(returning_iff _ _ _).2 h2, bind_ok]

theorem oneDelete_act (d : Dml) (r : Tuple) (a : Act Tuple) (out : List (List Val)) (h : oneDelete d r = .ok (a, out)) : ∃ b : Bool, a = if b then .delete else .keep := by
  unfold oneDelete at h
  obtain ⟨b, h1, h⟩ := bind_eq_ok h
  cases b with
  | false => cases h; exact ⟨false, rfl⟩
  | true =>
    simp only [if_true] at h
    obtain ⟨o, h3, h⟩ := bind_eq_ok h
    cases h
    exact ⟨true, rfl⟩

theorem runAll_delete (d : Dml) (rows : List Tuple) (l : List Tuple) (os : List (List Val)) (hr : runAll (oneDelete d) rows = .ok (l, os)) :
    ∃ (gone : Tuple → Bool) (ret : Tuple → List (List Val)), (∀ r ∈ rows, DeleteRow d r (gone r) (ret r)) ∧ l = rows.filter (fun r => !gone r) ∧ os = rows.flatMap ret := by
  refine ⟨fun r => match oneDelete d r with | .ok (.delete, _) => true | _ => false, fun r => match oneDelete d r with | .ok (_, out) => out | _ => [], ?_⟩
  induction rows generalizing l os with
  | nil => cases hr; simp
  | cons r rs ih =>
    simp only [runAll] at hr
    obtain ⟨p, h1, hr⟩ := bind_eq_ok hr
    obtain ⟨p2, h2, hr⟩ := bind_eq_ok hr
    cases hr
    obtain ⟨i1, i2, i3⟩ := ih p2.1 p2.2 h2
    obtain ⟨a, out⟩ := p
    obtain ⟨b, rfl⟩ := oneDelete_act d r a out h1
    refine ⟨?_, ?_, ?_⟩
    · intro r' hr'
      rcases List.mem_cons.1 hr' with rfl | hr'
      · have := (oneDelete_iff d r' out b).1 h1
        simp only [h1]
        cases b with
        | false => exact this
        | true => exact this
      · exact i1 r' hr'
    · rw [List.filter_cons]
      simp only [h1]
      cases b with
      | false => simp [Act.result, i2]
      | true => simp [Act.result, i2]
    · rw [List.flatMap_cons, ← i3]
      simp only [h1]

theorem execDelete_spec {cmp : Tuple → Tuple → Int} (L : CmpLaws cmp) (fnSet : Val → Bytes → Val → Res Val) (d : Dml) {n : Nat} {t : Tree Tuple} (I : Inv cmp n t) :
    (∀ t' out, execDelete cmp d t = .ok (t', out) → Inv cmp n t' ∧ Does fnSet cmp d.cols t.flat t'.flat out (.delete d.wh d.ret)) ∧
    ((∀ r ∈ t.flat, ∃ b out, DeleteRow d r b out) → ∃ t' out, execDelete cmp d t = .ok (t', out)) := by
  unfold execDelete
  have hone : ∀ r r' out, oneDelete d r = .ok (.replace r', out) → cmp r r' = 0 := by
    intro r r' out h
    obtain ⟨b, hb⟩ := oneDelete_act d r _ out h
    cases b <;> simp at hb
  obtain ⟨s1, s2⟩ := scanWith_spec L (deleteBody d) (oneDelete d) (deleteBody_eq d) hone I
  constructor
  · intro t' out h
    cases hr : runAll (oneDelete d) t.flat with
    | error e => rw [s2 e hr] at h; cases h
    | ok p =>
      obtain ⟨l, os⟩ := p
      obtain ⟨t'', f1, f2, f3⟩ := s1 l os hr
      rw [f1] at h
      cases h
      obtain ⟨gone, ret, k1, k2, k3⟩ := runAll_delete d t.flat l _ hr
      exact ⟨f2, gone, ret, k1, by rw [f3, k2], k3⟩
  · intro h
    obtain ⟨l, os, hr⟩ := runAll_ok (oneDelete d) t.flat fun r hr => by
      obtain ⟨b, out, hd⟩ := h r hr
      exact ⟨_, _, (oneDelete_iff d r out b).2 hd⟩
    obtain ⟨t', f1, _⟩ := s1 l os hr
    exact ⟨t', os, f1⟩

end Verif.Dml
