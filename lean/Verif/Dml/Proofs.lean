import Verif.Dml.Spec
/-! Proofs: the SET list -/
set_option autoImplicit false
set_option linter.unusedVariables false
set_option linter.unusedSimpArgs false
namespace Verif.Dml
open Verif Verif.Row Verif.Index

theorem bind_ok {α β : Type} (a : α) (f : α → Res β) : ((Except.ok a : Res α) >>= f) = f a := rfl
theorem bind_err {α β : Type} (e : Fail) (f : α → Res β) : ((Except.error e : Res α) >>= f) = .error e := rfl

theorem bind_eq_ok {α β : Type} {x : Res α} {f : α → Res β} {b : β} (h : (x >>= f) = .ok b) : ∃ a, x = .ok a ∧ f a = .ok b := by
  cases x with
  | error e => rw [bind_err] at h; cases h
  | ok a => exact ⟨a, rfl, h⟩

/-! ## columns -/

theorem findCol_some {name : Bytes} : ∀ {cols : List Col} {k i : Nat}, findCol name k cols = some i →
    ∃ c, k ≤ i ∧ IsCol cols name (i - k) c
  | [], k, i, h => by cases h
  | c :: cs, k, i, h => by
    simp only [findCol] at h
    split at h
    · rename_i hc
      cases h
      refine ⟨c, Nat.le_refl _, by simp, hc.1, hc.2, ?_⟩
      intro j c' hj
      omega
    · rename_i hc
      obtain ⟨c', h1, h2, h3, h4, h5⟩ := findCol_some h
      have e : i - k = (i - (k + 1)) + 1 := by omega
      refine ⟨c', by omega, by rw [e]; simpa using h2, h3, h4, ?_⟩
      intro j d hj hd hdr
      cases j with
      | zero =>
        simp only [List.getElem?_cons_zero, Option.some.injEq] at hd
        subst hd
        cases hx : Parse.Lex.isCase c.name name with
        | false => rfl
        | true => exact absurd ⟨hdr, hx⟩ hc
      | succ j => exact h5 j d (by omega) (by simpa using hd) hdr

theorem IsCol.unique {cols : List Col} {name : Bytes} {i j : Nat} {c d : Col} (h : IsCol cols name i c) (g : IsCol cols name j d) : i = j ∧ c = d := by
  obtain ⟨h1, h2, h3, h4⟩ := h
  obtain ⟨g1, g2, g3, g4⟩ := g
  have : i = j := by
    rcases Nat.lt_trichotomy i j with hlt | heq | hlt
    · have := g4 i c hlt h1 h2
      rw [h3] at this; cases this
    · exact heq
    · have := h4 j d hlt g1 g2
      rw [g3] at this; cases this
  subst this
  rw [h1] at g1
  exact ⟨rfl, Option.some.inj g1⟩

theorem findCol_none {name : Bytes} : ∀ {cols : List Col} {k : Nat}, findCol name k cols = none → ∀ i c, ¬IsCol cols name i c
  | [], k, h, i, c, hc => by have := hc.1; simp at this
  | c :: cs, k, h, i, d, hd => by
    simp only [findCol] at h
    split at h
    · cases h
    · rename_i hc
      obtain ⟨h1, h2, h3, h4⟩ := hd
      cases i with
      | zero =>
        simp only [List.getElem?_cons_zero, Option.some.injEq] at h1
        subst h1
        exact hc ⟨h2, h3⟩
      | succ i =>
        refine findCol_none h i d ⟨by simpa using h1, h2, h3, ?_⟩
        intro j c' hj hc' hdr
        exact h4 (j + 1) c' (by omega) (by simpa using hc') hdr

theorem findCol_iff {name : Bytes} {cols : List Col} {i : Nat} : findCol name 0 cols = some i ↔ ∃ c, IsCol cols name i c := by
  constructor
  · intro h
    obtain ⟨c, _, hc⟩ := findCol_some h
    exact ⟨c, by simpa using hc⟩
  · intro ⟨c, hc⟩
    cases h : findCol name 0 cols with
    | none => exact absurd hc (findCol_none h i c)
    | some j =>
      obtain ⟨d, _, hd⟩ := findCol_some h
      have hd : IsCol cols name j d := by simpa using hd
      rw [(hc.unique hd).1]

/-! ## the ordered list -/

/-- in column order -/
def Ordered (l : List (Nat × Rhs)) : Prop := l.Pairwise fun a b => a.1 < b.1

theorem place_ok {i : Nat} {r : Rhs} : ∀ {l : List (Nat × Rhs)}, Ordered l → (∀ p ∈ l, p.1 ≠ i) →
    ∃ l', place i r l = .ok l' ∧ Ordered l' ∧ l'.Perm ((i, r) :: l)
  | [], _, _ => ⟨[(i, r)], rfl, by simp [Ordered], List.Perm.refl _⟩
  | p :: ps, ho, hn => by
    simp only [place]
    have hp : i ≠ p.1 := fun e => hn p (by simp) e.symm
    rw [if_neg hp]
    unfold Ordered at ho
    rw [List.pairwise_cons] at ho
    by_cases hlt : i < p.1
    · rw [if_pos hlt]
      refine ⟨_, rfl, ?_, List.Perm.refl _⟩
      unfold Ordered
      rw [List.pairwise_cons, List.pairwise_cons]
      refine ⟨?_, ho⟩
      intro q hq
      rcases List.mem_cons.1 hq with rfl | hq
      · exact hlt
      · exact Nat.lt_trans hlt (ho.1 q hq)
    · rw [if_neg hlt]
      obtain ⟨l', h1, h2, h3⟩ := place_ok (r := r) ho.2 (fun q hq => hn q (by simp [hq]))
      rw [h1, bind_ok]
      refine ⟨_, rfl, ?_, ?_⟩
      · unfold Ordered
        rw [List.pairwise_cons]
        refine ⟨?_, h2⟩
        intro q hq
        rcases List.mem_cons.1 (h3.mem_iff.1 hq) with rfl | hq
        · show p.1 < i
          omega
        · exact ho.1 q hq
      · exact (List.Perm.cons p h3).trans (List.Perm.swap _ _ _)

theorem place_err {i : Nat} {r : Rhs} : ∀ {l : List (Nat × Rhs)}, Ordered l → (∃ p ∈ l, p.1 = i) → place i r l = .error .err
  | [], _, h => by obtain ⟨p, hp, _⟩ := h; simp at hp
  | p :: ps, ho, h => by
    unfold Ordered at ho
    rw [List.pairwise_cons] at ho
    simp only [place]
    by_cases hp : i = p.1
    · rw [if_pos hp]
    · obtain ⟨q, hq, e⟩ := h
      rcases List.mem_cons.1 hq with rfl | hq
      · exact absurd e.symm hp
      · have := ho.1 q hq
        rw [if_neg hp, if_neg (by omega), place_err ho.2 ⟨q, hq, e⟩, bind_err]

theorem ordered_perm_eq {a b : List (Nat × Rhs)} (ha : Ordered a) (hb : Ordered b) (h : a.Perm b) : a = b := by
  refine h.eq_of_pairwise ?_ ha hb
  intro x y _ _ h1 h2
  omega

/-- each SET with its column and right side -/
inductive Resolved (cols : List Col) : List (Bytes × Rhs) → List (Nat × Rhs) → Prop
  | nil : Resolved cols [] []
  | cons {name : Bytes} {r : Rhs} {i : Nat} {c : Col} {ops : List (Bytes × Rhs)} {l : List (Nat × Rhs)} :
      IsCol cols name i c → c.refs = 0 → Resolved cols ops l → Resolved cols ((name, r) :: ops) ((i, r) :: l)

theorem orderSets_spec (cols : List Col) : ∀ (ops : List (Bytes × Rhs)) (acc : List (Nat × Rhs)), Ordered acc →
    (∃ list, orderSets cols ops acc = .ok list ∧ Ordered list ∧ ∃ l, Resolved cols ops l ∧ list.Perm (l ++ acc) ∧ (l ++ acc).Pairwise (fun a b => a.1 ≠ b.1)) ∨
    (orderSets cols ops acc = .error .err ∧ ¬∃ l, Resolved cols ops l ∧ (l ++ acc).Pairwise (fun a b => a.1 ≠ b.1))
  | [], acc, ho => by
    refine .inl ⟨acc, rfl, ho, [], .nil, List.Perm.refl _, ?_⟩
    exact List.Pairwise.imp (fun h => Nat.ne_of_lt h) ho
  | (name, r) :: ops, acc, ho => by
    have symm : ∀ {l l' : List (Nat × Rhs)}, l.Perm l' → l.Pairwise (fun a b => a.1 ≠ b.1) → l'.Pairwise (fun a b => a.1 ≠ b.1) :=
      fun hp h => hp.pairwise h (fun h => Ne.symm h)
    simp only [orderSets]
    cases hf : findCol name 0 cols with
    | none =>
      refine .inr ⟨rfl, ?_⟩
      rintro ⟨l, hr, _⟩
      cases hr with
      | cons hc _ _ => exact findCol_none hf _ _ hc
    | some i =>
      obtain ⟨c, hc⟩ := findCol_iff.1 hf
      simp only [hc.1]
      by_cases hk : c.refs > 0
      · rw [if_pos hk]
        refine .inr ⟨rfl, ?_⟩
        rintro ⟨l, hr, _⟩
        cases hr with
        | cons hc' h0 _ =>
          have := (hc.unique hc').2
          subst this
          omega
      · rw [if_neg hk]
        by_cases hex : ∃ p ∈ acc, p.1 = i
        · rw [place_err ho hex, bind_err]
          refine .inr ⟨rfl, ?_⟩
          rintro ⟨l, hr, hpw⟩
          cases hr with
          | cons hc' h0 _ =>
            have := (hc.unique hc').1
            subst this
            obtain ⟨p, hp, e⟩ := hex
            rw [List.cons_append, List.pairwise_cons] at hpw
            exact hpw.1 p (by simp [hp]) e.symm
        · have hn : ∀ p ∈ acc, p.1 ≠ i := fun p hp e => hex ⟨p, hp, e⟩
          obtain ⟨acc', p1, p2, p3⟩ := place_ok (r := r) ho hn
          rw [p1, bind_ok]
          have perm : ∀ l : List (Nat × Rhs), (l ++ acc').Perm ((i, r) :: l ++ acc) := fun l =>
            (List.Perm.append_left l p3).trans List.perm_middle
          rcases orderSets_spec cols ops acc' p2 with ⟨list, h1, h2, l, h3, h4, h5⟩ | ⟨h1, h2⟩
          · exact .inl ⟨list, h1, h2, (i, r) :: l, .cons hc (by omega) h3, h4.trans (perm l), symm (perm l) h5⟩
          · refine .inr ⟨h1, ?_⟩
            rintro ⟨l, hr, hpw⟩
            cases hr with
            | cons hc' h0 hr' =>
              rename_i i' c' l'
              have := (hc.unique hc').1
              subst this
              exact h2 ⟨l', hr', symm (perm l').symm hpw⟩

theorem checkTypes_spec (cols : List Col) : ∀ (l : List (Nat × Rhs)), (∀ p ∈ l, ∃ c, cols[p.1]? = some c) →
    (checkTypes cols l = .ok () ∧ ∀ p ∈ l, ∀ c, cols[p.1]? = some c → rhsKind c p.2 = none ∨ rhsKind c p.2 = some (kindOf c.ty)) ∨
    (checkTypes cols l = .error .err ∧ ¬∀ p ∈ l, ∀ c, cols[p.1]? = some c → rhsKind c p.2 = none ∨ rhsKind c p.2 = some (kindOf c.ty))
  | [], _ => .inl ⟨rfl, by simp⟩
  | (i, r) :: ps, h => by
    obtain ⟨c, hc⟩ := h (i, r) (by simp)
    simp only at hc
    simp only [checkTypes, hc]
    by_cases hk : rhsKind c r ≠ none ∧ rhsKind c r ≠ some (kindOf c.ty)
    · rw [if_pos hk]
      refine .inr ⟨rfl, fun hh => ?_⟩
      rcases hh (i, r) (by simp) c hc with h1 | h1
      · exact hk.1 h1
      · exact hk.2 h1
    · rw [if_neg hk]
      have hk' : rhsKind c r = none ∨ rhsKind c r = some (kindOf c.ty) := by
        by_cases h1 : rhsKind c r = none
        · exact .inl h1
        · by_cases h2 : rhsKind c r = some (kindOf c.ty)
          · exact .inr h2
          · exact absurd ⟨h1, h2⟩ hk
      rcases checkTypes_spec cols ps (fun p hp => h p (by simp [hp])) with ⟨h1, h2⟩ | ⟨h1, h2⟩
      · refine .inl ⟨h1, ?_⟩
        intro p hp d hd
        rcases List.mem_cons.1 hp with rfl | hp
        · simp only at hd
          rw [hc] at hd
          cases hd
          exact hk'
        · exact h2 p hp d hd
      · exact .inr ⟨h1, fun hh => h2 fun p hp => hh p (by simp [hp])⟩

/-! ## the whole SET list -/

/-- the right side of a SET as compiled -/
def SetOp.rhs' (op : SetOp) (fnSet : Val → Bytes → Val → Res Val) (cols : List Col) : Rhs :=
  if op.compound then
    match op.rhs with
    | .dflt => .dflt
    | .expr e => .expr ⟨some .json, fun x => do
        let old ← oldOf op.column cols x
        let v ← e.ev x
        fnSet old op.path v⟩
  else op.rhs

/-- not DEFAULT for a path -/
def Plain (op : SetOp) : Prop := op.compound = true → ∃ e, op.rhs = .expr e

theorem parseSet_ok (fnSet : Val → Bytes → Val → Res Val) (cols : List Col) (op : SetOp) (h : Plain op) :
    parseSet fnSet cols op = .ok (op.column, op.rhs' fnSet cols) := by
  unfold parseSet SetOp.rhs' SetOp.column SetOp.path splitDot
  cases hc : op.compound with
  | false => rfl
  | true =>
    obtain ⟨e, he⟩ := h hc
    simp only [if_true, he]

theorem parseSet_err (fnSet : Val → Bytes → Val → Res Val) (cols : List Col) (op : SetOp) (h : ¬Plain op) :
    parseSet fnSet cols op = .error .err := by
  unfold parseSet
  cases hc : op.compound with
  | false => exact absurd (fun e => by rw [hc] at e; cases e) h
  | true =>
    cases hr : op.rhs with
    | dflt => rfl
    | expr e => exact absurd (fun _ => ⟨e, hr⟩) h

theorem parseSets_spec (fnSet : Val → Bytes → Val → Res Val) (cols : List Col) : ∀ (ops : List SetOp),
    ((∀ op ∈ ops, Plain op) ∧ parseSets fnSet cols ops = .ok (ops.map fun op => (op.column, op.rhs' fnSet cols))) ∨
    ((¬∀ op ∈ ops, Plain op) ∧ parseSets fnSet cols ops = .error .err)
  | [] => .inl ⟨by simp, rfl⟩
  | op :: ops => by
    simp only [parseSets]
    by_cases h : Plain op
    · rw [parseSet_ok fnSet cols op h, bind_ok]
      rcases parseSets_spec fnSet cols ops with ⟨h1, h2⟩ | ⟨h1, h2⟩
      · rw [h2, bind_ok]
        refine .inl ⟨?_, rfl⟩
        intro o ho
        rcases List.mem_cons.1 ho with rfl | ho
        · exact h
        · exact h1 o ho
      · rw [h2, bind_err]
        exact .inr ⟨fun hh => h1 fun o ho => hh o (by simp [ho]), rfl⟩
    · rw [parseSet_err fnSet cols op h, bind_err]
      exact .inr ⟨fun hh => h (hh op (by simp)), rfl⟩

theorem resolved_mem {cols : List Col} {ops : List (Bytes × Rhs)} {l : List (Nat × Rhs)} (h : Resolved cols ops l) :
    (∀ p ∈ l, ∃ name c, (name, p.2) ∈ ops ∧ IsCol cols name p.1 c ∧ c.refs = 0) ∧
    (∀ o ∈ ops, ∃ i c, (i, o.2) ∈ l ∧ IsCol cols o.1 i c ∧ c.refs = 0) := by
  induction h with
  | nil => simp
  | @cons name r i c ops l hc h0 _ ih =>
    constructor
    · intro p hp
      rcases List.mem_cons.1 hp with rfl | hp
      · exact ⟨name, c, by simp, hc, h0⟩
      · obtain ⟨n, d, g1, g2⟩ := ih.1 p hp
        exact ⟨n, d, by simp [g1], g2⟩
    · intro o ho
      rcases List.mem_cons.1 ho with rfl | ho
      · exact ⟨i, c, by simp, hc, h0⟩
      · obtain ⟨n, d, g1, g2⟩ := ih.2 o ho
        exact ⟨n, d, by simp [g1], g2⟩

theorem resolved_of {cols : List Col} : ∀ {ops : List (Bytes × Rhs)}, (∀ o ∈ ops, ∃ i c, IsCol cols o.1 i c ∧ c.refs = 0) → ∃ l, Resolved cols ops l
  | [], _ => ⟨[], .nil⟩
  | (name, r) :: ops, h => by
    obtain ⟨i, c, hc, h0⟩ := h (name, r) (by simp)
    obtain ⟨l, hl⟩ := resolved_of (ops := ops) fun o ho => h o (by simp [ho])
    exact ⟨(i, r) :: l, .cons hc h0 hl⟩

theorem resolved_once {cols : List Col} {ops : List (Bytes × Rhs)} {l : List (Nat × Rhs)} (h : Resolved cols ops l) :
    l.Pairwise (fun a b => a.1 ≠ b.1) ↔ ops.Pairwise fun a b => ∀ i c, ¬(IsCol cols a.1 i c ∧ IsCol cols b.1 i c) := by
  induction h with
  | nil => simp
  | @cons name r i c ops l hc h0 hr ih =>
    rw [List.pairwise_cons, List.pairwise_cons, ih]
    have hm := resolved_mem hr
    constructor
    · rintro ⟨h1, h2⟩
      refine ⟨?_, h2⟩
      intro o ho j d ⟨g1, g2⟩
      obtain ⟨i', c', m1, m2, _⟩ := hm.2 o ho
      have e1 := (hc.unique g1).1
      have e2 := (m2.unique g2).1
      exact h1 _ m1 (by show i = i'; omega)
    · rintro ⟨h1, h2⟩
      refine ⟨?_, h2⟩
      intro p hp e
      obtain ⟨n, d, m1, m2, _⟩ := hm.1 p hp
      rw [← show i = p.1 from e] at m2
      have : c = d := by
        have := hc.1
        rw [m2.1] at this
        exact (Option.some.inj this).symm
      subst this
      exact h1 _ m1 i c ⟨hc, m2⟩

theorem resolved_cols {cols : List Col} {ops : List (Bytes × Rhs)} {l : List (Nat × Rhs)} (h : Resolved cols ops l) : ∀ p ∈ l, ∃ c, cols[p.1]? = some c := by
  intro p hp
  obtain ⟨_, c, _, hc, _⟩ := (resolved_mem h).1 p hp
  exact ⟨c, hc.1⟩

theorem fits_iff (fnSet : Val → Bytes → Val → Res Val) (cols : List Col) (c : Col) (op : SetOp) (h : Plain op) :
    Fits c op ↔ rhsKind c (op.rhs' fnSet cols) = none ∨ rhsKind c (op.rhs' fnSet cols) = some (kindOf c.ty) := by
  unfold Fits SetOp.rhs'
  cases hc : op.compound with
  | true =>
    obtain ⟨e, he⟩ := h hc
    simp [he, rhsKind, eq_comm]
  | false =>
    cases hr : op.rhs with
    | dflt => simp [rhsKind]
    | expr e => simp [rhsKind]

/-- the compiled SET list: the pairs of the SETs, in column order -/
def Compiled (fnSet : Val → Bytes → Val → Res Val) (cols : List Col) (ops : List SetOp) (list : List (Nat × Rhs)) : Prop :=
  Ordered list ∧ ∃ l, Resolved cols (ops.map fun op => (op.column, op.rhs' fnSet cols)) l ∧ list.Perm l

theorem compileSets_spec (fnSet : Val → Bytes → Val → Res Val) (cols : List Col) (ops : List SetOp) :
    (Allowed cols ops ∧ ∃ list, compileSets fnSet cols ops = .ok list ∧ Compiled fnSet cols ops list) ∨
    (¬Allowed cols ops ∧ compileSets fnSet cols ops = .error .err) := by
  unfold compileSets
  have plain : Allowed cols ops → ∀ op ∈ ops, Plain op := by
    intro ha op ho hc
    obtain ⟨i, c, _, _, hf⟩ := ha.live op ho
    unfold Fits at hf
    rw [if_pos hc] at hf
    exact hf.2
  rcases parseSets_spec fnSet cols ops with ⟨h1, h2⟩ | ⟨h1, h2⟩
  · rw [h2, bind_ok]
    have resl : Allowed cols ops → ∃ l, Resolved cols (ops.map fun op => (op.column, op.rhs' fnSet cols)) l ∧ l.Pairwise (fun a b => a.1 ≠ b.1) := by
      intro ha
      obtain ⟨l, hl⟩ : ∃ l, Resolved cols (ops.map fun op => (op.column, op.rhs' fnSet cols)) l := by
        refine resolved_of ?_
        intro o ho
        obtain ⟨op, hop, rfl⟩ := List.mem_map.1 ho
        obtain ⟨i, c, hc, h0, _⟩ := ha.live op hop
        exact ⟨i, c, hc, h0⟩
      refine ⟨l, hl, (resolved_once hl).2 ?_⟩
      rw [List.pairwise_map]
      exact ha.once
    rcases orderSets_spec cols (ops.map fun op => (op.column, op.rhs' fnSet cols)) [] (by simp [Ordered]) with ⟨list, g1, g2, l, g3, g4, g5⟩ | ⟨g1, g2⟩
    · rw [g1, bind_ok]
      rw [List.append_nil] at g4 g5
      have hcols : ∀ p ∈ list, ∃ c, cols[p.1]? = some c := fun p hp => resolved_cols g3 p (g4.mem_iff.1 hp)
      rcases checkTypes_spec cols list hcols with ⟨k1, k2⟩ | ⟨k1, k2⟩
      · rw [k1, bind_ok]
        refine .inl ⟨⟨?_, ?_⟩, list, rfl, g2, l, g3, g4⟩
        · intro op ho
          obtain ⟨i, c, m1, m2, m3⟩ := (resolved_mem g3).2 (op.column, op.rhs' fnSet cols) (List.mem_map_of_mem ho)
          exact ⟨i, c, m2, m3, (fits_iff fnSet cols c op (h1 op ho)).2 (k2 _ (g4.mem_iff.2 m1) c m2.1)⟩
        · have := (resolved_once g3).1 g5
          rw [List.pairwise_map] at this
          exact this
      · rw [k1, bind_err]
        refine .inr ⟨?_, rfl⟩
        intro ha
        apply k2
        intro p hp c hc
        obtain ⟨name, d, m1, m2, m3⟩ := (resolved_mem g3).1 p (g4.mem_iff.1 hp)
        obtain ⟨op, hop, e⟩ := List.mem_map.1 m1
        simp only [Prod.mk.injEq] at e
        obtain ⟨i, c', q1, q2, q3⟩ := ha.live op hop
        rw [e.1] at q1
        have hu := q1.unique m2
        have hcd : d = c := by
          have := m2.1
          rw [hc] at this
          exact (Option.some.inj this).symm
        rw [hu.2, hcd] at q3
        have := (fits_iff fnSet cols c op (h1 op hop)).1 q3
        rw [e.2] at this
        exact this
    · rw [g1, bind_err]
      refine .inr ⟨?_, rfl⟩
      intro ha
      obtain ⟨l, hl, hp⟩ := resl ha
      exact g2 ⟨l, hl, by simpa using hp⟩
  · rw [h2, bind_err]
    exact .inr ⟨fun ha => h1 (plain ha), rfl⟩

theorem resolved_perm {cols : List Col} {a b : List (Bytes × Rhs)} (h : a.Perm b) : ∀ {l l' : List (Nat × Rhs)}, Resolved cols a l → Resolved cols b l' → l.Perm l' := by
  have det : ∀ {o : List (Bytes × Rhs)} {l l' : List (Nat × Rhs)}, Resolved cols o l → Resolved cols o l' → l = l' := by
    intro o l l' h1
    induction h1 generalizing l' with
    | nil => intro h2; cases h2; rfl
    | cons hc h0 hr ih =>
      intro h2
      cases h2 with
      | cons hc' h0' hr' => rw [(hc.unique hc').1, ih hr']
  induction h with
  | nil => intro l l' h1 h2; cases h1; cases h2; exact List.Perm.refl _
  | cons x _ ih =>
    intro l l' h1 h2
    cases h1 with
    | cons hc h0 hr =>
      cases h2 with
      | cons hc' h0' hr' =>
        rw [(hc.unique hc').1]
        exact List.Perm.cons _ (ih hr hr')
  | swap x y z =>
    intro l l' h1 h2
    cases h1 with
    | cons hc h0 hr =>
      cases hr with
      | cons hd k0 hr =>
        cases h2 with
        | cons hd' k0' hr' =>
          cases hr' with
          | cons hc' h0' hr' =>
            rw [(hc.unique hc').1, (hd.unique hd').1, det hr hr']
            exact List.Perm.swap _ _ _
  | @trans o1 o2 o3 p1 p2 ih1 ih2 =>
    intro l l' h1 h2
    obtain ⟨l2, hl2⟩ : ∃ l2, Resolved cols o2 l2 := by
      refine resolved_of ?_
      intro o ho
      obtain ⟨i, c, _, hc⟩ := (resolved_mem h1).2 o (p1.mem_iff.2 ho)
      exact ⟨i, c, hc⟩
    exact (ih1 h1 hl2).trans (ih2 hl2 h2)

theorem allowed_perm {cols : List Col} {a b : List SetOp} (h : a.Perm b) (ha : Allowed cols a) : Allowed cols b :=
  ⟨fun op ho => ha.live op (h.mem_iff.2 ho), h.pairwise ha.once fun hh i c hc => hh i c ⟨hc.2, hc.1⟩⟩

theorem compileSets_perm (fnSet : Val → Bytes → Val → Res Val) (cols : List Col) {a b : List SetOp} (h : a.Perm b) :
    compileSets fnSet cols a = compileSets fnSet cols b := by
  rcases compileSets_spec fnSet cols a with ⟨h1, l, h2, h3, m, h4, h5⟩ | ⟨h1, h2⟩ <;>
    rcases compileSets_spec fnSet cols b with ⟨g1, l', g2, g3, m', g4, g5⟩ | ⟨g1, g2⟩
  · rw [h2, g2]
    have := resolved_perm (h.map fun op => (op.column, op.rhs' fnSet cols)) h4 g4
    rw [ordered_perm_eq h3 g3 (h5.trans (this.trans g5.symm))]
  · exact absurd (allowed_perm h h1) g1
  · exact absurd (allowed_perm h.symm g1) h1
  · rw [h2, g2]

end Verif.Dml
