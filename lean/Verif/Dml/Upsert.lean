import Verif.Dml.Scan
/-! Proofs: INSERT … ON CONFLICT, statements one after the other -/
set_option autoImplicit false
set_option linter.unusedVariables false
set_option linter.unusedSimpArgs false
namespace Verif.Dml
open Verif Verif.Row Verif.Index

/-- the compiled clause belongs to the clause -/
def Acts (fnSet : Val → Bytes → Val → Res Val) (cols : List Col) : Conflict → Action → Prop
  | .update ops wh, a => Allowed cols ops ∧ ∃ list, Compiled fnSet cols ops list ∧ a = .update list wh
  | .error, a => a = .error
  | .nothing, a => a = .nothing

theorem compileConflict_spec (fnSet : Val → Bytes → Val → Res Val) (cols : List Col) (c : Conflict) :
    (∀ a, compileConflict fnSet cols c = .ok a → Acts fnSet cols c a) ∧
    ((∀ ops wh, c = .update ops wh → Allowed cols ops) → ∃ a, compileConflict fnSet cols c = .ok a) := by
  cases c with
  | nothing => exact ⟨fun a h => (by cases h; rfl), fun _ => ⟨_, rfl⟩⟩
  | error => exact ⟨fun a h => (by cases h; rfl), fun _ => ⟨_, rfl⟩⟩
  | update ops wh =>
    simp only [compileConflict]
    rcases compileSets_spec fnSet cols ops with ⟨ha, list, h1, hl⟩ | ⟨ha, h1⟩
    · rw [h1, bind_ok]
      exact ⟨fun a h => (by cases h; exact ⟨ha, list, hl, rfl⟩), fun _ => ⟨_, rfl⟩⟩
    · rw [h1, bind_err]
      exact ⟨fun a h => (by cases h), fun h => absurd (h ops wh rfl) ha⟩

theorem WhereIs.unique {wh : Option Expr} {x : Ctx} {a b : Bool} (ha : WhereIs wh x a) (hb : WhereIs wh x b) : a = b := by
  have := (holds_iff _ _ _).2 ha
  rw [(holds_iff _ _ _).2 hb] at this
  exact (Except.ok.inj this).symm

theorem Returned.unique {ret : Option (List Expr)} {x : Ctx} {a b : List (List Val)} (ha : Returned ret x a) (hb : Returned ret x b) : a = b := by
  have := (returning_iff _ _ _).2 ha
  rw [(returning_iff _ _ _).2 hb] at this
  exact (Except.ok.inj this).symm

theorem onConflict_spec {cmp : Tuple → Tuple → Int} (L : CmpLaws cmp) {fnSet : Val → Bytes → Val → Res Val} {cols : List Col} (hk : ByKey cols cmp) {c : Conflict} {a : Action} (h : Acts fnSet cols c a)
    (g : Tuple) {n : Nat} {t : Tree Tuple} (I : Inv cmp n t) {q : Pos} {X : List Tuple} {y : Tuple} {Y : List Tuple} (hat : AtPos t q X y Y) :
    (∀ t1 it1, onConflict cols a g t ⟨some y, some q, false⟩ = .ok (t1, it1) → ∃ new, Resolves fnSet cols g y new c) ∧
    (∀ new, Resolves fnSet cols g y new c → ∃ t1 it1, onConflict cols a g t ⟨some y, some q, false⟩ = .ok (t1, it1) ∧ it1.current = some new ∧ Inv cmp n t1 ∧ t1.flat = X ++ new :: Y) := by
  cases c with
  | nothing =>
    cases h
    refine ⟨fun t1 it1 _ => ⟨y, rfl⟩, ?_⟩
    rintro new rfl
    exact ⟨t, _, rfl, rfl, I, hat.flat⟩
  | error =>
    cases h
    exact ⟨fun t1 it1 h => (by cases h), fun new h => absurd h id⟩
  | update ops wh =>
    obtain ⟨ha, list, hl, rfl⟩ := h
    obtain ⟨u1, u2⟩ := updated_spec fnSet cols ops ha list hl ⟨y, some g⟩
    simp only [onConflict, Option.getD_some, Resolves]
    constructor
    · intro t1 it1 h
      obtain ⟨b, h1, h⟩ := bind_eq_ok h
      have hw := (holds_iff _ _ _).1 h1
      cases b with
      | false => exact ⟨y, .inl ⟨hw, rfl⟩⟩
      | true =>
        simp only [if_true] at h
        obtain ⟨new, h2, h⟩ := bind_eq_ok h
        exact ⟨new, .inr ⟨hw, u1 new h2⟩⟩
    · rintro new (⟨h1, rfl⟩ | ⟨h1, h2⟩)
      · rw [(holds_iff _ _ _).2 h1, bind_ok]
        exact ⟨t, _, rfl, rfl, I, hat.flat⟩
      · obtain ⟨new', hn⟩ := u2 ⟨new, h2⟩
        have := (u1 new' hn).unique h2
        subst this
        rw [(holds_iff _ _ _).2 h1, bind_ok, if_pos rfl, hn, bind_ok]
        obtain ⟨p1, p2, p3⟩ := put_spec L I hat new' (update_key hk ha h2)
        exact ⟨_, _, rfl, rfl, p1, p2.flat⟩

/-- one row of INSERT … ON CONFLICT on a set of rows -/
def OneUpsert (fnSet : Val → Bytes → Val → Res Val) (cmp : Tuple → Tuple → Int) (cols : List Col) (c : Conflict) (ret : Option (List Expr)) (m : List Tuple) (g : Tuple × Int) (m1 : List Tuple) (out : List (List Val)) : Prop :=
  ∃ row, Created cols g row ∧
    ((lookup cmp m row = none ∧ Returned ret ⟨row, some g.1⟩ out ∧ m1 = row :: m) ∨
     ∃ y new, lookup cmp m row = some y ∧ Resolves fnSet cols g.1 y new c ∧ Returned ret ⟨new, some g.1⟩ out ∧ m1 = new :: others cmp m row)

theorem upsertRow_spec {cmp : Tuple → Tuple → Int} (L : CmpLaws cmp) (hnorm : Normal cmp) {fnSet : Val → Bytes → Val → Res Val} {cols : List Col} (hk : ByKey cols cmp) {c : Conflict} {a : Action}
    (h : Acts fnSet cols c a) (ret : Option (List Expr)) (g : Tuple × Int) {t : Tree Tuple} (I : Inv cmp 512 t) {m : List Tuple} (hm : m.Perm t.flat) :
    (∀ t1 out, upsertRow cmp cols a ret g t = .ok (t1, out) → ∃ m1 out, OneUpsert fnSet cmp cols c ret m g m1 out) ∧
    (∀ m1 out, OneUpsert fnSet cmp cols c ret m g m1 out → ∃ t1, upsertRow cmp cols a ret g t = .ok (t1, out) ∧ Inv cmp 512 t1 ∧ m1.Perm t1.flat) := by
  unfold upsertRow
  constructor
  · intro t1 out h'
    obtain ⟨row, h1, h'⟩ := bind_eq_ok h'
    have hc := (created_iff g.2 cols g.1 row).1 h1
    rcases treeUpsert_spec L hnorm (n := 512) (k := 256) (by omega) (by omega) I row with ⟨t', q, X, Y, e1, e2, e3, e4, e5, e6⟩ | ⟨q, X, y, Y, e1, e2, e3, e4, e5⟩
    · rw [e1] at h'
      simp only [atRow, Bool.false_eq_true, if_false, bind_ok, iterOpenAt, e4.rowAt, Option.getD_some] at h'
      obtain ⟨o, h2, h'⟩ := bind_eq_ok h'
      exact ⟨_, o, row, hc, .inl ⟨find_none (m := m) (by rw [← e3]; exact hm) e5 e6, (returning_iff _ _ _).1 h2, rfl⟩⟩
    · rw [e1] at h'
      simp only [atRow, if_true, iterOpenAt, e2.rowAt] at h'
      obtain ⟨p, h2, h'⟩ := bind_eq_ok h'
      obtain ⟨o, h3, h'⟩ := bind_eq_ok h'
      obtain ⟨c1, c2⟩ := onConflict_spec L hk h g.1 I e2
      obtain ⟨new, hn⟩ := c1 _ _ h2
      obtain ⟨t2, it2, k1, k2, k3, k4⟩ := c2 new hn
      rw [h2] at k1
      cases k1
      simp only [k2, Option.getD_some] at h3
      exact ⟨_, o, row, hc, .inr ⟨y, new, find_mid (m := m) (by rw [← e2.flat]; exact hm) e3 e4 e5, hn, (returning_iff _ _ _).1 h3, rfl⟩⟩
  · rintro m1 out ⟨row, hc, hcase⟩
    rw [(created_iff g.2 cols g.1 row).2 hc, bind_ok]
    rcases treeUpsert_spec L hnorm (n := 512) (k := 256) (by omega) (by omega) I row with ⟨t', q, X, Y, e1, e2, e3, e4, e5, e6⟩ | ⟨q, X, y', Y, e1, e2, e3, e4, e5⟩
    · have hnone := find_none (m := m) (key := row) (by rw [← e3]; exact hm) e5 e6
      rcases hcase with ⟨_, h2, rfl⟩ | ⟨y, new, h2, _⟩
      · rw [e1]
        simp only [atRow, Bool.false_eq_true, if_false, bind_ok, iterOpenAt, e4.rowAt, Option.getD_some]
        rw [(returning_iff _ _ _).2 h2, bind_ok]
        refine ⟨t', rfl, e2, ?_⟩
        rw [e4.flat]
        exact (List.Perm.cons row (by rw [← e3]; exact hm)).trans List.perm_middle.symm
      · rw [hnone] at h2; cases h2
    · have hsome := find_mid (m := m) (key := row) (by rw [← e2.flat]; exact hm) e3 e4 e5
      rcases hcase with ⟨h2, _⟩ | ⟨y, new, h2, hn, h3, rfl⟩
      · rw [hsome] at h2; cases h2
      · rw [hsome] at h2
        cases h2
        rw [e1]
        obtain ⟨t2, it2, k1, k2, k3, k4⟩ := (onConflict_spec L hk h g.1 I e2).2 new hn
        simp only [atRow, if_true, iterOpenAt, e2.rowAt, k1, bind_ok, k2, Option.getD_some]
        rw [(returning_iff _ _ _).2 h3, bind_ok]
        refine ⟨t2, rfl, k3, ?_⟩
        rw [k4]
        refine (List.Perm.cons new ?_).trans List.perm_middle.symm
        refine others_mid (o := some y') ?_ (by simpa using e3) e4 e5
        simp only [Option.toList, List.append_assoc, List.cons_append, List.nil_append]
        rw [← e2.flat]
        exact hm

theorem upserts_cons {fnSet : Val → Bytes → Val → Res Val} {cmp : Tuple → Tuple → Int} {cols : List Col} {c : Conflict} {ret : Option (List Expr)} {m m1 m' : List Tuple} {g : Tuple × Int} {gs : List (Tuple × Int)} {out outs : List (List Val)}
    (h : OneUpsert fnSet cmp cols c ret m g m1 out) (hs : Upserts fnSet cmp cols c ret m1 gs m' outs) : Upserts fnSet cmp cols c ret m (g :: gs) m' (out ++ outs) := by
  obtain ⟨row, hc, ⟨h1, h2, rfl⟩ | ⟨y, new, h1, h2, h3, rfl⟩⟩ := h
  · exact .new hc h1 h2 hs
  · exact .old hc h1 h2 h3 hs

theorem upserts_inv {fnSet : Val → Bytes → Val → Res Val} {cmp : Tuple → Tuple → Int} {cols : List Col} {c : Conflict} {ret : Option (List Expr)} {m m' : List Tuple} {g : Tuple × Int} {gs : List (Tuple × Int)} {os : List (List Val)}
    (h : Upserts fnSet cmp cols c ret m (g :: gs) m' os) : ∃ m1 out outs, OneUpsert fnSet cmp cols c ret m g m1 out ∧ Upserts fnSet cmp cols c ret m1 gs m' outs ∧ os = out ++ outs := by
  cases h with
  | new hc h1 h2 hs => exact ⟨_, _, _, ⟨_, hc, .inl ⟨h1, h2, rfl⟩⟩, hs, rfl⟩
  | old hc h1 h2 h3 hs => exact ⟨_, _, _, ⟨_, hc, .inr ⟨_, _, h1, h2, h3, rfl⟩⟩, hs, rfl⟩

theorem upsertLoop_spec {cmp : Tuple → Tuple → Int} (L : CmpLaws cmp) (hnorm : Normal cmp) {fnSet : Val → Bytes → Val → Res Val} {cols : List Col} (hk : ByKey cols cmp) {c : Conflict} {a : Action}
    (h : Acts fnSet cols c a) (ret : Option (List Expr)) : ∀ (gs : List (Tuple × Int)) {t : Tree Tuple} (I : Inv cmp 512 t) {m : List Tuple} (hm : m.Perm t.flat),
    (∀ t' out, upsertLoop cmp cols a ret gs t = .ok (t', out) → Inv cmp 512 t' ∧ ∃ m', Upserts fnSet cmp cols c ret m gs m' out ∧ m'.Perm t'.flat) ∧
    ((∃ m' out, Upserts fnSet cmp cols c ret m gs m' out) → ∃ t' out, upsertLoop cmp cols a ret gs t = .ok (t', out))
  | [], t, I, m, hm => by
    refine ⟨?_, fun _ => ⟨t, [], rfl⟩⟩
    intro t' out h'
    cases h'
    exact ⟨I, m, .nil m, hm⟩
  | g :: gs, t, I, m, hm => by
    obtain ⟨s1, s2⟩ := upsertRow_spec L hnorm hk h ret g I hm
    simp only [upsertLoop]
    constructor
    · intro t' out h'
      obtain ⟨p, h1, h'⟩ := bind_eq_ok h'
      obtain ⟨p2, h2, h'⟩ := bind_eq_ok h'
      cases h'
      obtain ⟨m1, o, ho⟩ := s1 p.1 p.2 h1
      obtain ⟨t1, k1, k2, k3⟩ := s2 m1 o ho
      rw [h1] at k1
      cases k1
      obtain ⟨i1, m', i2, i3⟩ := (upsertLoop_spec L hnorm hk h ret gs k2 k3).1 p2.1 p2.2 h2
      exact ⟨i1, m', upserts_cons ho i2, i3⟩
    · rintro ⟨m', out, hu⟩
      obtain ⟨m1, o, os, ho, hs, rfl⟩ := upserts_inv hu
      obtain ⟨t1, k1, k2, k3⟩ := s2 m1 o ho
      rw [k1, bind_ok]
      obtain ⟨t', o', hh⟩ := (upsertLoop_spec L hnorm hk h ret gs k2 k3).2 ⟨m', os, hs⟩
      simp only [hh, bind_ok]
      exact ⟨_, _, rfl⟩

theorem execUpsert_spec {cmp : Tuple → Tuple → Int} (L : CmpLaws cmp) (hnorm : Normal cmp) (fnSet : Val → Bytes → Val → Res Val) {cols : List Col} (hk : ByKey cols cmp) (c : Conflict)
    (ret : Option (List Expr)) (gs : List (Tuple × Int)) {t : Tree Tuple} (I : Inv cmp 512 t) :
    (∀ t' out, execUpsert fnSet cmp cols c ret gs t = .ok (t', out) → Inv cmp 512 t' ∧ Does fnSet cmp cols t.flat t'.flat out (.upsert c ret gs)) ∧
    ((∀ ops wh, c = .update ops wh → Allowed cols ops) → (∃ m' out, Upserts fnSet cmp cols c ret t.flat gs m' out) → ∃ t' out, execUpsert fnSet cmp cols c ret gs t = .ok (t', out)) := by
  unfold execUpsert
  obtain ⟨c1, c2⟩ := compileConflict_spec fnSet cols c
  constructor
  · intro t' out h
    obtain ⟨a, h1, h⟩ := bind_eq_ok h
    have ha := c1 a h1
    obtain ⟨i1, m', i2, i3⟩ := (upsertLoop_spec L hnorm hk ha ret gs I (List.Perm.refl _)).1 t' out h
    refine ⟨i1, ?_, m', i2, i3.symm, i1.sorted⟩
    rintro ops wh rfl
    exact ha.1
  · intro hall hu
    obtain ⟨a, h1⟩ := c2 hall
    rw [h1, bind_ok]
    exact (upsertLoop_spec L hnorm hk (c1 a h1) ret gs I (List.Perm.refl _)).2 hu

theorem exec_spec {cmp : Tuple → Tuple → Int} (L : CmpLaws cmp) (hnorm : Normal cmp) (fnSet : Val → Bytes → Val → Res Val) {cols : List Col} (hk : ByKey cols cmp) {t : Tree Tuple} (I : Inv cmp 512 t) (s : Stmt) :
    ∀ t' out, exec fnSet cmp cols t s = .ok (t', out) → Inv cmp 512 t' ∧ Does fnSet cmp cols t.flat t'.flat out s := by
  intro t' out h
  cases s with
  | update ops wh ret => exact (execUpdate_spec L fnSet ⟨cols, wh, ret⟩ hk ops I).1 t' out h
  | delete wh ret => exact (execDelete_spec L fnSet ⟨cols, wh, ret⟩ I).1 t' out h
  | upsert c ret gs => exact (execUpsert_spec L hnorm fnSet hk c ret gs I).1 t' out h

theorem execAll_spec {cmp : Tuple → Tuple → Int} (L : CmpLaws cmp) (hnorm : Normal cmp) (fnSet : Val → Bytes → Val → Res Val) {cols : List Col} (hk : ByKey cols cmp) :
    ∀ (ss : List Stmt) {t : Tree Tuple} (I : Inv cmp 512 t) (t' : Tree Tuple) (outs : List (List (List Val))), execAll fnSet cmp cols ss t = .ok (t', outs) →
      Inv cmp 512 t' ∧ DoesAll fnSet cmp cols t.flat ss t'.flat outs
  | [], t, I, t', outs, h => by
    cases h
    exact ⟨I, .nil _⟩
  | s :: ss, t, I, t', outs, h => by
    simp only [execAll] at h
    obtain ⟨p, h1, h⟩ := bind_eq_ok h
    obtain ⟨p2, h2, h⟩ := bind_eq_ok h
    cases h
    obtain ⟨i1, i2⟩ := exec_spec L hnorm fnSet hk I s p.1 p.2 h1
    obtain ⟨j1, j2⟩ := execAll_spec L hnorm fnSet hk ss i1 p2.1 p2.2 h2
    exact ⟨j1, .cons i2 j2⟩

end Verif.Dml
