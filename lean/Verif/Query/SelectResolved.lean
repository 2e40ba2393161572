import Verif.Query.SelectProofs
/-!
# SELECT: select list, keys and groups of the resolved statement
-/
set_option linter.unusedSimpArgs false
set_option linter.unusedVariables false
set_option autoImplicit false
namespace Verif.Query.Select
open Verif.Query
variable {R : Type}

theorem mapM_map {A B C : Type} {f : A → Option B} {h : B → C} {k : A → C} : ∀ (l : List A) (l' : List B), l.mapM f = some l' →
    (∀ x ∈ l, ∀ y ∈ l', f x = some y → h y = k x) → l'.map h = l.map k := by
  intro l
  induction l with
  | nil => intro l' e _; simp at e; subst e; rfl
  | cons x l ih =>
    intro l' e hh
    simp only [List.mapM_cons] at e
    cases hx : f x with
    | none => rw [hx] at e; cases e
    | some y =>
      rw [hx] at e
      cases hl : l.mapM f with
      | none => rw [hl] at e; cases e
      | some l2 =>
        rw [hl] at e
        cases e
        simp only [List.map_cons, List.cons.injEq]
        exact ⟨hh x (by simp) y (by simp) hx, ih l2 hl fun a ha b hb => hh a (List.mem_cons_of_mem _ ha) b (List.mem_cons_of_mem _ hb)⟩

/-- what `resolve` does, if the result is accepted -/
structure Resolved (s : Stmt) (q : Sel) : Prop where
  cond : q.cond = s.cond
  aggs : q.aggs = s.aggs
  seen : q.distinctAggs = (s.aggs.take s.early).any fun a => a.1.distinct
  having : q.having = s.having
  distinct : q.distinct = s.distinct
  limit : q.limit = s.limit
  offset : q.offset = s.offset
  groupBy : q.groupBy = !s.groupBy.isEmpty
  groups : q.groups = s.groupBy.map fun e => (refersTo s.ret e).getD e
  labels : q.ret.map Item.label = s.ret.map Item.label
  ret : ∀ (p : Nat) it, s.ret[p]? = some it → ∃ it', q.ret[p]? = some it' ∧ Becomes q.groups 0 it it'
  order : s.orderKeys.mapM (fun e => (resolveOrder q.ret e.1).map fun x => (x, e.2)) = some q.order
  same : s.grouped = false → q.ret = s.ret

theorem Resolved.grouped {s : Stmt} {q : Sel} (h : Resolved s q) : (q.groupBy || !q.aggs.isEmpty) = s.grouped := by
  rw [h.groupBy, h.aggs]; rfl

theorem resolved_of {s : Stmt} {q : Sel} (h : resolve s = some q) (A : Accepted q) : Resolved s q := by
  unfold resolve at h
  cases hg : s.grouped with
  | false =>
    rw [hg] at h
    simp only [Bool.false_eq_true, if_false, Option.bind_some] at h
    cases ho : s.orderKeys.mapM (fun e => (resolveOrder s.ret e.1).map fun x => (x, e.2)) with
    | none => rw [ho] at h; cases h
    | some order =>
      rw [ho] at h
      simp only [Option.map_some, Option.some.injEq] at h
      subst h
      have hgb : s.groupBy = [] := by
        unfold Stmt.grouped at hg
        simp only [Bool.or_eq_false_iff, Bool.not_eq_false', List.isEmpty_iff] at hg
        exact hg.1
      exact ⟨rfl, rfl, rfl, rfl, rfl, rfl, rfl, rfl, by simp [hgb], rfl, fun p it hp => ⟨it, hp, rfl, .inl rfl⟩, ho, fun _ => rfl⟩
  | true =>
    rw [hg] at h
    simp only [if_true] at h
    cases hr : resolveGroups 0 s.groupBy s.ret with
    | none => rw [hr] at h; cases h
    | some p =>
      obtain ⟨gs, ret⟩ := p
      rw [hr] at h
      simp only [Option.bind_some] at h
      cases ho : s.orderKeys.mapM (fun e => (resolveOrder ret e.1).map fun x => (x, e.2)) with
      | none => rw [ho] at h; cases h
      | some order =>
        rw [ho] at h
        simp only [Option.map_some, Option.some.injEq] at h
        subst h
        obtain ⟨h1, h2, h3, h4⟩ := resolveGroups_spec _ _ _ _ _ hr A.groups
        exact ⟨rfl, rfl, rfl, rfl, rfl, rfl, rfl, rfl, h4, h1, h3, ho, fun h => by rw [hg] at h; cases h⟩

theorem refersTo_noKey {s : Stmt} (P : Parsed s) {e x : Ex} (he : e.noKey) (h : refersTo s.ret e = some x) : x.noKey := by
  obtain ⟨x', h', hc⟩ := refersTo_labels (ret := s.ret) (ret' := s.ret) rfl h
  rcases hc with ⟨rfl, _⟩ | ⟨p, it, _, hp, _, rfl, _⟩
  · exact he
  · exact P.ret it (List.mem_of_getElem? hp)

/-- an order key stands for what it refers to in the select list as it was written -/
theorem order_refers {s : Stmt} {q : Sel} (P : Parsed s) (h : Resolved s q) {e e' : Ex} (he : e.noKey)
    (hr : resolveOrder q.ret e = some e') :
    ∃ x, refersTo s.ret e = some x ∧ x.noKey ∧ (e' = x ∨ ∃ j, e' = .key j ∧ q.groups[j]? = some x) := by
  rw [resolveOrder_refers] at hr
  obtain ⟨x, hx, hc⟩ := refersTo_labels h.labels.symm hr
  refine ⟨x, hx, refersTo_noKey P he hx, ?_⟩
  rcases hc with ⟨rfl, rfl⟩ | ⟨p, it', it, hp', hp, rfl, rfl⟩
  · exact .inl rfl
  · obtain ⟨it2, k1, _, k3⟩ := h.ret p it hp
    rw [hp'] at k1
    simp only [Option.some.injEq] at k1
    subst k1
    rcases k3 with k3 | ⟨j, k3, k4⟩
    · exact .inl k3
    · exact .inr ⟨j, by simpa using k3, k4⟩

theorem orderKeys_noKey {s : Stmt} (P : Parsed s) : ∀ e ∈ s.orderKeys, e.1.noKey := by
  intro e he
  unfold Stmt.orderKeys at he
  split at he
  · split at he
    · obtain ⟨it, hi, rfl⟩ := List.mem_map.1 he; exact P.ret it hi
    · obtain ⟨x, hx, rfl⟩ := List.mem_map.1 he; exact P.on x hx
  · exact P.order e he

theorem orderKeys_dirs (s : Stmt) : s.orderKeys.map Prod.snd = sortDirs s := by
  unfold Stmt.orderKeys sortDirs
  cases s.distinct with
  | true =>
    cases hd : s.distinctOn with
    | nil => simp [Function.comp_def]
    | cons a l => simp [Function.comp_def]
  | false => rfl

theorem orderKeys_vals {s : Stmt} (N : NoShadow s) (x : Src) :
    (s.orderKeys.map fun e => means x ((refersTo s.ret e.1).getD e.1)) = sortKeys s x := by
  unfold Stmt.orderKeys sortKeys
  cases hd : s.distinct with
  | true =>
    cases ho : s.distinctOn with
    | nil =>
      simp only [if_true, List.isEmpty_nil, retOf, List.map_map, Function.comp_def]
      apply List.map_congr_left
      intro it hi
      rw [N hd ho it hi]; rfl
    | cons a l => simp [Function.comp_def]
  | false => rfl

theorem order_dirs {s : Stmt} {q : Sel} (h : Resolved s q) : q.order.map Prod.snd = sortDirs s := by
  rw [← orderKeys_dirs]
  refine mapM_map _ _ h.order ?_
  intro x _ y _ e
  cases hr : resolveOrder q.ret x.1 with
  | none => rw [hr] at e; cases e
  | some z => rw [hr] at e; cases e; rfl

/-- the row emitted for a row of FROM -/
theorem emit_row {s : Stmt} {q : Sel} (P : Parsed s) (N : NoShadow s) (h : Resolved s q) (A : Accepted q) (hg : s.grouped = false)
    (w : World R) (r : R) : q.emit (rowVal w r) = (retOf s (w.src r), sortKeys s (w.src r)) := by
  obtain ⟨a1, a2⟩ := A.plain (by rw [h.grouped, hg])
  have hre := h.same hg
  unfold Sel.emit
  congr 1
  · unfold retOf
    rw [hre]
    apply List.map_congr_left
    intro it hi
    exact rowVal_means w r [] _ (a1 it (by rw [hre]; exact hi))
  · rw [← orderKeys_vals N]
    refine mapM_map _ _ h.order ?_
    intro x hx y hy e
    cases hr : resolveOrder q.ret x.1 with
    | none => rw [hr] at e; cases e
    | some z =>
      rw [hr] at e
      cases e
      rw [hre, resolveOrder_refers] at hr
      rw [hr]
      exact rowVal_means w r [] _ (a2 _ hy)

/-- the row emitted for a group -/
theorem emit_group {s : Stmt} {q : Sel} (P : Parsed s) (N : NoShadow s) (h : Resolved s q) (A : Accepted q) (hg : s.grouped = true)
    (col : Name → Val) (hc : CaseFree col) (vals : List Val) :
    q.emit (groupVal q.groups (q.groups.map (means ⟨col, []⟩)) vals) = (retOf s ⟨col, vals⟩, sortKeys s ⟨col, vals⟩) := by
  obtain ⟨a1, a2⟩ := A.grouped (by rw [h.grouped, hg])
  unfold Sel.emit
  congr 1
  · unfold retOf
    apply List.ext_getElem?
    intro p
    have hlen : q.ret.length = s.ret.length := by simpa using congrArg List.length h.labels
    simp only [List.getElem?_map]
    cases hp : s.ret[p]? with
    | none =>
      have : q.ret[p]? = none := by
        rw [List.getElem?_eq_none_iff] at hp ⊢; omega
      rw [this]; rfl
    | some it =>
      obtain ⟨it', k1, _, k3⟩ := h.ret p it hp
      rw [k1]
      simp only [Option.map_some, Option.some.injEq]
      refine groupVal_becomes q.groups A.groups col hc vals (P.ret it (List.mem_of_getElem? hp)) ?_ (a1 it' (List.mem_of_getElem? k1))
      rcases k3 with k3 | ⟨j, k3, k4⟩
      · exact .inl k3
      · exact .inr ⟨j, by simpa using k3, k4⟩
  · rw [← orderKeys_vals N]
    refine mapM_map _ _ h.order ?_
    intro x hx y hy e
    cases hr : resolveOrder q.ret x.1 with
    | none => rw [hr] at e; cases e
    | some z =>
      rw [hr] at e
      cases e
      obtain ⟨t, t1, t2, t3⟩ := order_refers P h (orderKeys_noKey P x hx) hr
      rw [t1]
      exact groupVal_becomes q.groups A.groups col hc vals t2 t3 (a2 _ hy)

/-- WHERE -/
theorem holds_row {s : Stmt} {q : Sel} (h : Resolved s q) (A : Accepted q) (w : World R) (r : R) :
    holds q.cond (rowVal w r) = decide (meets s.cond (w.src r)) := by
  rw [← h.cond]
  unfold holds meets
  cases hc : q.cond with
  | none => simp
  | some e =>
    simp only [Option.elim_some, Option.some.injEq, forall_eq']
    rw [rowVal_means w r [] e (A.cond e hc)]
    exact Bool.decide_eq_true.symm

/-- HAVING -/
theorem holds_group {s : Stmt} {q : Sel} (P : Parsed s) (h : Resolved s q) (A : Accepted q)
    (col : Name → Val) (hc : CaseFree col) (vals : List Val) :
    holds q.having (groupVal q.groups (q.groups.map (means ⟨col, []⟩)) vals) = decide (meets s.having ⟨col, vals⟩) := by
  rw [← h.having]
  unfold holds meets
  cases hv : q.having with
  | none => simp
  | some e =>
    simp only [Option.elim_some, Option.some.injEq, forall_eq']
    rw [groupVal_means q.groups col hc vals e (P.having e (by rw [← h.having, hv])).1 (A.having e hv)]
    simp

/-- the keys of a row -/
theorem feed_key {s : Stmt} {q : Sel} (h : Resolved s q) (A : Accepted q) (w : World R) (r : R) :
    (q.feed w r).1 = keyOf w s r := by
  unfold Sel.feed keyOf
  dsimp only
  rw [show (s.groupBy.map fun e => means (w.src r) ((refersTo s.ret e).getD e)) =
    (s.groupBy.map fun e => (refersTo s.ret e).getD e).map (means (w.src r)) by simp [Function.comp_def], ← h.groups]
  apply List.map_congr_left
  intro e he
  exact rowVal_means w r [] e (A.groups e he)

theorem feed_args {s : Stmt} {q : Sel} (h : Resolved s q) (A : Accepted q) (w : World R) (r : R) :
    (q.feed w r).2 = s.aggs.map fun a => means (w.src r) a.2 := by
  unfold Sel.feed
  dsimp only
  rw [← h.aggs]
  apply List.map_congr_left
  intro a ha
  exact rowVal_means w r [] _ (A.args a ha)

end Verif.Query.Select
