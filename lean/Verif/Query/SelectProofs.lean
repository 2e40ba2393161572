import Verif.Query.SelectSpec
/-!
# SELECT: the resolved statement means what was written
-/
set_option linter.unusedSimpArgs false
set_option linter.unusedVariables false
set_option autoImplicit false
namespace Verif.Query.Select
open Verif.Query
variable {R : Type}

/-! ## Labels -/

theorem findOne_some (n : Name) : ∀ (l : List Item) (i p : Nat),
    findOne n l i (some p) = if (l.filter fun it => same it.label n) = [] then some p else none := by
  intro l
  induction l with
  | nil => intro i p; rfl
  | cons it l ih =>
    intro i p
    unfold findOne
    cases h : same it.label n with
    | true => simp [List.filter_cons, h]
    | false => simpa [List.filter_cons, h] using ih (i + 1) p

theorem findOne_none (n : Name) : ∀ (l : List Item) (i : Nat),
    (∀ it, (l.filter fun it => same it.label n) = [it] → ∃ p, findOne n l i none = some (i + p) ∧ l[p]? = some it) ∧
    ((∀ it, (l.filter fun it => same it.label n) ≠ [it]) → findOne n l i none = none) := by
  intro l
  induction l with
  | nil => intro i; exact ⟨fun it h => by simp at h, fun _ => rfl⟩
  | cons x l ih =>
    intro i
    unfold findOne
    cases h : same x.label n with
    | true =>
      simp only [if_true, List.filter_cons, h, Option.isSome_none, Bool.false_eq_true, if_false, findOne_some]
      refine ⟨?_, ?_⟩
      · intro it e
        simp only [List.cons.injEq] at e
        obtain ⟨rfl, e⟩ := e
        exact ⟨0, by simp [e], rfl⟩
      · intro e
        split
        · rename_i h'; exact absurd (by rw [h']) (e x)
        · rfl
    | false =>
      simp only [Bool.false_eq_true, if_false, List.filter_cons, h]
      refine ⟨?_, (ih (i + 1)).2⟩
      intro it e
      obtain ⟨p, h1, h2⟩ := (ih (i + 1)).1 it e
      exact ⟨p + 1, by rw [h1]; congr 1; omega, by simpa using h2⟩

theorem returningFind_pos (ret : List Item) (i : Int) (h : 1 ≤ i) : returningFind ret i = ret[i.toNat - 1]? := by
  unfold returningFind
  rw [if_neg (by omega)]
  congr 1; omega

theorem resolveOrder_refers (ret : List Item) (e : Ex) : resolveOrder ret e = refersTo ret e := by
  cases e with
  | int i =>
    simp only [resolveOrder, refersTo]
    by_cases h : 1 ≤ i
    · rw [if_pos h, returningFind_pos ret i h]
    · rw [if_neg h]; unfold returningFind; rw [if_pos (by omega)]; rfl
  | name n =>
    simp only [resolveOrder, refersTo]
    obtain ⟨h1, h2⟩ := findOne_none n ret 0
    generalize hf : (ret.filter fun it => same it.label n) = f at *
    match f with
    | [] => rw [h2 (by simp)]; rfl
    | [it] =>
      obtain ⟨p, e1, e2⟩ := h1 it rfl
      rw [e1, Nat.zero_add]
      simp only [Option.bind_some]
      rw [returningFind_pos _ _ (by omega), show ((p : Int) + 1).toNat - 1 = p by omega, e2]
      rfl
    | a :: b :: l => rw [h2 (by simp)]; rfl
  | app f a b => rfl
  | agg i => rfl
  | key i => rfl

/-- the item a GROUP BY expression refers to -/
theorem groupOrder_refers (ret : List Item) (e : Ex) (h : groupOrder ret e ≠ -1) :
    refersTo ret e = (returningFind ret (groupOrder ret e)).map Item.ex := by
  rw [← resolveOrder_refers]
  cases e with
  | int i => rfl
  | name n =>
    simp only [groupOrder] at h ⊢
    simp only [resolveOrder]
    cases hf : findOne n ret 0 none with
    | none => rw [hf] at h; exact absurd rfl h
    | some p =>
      simp only [Option.bind_some, Option.map_some, Option.getD_some]
      obtain ⟨h1, h2⟩ := findOne_none n ret 0
      rw [returningFind_pos _ _ (by omega), show ((p : Int) + 1).toNat - 1 = p by omega]
      generalize hl : (ret.filter fun it => same it.label n) = f at *
      match f with
      | [] => rw [h2 (by simp)] at hf; cases hf
      | [it] =>
        obtain ⟨p', e1, e2⟩ := h1 it rfl
        rw [e1, Nat.zero_add] at hf
        cases hf
        rw [e2]; rfl
      | a :: b :: l => rw [h2 (by simp)] at hf; cases hf
  | app f a b => exact absurd rfl h
  | agg i => exact absurd rfl h
  | key i => exact absurd rfl h

theorem groupOrder_none (ret : List Item) (e : Ex) (h : groupOrder ret e = -1) : (refersTo ret e).getD e = e := by
  rw [← resolveOrder_refers]
  cases e with
  | int i =>
    have : i = -1 := h
    subst this; rfl
  | name n =>
    simp only [groupOrder] at h
    simp only [resolveOrder]
    cases hf : findOne n ret 0 none with
    | none => rfl
    | some p => rw [hf] at h; simp at h; omega
  | app f a b => rfl
  | agg i => rfl
  | key i => rfl

/-! ## GROUP BY keys -/

/-- what becomes of a column of the select list: it stays or refers to the key made of it -/
def Becomes (groups : List Ex) (i : Nat) (it it' : Item) : Prop :=
  it'.label = it.label ∧ (it'.ex = it.ex ∨ ∃ j, it'.ex = .key (i + j) ∧ groups[j]? = some it.ex)

theorem refersTo_labels {ret ret' : List Item} (h : ret'.map Item.label = ret.map Item.label) {e : Ex} {x : Ex}
    (hx : refersTo ret e = some x) : ∃ x', refersTo ret' e = some x' ∧
      ((x = e ∧ x' = e) ∨ ∃ (p : Nat) (it it' : Item), ret[p]? = some it ∧ ret'[p]? = some it' ∧ x = it.ex ∧ x' = it'.ex) := by
  have hlen : ret'.length = ret.length := by simpa using congrArg List.length h
  have hget : ∀ (p : Nat) (it : Item), ret[p]? = some it → ∃ it' : Item, ret'[p]? = some it' ∧ it'.label = it.label := by
    intro p it hp
    have hlt := (List.getElem?_eq_some_iff.1 hp).1
    have := congrArg (fun l => l[p]?) h
    simp only [List.getElem?_map, hp, Option.map_some] at this
    cases hr : ret'[p]? with
    | none => rw [hr] at this; simp at this
    | some it' => rw [hr] at this; exact ⟨it', rfl, by simpa using this⟩
  cases e with
  | int i =>
    simp only [refersTo] at hx ⊢
    split at hx
    · rename_i h1
      rw [if_pos h1]
      cases hp : ret[i.toNat - 1]? with
      | none => rw [hp] at hx; simp at hx
      | some it =>
        rw [hp] at hx
        obtain ⟨it', e1, e2⟩ := hget _ _ hp
        rw [e1]
        refine ⟨_, rfl, .inr ⟨_, it, it', hp, e1, ?_, rfl⟩⟩
        simpa using hx.symm
    · cases hx
  | name n =>
    have key : ∀ (l l' : List Item), l'.map Item.label = l.map Item.label →
        ((l.filter fun it => same it.label n) = [] → (l'.filter fun it => same it.label n) = []) ∧
        (∀ it, (l.filter fun it => same it.label n) = [it] → ∃ (p : Nat) (it' : Item), l[p]? = some it ∧ l'[p]? = some it' ∧
          (l'.filter fun it => same it.label n) = [it']) ∧
        ((l'.filter fun it => same it.label n).length = (l.filter fun it => same it.label n).length) := by
      intro l
      induction l with
      | nil => intro l' h; simp at h; subst h; simp
      | cons a l ih =>
        intro l' h
        cases l' with
        | nil => simp at h
        | cons a' l' =>
          simp only [List.map_cons, List.cons.injEq] at h
          obtain ⟨ha, hl⟩ := h
          obtain ⟨k1, k2, k3⟩ := ih l' hl
          cases hs : same a.label n with
          | true =>
            simp only [List.filter_cons, ha, hs, if_true]
            refine ⟨by simp, ?_, by simp [k3]⟩
            intro it e
            simp only [List.cons.injEq] at e
            obtain ⟨rfl, e⟩ := e
            exact ⟨0, a', rfl, rfl, by rw [k1 e]⟩
          | false =>
            simp only [List.filter_cons, ha, hs, Bool.false_eq_true, if_false]
            refine ⟨k1, ?_, k3⟩
            intro it e
            obtain ⟨p, it', h1, h2, h3⟩ := k2 it e
            exact ⟨p + 1, it', by simpa using h1, by simpa using h2, h3⟩
    obtain ⟨k1, k2, k3⟩ := key ret ret' h
    simp only [refersTo] at hx ⊢
    generalize hf : (ret.filter fun it => same it.label n) = f at *
    match f with
    | [] => rw [k1 rfl]; simp only [Option.some.injEq] at hx; exact ⟨_, rfl, .inl ⟨hx.symm, rfl⟩⟩
    | [it] =>
      obtain ⟨p, it', h1, h2, h3⟩ := k2 it rfl
      rw [h3]
      simp only [Option.some.injEq] at hx
      exact ⟨_, rfl, .inr ⟨p, it, it', h1, h2, hx.symm, rfl⟩⟩
    | a :: b :: l =>
      simp only [Option.some.injEq] at hx
      generalize hg : (ret'.filter fun it => same it.label n) = g at *
      match g with
      | [] => simp at k3
      | [_] => simp at k3
      | _ :: _ :: _ => exact ⟨_, rfl, .inl ⟨hx.symm, rfl⟩⟩
  | app f a b => simp only [refersTo, Option.some.injEq] at *; exact ⟨_, rfl, .inl ⟨hx.symm, rfl⟩⟩
  | agg i => simp only [refersTo, Option.some.injEq] at *; exact ⟨_, rfl, .inl ⟨hx.symm, rfl⟩⟩
  | key i => simp only [refersTo, Option.some.injEq] at *; exact ⟨_, rfl, .inl ⟨hx.symm, rfl⟩⟩

theorem modify_label (ret : List Item) (p i : Nat) :
    (ret.modify p fun it => ⟨.key i, it.label⟩).map Item.label = ret.map Item.label := by
  apply List.ext_getElem?
  intro k
  simp only [List.getElem?_map, List.getElem?_modify]
  cases ret[k]? with
  | none => simp
  | some it => simp only [Option.map_some]; split <;> rfl

/-- parse_select_resolve_group_by_alias, if no key is a reference to another key: the columns of the select list keep
their labels and become references to equal keys at most; the keys are what GROUP BY refers to -/
theorem resolveGroups_spec : ∀ (l : List Ex) (i : Nat) (ret : List Item) (gs : List Ex) (ret' : List Item),
    resolveGroups i l ret = some (gs, ret') → (∀ g ∈ gs, g.onRow) →
    ret'.map Item.label = ret.map Item.label ∧ gs.length = l.length ∧
    (∀ (p : Nat) it, ret[p]? = some it → ∃ it', ret'[p]? = some it' ∧ Becomes gs i it it') ∧
    gs = l.map fun e => (refersTo ret e).getD e := by
  intro l
  induction l with
  | nil =>
    intro i ret gs ret' h _
    simp only [resolveGroups, Option.some.injEq, Prod.mk.injEq] at h
    obtain ⟨rfl, rfl⟩ := h
    exact ⟨rfl, rfl, fun p it hp => ⟨it, hp, rfl, .inl rfl⟩, rfl⟩
  | cons e l ih =>
    intro i ret gs ret' h hrow
    unfold resolveGroups at h
    cases h1 : resolveGroup i e ret with
    | none => rw [h1] at h; cases h
    | some p1 =>
      obtain ⟨g, ret1⟩ := p1
      rw [h1] at h
      simp only [Option.bind_some] at h
      cases h2 : resolveGroups (i + 1) l ret1 with
      | none => rw [h2] at h; cases h
      | some p2 =>
        obtain ⟨gs', ret2⟩ := p2
        rw [h2] at h
        simp only [Option.map_some, Option.some.injEq, Prod.mk.injEq] at h
        obtain ⟨rfl, rfl⟩ := h
        obtain ⟨i1, i2, i3, i4⟩ := ih (i + 1) ret1 gs' ret2 h2 (fun x hx => hrow x (List.mem_cons_of_mem _ hx))
        -- the step
        have step : ret1.map Item.label = ret.map Item.label ∧ (refersTo ret e).getD e = g ∧
            ∀ (p : Nat) it, ret[p]? = some it → ∃ it1, ret1[p]? = some it1 ∧ it1.label = it.label ∧
              (it1.ex = it.ex ∨ (it1.ex = .key i ∧ g = it.ex)) := by
          unfold resolveGroup at h1
          split at h1
          · rename_i ho
            simp only [Option.some.injEq, Prod.mk.injEq] at h1
            obtain ⟨rfl, rfl⟩ := h1
            exact ⟨rfl, groupOrder_none ret e ho, fun p it hp => ⟨it, hp, rfl, .inl rfl⟩⟩
          · rename_i ho
            cases hf : returningFind ret (groupOrder ret e) with
            | none => rw [hf] at h1; cases h1
            | some it0 =>
              rw [hf] at h1
              simp only [Option.bind_some] at h1
              split at h1
              · cases h1
              · simp only [Option.some.injEq, Prod.mk.injEq] at h1
                obtain ⟨rfl, rfl⟩ := h1
                refine ⟨modify_label _ _ _, ?_, ?_⟩
                · rw [groupOrder_refers ret e ho, hf]; rfl
                · intro p it hp
                  rw [List.getElem?_modify, hp]
                  have hp0 : ret[(groupOrder ret e - 1).toNat]? = some it0 := by
                    unfold returningFind at hf
                    split at hf
                    · cases hf
                    · exact hf
                  by_cases hpp : (groupOrder ret e - 1).toNat = p
                  · simp only [hpp, if_true]
                    rw [hpp, hp] at hp0
                    simp only [Option.some.injEq] at hp0
                    subst hp0
                    exact ⟨⟨.key i, it.label⟩, rfl, rfl, .inr ⟨rfl, rfl⟩⟩
                  · simp only [hpp, if_false]
                    exact ⟨it, rfl, rfl, .inl rfl⟩
        obtain ⟨s1, s2, s3⟩ := step
        refine ⟨i1.trans s1, by simp [i2], ?_, ?_⟩
        · intro p it hp
          obtain ⟨it1, k1, k2, k3⟩ := s3 p it hp
          obtain ⟨it2, m1, m2, m3⟩ := i3 p it1 k1
          refine ⟨it2, m1, m2.trans k2, ?_⟩
          rcases m3 with m3 | ⟨j, m3, m4⟩
          · rcases k3 with k3 | ⟨k3, k4⟩
            · exact .inl (m3.trans k3)
            · exact .inr ⟨0, by rw [m3, k3, Nat.add_zero], by simp [k4]⟩
          · rcases k3 with k3 | ⟨k3, k4⟩
            · exact .inr ⟨j + 1, by rw [m3]; congr 1; omega, by simp [m4, k3]⟩
            · rw [k3] at m4
              exact absurd (hrow (.key i) (List.mem_cons_of_mem _ (List.mem_of_getElem? m4))) (by simp [Ex.onRow])
        · simp only [List.map_cons, List.cons.injEq]
          refine ⟨s2.symm, ?_⟩
          rw [i4]
          apply List.map_congr_left
          intro e' he'
          have hrow' : ((refersTo ret1 e').getD e').onRow := by
            refine hrow _ (List.mem_cons_of_mem _ ?_)
            rw [i4]; exact List.mem_map_of_mem he'
          cases hr : refersTo ret e' with
          | none =>
            cases hr1 : refersTo ret1 e' with
            | none => rfl
            | some x1 =>
              obtain ⟨x, hx, _⟩ := refersTo_labels (ret := ret1) (ret' := ret) s1.symm hr1
              rw [hr] at hx; cases hx
          | some x =>
            obtain ⟨x', hx', hc⟩ := refersTo_labels s1 hr
            rw [hx'] at hrow' ⊢
            simp only [Option.getD_some] at *
            rcases hc with ⟨rfl, rfl⟩ | ⟨p, it, it', hp, hp', rfl, rfl⟩
            · rfl
            · obtain ⟨it1, k1, _, k3⟩ := s3 p it hp
              rw [hp'] at k1
              simp only [Option.some.injEq] at k1
              subst k1
              rcases k3 with k3 | ⟨k3, _⟩
              · exact k3
              · rw [k3] at hrow'; exact absurd hrow' (by simp [Ex.onRow])

/-! ## Values -/

/-- columns do not depend on the case of their name -/
def CaseFree (col : Name → Val) : Prop := ∀ m n, same m n = true → col m = col n

theorem rowVal_means (w : World R) (r : R) (aggs : List Val) : ∀ (e : Ex), e.onRow → rowVal w r e = means ⟨w.col r, aggs⟩ e := by
  intro e
  induction e with
  | int i => intro _; rfl
  | name n => intro _; rfl
  | app f a b ia ib => intro h; simp only [rowVal, means, ia h.1, ib h.2]
  | agg i => intro h; exact absurd h (by simp [Ex.onRow])
  | key i => intro h; exact absurd h (by simp [Ex.onRow])

theorem means_aggs (col : Name → Val) (a b : List Val) : ∀ (e : Ex), e.onRow → means ⟨col, a⟩ e = means ⟨col, b⟩ e := by
  intro e
  induction e with
  | int i => intro _; rfl
  | name n => intro _; rfl
  | app f x y ia ib => intro h; simp only [means, ia h.1, ib h.2]
  | agg i => intro h; exact absurd h (by simp [Ex.onRow])
  | key i => intro h; exact absurd h (by simp [Ex.onRow])

theorem groupVal_means (groups : List Ex) (col : Name → Val) (hc : CaseFree col) (vals : List Val) : ∀ (e : Ex), e.noKey →
    e.onGroup groups → groupVal groups (groups.map (means ⟨col, []⟩)) vals e = means ⟨col, vals⟩ e := by
  intro e
  induction e with
  | int i => intro _ _; rfl
  | name n =>
    intro _ h
    simp only [Ex.onGroup] at h
    simp only [groupVal, means]
    cases hg : groupOf groups n with
    | none => rw [hg] at h; simp at h
    | some i =>
      simp only [Option.bind_some, List.getElem?_map]
      unfold groupOf at hg
      obtain ⟨hlt, hp, _⟩ := List.findIdx?_eq_some_iff_getElem.1 hg
      rw [List.getElem?_eq_getElem hlt]
      simp only [Option.map_some, Option.getD_some]
      generalize hgi : groups[i] = gi at *
      cases gi with
      | name m => exact hc m n hp
      | int _ => simp at hp
      | app _ _ _ => simp at hp
      | agg _ => simp at hp
      | key _ => simp at hp
  | app f a b ia ib => intro h1 h2; simp only [groupVal, means, ia h1.1 h2.1, ib h1.2 h2.2]
  | agg i => intro _ _; rfl
  | key i => intro h _; exact absurd h (by simp [Ex.noKey])

/-- a column of the resolved select list, or an order key, on a group -/
theorem groupVal_becomes (groups : List Ex) (hrow : ∀ g ∈ groups, g.onRow) (col : Name → Val) (hc : CaseFree col)
    (vals : List Val) {e e' : Ex} (he : e.noKey) (hb : e' = e ∨ ∃ j, e' = .key j ∧ groups[j]? = some e)
    (hg : e'.onGroup groups) :
    groupVal groups (groups.map (means ⟨col, []⟩)) vals e' = means ⟨col, vals⟩ e := by
  rcases hb with rfl | ⟨j, rfl, hj⟩
  · exact groupVal_means groups col hc vals _ he hg
  · simp only [groupVal, List.getD_eq_getElem?_getD, List.getElem?_map, hj, Option.map_some, Option.getD_some]
    exact means_aggs col _ _ e (hrow e (List.mem_of_getElem? hj))

end Verif.Query.Select
