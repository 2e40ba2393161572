import Verif.Exec.Proofs
set_option linter.unusedSimpArgs false
set_option linter.unusedVariables false
namespace Verif.Exec

/-- all transactions in one class -/
abbrev one : List Nat → Nat := fun _ => 0

/-- a transaction is registered when nothing is going on, or overlaps with the last registered one -/
def Linked (s : Ex) (parts : List Nat) : Prop := ∀ r, s.list.getLast? = some r → overlaps r.parts parts = true

theorem linked_found {s : Ex} {parts : List Nat} (h : Linked s parts) : Found one s parts := by
  unfold Found
  have e : ∀ l : List Dtr, l.reverse.find? (fun r => decide (one r.parts = one parts)) = l.getLast? := by
    intro l
    rw [find_last]
    congr 1
    rw [List.filter_eq_self]; intro x _; rfl
  rw [e]
  cases hl : s.list.getLast? with
  | none =>
    have : s.list = [] := List.getLast?_eq_none_iff.1 hl
    rw [this]; rfl
  | some r =>
    have h1 := h r hl
    rw [← List.head?_reverse] at hl
    cases hr : s.list.reverse with
    | nil => rw [hr] at hl; cases hl
    | cons x t =>
      rw [hr] at hl
      simp only [List.head?_cons, Option.some.injEq] at hl
      subst hl
      rw [List.find?_cons, h1]

structure Live (b : List Dtr) (s : Ex) : Prop where
  cls  : Cls one b s
  wait : ∀ d ∈ s.list, d.id ∈ s.sent → d ∉ b → d ∈ queued s.groups
  head : ∀ f t, s.list = b ++ f :: t → (∀ g ∈ s.groups, g.id = f.group → g.next = f.order) ∧ (f.order ≠ 0 → ∃ g ∈ s.groups, g.id = f.group)
  gids : s.groups.Pairwise (fun a b => a.id ≠ b.id)

theorem filter_one (l : List Dtr) : (l.filter fun d => one d.parts = 0) = l := by
  rw [List.filter_eq_self]; intro x _; rfl

theorem Live.pre {b : List Dtr} {s : Ex} (C : Cls one b s) : b <+: s.list := by
  have := C.pre 0
  rw [filter_one, filter_one] at this
  exact this

theorem Live.consec {b : List Dtr} {s : Ex} (C : Cls one b s) : ∃ o, s.list.map Dtr.order = List.range' o s.list.length := by
  obtain ⟨o, h⟩ := C.cons 0
  rw [filter_one] at h
  exact ⟨o, h⟩

theorem order_at {s : Ex} {b : List Dtr} (C : Cls one b s) {x y m y' : List Dtr} {f f' : Dtr} (h : s.list = x ++ f :: y) (h' : s.list = x ++ m ++ f' :: y') :
    f'.order = f.order + m.length := by
  obtain ⟨o, ho⟩ := Live.consec C
  have e1 : f.order = o + x.length := by
    have : (s.list.map Dtr.order)[x.length]? = some f.order := by rw [h]; simp
    rw [ho, List.getElem?_range' (by rw [h]; simp)] at this
    simp at this; omega
  have e2 : f'.order = o + (x ++ m).length := by
    have : (s.list.map Dtr.order)[(x ++ m).length]? = some f'.order := by rw [h']; simp
    rw [ho, List.getElem?_range' (by rw [h']; simp)] at this
    simp at this; simp; omega
  rw [List.length_append] at e2
  omega

theorem receive_live {b : List Dtr} {s : Ex} (V : Live b s) (id : Nat) : Live (receive (b, s) id).1 (receive (b, s) id).2 := by
  have C' := receive_cls V.cls id
  have C := V.cls
  unfold receive at C' ⊢
  split
  · exact V
  · rename_i d hd
    rw [hd] at C'
    simp only at C' hd
    split
    · exact V
    · rename_i hs
      rw [if_neg hs] at C'
      simp only at C' hs ⊢
      have hdl : d ∈ s.list := List.mem_of_find?_eq_some hd
      have hid : d.id = id := by simpa using List.find?_some hd
      have hnew : d ∉ b ++ queued s.groups := fun h => hs (hid ▸ (C.base.qin d h).2)
      have hdb : d ∉ b := fun h => hnew (List.mem_append_left _ h)
      have hqp := queueAdd_perm s.groups d
      obtain ⟨pre, g, post, q1, q2, q3, q4, q5⟩ := queueAdd_spec s.groups d
      rw [q1, q2] at C' hqp
      rw [q1, q2]
      have hgn : (g.add d).2.next = g.next + (g.add d).1.length := (popAll_split _ _).2.2
      have hgi : (g.add d).2.id = g.id := rfl
      -- the first one that is left before
      obtain ⟨rest, hrest⟩ := Live.pre C
      cases hr : rest with
      | nil =>
        rw [hr, List.append_nil] at hrest
        exact absurd (hrest ▸ hdl) hdb
      | cons f t =>
        rw [hr] at hrest
        obtain ⟨f1, f2⟩ := V.head f t hrest.symm
        have hfl : f ∈ s.list := by rw [← hrest]; simp
        have hfg : f.group = d.group := (C.same f hfl d hdl).2 rfl
        have hnext : g.next = f.order := by
          rcases q5 with q5 | ⟨q5, _, q7⟩
          · exact f1 g (by rw [q5]; simp) (by rw [q3, hfg])
          · subst q7
            by_cases h0 : f.order = 0
            · exact h0.symm
            · obtain ⟨x, hx, hxi⟩ := f2 h0
              exact absurd (hxi.trans hfg) (q4 x (q5 ▸ hx))
        refine ⟨C', ?_, ?_, ?_⟩
        · intro x hx hxs hxb
          have hxm : x ∈ (g.add d).1 ++ queued (pre ++ (g.add d).2 :: post) := by
            refine hqp.mem_iff.2 ?_
            rcases List.mem_append.1 hxs with h | h
            · exact List.mem_cons_of_mem _ (V.wait x hx h (fun hb => hxb (List.mem_append_left _ hb)))
            · simp only [List.mem_singleton] at h
              have : x = d := C.base.inj hx hdl (by rw [h, hid])
              rw [this]; simp
          rcases List.mem_append.1 hxm with h | h
          · exact absurd (List.mem_append_right _ h) hxb
          · exact h
        · intro f' t' hf'
          have hfo : f'.order = f.order + (g.add d).1.length := order_at C hrest.symm hf'
          have hf'l : f' ∈ s.list := by rw [hf']; simp
          have hf'g : f'.group = d.group := (C.same f' hf'l d hdl).2 rfl
          refine ⟨?_, fun _ => ⟨(g.add d).2, by simp, by rw [hgi, q3, hf'g]⟩⟩
          intro x hx hxi
          rcases List.mem_append.1 hx with h | h
          · exact absurd (hxi.trans hf'g) (q4 x h)
          · rcases List.mem_cons.1 h with rfl | h
            · rw [hgn, hnext, hfo]
            · exfalso
              rcases q5 with q5 | ⟨_, q6, _⟩
              · have hp := V.gids
                rw [q5, List.pairwise_append] at hp
                exact (List.pairwise_cons.1 hp.2.1).1 x h (by rw [q3, hxi, hf'g])
              · subst q6; simp at h
        · show (pre ++ (g.add d).2 :: post).Pairwise _
          rcases q5 with q5 | ⟨q5, q6, _⟩
          · have hp := V.gids
            rw [q5, List.pairwise_append, List.pairwise_cons] at hp
            rw [List.pairwise_append, List.pairwise_cons]
            obtain ⟨a1, ⟨a2, a3⟩, a4⟩ := hp
            refine ⟨a1, ⟨fun y hy => by rw [hgi]; exact a2 y hy, a3⟩, ?_⟩
            intro x hx y hy
            rcases List.mem_cons.1 hy with rfl | h
            · rw [hgi]; exact a4 x hx g (by simp)
            · exact a4 x hx y (by simp [h])
          · subst q6
            rw [List.pairwise_append]
            refine ⟨q5 ▸ V.gids, List.pairwise_singleton _ _, ?_⟩
            intro x hx y hy
            simp only [List.mem_singleton] at hy
            subst hy
            rw [hgi, q3]; exact q4 x hx

theorem fold_live : ∀ (ids : List Nat) (b : List Dtr) (s : Ex), Live b s → Live (ids.foldl receive (b, s)).1 (ids.foldl receive (b, s)).2 := by
  intro ids
  induction ids with
  | nil => intro b s V; exact V
  | cons i ids ih =>
    intro b s V
    rw [List.foldl_cons]
    exact ih _ _ (receive_live V i)

theorem finish_live {b : List Dtr} {s : Ex} (V : Live b s) : Live [] (finish (b, s)) := by
  have C' := finish_cls V.cls
  have C := V.cls
  unfold finish at C' ⊢
  split
  · rename_i h
    simp only [List.isEmpty_iff] at h
    subst h; exact V
  · rename_i h
    rw [if_neg h] at C'
    simp only at C' ⊢
    obtain ⟨rest, hrest⟩ := Live.pre C
    have hl : s.list.filter (fun d => ¬ d ∈ b) = rest := filter_not_prefix hrest.symm C.base.lnodup
    rw [hl] at C' ⊢
    cases rest with
    | nil =>
      have hp : (gc s.groups (groupMin [])).Pairwise (fun a b => a.id ≠ b.id) := V.gids.sublist (gc_sub _ _)
      exact ⟨C', by simp, by simp, hp⟩
    | cons f t =>
      have hsame : ∀ x ∈ f :: t, x.group = f.group := by
        intro x hx
        exact (C.same x (by rw [← hrest]; exact List.mem_append_right _ hx) f (by rw [← hrest]; simp)).2 rfl
      have hkeep : ∀ g ∈ s.groups, g.id = f.group → g ∈ gc s.groups (groupMin (f :: t)) := by
        intro g hg hi
        simp only [groupMin, List.head?_cons, Option.map_some, gc, List.mem_filter]
        exact ⟨hg, by simp; omega⟩
      have hp : (gc s.groups (groupMin (f :: t))).Pairwise (fun a b => a.id ≠ b.id) := V.gids.sublist (gc_sub _ _)
      have hm : ∀ g ∈ gc s.groups (groupMin (f :: t)), g ∈ s.groups := fun g hg => (gc_sub _ _).mem hg
      refine ⟨C', ?_, ?_, hp⟩
      · intro d hd hds _
        have hdl : d ∈ s.list := by rw [← hrest]; exact List.mem_append_right _ hd
        have hdb : d ∉ b := by
          intro hb
          have hn := C.base.lnodup
          rw [← hrest] at hn
          exact (List.nodup_append.1 hn).2.2 d hb d hd rfl
        obtain ⟨g, hg, hdg⟩ := List.mem_flatMap.1 (V.wait d hdl hds hdb)
        refine List.mem_flatMap.2 ⟨g, hkeep g hg ?_, hdg⟩
        rw [← (C.gid g hg).2.1 d hdg]; exact hsame d hd
      · intro f' t' e
        simp only [List.nil_append, List.cons.injEq] at e
        obtain ⟨rfl, rfl⟩ := e
        obtain ⟨f1, f2⟩ := V.head f t hrest.symm
        refine ⟨fun g hg => f1 g (hm g hg), fun h0 => ?_⟩
        obtain ⟨g, hg, hgi⟩ := f2 h0
        exact ⟨g, hkeep g hg hgi, hgi⟩

theorem attach_live {s : Ex} (V : Live [] s) (parts : List Nat) (h : Linked s parts) : Live [] (attach s parts) := by
  have C' := attach_cls V.cls parts (linked_found h)
  have C := V.cls
  have hnew : s.subs.length ∉ s.sent := fun hh => Nat.lt_irrefl _ (C.base.sentd _ hh)
  unfold attach at C' ⊢
  have hf := linked_found h
  unfold Found at hf
  rw [hf] at C' ⊢
  have hlast : s.list.reverse.find? (fun r => decide (one r.parts = one parts)) = s.list.getLast? := by
    rw [find_last]; congr 1
    rw [List.filter_eq_self]; intro x _; rfl
  rw [hlast] at C' ⊢
  cases hl : s.list.getLast? with
  | none =>
    rw [hl] at C'
    simp only at C' ⊢
    have hnil : s.list = [] := List.getLast?_eq_none_iff.1 hl
    refine ⟨C', ?_, ?_, V.gids⟩
    · intro d hd hds _
      simp only [hnil, List.nil_append, List.mem_singleton] at hd
      subst hd
      exact absurd hds hnew
    · intro f t e
      simp only [hnil, List.nil_append, List.cons.injEq] at e
      obtain ⟨rfl, _⟩ := e
      refine ⟨fun g hg hi => ?_, fun h0 => absurd rfl h0⟩
      have := (C.gid g hg).1
      simp only at hi; omega
  | some r =>
    rw [hl] at C'
    simp only at C' ⊢
    refine ⟨C', ?_, ?_, V.gids⟩
    · intro d hd hds _
      rcases List.mem_append.1 hd with h1 | h1
      · exact V.wait d h1 hds (by simp)
      · simp only [List.mem_singleton] at h1
        subst h1
        exact absurd hds hnew
    · intro f t e
      cases hsl : s.list with
      | nil => rw [hsl] at hl; cases hl
      | cons f0 t0 =>
        rw [hsl] at e
        simp only [List.nil_append, List.cons_append, List.cons.injEq] at e
        obtain ⟨rfl, _⟩ := e
        exact V.head f0 t0 (by simpa using hsl)

theorem init_live : Live [] Ex.init :=
  ⟨init_cls, by simp [Ex.init], by simp [Ex.init], List.Pairwise.nil⟩

/-- histories of linked transactions -/
theorem run_live : ∀ (ops : List Op) (s : Ex), Live [] s → (∀ a parts b, ops = a ++ .submit parts :: b → Linked (run s a) parts) → Live [] (run s ops) := by
  intro ops
  induction ops with
  | nil => intro s V _; exact V
  | cons op ops ih =>
    intro s V h
    refine ih (step s op) ?_ ?_
    · cases op with
      | submit parts => exact attach_live V parts (h [] parts ops rfl)
      | commit ids => exact finish_live (fold_live ids [] s V)
    · intro a parts b e
      exact h (op :: a) parts b (by rw [e]; rfl)

theorem run_cls {cls : List Nat → Nat} : ∀ (ops : List Op) (s : Ex), Cls cls [] s → (∀ a parts b, ops = a ++ .submit parts :: b → Found cls (run s a) parts) →
    Cls cls [] (run s ops) := by
  intro ops
  induction ops with
  | nil => intro s V _; exact V
  | cons op ops ih =>
    intro s V h
    refine ih (step s op) ?_ ?_
    · cases op with
      | submit parts => exact attach_cls V parts (h [] parts ops rfl)
      | commit ids => exact finish_cls (fold_cls ids [] s V)
    · intro a parts b e
      exact h (op :: a) parts b (by rw [e]; rfl)

/-- transactions of one class are decided in order -/
theorem Cls.before {cls : List Nat → Nat} {s : Ex} (C : Cls cls [] s) {i j : Nat} (hij : i < j) (hc : cls (partsOf s i) = cls (partsOf s j))
    (hj : j ∈ s.log) : Before s.log i j := by
  have hjn := (C.base.logd j hj).2.1
  obtain ⟨a, b, hab⟩ := List.append_of_mem hj
  refine ⟨a, b, hab, ?_⟩
  have hall := C.all (cls (partsOf s j))
  have hi : i ∈ (List.range s.subs.length).filter fun x => cls (s.subs.getD x []) = cls (partsOf s j) :=
    List.mem_filter.2 ⟨List.mem_range.2 (by omega), by simpa [partsOf] using hc⟩
  have hs : ((List.range s.subs.length).filter fun x => cls (s.subs.getD x []) = cls (partsOf s j)).Pairwise (· < ·) :=
    List.pairwise_lt_range.sublist List.filter_sublist
  rw [← hall, hab, List.filter_append, List.filter_cons_of_pos (by simp [partsOf]), List.append_assoc, List.cons_append] at hi hs
  rcases List.mem_append.1 hi with h | h
  · exact (List.mem_filter.1 h).1
  · exfalso
    have := (List.pairwise_append.1 hs).2.1
    rcases List.mem_cons.1 h with h | h
    · omega
    · have := (List.pairwise_cons.1 this).1 i h; omega

theorem Live.decided {s : Ex} (V : Live [] s) : AllDecided s := by
  intro hall i hi
  have C := V.cls
  have h := C.all 0
  rw [filter_one] at h
  have hmem : i ∈ (List.range s.subs.length).filter fun x => one (s.subs.getD x []) = 0 := List.mem_filter.2 ⟨List.mem_range.2 hi, rfl⟩
  rw [← h] at hmem
  rcases List.mem_append.1 hmem with h1 | h1
  · exact (List.mem_filter.1 h1).1
  · exfalso
    obtain ⟨x, hx, _⟩ := List.mem_map.1 h1
    cases hl : s.list with
    | nil => rw [hl] at hx; simp at hx
    | cons f t =>
      have hf : f ∈ s.list := by rw [hl]; simp
      obtain ⟨g, hg, hfg⟩ := List.mem_flatMap.1 (V.wait f hf (hall _ (C.base.lt f hf).1) (by simp))
      obtain ⟨_, a2, _, a4, _⟩ := C.gid g hg
      have h1 := (V.head f t (by simpa using hl)).1 g hg (a2 f hfg).symm
      have h2 := a4 f hfg
      omega

/-! ## A group that has been forgotten -/

/-- no transaction of the group `γ` is the first one any more -/
structure Dead (γ : Nat) (s : Ex) : Prop where
  next : γ < s.next
  ord  : ∀ d ∈ s.list, d.group = γ → d.order ≠ 0
  grp  : ∀ g ∈ s.groups, g.id = γ → g.next = 0
  own  : ∀ g ∈ s.groups, ∀ d ∈ g.list, d.group = g.id ∧ (d.group = γ → d.order ≠ 0)

theorem popAll_none : ∀ (l : List Dtr), (∀ d ∈ l, d.order ≠ 0) → popAll 0 l = ([], 0, l) := by
  intro l h
  cases l with
  | nil => rfl
  | cons d r => simp only [popAll, if_neg (h d (by simp))]

theorem receive_dead {γ : Nat} {b : List Dtr} {s : Ex} (D : Dead γ s) (hb : ∀ d ∈ b, d.group ≠ γ) (id : Nat) :
    Dead γ (receive (b, s) id).2 ∧ ∀ d ∈ (receive (b, s) id).1, d.group ≠ γ := by
  unfold receive
  split
  · exact ⟨D, hb⟩
  · rename_i d hd
    split
    · exact ⟨D, hb⟩
    · simp only at hd ⊢
      have hdl : d ∈ s.list := List.mem_of_find?_eq_some hd
      obtain ⟨pre, g, post, q1, q2, q3, q4, q5⟩ := queueAdd_spec s.groups d
      rw [q1, q2]
      have hown : ∀ x ∈ g.list, x.group = g.id ∧ (x.group = γ → x.order ≠ 0) := by
        rcases q5 with q5 | ⟨_, _, q7⟩
        · exact D.own g (by rw [q5]; simp)
        · subst q7; simp
      have hnx : g.id = γ → g.next = 0 := by
        rcases q5 with q5 | ⟨_, _, q7⟩
        · exact D.grp g (by rw [q5]; simp)
        · subst q7; intro _; rfl
      have hmem : ∀ x ∈ (g.add d).1 ++ (g.add d).2.list, x.group = g.id ∧ (x.group = γ → x.order ≠ 0) := by
        intro x hx
        rcases List.mem_cons.1 ((add_perm g d).mem_iff.1 hx) with rfl | h
        · exact ⟨q3.symm, D.ord x hdl⟩
        · exact hown x h
      have hdead : g.id = γ → (g.add d).1 = [] ∧ (g.add d).2.next = 0 := by
        intro hγ
        have := popAll_none (groupAdd g.list d) (by
          intro x hx
          rcases List.mem_cons.1 ((groupAdd_perm g.list d).mem_iff.1 hx) with rfl | h
          · exact D.ord x hdl (by rw [← q3, hγ])
          · exact (hown x h).2 (by rw [(hown x h).1, hγ]))
        simp only [Group.add, hnx hγ, this, and_self]
      have hold : ∀ x ∈ pre ++ post, x ∈ s.groups := by
        intro x hx
        rcases q5 with q5 | ⟨q5, q6, _⟩
        · rw [q5]
          rcases List.mem_append.1 hx with h | h
          · exact List.mem_append_left _ h
          · exact List.mem_append_right _ (List.mem_cons_of_mem _ h)
        · subst q6; rw [q5]; simpa using hx
      refine ⟨⟨D.next, D.ord, ?_, ?_⟩, ?_⟩
      · intro x hx hxi
        rcases List.mem_append.1 hx with h | h
        · exact D.grp x (hold x (List.mem_append_left _ h)) hxi
        · rcases List.mem_cons.1 h with rfl | h
          · exact (hdead hxi).2
          · exact D.grp x (hold x (List.mem_append_right _ h)) hxi
      · intro x hx
        rcases List.mem_append.1 hx with h | h
        · exact D.own x (hold x (List.mem_append_left _ h))
        · rcases List.mem_cons.1 h with rfl | h
          · intro y hy
            obtain ⟨y1, y2⟩ := hmem y (List.mem_append_right _ hy)
            exact ⟨y1, y2⟩
          · exact D.own x (hold x (List.mem_append_right _ h))
      · intro x hx
        rcases List.mem_append.1 hx with h | h
        · exact hb x h
        · obtain ⟨x1, x2⟩ := hmem x (List.mem_append_left _ h)
          intro hγ
          rw [x1] at hγ
          rw [(hdead hγ).1] at h
          simp at h

theorem fold_dead {γ : Nat} : ∀ (ids : List Nat) (b : List Dtr) (s : Ex), Dead γ s → (∀ d ∈ b, d.group ≠ γ) →
    Dead γ (ids.foldl receive (b, s)).2 ∧ ∀ d ∈ (ids.foldl receive (b, s)).1, d.group ≠ γ := by
  intro ids
  induction ids with
  | nil => intro b s D hb; exact ⟨D, hb⟩
  | cons i ids ih =>
    intro b s D hb
    rw [List.foldl_cons]
    obtain ⟨h1, h2⟩ := receive_dead D hb i
    exact ih _ _ h1 h2

theorem receive_list (bs : List Dtr × Ex) (id : Nat) : (receive bs id).2.list = bs.2.list ∧ (receive bs id).2.log = bs.2.log := by
  unfold receive
  split
  · exact ⟨rfl, rfl⟩
  · split <;> exact ⟨rfl, rfl⟩

theorem fold_list : ∀ (ids : List Nat) (bs : List Dtr × Ex), (ids.foldl receive bs).2.list = bs.2.list ∧ (ids.foldl receive bs).2.log = bs.2.log := by
  intro ids
  induction ids with
  | nil => intro bs; exact ⟨rfl, rfl⟩
  | cons i ids ih =>
    intro bs
    rw [List.foldl_cons]
    obtain ⟨h1, h2⟩ := ih (receive bs i)
    obtain ⟨h3, h4⟩ := receive_list bs i
    exact ⟨h1.trans h3, h2.trans h4⟩

theorem step_dead {γ : Nat} {s : Ex} (D : Dead γ s) {d : Dtr} (hd : d ∈ s.list) (hg : d.group = γ) (op : Op) :
    Dead γ (step s op) ∧ d ∈ (step s op).list := by
  cases op with
  | submit parts =>
    show Dead γ (attach s parts) ∧ d ∈ (attach s parts).list
    unfold attach
    split
    · rename_i r hr
      have hrl : r ∈ s.list := List.mem_reverse.1 (List.mem_of_find?_eq_some hr)
      refine ⟨⟨D.next, ?_, D.grp, D.own⟩, List.mem_append_left _ hd⟩
      · intro x hx hxg
        rcases List.mem_append.1 hx with h | h
        · exact D.ord x h hxg
        · simp only [List.mem_singleton] at h; subst h; simp
    · refine ⟨⟨Nat.lt_succ_of_lt D.next, ?_, D.grp, D.own⟩, List.mem_append_left _ hd⟩
      · intro x hx hxg
        rcases List.mem_append.1 hx with h | h
        · exact D.ord x h hxg
        · simp only [List.mem_singleton] at h; subst h
          have := D.next; simp only at hxg; omega
  | commit ids =>
    obtain ⟨D1, h1⟩ := fold_dead ids [] s D (by simp)
    have hl := (fold_list ids ([], s)).1
    generalize hbs : ids.foldl receive ([], s) = bs at D1 h1 hl
    have e : step s (.commit ids) = finish bs := by show finish _ = _; rw [hbs]
    rw [e]
    obtain ⟨b, s1⟩ := bs
    simp only at D1 h1 hl
    have hd1 : d ∈ s1.list := by rw [hl]; exact hd
    unfold finish
    split
    · exact ⟨D1, hd1⟩
    · have hdb : d ∉ b := fun h => h1 d h hg
      refine ⟨⟨D1.next, ?_, ?_, ?_⟩, List.mem_filter.2 ⟨hd1, by simpa using hdb⟩⟩
      · intro x hx; exact D1.ord x (List.mem_filter.1 hx).1
      · intro g hg'; exact D1.grp g ((gc_sub _ _).mem hg')
      · intro g hg'; exact D1.own g ((gc_sub _ _).mem hg')

theorem run_dead {γ : Nat} {d : Dtr} (hg : d.group = γ) : ∀ (ops : List Op) (s : Ex), Dead γ s → d ∈ s.list → d ∈ (run s ops).list := by
  intro ops
  induction ops with
  | nil => intro s _ h; exact h
  | cons op ops ih =>
    intro s D h
    obtain ⟨h1, h2⟩ := step_dead D h hg op
    exact ih _ h1 h2

end Verif.Exec
