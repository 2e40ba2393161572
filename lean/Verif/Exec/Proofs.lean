import Verif.Exec.Spec
set_option linter.unusedSimpArgs false
set_option linter.unusedVariables false
namespace Verif.Exec

/-! ## Lists -/

theorem prefix_of_orders {α : Type} (f : α → Nat) : ∀ (p l : List α) (a m n : Nat), l.map f = List.range' a n → p.map f = List.range' a m →
    (∀ x ∈ p, x ∈ l) → p <+: l := by
  intro p
  induction p with
  | nil => intro l a m n _ _ _; exact List.nil_prefix
  | cons x p ih =>
    intro l a m n hl hp hin
    cases l with
    | nil => exact absurd (hin x (by simp)) (by simp)
    | cons y l =>
      cases n with
      | zero => simp at hl
      | succ n =>
        cases m with
        | zero => simp at hp
        | succ m =>
          rw [List.map_cons, List.range'_succ] at hl hp
          simp only [List.cons.injEq] at hl hp
          have hge : ∀ z ∈ l, a + 1 ≤ f z := by
            intro z hz
            have : f z ∈ List.range' (a + 1) n := hl.2 ▸ List.mem_map_of_mem hz
            rw [List.mem_range'_1] at this
            exact this.1
          have hge' : ∀ z ∈ p, a + 1 ≤ f z := by
            intro z hz
            have : f z ∈ List.range' (a + 1) m := hp.2 ▸ List.mem_map_of_mem hz
            rw [List.mem_range'_1] at this
            exact this.1
          have hxy : x = y := by
            rcases List.mem_cons.1 (hin x (by simp)) with h | h
            · exact h
            · have := hge x h; omega
          subst hxy
          refine List.cons_prefix_cons.2 ⟨rfl, ih l (a + 1) m n hl.2 hp.2 ?_⟩
          intro z hz
          rcases List.mem_cons.1 (hin z (by simp [hz])) with h | h
          · have := hge' z hz; rw [h] at this; omega
          · exact h

theorem filter_not_prefix {α : Type} [DecidableEq α] {l b r : List α} (h : l = b ++ r) (hn : l.Nodup) : l.filter (fun x => ¬ x ∈ b) = r := by
  subst h
  rw [List.filter_append]
  have h1 : b.filter (fun x => ¬ x ∈ b) = [] := by
    rw [List.filter_eq_nil_iff]; intro x hx; simp [hx]
  have h2 : r.filter (fun x => ¬ x ∈ b) = r := by
    rw [List.filter_eq_self]
    intro x hx
    have := (List.nodup_append.1 hn).2.2
    simp only [decide_not, Bool.not_eq_eq_eq_not, Bool.not_true, decide_eq_false_iff_not]
    intro hb; exact this x hb x hx rfl
  rw [h1, h2, List.nil_append]

/-! ## One group -/

theorem popAll_split : ∀ (l : List Dtr) (n : Nat), l = (popAll n l).1 ++ (popAll n l).2.2 ∧
    (popAll n l).1.map Dtr.order = List.range' n (popAll n l).1.length ∧ (popAll n l).2.1 = n + (popAll n l).1.length := by
  intro l
  induction l with
  | nil => intro n; exact ⟨rfl, rfl, rfl⟩
  | cons d l ih =>
    intro n
    simp only [popAll]
    split
    · rename_i h
      obtain ⟨h1, h2, h3⟩ := ih (n + 1)
      refine ⟨by rw [List.cons_append, ← h1], ?_, ?_⟩
      · rw [List.map_cons, List.length_cons, List.range'_succ, h2, h]
      · rw [h3, List.length_cons]; omega
    · exact ⟨rfl, rfl, rfl⟩

theorem popAll_rest : ∀ (l : List Dtr) (n : Nat), l.Pairwise (fun a b => a.order < b.order) → (∀ d ∈ l, n ≤ d.order) →
    ∀ d ∈ (popAll n l).2.2, (popAll n l).2.1 < d.order := by
  intro l
  induction l with
  | nil => intro n _ _ d hd; simp [popAll] at hd
  | cons x l ih =>
    intro n hp hge d hd
    rw [List.pairwise_cons] at hp
    simp only [popAll] at hd ⊢
    split at hd
    · rename_i h
      rw [if_pos h]
      exact ih (n + 1) hp.2 (fun y hy => by have := hp.1 y hy; omega) d hd
    · rename_i h
      rw [if_neg h]
      have hx := hge x (by simp)
      rcases List.mem_cons.1 hd with rfl | h'
      · show n < _; omega
      · have := hp.1 d h'; show n < _; omega

theorem groupAdd_perm : ∀ (l : List Dtr) (d : Dtr), (groupAdd l d).Perm (d :: l) := by
  intro l
  induction l with
  | nil => intro d; exact List.Perm.refl _
  | cons p r ih =>
    intro d
    simp only [groupAdd]
    split
    · exact List.Perm.refl _
    · exact (List.Perm.cons p (ih d)).trans (List.Perm.swap d p r)

theorem groupAdd_sorted : ∀ (l : List Dtr) (d : Dtr), l.Pairwise (fun a b => a.order < b.order) → (∀ x ∈ l, x.order ≠ d.order) →
    (groupAdd l d).Pairwise (fun a b => a.order < b.order) := by
  intro l
  induction l with
  | nil => intro d _ _; simp [groupAdd]
  | cons p r ih =>
    intro d hp hne
    simp only [groupAdd]
    split
    · rename_i h
      rw [List.pairwise_cons] at hp
      refine List.pairwise_cons.2 ⟨?_, List.pairwise_cons.2 hp⟩
      intro x hx
      rcases List.mem_cons.1 hx with rfl | h'
      · exact h
      · have := hp.1 x h'; omega
    · rename_i h
      rw [List.pairwise_cons] at hp
      refine List.pairwise_cons.2 ⟨?_, ih d hp.2 fun x hx => hne x (by simp [hx])⟩
      intro x hx
      rcases List.mem_cons.1 ((groupAdd_perm r d).mem_iff.1 hx) with rfl | h'
      · have := hne p (by simp); omega
      · exact hp.1 x h'

/-- what a message does to its group -/
theorem add_spec {g : Group} {d : Dtr} (hs : g.list.Pairwise (fun a b => a.order < b.order)) (hne : ∀ x ∈ g.list, x.order ≠ d.order)
    (hge : ∀ x ∈ g.list, g.next ≤ x.order) (hd : g.next ≤ d.order) :
    ((g.add d).1 ++ (g.add d).2.list).Perm (d :: g.list) ∧ (g.add d).1.map Dtr.order = List.range' g.next (g.add d).1.length ∧
      (g.add d).2.next = g.next + (g.add d).1.length ∧ (g.add d).2.id = g.id ∧
      (g.add d).2.list.Pairwise (fun a b => a.order < b.order) ∧ ∀ x ∈ (g.add d).2.list, (g.add d).2.next < x.order := by
  have hp := groupAdd_perm g.list d
  have hso := groupAdd_sorted g.list d hs hne
  obtain ⟨h1, h2, h3⟩ := popAll_split (groupAdd g.list d) g.next
  refine ⟨by simp only [Group.add]; rw [← h1]; exact hp, h2, h3, rfl, ?_, ?_⟩
  · rw [h1] at hso; exact (List.pairwise_append.1 hso).2.1
  · refine popAll_rest _ _ hso ?_
    intro x hx
    rcases List.mem_cons.1 (hp.mem_iff.1 hx) with rfl | h
    · exact hd
    · exact hge x h

/-- which group is used -/
theorem queueAdd_spec : ∀ (gs : List Group) (d : Dtr), ∃ pre g post, (queueAdd gs d).1 = (g.add d).1 ∧ (queueAdd gs d).2 = pre ++ (g.add d).2 :: post ∧
    g.id = d.group ∧ (∀ x ∈ pre, x.id ≠ d.group) ∧
    (gs = pre ++ g :: post ∨ (gs = pre ∧ post = [] ∧ g = ⟨d.group, 0, []⟩)) := by
  intro gs
  induction gs with
  | nil => intro d; exact ⟨[], ⟨d.group, 0, []⟩, [], rfl, rfl, rfl, by simp, .inr ⟨rfl, rfl, rfl⟩⟩
  | cons x r ih =>
    intro d
    by_cases h : x.id = d.group
    · refine ⟨[], x, r, ?_, ?_, h, by simp, .inl rfl⟩ <;> simp only [queueAdd, if_pos h, List.nil_append]
    · obtain ⟨pre, g, post, h1, h2, h3, h4, h5⟩ := ih d
      refine ⟨x :: pre, g, post, ?_, ?_, h3, ?_, ?_⟩
      · simp only [queueAdd, if_neg h, h1]
      · simp only [queueAdd, if_neg h, h2, List.cons_append]
      · intro y hy
        rcases List.mem_cons.1 hy with rfl | hy
        · exact h
        · exact h4 y hy
      · rcases h5 with h5 | ⟨h5, h6, h7⟩
        · left; rw [h5, List.cons_append]
        · right; exact ⟨by rw [h5], h6, h7⟩

/-! ## Every history -/

def queued (gs : List Group) : List Dtr := gs.flatMap Group.list

/-- what always holds, with `b` the current batch -/
structure Base (b : List Dtr) (s : Ex) : Prop where
  ids   : s.list.Pairwise (fun x y => x.id < y.id)
  lt    : ∀ d ∈ s.list, d.id < s.subs.length ∧ d.parts = s.subs.getD d.id []
  nodup : s.log.Nodup
  logd  : ∀ i ∈ s.log, i ∈ s.sent ∧ i < s.subs.length ∧ ∀ d ∈ s.list, d.id ≠ i
  qd    : (b ++ queued s.groups).Nodup
  qin   : ∀ d ∈ b ++ queued s.groups, d ∈ s.list ∧ d.id ∈ s.sent
  sentd : ∀ i ∈ s.sent, i < s.subs.length

theorem Base.inj {b : List Dtr} {s : Ex} (B : Base b s) {x y : Dtr} (hx : x ∈ s.list) (hy : y ∈ s.list) (h : x.id = y.id) : x = y := by
  obtain ⟨i, hi, rfl⟩ := List.mem_iff_getElem.1 hx
  obtain ⟨j, hj, rfl⟩ := List.mem_iff_getElem.1 hy
  have := List.pairwise_iff_getElem.1 B.ids
  rcases Nat.lt_trichotomy i j with hij | hij | hij
  · have := this i j hi hj hij; omega
  · subst hij; rfl
  · have := this j i hj hi hij; omega

theorem Base.lnodup {b : List Dtr} {s : Ex} (B : Base b s) : s.list.Nodup :=
  B.ids.imp (fun h e => by rw [e] at h; exact Nat.lt_irrefl _ h)

theorem queued_append (a b : List Group) : queued (a ++ b) = queued a ++ queued b := by simp [queued]
theorem queued_cons (g : Group) (b : List Group) : queued (g :: b) = g.list ++ queued b := by simp [queued]

/-- a message moves the transactions of its group -/
theorem add_perm (g : Group) (d : Dtr) : ((g.add d).1 ++ (g.add d).2.list).Perm (d :: g.list) := by
  simp only [Group.add]
  rw [← (popAll_split (groupAdd g.list d) g.next).1]
  exact groupAdd_perm _ _

theorem queueAdd_perm (gs : List Group) (d : Dtr) : ((queueAdd gs d).1 ++ queued (queueAdd gs d).2).Perm (d :: queued gs) := by
  obtain ⟨pre, g, post, h1, h2, h3, h4, h5⟩ := queueAdd_spec gs d
  rw [h1, h2, queued_append, queued_cons]
  have hp := add_perm g d
  have e : ((g.add d).1 ++ (queued pre ++ ((g.add d).2.list ++ queued post))).Perm (queued pre ++ (((g.add d).1 ++ (g.add d).2.list) ++ queued post)) := by
    rw [← List.append_assoc, ← List.append_assoc (queued pre), ← List.append_assoc, ← List.append_assoc (queued pre)]
    refine List.Perm.append_right _ (List.Perm.append_right _ ?_)
    exact List.perm_append_comm
  refine e.trans ?_
  refine (List.Perm.append_left _ (List.Perm.append_right _ hp)).trans ?_
  rcases h5 with h5 | ⟨h5, h6, h7⟩
  · rw [h5, queued_append, queued_cons]
    exact List.perm_middle
  · subst h6; subst h7; rw [h5]
    simp only [queued, List.flatMap_nil, List.append_nil]
    exact List.perm_middle.trans (by simp)

theorem attach_base {s : Ex} (B : Base [] s) (parts : List Nat) : Base [] (attach s parts) := by
  have key : ∀ (g o nx : Nat), Base [] { s with list := s.list ++ [⟨s.subs.length, parts, g, o⟩], subs := s.subs ++ [parts], next := nx } := by
    intro g o nx
    refine ⟨?_, ?_, B.nodup, ?_, B.qd, ?_, ?_⟩
    · refine List.pairwise_append.2 ⟨B.ids, List.pairwise_singleton _ _, ?_⟩
      intro x hx y hy
      simp only [List.mem_singleton] at hy
      subst hy
      exact (B.lt x hx).1
    · intro d hd
      simp only [List.length_append, List.length_singleton]
      rcases List.mem_append.1 hd with h | h
      · obtain ⟨h1, h2⟩ := B.lt d h
        refine ⟨by omega, ?_⟩
        rw [List.getD_eq_getElem?_getD, List.getElem?_append_left h1, ← List.getD_eq_getElem?_getD]
        exact h2
      · simp only [List.mem_singleton] at h
        subst h
        refine ⟨by simp, ?_⟩
        simp [List.getD_eq_getElem?_getD]
    · intro i hi
      obtain ⟨h1, h2, h3⟩ := B.logd i hi
      refine ⟨h1, by simp only [List.length_append, List.length_singleton]; omega, ?_⟩
      intro d hd
      rcases List.mem_append.1 hd with h | h
      · exact h3 d h
      · simp only [List.mem_singleton] at h
        subst h
        simp only; omega
    · intro d hd
      obtain ⟨h1, h2⟩ := B.qin d hd
      exact ⟨List.mem_append_left _ h1, h2⟩
    · intro i hi
      have := B.sentd i hi
      simp only [List.length_append, List.length_singleton]; omega
  unfold attach
  split
  · exact key _ _ _
  · exact key _ _ _

theorem receive_base {b : List Dtr} {s : Ex} (B : Base b s) (id : Nat) : Base (receive (b, s) id).1 (receive (b, s) id).2 := by
  unfold receive
  split
  · exact B
  · rename_i d hd
    split
    · exact B
    · rename_i hs
      simp only at hd hs ⊢
      have hdl : d ∈ s.list := List.mem_of_find?_eq_some hd
      have hid : d.id = id := by simpa using List.find?_some hd
      have hp := queueAdd_perm s.groups d
      have hnew : d ∉ b ++ queued s.groups := fun h => hs (hid ▸ (B.qin d h).2)
      have hp2 : (b ++ (queueAdd s.groups d).1 ++ queued (queueAdd s.groups d).2).Perm (d :: (b ++ queued s.groups)) := by
        rw [List.append_assoc]
        exact (List.Perm.append_left b hp).trans List.perm_middle
      refine ⟨B.ids, B.lt, B.nodup, ?_, ?_, ?_, ?_⟩
      · intro i hi
        obtain ⟨h1, h2, h3⟩ := B.logd i hi
        exact ⟨List.mem_append_left _ h1, h2, h3⟩
      · exact hp2.nodup_iff.2 (List.nodup_cons.2 ⟨hnew, B.qd⟩)
      · intro x hx
        rcases List.mem_cons.1 (hp2.mem_iff.1 hx) with rfl | h
        · exact ⟨hdl, List.mem_append_right _ (by simp [hid])⟩
        · obtain ⟨h1, h2⟩ := B.qin x h
          exact ⟨h1, List.mem_append_left _ h2⟩
      · intro i hi
        rcases List.mem_append.1 hi with h | h
        · exact B.sentd i h
        · simp only [List.mem_singleton] at h
          rw [h, ← hid]; exact (B.lt d hdl).1

theorem gc_sub (gs : List Group) (m : Option Nat) : List.Sublist (gc gs m) gs := by
  cases m with
  | none => exact List.nil_sublist _
  | some m => exact List.filter_sublist

theorem queued_sub {a b : List Group} (h : List.Sublist a b) : List.Sublist (queued a) (queued b) := by
  induction h with
  | slnil => exact List.Sublist.refl _
  | cons g _ ih => rw [queued_cons]; exact ih.trans (List.sublist_append_right _ _)
  | cons_cons g _ ih => rw [queued_cons, queued_cons]; exact List.Sublist.append (List.Sublist.refl _) ih

theorem finish_base {b : List Dtr} {s : Ex} (B : Base b s) : Base [] (finish (b, s)) := by
  unfold finish
  split
  · rename_i h
    simp only [List.isEmpty_iff] at h
    subst h; exact B
  · have hsub := queued_sub (gc_sub s.groups (groupMin (s.list.filter (fun d => ¬ d ∈ b))))
    have hqd := List.nodup_append.1 B.qd
    refine ⟨B.ids.sublist List.filter_sublist, ?_, ?_, ?_, ?_, ?_, B.sentd⟩
    · intro d hd; exact B.lt d (List.mem_filter.1 hd).1
    · refine List.nodup_append.2 ⟨B.nodup, ?_, ?_⟩
      · refine List.pairwise_map.2 ?_
        refine List.Pairwise.imp_of_mem ?_ hqd.1
        intro x y hx hy hne h
        exact hne (B.inj (B.qin x (List.mem_append_left _ hx)).1 (B.qin y (List.mem_append_left _ hy)).1 h)
      · intro i hi j hj
        obtain ⟨x, hx, rfl⟩ := List.mem_map.1 hj
        intro e
        exact (B.logd i hi).2.2 x (B.qin x (List.mem_append_left _ hx)).1 e.symm
    · intro i hi
      rcases List.mem_append.1 hi with h | h
      · obtain ⟨h1, h2, h3⟩ := B.logd i h
        exact ⟨h1, h2, fun d hd => h3 d (List.mem_filter.1 hd).1⟩
      · obtain ⟨x, hx, rfl⟩ := List.mem_map.1 h
        obtain ⟨q1, q2⟩ := B.qin x (List.mem_append_left _ hx)
        refine ⟨q2, (B.lt x q1).1, ?_⟩
        intro d hd e
        have hm := List.mem_filter.1 hd
        rw [B.inj hm.1 q1 e] at hm
        simp [hx] at hm
    · simp only [List.nil_append]
      exact hqd.2.1.sublist hsub
    · intro d hd
      have hd' : d ∈ queued s.groups := hsub.mem hd
      obtain ⟨q1, q2⟩ := B.qin d (List.mem_append_right _ hd')
      refine ⟨List.mem_filter.2 ⟨q1, ?_⟩, q2⟩
      simp only [decide_eq_true_eq]
      intro hb
      exact hqd.2.2 d hb d hd' rfl

theorem fold_base : ∀ (ids : List Nat) (b : List Dtr) (s : Ex), Base b s → Base (ids.foldl receive (b, s)).1 (ids.foldl receive (b, s)).2 := by
  intro ids
  induction ids with
  | nil => intro b s B; exact B
  | cons i ids ih =>
    intro b s B
    rw [List.foldl_cons]
    exact ih _ _ (receive_base B i)

theorem step_base {s : Ex} (B : Base [] s) (op : Op) : Base [] (step s op) := by
  cases op with
  | submit parts => exact attach_base B parts
  | commit ids => exact finish_base (fold_base ids [] s B)

theorem init_base : Base [] Ex.init := by
  refine ⟨List.Pairwise.nil, ?_, List.nodup_nil, ?_, List.nodup_nil, ?_, ?_⟩ <;> simp [Ex.init, queued]

theorem run_base (ops : List Op) : Base [] (run Ex.init ops) := by
  have : ∀ (ops : List Op) (s : Ex), Base [] s → Base [] (run s ops) := by
    intro ops
    induction ops with
    | nil => intro s B; exact B
    | cons op ops ih => intro s B; exact ih _ (step_base B op)
  exact this ops _ init_base

/-! ## Transactions in classes: one class is one chain -/

structure Cls (cls : List Nat → Nat) (b : List Dtr) (s : Ex) : Prop where
  base : Base b s
  same : ∀ d ∈ s.list, ∀ e ∈ s.list, d.group = e.group ↔ cls d.parts = cls e.parts
  fresh : ∀ d ∈ s.list, d.group < s.next
  cons : ∀ c, ∃ o, (s.list.filter fun d => cls d.parts = c).map Dtr.order = List.range' o (s.list.filter fun d => cls d.parts = c).length
  gid  : ∀ g ∈ s.groups, g.id < s.next ∧ (∀ d ∈ g.list, d.group = g.id) ∧ g.list.Pairwise (fun a b => a.order < b.order) ∧
    (∀ d ∈ g.list, g.next < d.order) ∧ ∀ d ∈ s.list, d ∉ b → d.group = g.id → g.next ≤ d.order
  pre  : ∀ c, (b.filter fun d => cls d.parts = c) <+: (s.list.filter fun d => cls d.parts = c)
  all  : ∀ c, (s.log.filter fun i => cls (s.subs.getD i []) = c) ++ (s.list.filter fun d => cls d.parts = c).map Dtr.id =
    (List.range s.subs.length).filter fun i => cls (s.subs.getD i []) = c

variable {cls : List Nat → Nat}

/-- transactions of one class have different orders -/
theorem Cls.orders {b : List Dtr} {s : Ex} (C : Cls cls b s) {d e : Dtr} (hd : d ∈ s.list) (he : e ∈ s.list) (hc : cls d.parts = cls e.parts)
    (ho : d.order = e.order) : d = e := by
  obtain ⟨o, h⟩ := C.cons (cls e.parts)
  have hnd : ((s.list.filter fun x => cls x.parts = cls e.parts).map Dtr.order).Nodup := by rw [h]; exact List.nodup_range'
  have h1 : d ∈ s.list.filter fun x => cls x.parts = cls e.parts := List.mem_filter.2 ⟨hd, by simp [hc]⟩
  have h2 : e ∈ s.list.filter fun x => cls x.parts = cls e.parts := List.mem_filter.2 ⟨he, by simp⟩
  generalize (s.list.filter fun x => cls x.parts = cls e.parts) = L at hnd h1 h2
  obtain ⟨i, hi, rfl⟩ := List.mem_iff_getElem.1 h1
  obtain ⟨j, hj, rfl⟩ := List.mem_iff_getElem.1 h2
  rw [List.Nodup, List.pairwise_map, List.pairwise_iff_getElem] at hnd
  rcases Nat.lt_trichotomy i j with hij | hij | hij
  · exact absurd ho (hnd i j hi hj hij)
  · subst hij; rfl
  · exact absurd ho.symm (hnd j i hj hi hij)

theorem receive_cls {b : List Dtr} {s : Ex} (C : Cls cls b s) (id : Nat) : Cls cls (receive (b, s) id).1 (receive (b, s) id).2 := by
  have B' := receive_base C.base id
  unfold receive at B' ⊢
  split
  · exact C
  · rename_i d hd
    rw [hd] at B'
    simp only at B' hd
    split
    · exact C
    · rename_i hs
      rw [if_neg hs] at B'
      simp only at B' hs ⊢
      have hdl : d ∈ s.list := List.mem_of_find?_eq_some hd
      have hid : d.id = id := by simpa using List.find?_some hd
      have hnew : d ∉ b ++ queued s.groups := fun h => hs (hid ▸ (C.base.qin d h).2)
      have hdb : d ∉ b := fun h => hnew (List.mem_append_left _ h)
      obtain ⟨pre, g, post, q1, q2, q3, q4, q5⟩ := queueAdd_spec s.groups d
      -- facts about the group before
      have hg : g.id < s.next ∧ (∀ x ∈ g.list, x.group = g.id) ∧ g.list.Pairwise (fun a b => a.order < b.order) ∧
          (∀ x ∈ g.list, g.next < x.order) ∧ (∀ x ∈ s.list, x ∉ b → x.group = g.id → g.next ≤ x.order) ∧ (∀ x ∈ g.list, x ∈ queued s.groups) := by
        rcases q5 with q5 | ⟨_, _, q7⟩
        · obtain ⟨a1, a2, a3, a4, a5⟩ := C.gid g (by rw [q5]; simp)
          refine ⟨a1, a2, a3, a4, a5, ?_⟩
          intro x hx
          rw [q5, queued_append, queued_cons]; simp [hx]
        · subst q7
          exact ⟨C.fresh d hdl, by simp, List.Pairwise.nil, by simp, fun x _ _ _ => Nat.zero_le _, by simp⟩
      obtain ⟨g1, g2, g3, g4, g5, g6⟩ := hg
      have hgl : ∀ x ∈ g.list, x ∈ s.list ∧ x ∉ b ∧ cls x.parts = cls d.parts := by
        intro x hx
        have hq := g6 x hx
        have hl := (C.base.qin x (List.mem_append_right _ hq)).1
        refine ⟨hl, fun hb => (List.nodup_append.1 C.base.qd).2.2 x hb x hq rfl, ?_⟩
        exact (C.same x hl d hdl).1 (by rw [g2 x hx, q3])
      obtain ⟨p1, p2, p3, p4, p5, p6⟩ := add_spec (d := d) g3
        (by intro x hx h
            have := C.orders (hgl x hx).1 hdl (hgl x hx).2.2 h
            subst this
            exact hnew (List.mem_append_right _ (g6 x hx)))
        (fun x hx => Nat.le_of_lt (g4 x hx)) (g5 d hdl hdb q3.symm)
      -- what is popped
      have hpop : ∀ x ∈ (g.add d).1 ++ (g.add d).2.list, x ∈ s.list ∧ x ∉ b ∧ cls x.parts = cls d.parts := by
        intro x hx
        rcases List.mem_cons.1 (p1.mem_iff.1 hx) with rfl | h
        · exact ⟨hdl, hdb, rfl⟩
        · exact hgl x h
      -- the class as a chain
      obtain ⟨rest, hrest⟩ := C.pre (cls d.parts)
      obtain ⟨o, ho⟩ := C.cons (cls d.parts)
      have hnd : (s.list.filter fun x => cls x.parts = cls d.parts).Nodup := C.base.lnodup.sublist List.filter_sublist
      have hro : rest.map Dtr.order = List.range' (o + (b.filter fun x => cls x.parts = cls d.parts).length) rest.length := by
        rw [← hrest, List.map_append, List.length_append, ← List.range'_append_1] at ho
        exact (List.append_inj ho (by simp)).2
      have hmem : ∀ x, x ∈ s.list → x ∉ b → cls x.parts = cls d.parts → x ∈ rest := by
        intro x h1 h2 h3
        have : x ∈ s.list.filter fun x => cls x.parts = cls d.parts := List.mem_filter.2 ⟨h1, by simp [h3]⟩
        rw [← hrest] at this
        rcases List.mem_append.1 this with h | h
        · exact absurd (List.mem_filter.1 h).1 h2
        · exact h
      have hrl : ∀ x ∈ rest, x ∈ s.list ∧ cls x.parts = cls d.parts ∧ x ∉ b := by
        intro x hx
        have : x ∈ s.list.filter fun x => cls x.parts = cls d.parts := by rw [← hrest]; exact List.mem_append_right _ hx
        have hm := List.mem_filter.1 this
        refine ⟨hm.1, by simpa using hm.2, ?_⟩
        intro hb
        rw [← hrest] at hnd
        exact (List.nodup_append.1 hnd).2.2 x (List.mem_filter.2 ⟨hb, hm.2⟩) x hx rfl
      have hpr : (g.add d).1 <+: rest := by
        cases hb : (g.add d).1 with
        | nil => exact List.nil_prefix
        | cons x l =>
          have hx : x ∈ rest := hmem x (hpop x (by rw [hb]; simp)).1 (hpop x (by rw [hb]; simp)).2.1 (hpop x (by rw [hb]; simp)).2.2
          have hxo : x.order = g.next := by
            rw [hb, List.map_cons, List.length_cons, List.range'_succ] at p2
            exact (List.cons.inj p2).1
          cases hr : rest with
          | nil => rw [hr] at hx; simp at hx
          | cons y r =>
            have hyo : y.order = o + (b.filter fun x => cls x.parts = cls d.parts).length := by
              rw [hr, List.map_cons, List.length_cons, List.range'_succ] at hro
              exact (List.cons.inj hro).1
            have hge : g.next ≤ y.order := by
              obtain ⟨y1, y2, y3⟩ := hrl y (by rw [hr]; simp)
              refine g5 y y1 y3 ?_
              rw [q3]; exact (C.same y y1 d hdl).2 y2
            have hle : o + (b.filter fun x => cls x.parts = cls d.parts).length ≤ x.order := by
              have : x.order ∈ rest.map Dtr.order := List.mem_map_of_mem hx
              rw [hro, List.mem_range'_1] at this
              exact this.1
            have hstart : g.next = o + (b.filter fun x => cls x.parts = cls d.parts).length := by omega
            rw [← hb, ← hr]
            refine prefix_of_orders Dtr.order _ _ g.next (g.add d).1.length rest.length (hstart ▸ hro) p2 ?_
            intro z hz
            obtain ⟨z1, z2, z3⟩ := hpop z (List.mem_append_left _ hz)
            exact hmem z z1 z2 z3
      rw [q1, q2] at B'
      rw [q1, q2]
      refine ⟨B', C.same, C.fresh, C.cons, ?_, ?_, C.all⟩
      · have old : ∀ x ∈ s.groups, x.id < s.next ∧ (∀ y ∈ x.list, y.group = x.id) ∧ x.list.Pairwise (fun a b => a.order < b.order) ∧
            (∀ y ∈ x.list, x.next < y.order) ∧ ∀ y ∈ s.list, y ∉ b ++ (g.add d).1 → y.group = x.id → x.next ≤ y.order := by
          intro x hx
          obtain ⟨a1, a2, a3, a4, a5⟩ := C.gid x hx
          exact ⟨a1, a2, a3, a4, fun y hy hyb => a5 y hy (fun h => hyb (List.mem_append_left _ h))⟩
        intro x hx
        rcases List.mem_append.1 hx with h | h
        · refine old x ?_
          rcases q5 with q5 | ⟨q5, _, _⟩
          · rw [q5]; exact List.mem_append_left _ h
          · rw [q5]; exact h
        · rcases List.mem_cons.1 h with rfl | h
          · refine ⟨by rw [p4]; exact g1, ?_, p5, p6, ?_⟩
            · intro y hy
              obtain ⟨y1, y2, y3⟩ := hpop y (List.mem_append_right _ hy)
              rw [p4, q3]; exact (C.same y y1 d hdl).2 y3
            · intro y hy hyb hyg
              rw [p4, q3] at hyg
              have hyc := (C.same y hy d hdl).1 hyg
              have hyr : y ∈ rest := hmem y hy (fun hb => hyb (List.mem_append_left _ hb)) hyc
              obtain ⟨t, ht⟩ := hpr
              rw [← ht] at hyr
              rcases List.mem_append.1 hyr with h' | h'
              · exact absurd (List.mem_append_right _ h') hyb
              · -- y comes after what was popped
                rw [p3]
                have hge := g5 y hy (fun hb => hyb (List.mem_append_left _ hb)) (by rw [hyg, q3])
                cases hl : (g.add d).1.length with
                | zero => omega
                | succ n =>
                  have e1 : rest.map Dtr.order = (g.add d).1.map Dtr.order ++ t.map Dtr.order := by rw [← ht, List.map_append]
                  rw [p2, hro, ← ht, List.length_append, ← List.range'_append_1] at e1
                  obtain ⟨e2, e3⟩ := List.append_inj e1 (by simp)
                  have hnext : o + (b.filter fun x => cls x.parts = cls d.parts).length = g.next := by
                    rw [hl, List.range'_succ, List.range'_succ] at e2
                    exact (List.cons.inj e2).1
                  have hy' : y.order ∈ t.map Dtr.order := List.mem_map_of_mem h'
                  rw [← e3, List.mem_range'_1] at hy'
                  omega
          · refine old x ?_
            rcases q5 with q5 | ⟨_, q6, _⟩
            · rw [q5]; simp [h]
            · subst q6; simp at h
      · intro c
        rw [List.filter_append]
        by_cases hc : c = cls d.parts
        · subst hc
          have : (g.add d).1.filter (fun x => cls x.parts = cls d.parts) = (g.add d).1 := by
            rw [List.filter_eq_self]
            intro x hx
            simp [(hpop x (List.mem_append_left _ hx)).2.2]
          rw [this, ← hrest]
          exact (List.prefix_append_right_inj _).2 hpr
        · have : (g.add d).1.filter (fun x => cls x.parts = c) = [] := by
            rw [List.filter_eq_nil_iff]
            intro x hx
            simp only [decide_eq_true_eq]
            intro h
            exact hc (h.symm.trans (hpop x (List.mem_append_left _ hx)).2.2)
          rw [this, List.append_nil]
          exact C.pre c

theorem fold_cls : ∀ (ids : List Nat) (b : List Dtr) (s : Ex), Cls cls b s → Cls cls (ids.foldl receive (b, s)).1 (ids.foldl receive (b, s)).2 := by
  intro ids
  induction ids with
  | nil => intro b s C; exact C
  | cons i ids ih =>
    intro b s C
    rw [List.foldl_cons]
    exact ih _ _ (receive_cls C i)

/-- what is left of a class -/
theorem Cls.left {b : List Dtr} {s : Ex} (C : Cls cls b s) (c : Nat) :
    s.list.filter (fun d => cls d.parts = c) = b.filter (fun d => cls d.parts = c) ++ (s.list.filter (fun d => ¬ d ∈ b)).filter (fun d => cls d.parts = c) := by
  obtain ⟨r, hr⟩ := C.pre c
  have hnd : (s.list.filter fun x => cls x.parts = c).Nodup := C.base.lnodup.sublist List.filter_sublist
  have h1 := filter_not_prefix hr.symm hnd
  rw [← hr]
  congr 1
  rw [← h1, List.filter_filter, List.filter_filter]
  refine List.filter_congr ?_
  intro x hx
  by_cases hc : cls x.parts = c
  · simp [hc, List.mem_filter]
  · simp [hc]

theorem finish_cls {b : List Dtr} {s : Ex} (C : Cls cls b s) : Cls cls [] (finish (b, s)) := by
  have B' := finish_base C.base
  unfold finish at B' ⊢
  split
  · rename_i h
    simp only [List.isEmpty_iff] at h
    subst h; exact C
  · rename_i h
    rw [if_neg h] at B'
    simp only at B' ⊢
    have hsub := gc_sub s.groups (groupMin (s.list.filter (fun d => ¬ d ∈ b)))
    refine ⟨B', ?_, ?_, ?_, ?_, fun c => List.nil_prefix, ?_⟩
    · intro d hd e he; exact C.same d (List.mem_filter.1 hd).1 e (List.mem_filter.1 he).1
    · intro d hd; exact C.fresh d (List.mem_filter.1 hd).1
    · intro c
      obtain ⟨o, ho⟩ := C.cons c
      rw [C.left c, List.map_append, List.length_append, ← List.range'_append_1] at ho
      exact ⟨_, (List.append_inj ho (by simp)).2⟩
    · intro g hg
      obtain ⟨a1, a2, a3, a4, a5⟩ := C.gid g (hsub.mem hg)
      refine ⟨a1, a2, a3, a4, ?_⟩
      intro d hd _ hdg
      have hm := List.mem_filter.1 hd
      exact a5 d hm.1 (by simpa using hm.2) hdg
    · intro c
      rw [← C.all c, C.left c, List.filter_append, List.map_append, List.append_assoc]
      congr 2
      rw [List.filter_map]
      refine congrArg _ (List.filter_congr ?_)
      intro x hx
      simp only [Function.comp_apply]
      rw [(C.base.lt x (C.base.qin x (List.mem_append_left _ hx)).1).2]

/-- the transaction found when a transaction is registered is the last one of its class -/
def Found (cls : List Nat → Nat) (s : Ex) (parts : List Nat) : Prop :=
  (s.list.reverse.find? fun r => overlaps r.parts parts) = s.list.reverse.find? fun r => decide (cls r.parts = cls parts)

theorem find_last {p : Dtr → Bool} (l : List Dtr) : l.reverse.find? p = (l.filter p).getLast? := by
  rw [← List.head?_filter, List.filter_reverse, List.head?_reverse]

theorem attach_cls {s : Ex} (C : Cls cls [] s) (parts : List Nat) (hf : Found cls s parts) : Cls cls [] (attach s parts) := by
  have B' := attach_base C.base parts
  unfold attach at B' ⊢
  rw [hf, find_last] at B' ⊢
  have hall : ∀ (c : Nat) (L : List Dtr), (L.filter fun d => cls d.parts = c).map Dtr.id =
      (s.list.filter fun d => cls d.parts = c).map Dtr.id ++ (if cls parts = c then [s.subs.length] else []) →
      (s.log.filter fun i => cls ((s.subs ++ [parts]).getD i []) = c) ++ (L.filter fun d => cls d.parts = c).map Dtr.id =
      (List.range (s.subs ++ [parts]).length).filter fun i => cls ((s.subs ++ [parts]).getD i []) = c := by
    intro c L hL
    have e : ∀ i, i < s.subs.length → (s.subs ++ [parts]).getD i [] = s.subs.getD i [] := by
      intro i hi
      rw [List.getD_eq_getElem?_getD, List.getElem?_append_left hi, ← List.getD_eq_getElem?_getD]
    have e2 : (s.subs ++ [parts]).getD s.subs.length [] = parts := by simp [List.getD_eq_getElem?_getD]
    have e3 : (s.log.filter fun i => cls ((s.subs ++ [parts]).getD i []) = c) = s.log.filter fun i => cls (s.subs.getD i []) = c := by
      refine List.filter_congr ?_
      intro i hi
      rw [e i (C.base.logd i hi).2.1]
    have e4 : ((List.range s.subs.length).filter fun i => cls ((s.subs ++ [parts]).getD i []) = c) =
        (List.range s.subs.length).filter fun i => cls (s.subs.getD i []) = c := by
      refine List.filter_congr ?_
      intro i hi
      rw [e i (List.mem_range.1 hi)]
    rw [hL, e3, List.length_append, List.length_singleton, List.range_succ, List.filter_append, e4, ← C.all c, List.append_assoc]
    congr 2
    by_cases hc : cls parts = c
    · simp [hc, e2]
    · simp [hc, e2]
  cases hl : (s.list.filter fun r => cls r.parts = cls parts).getLast? with
  | none =>
    rw [hl] at B'
    simp only at B' ⊢
    have hnil : (s.list.filter fun r => cls r.parts = cls parts) = [] := List.getLast?_eq_none_iff.1 hl
    have hno : ∀ d ∈ s.list, cls d.parts ≠ cls parts := by
      intro d hd h
      have := List.filter_eq_nil_iff.1 hnil d hd
      simp [h] at this
    refine ⟨B', ?_, ?_, ?_, ?_, fun c => List.nil_prefix, ?_⟩
    · intro d hd e he
      rcases List.mem_append.1 hd with h1 | h1 <;> rcases List.mem_append.1 he with h2 | h2
      · exact C.same d h1 e h2
      · simp only [List.mem_singleton] at h2; subst h2
        refine ⟨fun h => ?_, fun h => absurd h (hno d h1)⟩
        have := C.fresh d h1; simp only at h; omega
      · simp only [List.mem_singleton] at h1; subst h1
        refine ⟨fun h => ?_, fun h => absurd h.symm (hno e h2)⟩
        have := C.fresh e h2; simp only at h; omega
      · simp only [List.mem_singleton] at h1 h2; subst h1; subst h2; simp
    · intro d hd
      rcases List.mem_append.1 hd with h | h
      · have := C.fresh d h; show _ < s.next + 1; omega
      · simp only [List.mem_singleton] at h; subst h; show _ < s.next + 1; simp
    · intro c
      by_cases hc : cls parts = c
      · subst hc
        refine ⟨0, ?_⟩
        rw [List.filter_append, hnil]; simp
      · obtain ⟨o, ho⟩ := C.cons c
        refine ⟨o, ?_⟩
        rw [List.filter_append]; simp [hc, ho]
    · intro g hg
      obtain ⟨a1, a2, a3, a4, a5⟩ := C.gid g hg
      refine ⟨by show _ < s.next + 1; omega, a2, a3, a4, ?_⟩
      intro d hd hdb hdg
      rcases List.mem_append.1 hd with h | h
      · exact a5 d h hdb hdg
      · simp only [List.mem_singleton] at h; subst h; simp only at hdg; omega
    · intro c
      refine hall c _ ?_
      rw [List.filter_append, List.map_append]
      congr 1
      by_cases hc : cls parts = c <;> simp [hc]
  | some r =>
    rw [hl] at B'
    simp only at B' ⊢
    have hr : r ∈ s.list.filter fun r => cls r.parts = cls parts := List.mem_of_getLast? hl
    have hrl := (List.mem_filter.1 hr).1
    have hrc : cls r.parts = cls parts := by simpa using (List.mem_filter.1 hr).2
    refine ⟨B', ?_, ?_, ?_, ?_, fun c => List.nil_prefix, ?_⟩
    · intro d hd e he
      rcases List.mem_append.1 hd with h1 | h1 <;> rcases List.mem_append.1 he with h2 | h2
      · exact C.same d h1 e h2
      · simp only [List.mem_singleton] at h2; subst h2
        rw [← hrc]; exact C.same d h1 r hrl
      · simp only [List.mem_singleton] at h1; subst h1
        rw [← hrc]; exact C.same r hrl e h2
      · simp only [List.mem_singleton] at h1 h2; subst h1; subst h2; simp
    · intro d hd
      rcases List.mem_append.1 hd with h | h
      · exact C.fresh d h
      · simp only [List.mem_singleton] at h; subst h; exact C.fresh r hrl
    · intro c
      obtain ⟨o, ho⟩ := C.cons c
      refine ⟨o, ?_⟩
      by_cases hc : cls parts = c
      · subst hc
        have hro : r.order + 1 = o + (s.list.filter fun r => cls r.parts = cls parts).length := by
          have hne : (s.list.filter fun r => cls r.parts = cls parts) ≠ [] := fun h => by rw [h] at hr; simp at hr
          have h1 : ((s.list.filter fun r => cls r.parts = cls parts).map Dtr.order).getLast? = some r.order := by
            rw [List.getLast?_map, hl]; rfl
          rw [ho, List.getLast?_range'] at h1
          have hlen : 0 < (s.list.filter fun r => cls r.parts = cls parts).length := List.length_pos_iff.2 hne
          rw [if_neg (by omega)] at h1
          simp only [Option.some.injEq] at h1
          omega
        rw [List.filter_append, List.map_append, List.length_append, ho]
        simp only [decide_true, List.filter_cons_of_pos, List.filter_nil, List.map_cons, List.map_nil, List.length_singleton]
        rw [hro, ← List.range'_1_concat]
      · rw [List.filter_append]; simp [hc, ho]
    · intro g hg
      obtain ⟨a1, a2, a3, a4, a5⟩ := C.gid g hg
      refine ⟨a1, a2, a3, a4, ?_⟩
      intro d hd hdb hdg
      rcases List.mem_append.1 hd with h | h
      · exact a5 d h hdb hdg
      · simp only [List.mem_singleton] at h; subst h
        have := a5 r hrl (by simp) hdg
        show _ ≤ r.order + 1; omega
    · intro c
      refine hall c _ ?_
      rw [List.filter_append, List.map_append]
      congr 1
      by_cases hc : cls parts = c <;> simp [hc]

theorem init_cls : Cls cls [] Ex.init := by
  refine ⟨init_base, by simp [Ex.init], by simp [Ex.init], fun c => ⟨0, by simp [Ex.init]⟩, by simp [Ex.init], fun c => List.nil_prefix, by simp [Ex.init]⟩

end Verif.Exec
