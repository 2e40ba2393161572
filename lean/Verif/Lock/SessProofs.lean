import Verif.Lock.Proofs
/-! # Proofs: sessions that take locks in order finish -/
set_option linter.unusedSimpArgs false
set_option linter.unusedVariables false
namespace Verif.Lock

structure SInv (order : Nat → Nat) (t : Sess) : Prop where
  inv     : Inv t.sys
  blocked : ∀ r, Blocked t.sys r
  ord     : OrdInv order t.sys
  refs    : ∀ l ∈ t.sys.locks, l.refs = 1
  asc     : ∀ c, (t.prog c).Pairwise fun a b => order a.rel < order b.rel
  above   : ∀ l ∈ t.sys.locks, ∀ c, l.owner = some c → ∀ a ∈ t.prog c, order l.rel < order a.rel

theorem not_waits {s : Sys} {c : Nat} (h : ¬ s.waits c) : ∀ l ∈ s.locks, l.owner = some c → l.waiting = false := by
  intro l hl ho
  cases hw : l.waiting with
  | false => rfl
  | true => exact absurd ⟨l, hl, ho, hw⟩ h

/-- the locks after a wake up are the same, except for the waiting flags -/
theorem wake_locks (r : Nat) (n : Nat) (t : Sys) : (t.wake r n).locks.map (fun l => (l.id, l.owner, l.rel, l.refs)) =
    t.locks.map (fun l => (l.id, l.owner, l.rel, l.refs)) := by
  induction n generalizing t with
  | zero => rfl
  | succ n ih =>
    rw [Sys.wake]
    split
    · rfl
    · rename_i id m rest hq
      split
      · rw [ih]
        simp only [Sys.grant, List.map_map]
        apply List.map_congr_left
        intro l _
        simp only [Function.comp]
        split <;> rfl
      · rfl

theorem mem_wake {r n : Nat} {t : Sys} {l : LockRec} (h : l ∈ (t.wake r n).locks) :
    ∃ x ∈ t.locks, x.id = l.id ∧ x.owner = l.owner ∧ x.rel = l.rel ∧ x.refs = l.refs := by
  have h1 := List.mem_map_of_mem (f := fun l : LockRec => (l.id, l.owner, l.rel, l.refs)) h
  rw [wake_locks] at h1
  obtain ⟨x, hx, e⟩ := List.mem_map.1 h1
  simp only [Prod.mk.injEq] at e
  exact ⟨x, hx, e⟩

theorem lock_new {order : Nat → Nat} {t : Sess} (h : SInv order t) {c : Nat} {a : Acc} {as : List Acc} (hp : t.prog c = a :: as) :
    t.sys.lock c a.rel a.mode = t.sys.lockOf (some c) a.rel a.mode := by
  unfold Sys.lock
  have : t.sys.locks.find? (fun l => decide (l.owner = some c) && decide (l.rel = a.rel) && decide (l.mode = a.mode)) = none := by
    rw [List.find?_eq_none]
    intro l hl hh
    simp only [Bool.and_eq_true, decide_eq_true_eq] at hh
    have := h.above l hl c hh.1.1 a (by rw [hp]; simp)
    rw [hh.1.2] at this
    omega
  rw [this]

theorem lockOf_locks (s : Sys) (o : Option Nat) (r : Nat) (m : Mode) : ∃ w,
    (s.lockOf o r m).locks = s.locks ++ [⟨s.next, o, r, m, if o.isSome then 1 else 0, w⟩] := by
  unfold Sys.lockOf
  simp only
  cases hp : ((decide ((s.wait r).length = 0)) && resolve (s.set r) m) with
  | true => exact ⟨false, rfl⟩
  | false => exact ⟨true, rfl⟩

theorem unlock_release {order : Nat → Nat} {t : Sess} (h : SInv order t) {l : LockRec} (hl : l ∈ t.sys.locks) :
    t.sys.unlock l.id = t.sys.release l := by
  unfold Sys.unlock
  rw [find_id h.inv hl]
  simp only
  rw [if_neg]
  rw [h.refs l hl]
  simp

theorem sinv_step {order : Nat → Nat} {t t' : Sess} (h : SInv order t) (hs : Sess.Step t t') : SInv order t' := by
  cases hs with
  | next c hw hp =>
    rename_i a as
    have hasc := h.asc c
    rw [hp, List.pairwise_cons] at hasc
    have hlt : ∀ l ∈ t.sys.locks, l.owner = some c → order l.rel < order a.rel :=
      fun l hl ho => h.above l hl c ho a (by rw [hp]; simp)
    have hok : t.sys.ok (.lock c a.rel a.mode) := not_waits hw
    obtain ⟨g1, g2, _⟩ := step_ok h.inv h.blocked (.lock c a.rel a.mode) hok
    have g3 := ordInv_step h.inv h.blocked h.ord (.lock c a.rel a.mode) hok (Or.inr hlt)
    simp only [Sys.step] at g1 g2 g3
    obtain ⟨w, hlocks⟩ := lockOf_locks t.sys (some c) a.rel a.mode
    refine ⟨g1, g2, g3, ?_, ?_, ?_⟩
    · intro l hl
      simp only at hl
      rw [lock_new h hp, hlocks] at hl
      simp only [List.mem_append, List.mem_singleton] at hl
      rcases hl with hl | hl
      · exact h.refs l hl
      · rw [hl]; rfl
    · intro x
      simp only
      by_cases hx : x = c
      · rw [if_pos hx]; exact hasc.2
      · rw [if_neg hx]; exact h.asc x
    · intro l hl x ho b hb
      simp only at hl hb
      rw [lock_new h hp, hlocks] at hl
      simp only [List.mem_append, List.mem_singleton] at hl
      rcases hl with hl | hl
      · by_cases hx : x = c
        · rw [if_pos hx] at hb
          subst hx
          exact h.above l hl x ho b (by rw [hp]; exact List.mem_cons_of_mem _ hb)
        · rw [if_neg hx] at hb
          exact h.above l hl x ho b hb
      · rw [hl] at ho ⊢
        simp only [Option.some.injEq] at ho
        rw [if_pos ho.symm] at hb
        exact hasc.1 b hb
  | done c hw hp hl ho =>
    rename_i l
    have hok : t.sys.ok (.unlock l.id) := ⟨l, hl, rfl, not_waits hw l hl ho⟩
    obtain ⟨g1, g2, _⟩ := step_ok h.inv h.blocked (.unlock l.id) hok
    have g3 := ordInv_step h.inv h.blocked h.ord (.unlock l.id) hok trivial
    simp only [Sys.step] at g1 g2 g3
    have hold : ∀ x ∈ (t.sys.unlock l.id).locks, ∃ y ∈ t.sys.locks, y.owner = x.owner ∧ y.rel = x.rel ∧ y.refs = x.refs := by
      intro x hx
      rw [unlock_release h hl] at hx
      obtain ⟨y, hy, _, y1, y2, y3⟩ := mem_wake hx
      simp only [List.mem_filter] at hy
      exact ⟨y, hy.1, y1, y2, y3⟩
    refine ⟨g1, g2, g3, ?_, h.asc, ?_⟩
    · intro x hx
      obtain ⟨y, hy, _, _, y3⟩ := hold x hx
      rw [← y3]; exact h.refs y hy
    · intro x hx d hd b hb
      obtain ⟨y, hy, y1, y2, _⟩ := hold x hx
      rw [← y2]; exact h.above y hy d (by rw [y1, hd]) b hb

def work (cs : List Nat) (prog : Nat → List Acc) : Nat := (cs.map fun c => (prog c).length).sum

theorem work_upd {cs : List Nat} (hn : cs.Nodup) {prog : Nat → List Acc} {c : Nat} (hc : c ∈ cs) {a : Acc} {as : List Acc}
    (hp : prog c = a :: as) : work cs (fun x => if x = c then as else prog x) + 1 = work cs prog := by
  unfold work
  induction cs with
  | nil => simp at hc
  | cons x xs ih =>
    rw [List.nodup_cons] at hn
    simp only [List.map_cons, List.sum_cons]
    rcases List.mem_cons.1 hc with e | hc
    · subst e
      rw [if_pos rfl, hp]
      have : (xs.map fun y => (if y = c then as else prog y).length) = xs.map fun y => (prog y).length := by
        apply List.map_congr_left
        intro y hy
        rw [if_neg (by rintro rfl; exact hn.1 hy)]
      rw [this]
      simp only [List.length_cons]
      omega
    · rw [if_neg (by rintro rfl; exact hn.1 hc)]
      have := ih hn.2 hc
      simp only at this
      omega

theorem step_work {order : Nat → Nat} {t t' : Sess} {cs : List Nat} (hn : cs.Nodup) (h : SInv order t)
    (hcs : ∀ c, c ∉ cs → t.prog c = []) (hs : Sess.Step t t') :
    2 * work cs t'.prog + t'.sys.locks.length + 1 = 2 * work cs t.prog + t.sys.locks.length ∧ ∀ c, c ∉ cs → t'.prog c = [] := by
  cases hs with
  | next c hw hp =>
    rename_i a as
    have hc : c ∈ cs := Classical.byContradiction fun hh => by rw [hcs c hh] at hp; simp at hp
    have h1 := work_upd hn hc hp
    obtain ⟨w, hlocks⟩ := lockOf_locks t.sys (some c) a.rel a.mode
    refine ⟨?_, ?_⟩
    · simp only
      rw [lock_new h hp, hlocks]
      simp only [List.length_append, List.length_singleton]
      omega
    · intro x hx
      simp only
      rw [if_neg (by rintro rfl; exact hx hc)]
      exact hcs x hx
  | done c hw hp hl ho =>
    rename_i l
    refine ⟨?_, hcs⟩
    simp only
    rw [unlock_release h hl]
    have hlen : ∀ n (s : Sys), (s.wake l.rel n).locks.length = s.locks.length := by
      intro n s
      have := congrArg List.length (wake_locks l.rel n s)
      simpa using this
    unfold Sys.release
    simp only
    rw [hlen]
    simp only
    obtain ⟨L1, L2, e1⟩ := List.append_of_mem hl
    have hso := h.inv.sorted
    rw [e1] at hso
    have := filter_id hso
    rw [e1, this]
    simp only [List.length_append, List.length_cons]
    omega

theorem steps_ok {order : Nat → Nat} {t t' : Sess} {n : Nat} {cs : List Nat} (hn : cs.Nodup) (hs : Sess.Steps t n t')
    (h : SInv order t) (hcs : ∀ c, c ∉ cs → t.prog c = []) :
    SInv order t' ∧ (∀ c, c ∉ cs → t'.prog c = []) ∧
      n + (2 * work cs t'.prog + t'.sys.locks.length) = 2 * work cs t.prog + t.sys.locks.length := by
  induction hs with
  | nil t => exact ⟨h, hcs, by omega⟩
  | cons s1 _ ih =>
    obtain ⟨w1, w2⟩ := step_work hn h hcs s1
    obtain ⟨g1, g2, g3⟩ := ih (sinv_step h s1) w2
    exact ⟨g1, g2, by omega⟩

theorem can_step {order : Nat → Nat} {t : Sess} (h : SInv order t) (hleft : (∃ c, t.prog c ≠ []) ∨ t.sys.locks ≠ []) :
    ∃ t', Sess.Step t t' := by
  have go : ∀ d, ¬ t.sys.waits d → (∃ a ∈ t.sys.locks, a.owner = some d) ∨ t.prog d ≠ [] → ∃ t', Sess.Step t t' := by
    intro d hd hx
    cases hp : t.prog d with
    | nil =>
      rcases hx with ⟨a, ha, hao⟩ | hx
      · exact ⟨_, Sess.Step.done d hd hp ha hao⟩
      · exact absurd hp hx
    | cons a as => exact ⟨_, Sess.Step.next d hd hp⟩
  have wt : ∀ d, t.sys.waits d → ∃ t', Sess.Step t t' := by
    intro d ⟨l, hl, ho, hw⟩
    obtain ⟨e, _, e2, e3⟩ := someone_runs h.inv h.blocked h.ord hl ho hw
    refine go e ?_ (Or.inl e2)
    intro ⟨k, hk, hko, hkw⟩
    rw [e3 k hk hko] at hkw
    simp at hkw
  have any : ∀ d, (∃ a ∈ t.sys.locks, a.owner = some d) ∨ t.prog d ≠ [] → ∃ t', Sess.Step t t' := by
    intro d hx
    by_cases hd : t.sys.waits d
    · exact wt d hd
    · exact go d hd hx
  rcases hleft with ⟨c, hc⟩ | hl
  · exact any c (Or.inr hc)
  · cases hls : t.sys.locks with
    | nil => exact absurd hls hl
    | cons l ls =>
      have hm : l ∈ t.sys.locks := by rw [hls]; simp
      have := h.ord.owned l hm
      cases ho : l.owner with
      | none => rw [ho] at this; simp at this
      | some d => exact any d (Or.inl ⟨l, hm, ho⟩)

theorem sinv_init {order : Nat → Nat} {prog : Nat → List Acc} (h : ∀ c, (prog c).Pairwise fun a b => order a.rel < order b.rel) :
    SInv order ⟨Sys.init, prog⟩ :=
  ⟨inv_init, blocked_init, ordInv_init order, by simp [Sys.init], h, by simp [Sys.init]⟩

/-! ## Access lists -/

theorem add_rels (l : List Acc) (r : Nat) (m : Mode) (x : Nat) :
    x ∈ (accessAdd l r m).map Acc.rel ↔ x ∈ l.map Acc.rel ∨ x = r := by
  induction l with
  | nil => simp [accessAdd]
  | cons a as ih =>
    rw [accessAdd]
    by_cases h : a.rel = r
    · rw [if_pos h]
      have : (if a.mode.rank < m.rank then (⟨r, m⟩ : Acc) else a).rel = r := by split <;> simp [h]
      simp only [List.map_cons, List.mem_cons, this, h]
      constructor
      · rintro (h1 | h1)
        · exact Or.inr h1
        · exact Or.inl (Or.inr h1)
      · rintro ((h1 | h1) | h1)
        · exact Or.inl h1
        · exact Or.inr h1
        · exact Or.inl h1
    · rw [if_neg h]
      simp only [List.map_cons, List.mem_cons, ih]
      constructor
      · rintro (h1 | h1 | h1)
        · exact Or.inl (Or.inl h1)
        · exact Or.inl (Or.inr h1)
        · exact Or.inr h1
      · rintro ((h1 | h1) | h1)
        · exact Or.inl h1
        · exact Or.inr (Or.inl h1)
        · exact Or.inr (Or.inr h1)

theorem add_nodup {l : List Acc} (h : (l.map Acc.rel).Nodup) (r : Nat) (m : Mode) : ((accessAdd l r m).map Acc.rel).Nodup := by
  induction l with
  | nil => simp [accessAdd]
  | cons a as ih =>
    rw [List.map_cons, List.nodup_cons] at h
    rw [accessAdd]
    by_cases h1 : a.rel = r
    · rw [if_pos h1]
      have : (if a.mode.rank < m.rank then (⟨r, m⟩ : Acc) else a).rel = a.rel := by split <;> simp [h1]
      rw [List.map_cons, List.nodup_cons, this]
      exact h
    · rw [if_neg h1, List.map_cons, List.nodup_cons, add_rels]
      exact ⟨by rintro (h2 | h2); exact h.1 h2; exact h1 h2, ih h.2⟩

theorem foldl_nodup (reqs : List Acc) : ∀ l : List Acc, (l.map Acc.rel).Nodup →
    ((reqs.foldl (fun l a => accessAdd l a.rel a.mode) l).map Acc.rel).Nodup := by
  induction reqs with
  | nil => intro l h; exact h
  | cons a as ih => intro l h; exact ih _ (add_nodup h _ _)

theorem collect_nodup (reqs : List Acc) : ((collect reqs).map Acc.rel).Nodup := foldl_nodup reqs [] (by simp)

theorem foldl_rels (reqs : List Acc) (x : Nat) : ∀ l : List Acc,
    x ∈ (reqs.foldl (fun l a => accessAdd l a.rel a.mode) l).map Acc.rel ↔ x ∈ l.map Acc.rel ∨ x ∈ reqs.map Acc.rel := by
  induction reqs with
  | nil => simp
  | cons a as ih =>
    intro l
    rw [List.foldl_cons, ih, add_rels, List.map_cons, List.mem_cons]
    constructor
    · rintro ((h | h) | h)
      · exact Or.inl h
      · exact Or.inr (Or.inl h)
      · exact Or.inr (Or.inr h)
    · rintro (h | h | h)
      · exact Or.inl (Or.inl h)
      · exact Or.inl (Or.inr h)
      · exact Or.inr h

theorem collect_rels (reqs : List Acc) (x : Nat) : x ∈ (collect reqs).map Acc.rel ↔ x ∈ reqs.map Acc.rel := by
  unfold collect; rw [foldl_rels]; simp

theorem insertOrd_perm (order : Nat → Nat) (a : Acc) (l : List Acc) : (insertOrd order a l).Perm (a :: l) := by
  induction l with
  | nil => exact List.Perm.refl _
  | cons b bs ih =>
    rw [insertOrd]
    split
    · exact (List.Perm.cons b ih).trans (List.Perm.swap a b bs)
    · exact List.Perm.refl _

theorem accessSort_perm (order : Nat → Nat) (l : List Acc) : (accessSort order l).Perm l := by
  induction l with
  | nil => exact List.Perm.refl _
  | cons a as ih => exact (insertOrd_perm order a _).trans (List.Perm.cons a ih)

theorem insertOrd_sorted {order : Nat → Nat} (a : Acc) {l : List Acc} (h : l.Pairwise fun x y => order x.rel ≤ order y.rel) :
    (insertOrd order a l).Pairwise fun x y => order x.rel ≤ order y.rel := by
  induction l with
  | nil => simp [insertOrd]
  | cons b bs ih =>
    rw [List.pairwise_cons] at h
    rw [insertOrd]
    split
    · rename_i hlt
      rw [List.pairwise_cons]
      refine ⟨?_, ih h.2⟩
      intro x hx
      rcases List.mem_cons.1 ((insertOrd_perm order a bs).mem_iff.1 hx) with rfl | hx
      · omega
      · exact h.1 x hx
    · rename_i hge
      rw [List.pairwise_cons, List.pairwise_cons]
      refine ⟨?_, h⟩
      intro x hx
      rcases List.mem_cons.1 hx with rfl | hx
      · omega
      · have := h.1 x hx; omega

theorem accessSort_sorted (order : Nat → Nat) (l : List Acc) :
    (accessSort order l).Pairwise fun x y => order x.rel ≤ order y.rel := by
  induction l with
  | nil => exact List.Pairwise.nil
  | cons a as ih => exact insertOrd_sorted a ih

theorem accessSort_strict {order : Nat → Nat} (hinj : ∀ x y, order x = order y → x = y) {l : List Acc} (h : (l.map Acc.rel).Nodup) :
    (accessSort order l).Pairwise fun x y => order x.rel < order y.rel := by
  have h1 := accessSort_sorted order l
  have h2 : ((accessSort order l).map Acc.rel).Nodup := ((accessSort_perm order l).map Acc.rel).nodup_iff.2 h
  rw [List.Nodup, List.pairwise_map] at h2
  have := List.Pairwise.and h1 h2
  refine this.imp ?_
  intro a b hab
  have : order a.rel ≠ order b.rel := fun e => hab.2 (hinj _ _ e)
  omega

theorem statement_asc {order : Nat → Nat} (hinj : ∀ x y, order x = order y → x = y) {catalog : Nat} {reqs : List Acc}
    (hcat : ∀ a ∈ reqs, order catalog < order a.rel) :
    (statement order catalog reqs).Pairwise fun a b => order a.rel < order b.rel := by
  unfold statement
  rw [List.pairwise_cons]
  refine ⟨?_, accessSort_strict hinj (collect_nodup reqs)⟩
  intro a ha
  have h1 := (accessSort_perm order (collect reqs)).mem_iff.1 ha
  have h2 := (collect_rels reqs a.rel).1 (List.mem_map_of_mem (f := Acc.rel) h1)
  obtain ⟨b, hb, e⟩ := List.mem_map.1 h2
  rw [← e]
  exact hcat b hb

theorem rel_inj {l : List Acc} (hn : (l.map Acc.rel).Nodup) {a b : Acc} (ha : a ∈ l) (hb : b ∈ l) (e : b.rel = a.rel) : b = a := by
  induction l with
  | nil => simp at ha
  | cons x xs ih =>
    rw [List.map_cons, List.nodup_cons] at hn
    rcases List.mem_cons.1 ha with ha | ha <;> rcases List.mem_cons.1 hb with hb | hb
    · rw [ha, hb]
    · exact absurd (by rw [← ha, ← e]; exact List.mem_map_of_mem hb) hn.1
    · exact absurd (by rw [← hb, e]; exact List.mem_map_of_mem ha) hn.1
    · exact ih hn.2 ha hb

theorem add_mem {l : List Acc} {r : Nat} {m : Mode} {a : Acc} (h : a ∈ accessAdd l r m) : a ∈ l ∨ a = ⟨r, m⟩ := by
  induction l with
  | nil => simp only [accessAdd, List.mem_singleton] at h; exact Or.inr h
  | cons x xs ih =>
    rw [accessAdd] at h
    split at h
    · rcases List.mem_cons.1 h with h | h
      · split at h
        · exact Or.inr h
        · left; rw [h]; simp
      · exact Or.inl (List.mem_cons_of_mem _ h)
    · rcases List.mem_cons.1 h with h | h
      · left; rw [h]; simp
      · rcases ih h with h | h
        · exact Or.inl (List.mem_cons_of_mem _ h)
        · exact Or.inr h

theorem add_keeps {l : List Acc} {r : Nat} {m : Mode} {b : Acc} (h : b ∈ l ∨ b = ⟨r, m⟩) :
    ∃ b' ∈ accessAdd l r m, b'.rel = b.rel ∧ b.mode.rank ≤ b'.mode.rank := by
  induction l with
  | nil =>
    rcases h with h | h
    · simp at h
    · exact ⟨b, by rw [h]; simp [accessAdd], rfl, Nat.le_refl _⟩
  | cons x xs ih =>
    rw [accessAdd]
    by_cases hx : x.rel = r
    · rw [if_pos hx]
      have top : b = x ∨ b = ⟨r, m⟩ → ∃ b' ∈ (if x.mode.rank < m.rank then (⟨r, m⟩ : Acc) else x) :: xs,
          b'.rel = b.rel ∧ b.mode.rank ≤ b'.mode.rank := by
        intro hb
        refine ⟨_, List.mem_cons_self, ?_⟩
        rcases hb with hb | hb <;> subst hb <;> split <;> simp_all <;> omega
      rcases h with h | h
      · rcases List.mem_cons.1 h with h | h
        · exact top (Or.inl h)
        · exact ⟨b, List.mem_cons_of_mem _ h, rfl, Nat.le_refl _⟩
      · exact top (Or.inr h)
    · rw [if_neg hx]
      rcases h with h | h
      · rcases List.mem_cons.1 h with h | h
        · exact ⟨b, by rw [h]; simp, rfl, Nat.le_refl _⟩
        · obtain ⟨b', h1, h2⟩ := ih (Or.inl h)
          exact ⟨b', List.mem_cons_of_mem _ h1, h2⟩
      · obtain ⟨b', h1, h2⟩ := ih (Or.inr h)
        exact ⟨b', List.mem_cons_of_mem _ h1, h2⟩

theorem foldl_mode (reqs : List Acc) : ∀ l : List Acc, (l.map Acc.rel).Nodup →
    ∀ a ∈ reqs.foldl (fun l a => accessAdd l a.rel a.mode) l,
      (a ∈ l ∨ a ∈ reqs) ∧ (∀ b, b ∈ l ∨ b ∈ reqs → b.rel = a.rel → b.mode.rank ≤ a.mode.rank) := by
  induction reqs with
  | nil =>
    intro l hn a ha
    refine ⟨Or.inl ha, ?_⟩
    intro b hb e
    simp only [List.foldl_nil] at ha
    simp only [List.not_mem_nil, or_false] at hb
    rw [rel_inj hn ha hb e]
    exact Nat.le_refl _
  | cons q qs ih =>
    intro l hn a ha
    rw [List.foldl_cons] at ha
    obtain ⟨h1, h2⟩ := ih _ (add_nodup hn q.rel q.mode) a ha
    refine ⟨?_, ?_⟩
    · rcases h1 with h1 | h1
      · rcases add_mem h1 with h1 | h1
        · exact Or.inl h1
        · right; rw [h1]; simp
      · exact Or.inr (List.mem_cons_of_mem _ h1)
    · intro b hb e
      have low : b ∈ l ∨ b = ⟨q.rel, q.mode⟩ → b.mode.rank ≤ a.mode.rank := by
        intro hb
        obtain ⟨b', k1, k2, k3⟩ := add_keeps (l := l) (r := q.rel) (m := q.mode) hb
        exact Nat.le_trans k3 (h2 b' (Or.inl k1) (by rw [k2, e]))
      rcases hb with hb | hb
      · exact low (Or.inl hb)
      · rcases List.mem_cons.1 hb with hb | hb
        · exact low (Or.inr hb)
        · exact h2 b (Or.inr hb) e

theorem collect_mode (reqs : List Acc) (a : Acc) (ha : a ∈ collect reqs) :
    a ∈ reqs ∧ ∀ b ∈ reqs, b.rel = a.rel → b.mode.rank ≤ a.mode.rank := by
  obtain ⟨h1, h2⟩ := foldl_mode reqs [] (by simp) a ha
  refine ⟨by simpa using h1, fun b hb e => h2 b (Or.inr hb) e⟩

end Verif.Lock
