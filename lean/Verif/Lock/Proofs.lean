import Verif.Lock.Spec
/-! # Proofs: relation locks -/
set_option linter.unusedSimpArgs false
set_option linter.unusedVariables false
namespace Verif.Lock

def onWait (r : Nat) (l : LockRec) : Bool := decide (l.rel = r) && l.waiting
def onHeld (r : Nat) (m : Mode) (l : LockRec) : Bool := decide (l.rel = r) && decide (l.mode = m) && !l.waiting

structure Inv (s : Sys) : Prop where
  sorted : s.locks.Pairwise fun a b => a.id < b.id
  small  : ∀ l ∈ s.locks, l.id < s.next
  wait   : ∀ r, s.wait r = (s.locks.filter (onWait r)).map fun l => (l.id, l.mode)
  count  : ∀ r m, s.set r m = ((s.locks.filter (onHeld r m)).length : Nat)
  fifo   : ∀ a ∈ s.locks, ∀ b ∈ s.locks, a.rel = b.rel → a.waiting = false → b.waiting = true → a.id < b.id
  compat : ∀ a ∈ s.locks, ∀ b ∈ s.locks, a.id ≠ b.id → a.rel = b.rel → a.waiting = false → b.waiting = false →
             conflict a.mode b.mode = false

def Blocked (s : Sys) (r : Nat) : Prop := ∀ id m rest, s.wait r = (id, m) :: rest → resolve (s.set r) m = false

theorem conflict_symm (a b : Mode) : conflict a b = conflict b a := by cases a <;> cases b <;> rfl

theorem count_zero {s : Sys} (hi : Inv s) (r : Nat) (m : Mode) :
    s.set r m = 0 ↔ ∀ l ∈ s.locks, l.rel = r → l.waiting = false → l.mode ≠ m := by
  rw [hi.count]
  constructor
  · intro h l hl h1 h2 h3
    have : (s.locks.filter (onHeld r m)) = [] := List.length_eq_zero_iff.1 (by omega)
    have hm : l ∈ s.locks.filter (onHeld r m) := List.mem_filter.2 ⟨hl, by simp [onHeld, h1, h2, h3]⟩
    rw [this] at hm
    simp at hm
  · intro h
    have : (s.locks.filter (onHeld r m)) = [] := by
      rw [List.filter_eq_nil_iff]
      intro l hl hh
      simp only [onHeld, Bool.and_eq_true, decide_eq_true_eq, Bool.not_eq_true'] at hh
      exact h l hl hh.1.1 hh.2 hh.1.2
    simp [this]

theorem resolve_iff {s : Sys} (hi : Inv s) (r : Nat) (m : Mode) :
    resolve (s.set r) m = true ↔ ∀ l ∈ s.locks, l.rel = r → l.waiting = false → conflict l.mode m = false := by
  have h1 := count_zero hi r .shared
  have h2 := count_zero hi r .sharedRw
  have h3 := count_zero hi r .exclusiveRo
  have h4 := count_zero hi r .exclusive
  have h5 := count_zero hi r .call
  unfold resolve
  constructor
  · intro h l hl hr hw
    have he : s.set r .exclusive = 0 := by
      by_cases h0 : s.set r .exclusive = 0
      · exact h0
      · rw [if_pos h0] at h; simp at h
    have e4 := h4.1 he l hl hr hw
    rw [if_neg (by simp [he])] at h
    cases m with
    | shared => cases hm : l.mode <;> simp_all [conflict]
    | call => cases hm : l.mode <;> simp_all [conflict]
    | sharedRw =>
      have := h3.1 (by simpa using h) l hl hr hw
      cases hm : l.mode <;> simp_all [conflict]
    | exclusiveRo =>
      have := h2.1 (by simpa using h) l hl hr hw
      cases hm : l.mode <;> simp_all [conflict]
    | exclusive =>
      simp only [Bool.and_eq_true, decide_eq_true_eq] at h
      have g1 := h1.1 h.1.1.1 l hl hr hw
      have g2 := h2.1 h.1.1.2 l hl hr hw
      have g3 := h3.1 h.1.2 l hl hr hw
      have g5 := h5.1 h.2 l hl hr hw
      cases hm : l.mode <;> simp_all
  · intro h
    have he : s.set r .exclusive = 0 := h4.2 fun l hl hr hw hm => by
      have := h l hl hr hw; rw [hm] at this; simp [conflict] at this
    rw [if_neg (by simp [he])]
    have use : ∀ x, (conflict x m = true) → s.set r x = 0 := by
      intro x hx
      rw [count_zero hi]
      intro l hl hr hw hm
      have := h l hl hr hw
      rw [hm, hx] at this
      simp at this
    cases m with
    | shared => rfl
    | call => rfl
    | sharedRw => simp [use .exclusiveRo rfl]
    | exclusiveRo => simp [use .sharedRw rfl]
    | exclusive => simp [use .shared rfl, use .sharedRw rfl, use .exclusiveRo rfl, use .call rfl]

theorem inv_init : Inv Sys.init :=
  ⟨List.Pairwise.nil, by simp [Sys.init], by simp [Sys.init], by simp [Sys.init], by simp [Sys.init], by simp [Sys.init]⟩

theorem blocked_init (r : Nat) : Blocked Sys.init r := by intro id m rest h; simp [Sys.init] at h

/-- changes of the reference count do not matter -/
theorem inv_map {s : Sys} (hi : Inv s) (f : LockRec → LockRec)
    (hf : ∀ l, (f l).id = l.id ∧ (f l).rel = l.rel ∧ (f l).mode = l.mode ∧ (f l).waiting = l.waiting) :
    Inv { s with locks := s.locks.map f } := by
  have hfil : ∀ p : LockRec → Bool, (∀ l, p (f l) = p l) → (s.locks.map f).filter p = (s.locks.filter p).map f := by
    intro p hp
    rw [List.filter_map]
    congr 1
    apply List.filter_congr
    intro l _
    exact hp l
  refine ⟨?_, ?_, ?_, ?_, ?_, ?_⟩
  · simp only
    rw [List.pairwise_map]
    exact hi.sorted.imp fun {a b} h => by rw [(hf a).1, (hf b).1]; exact h
  · intro l hl
    obtain ⟨x, hx, rfl⟩ := List.mem_map.1 hl
    rw [(hf x).1]; exact hi.small x hx
  · intro r
    simp only
    rw [hfil _ (by intro l; simp [onWait, hf l]), List.map_map, hi.wait]
    apply List.map_congr_left
    intro l _
    simp [hf l]
  · intro r m
    simp only
    rw [hfil _ (by intro l; simp [onHeld, hf l]), List.length_map, hi.count]
  · intro a ha b hb
    obtain ⟨x, hx, rfl⟩ := List.mem_map.1 ha
    obtain ⟨y, hy, rfl⟩ := List.mem_map.1 hb
    simp only [hf]
    exact hi.fifo x hx y hy
  · intro a ha b hb
    obtain ⟨x, hx, rfl⟩ := List.mem_map.1 ha
    obtain ⟨y, hy, rfl⟩ := List.mem_map.1 hb
    simp only [hf]
    exact hi.compat x hx y hy

theorem inv_lockOf {s : Sys} (hi : Inv s) (hb : ∀ r, Blocked s r) (o : Option Nat) (r : Nat) (m : Mode) :
    Inv (s.lockOf o r m) ∧ ∀ r', Blocked (s.lockOf o r m) r' := by
  unfold Sys.lockOf
  simp only
  cases hp : ((decide ((s.wait r).length = 0)) && resolve (s.set r) m) with
  | true =>
    simp only [Bool.and_eq_true, decide_eq_true_eq] at hp
    obtain ⟨hp1, hp2⟩ := hp
    have hw0 : s.wait r = [] := List.length_eq_zero_iff.1 hp1
    have hres := (resolve_iff hi r m).1 hp2
    have hnw : ∀ l ∈ s.locks, l.rel = r → l.waiting = false := by
      intro l hl hr
      have h1 := hi.wait r
      rw [hw0] at h1
      have h2 : s.locks.filter (onWait r) = [] := List.map_eq_nil_iff.1 h1.symm
      rw [List.filter_eq_nil_iff] at h2
      have := h2 l hl
      cases hlw : l.waiting with
      | false => rfl
      | true => simp [onWait, hr, hlw] at this
    simp only [if_true]
    refine ⟨⟨?_, ?_, ?_, ?_, ?_, ?_⟩, ?_⟩
    · rw [List.pairwise_append]
      refine ⟨hi.sorted, by simp, ?_⟩
      intro a ha b hb'
      simp only [List.mem_singleton] at hb'
      subst hb'
      exact hi.small a ha
    · intro l hl
      simp only [List.mem_append, List.mem_singleton] at hl
      rcases hl with hl | hl
      · have := hi.small l hl; simp only; omega
      · subst hl; simp
    · intro r'
      simp only [List.filter_append, List.filter_cons, List.filter_nil, onWait]
      simp only [Bool.not_true, Bool.and_false, Bool.false_eq_true, if_false, List.append_nil]
      exact hi.wait r'
    · intro r' m'
      simp only [List.filter_append, List.length_append]
      unfold bump
      by_cases h : r' = r ∧ m' = m
      · rw [if_pos h, hi.count]
        obtain ⟨rfl, rfl⟩ := h
        simp [onHeld]
      · rw [if_neg h, hi.count]
        have : onHeld r' m' ⟨s.next, o, r, m, if o.isSome = true then 1 else 0, !true⟩ = false := by
          simp only [onHeld]
          by_cases h1 : r = r'
          · by_cases h2 : m = m'
            · exact absurd ⟨h1.symm, h2.symm⟩ h
            · simp [h2]
          · simp [h1]
        rw [List.filter_cons, this]
        simp
    · intro a ha b hb' hr h1 h2
      simp only [List.mem_append, List.mem_singleton] at ha hb'
      rcases hb' with hb' | hb'
      · rcases ha with ha | ha
        · exact hi.fifo a ha b hb' hr h1 h2
        · subst ha
          simp only at hr
          rw [hnw b hb' hr.symm] at h2
          simp at h2
      · subst hb'; simp at h2
    · intro a ha b hb' hne hr h1 h2
      simp only [List.mem_append, List.mem_singleton] at ha hb'
      rcases ha with ha | ha <;> rcases hb' with hb' | hb'
      · exact hi.compat a ha b hb' hne hr h1 h2
      · subst hb'
        exact hres a ha hr h1
      · subst ha
        rw [conflict_symm]
        exact hres b hb' hr.symm h2
      · subst ha; subst hb'; exact absurd rfl hne
    · intro r' id m' rest hw
      simp only at hw ⊢
      by_cases hr : r' = r
      · subst hr; rw [hw0] at hw; simp at hw
      · have : bump s.set r m 1 r' = s.set r' := by funext x; simp [bump, hr]
        rw [this]
        exact hb r' id m' rest hw
  | false =>
    simp only [Bool.false_eq_true, if_false]
    refine ⟨⟨?_, ?_, ?_, ?_, ?_, ?_⟩, ?_⟩
    · rw [List.pairwise_append]
      refine ⟨hi.sorted, by simp, ?_⟩
      intro a ha b hb'
      simp only [List.mem_singleton] at hb'
      subst hb'
      exact hi.small a ha
    · intro l hl
      simp only [List.mem_append, List.mem_singleton] at hl
      rcases hl with hl | hl
      · have := hi.small l hl; simp only; omega
      · subst hl; simp
    · intro r'
      simp only [List.filter_append, List.map_append]
      unfold setWait
      by_cases h : r' = r
      · subst h
        rw [if_pos rfl, hi.wait]
        simp [onWait]
      · rw [if_neg h, hi.wait]
        have : onWait r' ⟨s.next, o, r, m, if o.isSome = true then 1 else 0, !false⟩ = false := by
          simp [onWait]; intro h'; exact absurd h'.symm h
        rw [List.filter_cons, this]
        simp
    · intro r' m'
      simp only [List.filter_append, List.length_append]
      rw [hi.count]
      simp [List.filter_cons, onHeld]
    · intro a ha b hb' hr h1 h2
      simp only [List.mem_append, List.mem_singleton] at ha hb'
      rcases ha with ha | ha
      · rcases hb' with hb' | hb'
        · exact hi.fifo a ha b hb' hr h1 h2
        · subst hb'; exact hi.small a ha
      · subst ha; simp at h1
    · intro a ha b hb' hne hr h1 h2
      simp only [List.mem_append, List.mem_singleton] at ha hb'
      rcases ha with ha | ha
      · rcases hb' with hb' | hb'
        · exact hi.compat a ha b hb' hne hr h1 h2
        · subst hb'; simp at h2
      · subst ha; simp at h1
    · intro r' id m' rest hw
      simp only [setWait] at hw ⊢
      by_cases hr : r' = r
      · subst hr
        rw [if_pos rfl] at hw
        cases hq : s.wait r' with
        | nil =>
          rw [hq] at hw hp
          simp only [List.nil_append, List.cons.injEq, Prod.mk.injEq] at hw
          simp only [List.length_nil, decide_true, Bool.true_and] at hp
          rw [← hw.1.2]; exact hp
        | cons x xs =>
          rw [hq] at hw
          simp only [List.cons_append, List.cons.injEq] at hw
          exact hb r' id m' xs (by rw [hq, hw.1])
      · rw [if_neg hr] at hw
        exact hb r' id m' rest hw

/-- the first waiter in the list of locks -/
theorem first_waiter {s : Sys} (hi : Inv s) {r id : Nat} {m : Mode} {rest : List (Nat × Mode)} (hw : s.wait r = (id, m) :: rest) :
    ∃ L1 l L2, s.locks = L1 ++ l :: L2 ∧ l.id = id ∧ l.mode = m ∧ l.rel = r ∧ l.waiting = true ∧
      (∀ x ∈ L1, x.rel = r → x.waiting = false) ∧ rest = (L2.filter (onWait r)).map fun l => (l.id, l.mode) := by
  have h := hi.wait r
  rw [hw] at h
  have : ∃ l xs, s.locks.filter (onWait r) = l :: xs ∧ (l.id, l.mode) = (id, m) ∧ xs.map (fun l => (l.id, l.mode)) = rest := by
    cases hx : s.locks.filter (onWait r) with
    | nil => rw [hx] at h; simp at h
    | cons l xs =>
      rw [hx] at h
      simp only [List.map_cons, List.cons.injEq] at h
      exact ⟨l, xs, rfl, h.1.symm, h.2.symm⟩
  obtain ⟨l, xs, h1, h2, h3⟩ := this
  obtain ⟨L1, L2, e1, e2, e3, e4⟩ := List.filter_eq_cons_iff.1 h1
  simp only [Prod.mk.injEq] at h2
  simp only [onWait, Bool.and_eq_true, decide_eq_true_eq] at e3
  refine ⟨L1, l, L2, e1, h2.1, h2.2, e3.1, e3.2, ?_, ?_⟩
  · intro x hx hr
    have := e2 x hx
    cases hxw : x.waiting with
    | false => rfl
    | true => simp [onWait, hr, hxw] at this
  · rw [e4]; exact h3.symm

theorem pairwise_mid {L1 L2 : List LockRec} {l : LockRec} (h : (L1 ++ l :: L2).Pairwise fun a b => a.id < b.id) :
    (∀ x ∈ L1, x.id < l.id) ∧ (∀ x ∈ L2, l.id < x.id) ∧ (L1 ++ L2).Pairwise (fun a b => a.id < b.id) := by
  rw [List.pairwise_append] at h
  obtain ⟨h1, h2, h3⟩ := h
  obtain ⟨h4, h5⟩ := List.pairwise_cons.1 h2
  refine ⟨fun x hx => h3 x hx l (by simp), h4, ?_⟩
  rw [List.pairwise_append]
  exact ⟨h1, h5, fun a ha b hb => h3 a ha b (List.mem_cons_of_mem _ hb)⟩

/-- the locks after a grant -/
theorem grant_locks {L1 L2 : List LockRec} {l : LockRec} (h : (L1 ++ l :: L2).Pairwise fun a b => a.id < b.id) :
    (L1 ++ l :: L2).map (fun x => if x.id = l.id then { x with waiting := false } else x) =
      L1 ++ { l with waiting := false } :: L2 := by
  obtain ⟨h1, h2, _⟩ := pairwise_mid h
  rw [List.map_append, List.map_cons, if_pos rfl]
  congr 1
  · conv => rhs; rw [← List.map_id L1]
    apply List.map_congr_left
    intro x hx
    rw [if_neg (Nat.ne_of_lt (h1 x hx))]; rfl
  · congr 1
    conv => rhs; rw [← List.map_id L2]
    apply List.map_congr_left
    intro x hx
    rw [if_neg (Nat.ne_of_gt (h2 x hx))]; rfl

theorem inv_grant {s : Sys} (hi : Inv s) {r id : Nat} {m : Mode} {rest : List (Nat × Mode)} (hw : s.wait r = (id, m) :: rest)
    (hr : resolve (s.set r) m = true) : Inv (s.grant r id m rest) := by
  obtain ⟨L1, l, L2, e1, e2, e3, e4, e5, e6, e7⟩ := first_waiter hi hw
  have hs := hi.sorted
  rw [e1] at hs
  obtain ⟨p1, p2, p3⟩ := pairwise_mid hs
  have hlocks : (s.grant r id m rest).locks = L1 ++ { l with waiting := false } :: L2 := by
    unfold Sys.grant
    simp only
    rw [e1, ← e2]
    exact grant_locks hs
  have hres := (resolve_iff hi r m).1 hr
  have hmem : ∀ x, x ∈ (s.grant r id m rest).locks ↔ x ∈ L1 ∨ x = { l with waiting := false } ∨ x ∈ L2 := by
    intro x; rw [hlocks]; simp
  have hold : ∀ x, x ∈ L1 ∨ x ∈ L2 → x ∈ s.locks := by
    intro x hx; rw [e1]; simp only [List.mem_append, List.mem_cons]
    rcases hx with h | h
    · exact Or.inl h
    · exact Or.inr (Or.inr h)
  have hl : l ∈ s.locks := by rw [e1]; simp
  refine ⟨?_, ?_, ?_, ?_, ?_, ?_⟩
  · rw [hlocks, List.pairwise_append]
    rw [List.pairwise_append] at hs
    refine ⟨hs.1, ?_, ?_⟩
    · rw [List.pairwise_cons] at hs ⊢; exact hs.2.1
    · intro a ha b hb
      rcases List.mem_cons.1 hb with rfl | hb
      · exact hs.2.2 a ha l (by simp)
      · exact hs.2.2 a ha b (List.mem_cons_of_mem _ hb)
  · intro x hx
    show x.id < s.next
    rcases (hmem x).1 hx with h | rfl | h
    · exact hi.small x (hold x (Or.inl h))
    · exact hi.small l hl
    · exact hi.small x (hold x (Or.inr h))
  · intro r'
    rw [hlocks]
    simp only [Sys.grant, setWait]
    by_cases h : r' = r
    · subst h
      rw [if_pos rfl, e7]
      have : L1.filter (onWait r') = [] := by
        rw [List.filter_eq_nil_iff]
        intro x hx hh
        simp only [onWait, Bool.and_eq_true, decide_eq_true_eq] at hh
        rw [e6 x hx hh.1] at hh
        simp at hh
      rw [List.filter_append, this, List.filter_cons]
      simp [onWait]
    · rw [if_neg h, hi.wait, e1]
      simp only [List.filter_append, List.filter_cons]
      have g1 : onWait r' l = false := by simp [onWait, e4]; intro h'; exact absurd h'.symm h
      have g2 : onWait r' { l with waiting := false } = false := by simp [onWait]
      rw [g1, g2]
      simp only [Bool.false_eq_true, if_false]
  · intro r' m'
    rw [hlocks]
    simp only [Sys.grant, bump]
    rw [hi.count, e1]
    simp only [List.filter_append, List.filter_cons, List.length_append]
    have g1 : onHeld r' m' l = false := by simp [onHeld, e5]
    rw [g1]
    by_cases h : r' = r ∧ m' = m
    · rw [if_pos h]
      obtain ⟨rfl, rfl⟩ := h
      have g2 : onHeld r' m' { l with waiting := false } = true := by simp [onHeld, e4, e3]
      rw [g2]
      simp
      omega
    · rw [if_neg h]
      have g2 : onHeld r' m' { l with waiting := false } = false := by
        simp only [onHeld, e4, e3]
        by_cases h1 : r = r'
        · by_cases h2 : m = m'
          · exact absurd ⟨h1.symm, h2.symm⟩ h
          · simp [h2]
        · simp [h1]
      rw [g2]
      simp
  · intro a ha b hb hab h1 h2
    have hbo : b ∈ L1 ∨ b ∈ L2 := by
      rcases (hmem b).1 hb with h | rfl | h
      · exact Or.inl h
      · simp at h2
      · exact Or.inr h
    rcases (hmem a).1 ha with h | rfl | h
    · exact hi.fifo a (hold a (Or.inl h)) b (hold b hbo) hab h1 h2
    · simp only at hab ⊢
      rcases hbo with hb1 | hb2
      · have := e6 b hb1 (by rw [← hab]; exact e4)
        rw [this] at h2; simp at h2
      · exact p2 b hb2
    · exact hi.fifo a (hold a (Or.inr h)) b (hold b hbo) hab h1 h2
  · intro a ha b hb hne hab h1 h2
    have hcase : ∀ x, x ∈ (s.grant r id m rest).locks → x = { l with waiting := false } ∨ x ∈ s.locks := by
      intro x hx
      rcases (hmem x).1 hx with h | h | h
      · exact Or.inr (hold x (Or.inl h))
      · exact Or.inl h
      · exact Or.inr (hold x (Or.inr h))
    rcases hcase a ha with rfl | ha' <;> rcases hcase b hb with rfl | hb'
    · exact absurd rfl hne
    · simp only at hab ⊢
      rw [conflict_symm, e3]
      exact hres b hb' (by rw [← hab]; exact e4) h2
    · simp only at hab ⊢
      rw [e3]
      exact hres a ha' (by rw [hab]; exact e4) h1
    · exact hi.compat a ha' b hb' hne hab h1 h2

/-- how the locks of a state come from those of an earlier one -/
def Evolves (s s' : Sys) : Prop :=
  s.next ≤ s'.next ∧ ∀ l' ∈ s'.locks, (∃ l ∈ s.locks, l.id = l'.id ∧ l.rel = l'.rel ∧ l.mode = l'.mode ∧ l.owner = l'.owner ∧
    (l'.waiting = true → l.waiting = true)) ∨ s.next ≤ l'.id

theorem evolves_refl (s : Sys) : Evolves s s := ⟨Nat.le_refl _, fun l h => Or.inl ⟨l, h, rfl, rfl, rfl, rfl, id⟩⟩

theorem evolves_trans {a b c : Sys} (h1 : Evolves a b) (h2 : Evolves b c) : Evolves a c := by
  refine ⟨Nat.le_trans h1.1 h2.1, ?_⟩
  intro l hl
  rcases h2.2 l hl with ⟨x, hx, e1, e2, e3, e4, e5⟩ | h
  · rcases h1.2 x hx with ⟨y, hy, f1, f2, f3, f4, f5⟩ | h
    · exact Or.inl ⟨y, hy, f1.trans e1, f2.trans e2, f3.trans e3, f4.trans e4, fun h => f5 (e5 h)⟩
    · exact Or.inr (by omega)
  · exact Or.inr (Nat.le_trans h1.1 h)

theorem evolves_map (s : Sys) (f : LockRec → LockRec) (hf : ∀ l, (f l).id = l.id ∧ (f l).rel = l.rel ∧ (f l).mode = l.mode ∧
    (f l).owner = l.owner ∧ ((f l).waiting = true → l.waiting = true)) (s' : Sys) (h1 : s'.locks = s.locks.map f) (h2 : s'.next = s.next) :
    Evolves s s' := by
  refine ⟨by omega, ?_⟩
  intro l hl
  rw [h1] at hl
  obtain ⟨x, hx, rfl⟩ := List.mem_map.1 hl
  obtain ⟨g1, g2, g3, g4, g5⟩ := hf x
  exact Or.inl ⟨x, hx, g1.symm, g2.symm, g3.symm, g4.symm, g5⟩

theorem evolves_grant (s : Sys) (r id : Nat) (m : Mode) (rest : List (Nat × Mode)) : Evolves s (s.grant r id m rest) := by
  refine evolves_map s _ ?_ _ rfl rfl
  intro l
  split
  · exact ⟨rfl, rfl, rfl, rfl, by simp⟩
  · exact ⟨rfl, rfl, rfl, rfl, fun h => h⟩

theorem wake_ok (r : Nat) : ∀ (n : Nat) (s : Sys), Inv s → (s.wait r).length ≤ n → (∀ r', r' ≠ r → Blocked s r') →
    Inv (s.wake r n) ∧ (∀ r', Blocked (s.wake r n) r') ∧ Evolves s (s.wake r n) := by
  intro n
  induction n with
  | zero =>
    intro s hi hl hb
    have hnil : s.wait r = [] := List.length_eq_zero_iff.1 (by omega)
    refine ⟨hi, ?_, evolves_refl s⟩
    intro r'
    by_cases h : r' = r
    · subst h; intro id m rest hw; simp only [Sys.wake] at hw; rw [hnil] at hw; simp at hw
    · exact hb r' h
  | succ n ih =>
    intro s hi hl hb
    rw [Sys.wake]
    cases hw : s.wait r with
    | nil =>
      refine ⟨hi, ?_, evolves_refl s⟩
      intro r'
      by_cases h : r' = r
      · subst h; intro id m rest hw'; rw [hw] at hw'; simp at hw'
      · exact hb r' h
    | cons x rest =>
      obtain ⟨id, m⟩ := x
      simp only
      by_cases hr : resolve (s.set r) m = true
      · rw [if_pos hr]
        have hi' := inv_grant hi hw hr
        have hlen : ((s.grant r id m rest).wait r).length ≤ n := by
          simp only [Sys.grant, setWait, if_true]
          rw [hw] at hl
          simp only [List.length_cons] at hl
          omega
        have hb' : ∀ r', r' ≠ r → Blocked (s.grant r id m rest) r' := by
          intro r' h id' m' rest' hw'
          simp only [Sys.grant, setWait, if_neg h] at hw' ⊢
          have : bump s.set r m 1 r' = s.set r' := by funext x; simp [bump, h]
          rw [this]
          exact hb r' h id' m' rest' hw'
        obtain ⟨g1, g2, g3⟩ := ih _ hi' hlen hb'
        exact ⟨g1, g2, evolves_trans (evolves_grant s r id m rest) g3⟩
      · rw [if_neg hr]
        refine ⟨hi, ?_, evolves_refl s⟩
        intro r'
        by_cases h : r' = r
        · subst h
          intro id' m' rest' hw'
          rw [hw] at hw'
          simp only [List.cons.injEq, Prod.mk.injEq] at hw'
          rw [← hw'.1.2]
          simpa using hr
        · exact hb r' h

theorem filter_id {L1 L2 : List LockRec} {l : LockRec} (h : (L1 ++ l :: L2).Pairwise fun a b => a.id < b.id) :
    (L1 ++ l :: L2).filter (fun x => x.id ≠ l.id) = L1 ++ L2 := by
  obtain ⟨h1, h2, _⟩ := pairwise_mid h
  rw [List.filter_append, List.filter_cons]
  simp only [ne_eq, not_true_eq_false, decide_false, Bool.false_eq_true, if_false]
  congr 1
  · rw [List.filter_eq_self]
    intro x hx
    have := h1 x hx
    simp; omega
  · rw [List.filter_eq_self]
    intro x hx
    have := h2 x hx
    simp; omega

theorem inv_release {s : Sys} (hi : Inv s) (hb : ∀ r, Blocked s r) {l : LockRec} (hl : l ∈ s.locks) (hw : l.waiting = false) :
    Inv (s.release l) ∧ (∀ r, Blocked (s.release l) r) ∧ Evolves s (s.release l) := by
  obtain ⟨L1, L2, e1⟩ := List.append_of_mem hl
  have hs := hi.sorted
  rw [e1] at hs
  obtain ⟨p1, p2, p3⟩ := pairwise_mid hs
  have hlocks : s.locks.filter (fun x => x.id ≠ l.id) = L1 ++ L2 := by rw [e1]; exact filter_id hs
  have hold : ∀ x, x ∈ L1 ++ L2 → x ∈ s.locks := by
    intro x hx; rw [e1]; simp only [List.mem_append, List.mem_cons] at hx ⊢
    rcases hx with h | h
    · exact Or.inl h
    · exact Or.inr (Or.inr h)
  unfold Sys.release
  simp only
  have hi1 : Inv { s with set := bump s.set l.rel l.mode (-1), locks := s.locks.filter fun x => x.id ≠ l.id } := by
    rw [hlocks]
    refine ⟨p3, fun x hx => hi.small x (hold x hx), ?_, ?_, ?_, ?_⟩
    · intro r
      simp only
      rw [hi.wait, e1]
      simp only [List.filter_append, List.filter_cons]
      have : onWait r l = false := by simp [onWait, hw]
      rw [this]
      simp
    · intro r m
      simp only [bump]
      rw [hi.count, e1]
      simp only [List.filter_append, List.filter_cons, List.length_append]
      by_cases h : r = l.rel ∧ m = l.mode
      · rw [if_pos h]
        obtain ⟨rfl, rfl⟩ := h
        have : onHeld l.rel l.mode l = true := by simp [onHeld, hw]
        rw [this]
        simp
        omega
      · rw [if_neg h]
        have : onHeld r m l = false := by
          simp only [onHeld]
          by_cases h1 : l.rel = r
          · by_cases h2 : l.mode = m
            · exact absurd ⟨h1.symm, h2.symm⟩ h
            · simp [h2]
          · simp [h1]
        rw [this]
        simp
    · intro a ha b hb; exact hi.fifo a (hold a ha) b (hold b hb)
    · intro a ha b hb; exact hi.compat a (hold a ha) b (hold b hb)
  have hb1 : ∀ r', r' ≠ l.rel →
      Blocked { s with set := bump s.set l.rel l.mode (-1), locks := s.locks.filter fun x => x.id ≠ l.id } r' := by
    intro r' h id m rest hw'
    simp only at hw' ⊢
    have : bump s.set l.rel l.mode (-1) r' = s.set r' := by funext x; simp [bump, h]
    rw [this]
    exact hb r' id m rest hw'
  obtain ⟨g1, g2, g3⟩ := wake_ok l.rel _ _ hi1 (Nat.le_refl _) hb1
  refine ⟨g1, g2, evolves_trans ?_ g3⟩
  refine ⟨Nat.le_refl _, ?_⟩
  intro x hx
  simp only [List.mem_filter] at hx
  exact Or.inl ⟨x, hx.1, rfl, rfl, rfl, rfl, id⟩

theorem find_id {s : Sys} (hi : Inv s) {l : LockRec} (hl : l ∈ s.locks) : (s.locks.find? fun x => x.id = l.id) = some l := by
  obtain ⟨L1, L2, e1⟩ := List.append_of_mem hl
  have hs := hi.sorted
  rw [e1] at hs
  obtain ⟨p1, p2, p3⟩ := pairwise_mid hs
  rw [e1, List.find?_append]
  have : L1.find? (fun x => decide (x.id = l.id)) = none := by
    rw [List.find?_eq_none]
    intro x hx
    have := p1 x hx
    simp; omega
  rw [this]
  simp

/-- locks have unique numbers -/
theorem id_inj {s : Sys} (hi : Inv s) {a b : LockRec} (ha : a ∈ s.locks) (hb : b ∈ s.locks) (h : a.id = b.id) : a = b := by
  have h1 := find_id hi ha
  have h2 := find_id hi hb
  rw [h, h2] at h1
  simpa using h1.symm

theorem step_ok {s : Sys} (hi : Inv s) (hb : ∀ r, Blocked s r) (op : Op) (ho : s.ok op) :
    Inv (s.step op) ∧ (∀ r, Blocked (s.step op) r) ∧ Evolves s (s.step op) := by
  have hlk : ∀ o r m, Evolves s (s.lockOf o r m) := by
    intro o r m
    unfold Sys.lockOf
    simp only
    split
    all_goals
      refine ⟨by simp, ?_⟩
      intro l hl
      simp only [List.mem_append, List.mem_singleton] at hl
      rcases hl with hl | hl
      · exact Or.inl ⟨l, hl, rfl, rfl, rfl, rfl, id⟩
      · right; rw [hl]; exact Nat.le_refl _
  cases op with
  | lock c r m =>
    simp only [Sys.step, Sys.lock]
    cases hf : s.locks.find? (fun l => l.owner = some c && l.rel = r && l.mode = m) with
    | none =>
      obtain ⟨g1, g2⟩ := inv_lockOf hi hb (some c) r m
      exact ⟨g1, g2, hlk _ _ _⟩
    | some l =>
      simp only
      refine ⟨inv_map hi _ (by intro x; split <;> exact ⟨rfl, rfl, rfl, rfl⟩), fun r id m rest h => hb r id m rest h, ?_⟩
      exact evolves_map s _ (by intro x; split <;> exact ⟨rfl, rfl, rfl, rfl, fun h => h⟩) _ rfl rfl
  | create r m =>
    obtain ⟨g1, g2⟩ := inv_lockOf hi hb none r m
    exact ⟨g1, g2, hlk _ _ _⟩
  | unlock id =>
    obtain ⟨l, hl, he, hw⟩ := ho
    subst he
    simp only [Sys.step, Sys.unlock, find_id hi hl]
    split
    · refine ⟨inv_map hi _ (by intro x; split <;> exact ⟨rfl, rfl, rfl, rfl⟩), fun r id m rest h => hb r id m rest h, ?_⟩
      exact evolves_map s _ (by intro x; split <;> exact ⟨rfl, rfl, rfl, rfl, fun h => h⟩) _ rfl rfl
    · exact inv_release hi hb hl hw

theorem run_ok {s s' : Sys} {ops : List Op} (hr : Run s ops s') (hi : Inv s) (hb : ∀ r, Blocked s r) :
    Inv s' ∧ (∀ r, Blocked s' r) ∧ Evolves s s' := by
  induction hr with
  | nil => exact ⟨hi, hb, evolves_refl _⟩
  | cons op ho _ ih =>
    obtain ⟨g1, g2, g3⟩ := step_ok hi hb op ho
    obtain ⟨f1, f2, f3⟩ := ih g1 g2
    exact ⟨f1, f2, evolves_trans g3 f3⟩

/-- a waiting lock that is first in line is blocked by a granted, conflicting one -/
theorem first_blocked {s : Sys} (hi : Inv s) (hb : ∀ r, Blocked s r) {w : LockRec} (hw : w ∈ s.locks) (hww : w.waiting = true)
    (hfirst : ∀ a, Ahead s w a → a.waiting = false) : ∃ a, Ahead s w a ∧ a.waiting = false ∧ conflict a.mode w.mode = true := by
  have hne : s.wait w.rel ≠ [] := by
    intro h
    have h1 := hi.wait w.rel
    rw [h] at h1
    have h2 : s.locks.filter (onWait w.rel) = [] := List.map_eq_nil_iff.1 h1.symm
    rw [List.filter_eq_nil_iff] at h2
    exact h2 w hw (by simp [onWait, hww])
  cases hq : s.wait w.rel with
  | nil => exact absurd hq hne
  | cons x rest =>
    obtain ⟨id, m⟩ := x
    obtain ⟨L1, l, L2, e1, e2, e3, e4, e5, e6, e7⟩ := first_waiter hi hq
    have hl : l ∈ s.locks := by rw [e1]; simp
    have hs := hi.sorted
    rw [e1] at hs
    obtain ⟨p1, p2, _⟩ := pairwise_mid hs
    have hlw : l = w := by
      have hmem := hw
      rw [e1] at hmem
      simp only [List.mem_append, List.mem_cons] at hmem
      rcases hmem with h | h | h
      · have := e6 w h rfl; rw [hww] at this; simp at this
      · exact h.symm
      · have := hfirst l ⟨hl, e4, p2 w h⟩
        rw [e5] at this; simp at this
    subst hlw
    have hr := hb l.rel id m rest hq
    have hn : ¬ ∀ x ∈ s.locks, x.rel = l.rel → x.waiting = false → conflict x.mode m = false := by
      intro h
      have := (resolve_iff hi l.rel m).2 h
      rw [hr] at this; simp at this
    simp only [Classical.not_forall] at hn
    obtain ⟨a, ha, har, haw, hac⟩ := hn
    refine ⟨a, ⟨ha, har, hi.fifo a ha l hl har haw hww⟩, haw, ?_⟩
    rw [e3]
    simpa using hac

/-! ## Ordered acquisition -/

structure OrdInv (order : Nat → Nat) (s : Sys) : Prop where
  owned : ∀ l ∈ s.locks, l.owner.isSome = true
  asc   : ∀ a ∈ s.locks, ∀ b ∈ s.locks, a.owner = b.owner → a.id < b.id → order a.rel < order b.rel
  last  : ∀ l ∈ s.locks, l.waiting = true → ∀ a ∈ s.locks, a.owner = l.owner → a.id ≠ l.id → a.id < l.id

theorem ordInv_evolves {order : Nat → Nat} {s s' : Sys} (h : OrdInv order s)
    (he : ∀ l' ∈ s'.locks, ∃ l ∈ s.locks, l.id = l'.id ∧ l.rel = l'.rel ∧ l.owner = l'.owner ∧ (l'.waiting = true → l.waiting = true)) :
    OrdInv order s' := by
  refine ⟨?_, ?_, ?_⟩
  · intro l hl
    obtain ⟨x, hx, _, _, e, _⟩ := he l hl
    rw [← e]; exact h.owned x hx
  · intro a ha b hb hab hid
    obtain ⟨x, hx, x1, x2, x3, _⟩ := he a ha
    obtain ⟨y, hy, y1, y2, y3, _⟩ := he b hb
    rw [← x2, ← y2]
    exact h.asc x hx y hy (by rw [x3, y3, hab]) (by omega)
  · intro l hl hw a ha hao hne
    obtain ⟨x, hx, x1, x2, x3, x4⟩ := he a ha
    obtain ⟨y, hy, y1, y2, y3, y4⟩ := he l hl
    have := h.last y hy (y4 hw) x hx (by rw [x3, y3, hao]) (by omega)
    omega

theorem ordInv_step {order : Nat → Nat} {s : Sys} (hi : Inv s) (hb : ∀ r, Blocked s r) (h : OrdInv order s) (op : Op) (ho : s.ok op)
    (hord : ordered order s op) : OrdInv order (s.step op) := by
  cases op with
  | create r m => exact absurd hord (by simp [ordered])
  | unlock id =>
    apply ordInv_evolves h
    obtain ⟨l, hl, he, hw⟩ := ho
    subst he
    simp only [Sys.step, Sys.unlock, find_id hi hl]
    split
    · intro l' hl'
      simp only [List.mem_map] at hl'
      obtain ⟨x, hx, rfl⟩ := hl'
      refine ⟨x, hx, ?_⟩
      split <;> exact ⟨rfl, rfl, rfl, fun h => h⟩
    · intro l' hl'
      -- no new locks appear in a release
      have hnew : ∀ (n : Nat) (t : Sys), ∀ l' ∈ (t.wake l.rel n).locks, ∃ x ∈ t.locks, x.id = l'.id ∧ x.rel = l'.rel ∧ x.owner = l'.owner ∧
          (l'.waiting = true → x.waiting = true) := by
        intro n
        induction n with
        | zero => intro t l' h; exact ⟨l', h, rfl, rfl, rfl, fun h => h⟩
        | succ n ih =>
          intro t l' h
          rw [Sys.wake] at h
          cases hq : t.wait l.rel with
          | nil => rw [hq] at h; exact ⟨l', h, rfl, rfl, rfl, fun h => h⟩
          | cons y rest =>
            obtain ⟨id, m⟩ := y
            rw [hq] at h
            simp only at h
            split at h
            · obtain ⟨z, hz, z1, z2, z3, z4⟩ := ih _ l' h
              simp only [Sys.grant, List.mem_map] at hz
              obtain ⟨u, hu, rfl⟩ := hz
              by_cases hid : u.id = id
              · rw [if_pos hid] at z1 z2 z3 z4
                exact ⟨u, hu, z1, z2, z3, fun hh => by have := z4 hh; simp at this⟩
              · rw [if_neg hid] at z1 z2 z3 z4
                exact ⟨u, hu, z1, z2, z3, z4⟩
            · exact ⟨l', h, rfl, rfl, rfl, fun h => h⟩
      obtain ⟨x, hx, x1, x2, x3, x4⟩ := hnew _ _ l' hl'
      simp only [List.mem_filter] at hx
      exact ⟨x, hx.1, x1, x2, x3, x4⟩
  | lock c r m =>
    simp only [Sys.step, Sys.lock]
    cases hf : s.locks.find? (fun l => l.owner = some c && l.rel = r && l.mode = m) with
    | some l =>
      simp only
      apply ordInv_evolves h
      intro l' hl'
      simp only [List.mem_map] at hl'
      obtain ⟨x, hx, rfl⟩ := hl'
      refine ⟨x, hx, ?_⟩
      split <;> exact ⟨rfl, rfl, rfl, fun h => h⟩
    | none =>
      have hlt : ∀ l ∈ s.locks, l.owner = some c → order l.rel < order r := by
        rcases hord with ⟨l, hl, h1, h2, h3⟩ | hord
        · rw [List.find?_eq_none] at hf
          exact absurd (by simp [h1, h2, h3]) (hf l hl)
        · exact hord
      have hmem : ∀ x, x ∈ (s.lockOf (some c) r m).locks → x ∈ s.locks ∨ (x.id = s.next ∧ x.owner = some c ∧ x.rel = r) := by
        intro x hx
        unfold Sys.lockOf at hx
        simp only at hx
        split at hx
        all_goals
          simp only [List.mem_append, List.mem_singleton] at hx
          rcases hx with hx | hx
          · exact Or.inl hx
          · right; rw [hx]; exact ⟨rfl, rfl, rfl⟩
      refine ⟨?_, ?_, ?_⟩
      · intro l hl
        rcases hmem l hl with hl | ⟨_, hl, _⟩
        · exact h.owned l hl
        · rw [hl]; rfl
      · intro a ha b hb' hab hid
        rcases hmem a ha with ha | ⟨a1, a2, a3⟩ <;> rcases hmem b hb' with hb' | ⟨b1, b2, b3⟩
        · exact h.asc a ha b hb' hab hid
        · rw [b3]; exact hlt a ha (by rw [hab, b2])
        · have := hi.small b hb'; omega
        · omega
      · intro l hl hw a ha hao hne
        rcases hmem a ha with ha | ⟨a1, a2, a3⟩ <;> rcases hmem l hl with hl | ⟨l1, l2, l3⟩
        · exact h.last l hl hw a ha hao hne
        · have := hi.small a ha; omega
        · have := ho l hl (by rw [← hao, a2])
          rw [this] at hw; simp at hw
        · omega

theorem orderedRun_ok {order : Nat → Nat} {s s' : Sys} {ops : List Op} (hr : OrderedRun order s ops s') (hi : Inv s)
    (hb : ∀ r, Blocked s r) (h : OrdInv order s) : Inv s' ∧ (∀ r, Blocked s' r) ∧ OrdInv order s' := by
  induction hr with
  | nil => exact ⟨hi, hb, h⟩
  | cons op ho hord _ ih =>
    obtain ⟨g1, g2, _⟩ := step_ok hi hb op ho
    exact ih g1 g2 (ordInv_step hi hb h op ho hord)

theorem ordInv_init (order : Nat → Nat) : OrdInv order Sys.init :=
  ⟨by simp [Sys.init], by simp [Sys.init], by simp [Sys.init]⟩

/-- the later relation, or the earlier request for the same relation -/
def less (order : Nat → Nat) (a b : LockRec) : Prop :=
  order a.rel < order b.rel ∨ (order a.rel = order b.rel ∧ b.id < a.id)

theorem less_trans {order : Nat → Nat} {a b c : LockRec} (h1 : less order a b) (h2 : less order b c) : less order a c := by
  unfold less at *; omega

theorem edge_less {order : Nat → Nat} {s : Sys} (hi : Inv s) (h : OrdInv order s) {c d : Nat} (hw : WaitsFor s c d) :
    ∃ l ∈ s.locks, l.owner = some c ∧ l.waiting = true ∧
      ∀ k ∈ s.locks, k.owner = some d → k.waiting = true → less order l k := by
  obtain ⟨l, hl, h1, h2, a, ⟨ha, har, haid⟩, hao⟩ := hw
  refine ⟨l, hl, h1, h2, ?_⟩
  intro k hk hko hkw
  unfold less
  by_cases he : a.id = k.id
  · have := id_inj hi ha hk he
    subst this
    right
    exact ⟨by rw [har], haid⟩
  · have := h.last k hk hkw a ha (by rw [hao, hko]) he
    left
    rw [← har]
    exact h.asc a ha k hk (by rw [hao, hko]) this

/-- a coroutine waits for one lock only -/
theorem waiting_unique {order : Nat → Nat} {s : Sys} (hi : Inv s) (h : OrdInv order s) {l k : LockRec} (hl : l ∈ s.locks)
    (hk : k ∈ s.locks) (ho : l.owner = k.owner) (h1 : l.waiting = true) (h2 : k.waiting = true) : l = k := by
  by_cases he : l.id = k.id
  · exact id_inj hi hl hk he
  · have g1 := h.last l hl h1 k hk ho.symm (Ne.symm he)
    have g2 := h.last k hk h2 l hl ho he
    omega

theorem path_less {order : Nat → Nat} {s : Sys} (hi : Inv s) (h : OrdInv order s) {c d : Nat} (hp : Path (WaitsFor s) c d) :
    ∃ l ∈ s.locks, l.owner = some c ∧ l.waiting = true ∧
      ∀ k ∈ s.locks, k.owner = some d → k.waiting = true → less order l k := by
  induction hp with
  | one h1 => exact edge_less hi h h1
  | cons h1 _ ih =>
    obtain ⟨l, hl, a1, a2, a3⟩ := edge_less hi h h1
    obtain ⟨l', hl', b1, b2, b3⟩ := ih
    exact ⟨l, hl, a1, a2, fun k hk e1 e2 => less_trans (a3 l' hl' b1 b2) (b3 k hk e1 e2)⟩

theorem no_cycle {order : Nat → Nat} {s : Sys} (hi : Inv s) (h : OrdInv order s) (c : Nat) : ¬ Path (WaitsFor s) c c := by
  intro hp
  obtain ⟨l, hl, h1, h2, h3⟩ := path_less hi h hp
  have := h3 l hl h1 h2
  unfold less at this
  omega

theorem ahead_exists {s : Sys} (hi : Inv s) (hb : ∀ r, Blocked s r) {w : LockRec} (hw : w ∈ s.locks) (hww : w.waiting = true) :
    ∃ a, Ahead s w a := by
  by_cases h : ∀ a, Ahead s w a → a.waiting = false
  · obtain ⟨a, ha, _⟩ := first_blocked hi hb hw hww h
    exact ⟨a, ha⟩
  · simp only [Classical.not_forall] at h
    obtain ⟨a, ha, _⟩ := h
    exact ⟨a, ha⟩

theorem bounded (f : LockRec → Nat) (ls : List LockRec) : ∃ M, ∀ l ∈ ls, f l ≤ M := by
  induction ls with
  | nil => exact ⟨0, by simp⟩
  | cons a as ih =>
    obtain ⟨M, hM⟩ := ih
    refine ⟨max M (f a), ?_⟩
    intro l hl
    rcases List.mem_cons.1 hl with rfl | hl
    · omega
    · have := hM l hl; omega

theorem someone_runs {order : Nat → Nat} {s : Sys} (hi : Inv s) (hb : ∀ r, Blocked s r) (h : OrdInv order s) {c : Nat} {l : LockRec}
    (hl : l ∈ s.locks) (ho : l.owner = some c) (hw : l.waiting = true) :
    ∃ d, Path (WaitsFor s) c d ∧ (∃ a ∈ s.locks, a.owner = some d) ∧ ∀ k ∈ s.locks, k.owner = some d → k.waiting = false := by
  obtain ⟨M, hM⟩ := bounded (fun l => order l.rel) s.locks
  have main : ∀ n, ∀ c l, l ∈ s.locks → l.owner = some c → l.waiting = true → (M - order l.rel) * s.next + l.id ≤ n →
      ∃ d, Path (WaitsFor s) c d ∧ (∃ a ∈ s.locks, a.owner = some d) ∧ ∀ k ∈ s.locks, k.owner = some d → k.waiting = false := by
    intro n
    induction n with
    | zero =>
      intro c l hl ho hw hn
      obtain ⟨a, ha, h1, h2⟩ := ahead_exists hi hb hl hw
      omega
    | succ n ih =>
      intro c l hl ho hw hn
      obtain ⟨a, hahead⟩ := ahead_exists hi hb hl hw
      have ha := hahead.1
      cases hao : a.owner with
      | none => have := h.owned a ha; rw [hao] at this; simp at this
      | some d =>
        have hwf : WaitsFor s c d := ⟨l, hl, ho, hw, a, hahead, hao⟩
        by_cases hd : ∀ k ∈ s.locks, k.owner = some d → k.waiting = false
        · exact ⟨d, Path.one hwf, ⟨a, ha, hao⟩, hd⟩
        · simp only [Classical.not_forall] at hd
          obtain ⟨k, hk, hko, hkw⟩ := hd
          have hkw : k.waiting = true := by simpa using hkw
          obtain ⟨l', hl', e1, e2, e3⟩ := edge_less hi h hwf
          have := waiting_unique hi h hl' hl (by rw [e1, ho]) e2 hw
          subst this
          have hless := e3 k hk hko hkw
          have hms : (M - order k.rel) * s.next + k.id ≤ n := by
            have k1 := hi.small k hk
            have k2 := hM k hk
            have k3 := hM l' hl'
            rcases hless with hlt | ⟨heq, hlt⟩
            · have hx : (M - order k.rel + 1) * s.next ≤ (M - order l'.rel) * s.next :=
                Nat.mul_le_mul_right _ (by omega)
              rw [Nat.add_mul, Nat.one_mul] at hx
              omega
            · rw [← heq]; omega
          obtain ⟨d', p1, p2, p3⟩ := ih d k hk hko hkw hms
          exact ⟨d', Path.cons hwf p1, p2, p3⟩
  exact main _ c l hl ho hw (Nat.le_refl _)

end Verif.Lock
