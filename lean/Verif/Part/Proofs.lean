import Verif.Part.Spec
import Verif.Index.TreeProofs
set_option linter.unusedSimpArgs false
set_option linter.unusedSectionVars false
/-!
# Proofs about rollback
-/
namespace Verif.Part
open Verif.Index
variable {R : Type}

def Uniq (cmp : R → R → Int) (m : List R) : Prop := m.Pairwise fun a b => cmp a b ≠ 0

theorem ne_symm {cmp : R → R → Int} (L : CmpLaws cmp) {a b : R} (h : cmp a b ≠ 0) : cmp b a ≠ 0 := by
  have h1 := L.anti a b
  have h2 := L.anti b a
  omega

theorem eq_symm {cmp : R → R → Int} (L : CmpLaws cmp) {a b : R} (h : cmp a b = 0) : cmp b a = 0 := by
  have h1 := L.anti a b
  have h2 := L.anti b a
  omega

theorem eq_trans {cmp : R → R → Int} (L : CmpLaws cmp) {a b c : R} (h : cmp a b = 0) (h' : cmp b c = 0) : cmp a c = 0 := by
  have h1 := L.trans a b c (by omega) (by omega)
  have h2 := L.trans c b a (by have := eq_symm L h'; omega) (by have := eq_symm L h; omega)
  have h3 := L.anti c a
  have h4 := L.anti a c
  omega

theorem self_eq {cmp : R → R → Int} (L : CmpLaws cmp) (a : R) : cmp a a = 0 := by
  have := L.anti a a; omega

theorem lookup_some {cmp : R → R → Int} {m : List R} {k y : R} (h : lookup cmp m k = some y) : y ∈ m ∧ cmp y k = 0 := by
  have h1 := List.mem_of_find?_eq_some h
  have h2 := List.find?_some h
  exact ⟨h1, by simpa using h2⟩

theorem lookup_none {cmp : R → R → Int} {m : List R} {k : R} (h : lookup cmp m k = none) : ∀ x ∈ m, cmp x k ≠ 0 := by
  unfold lookup at h
  rw [List.find?_eq_none] at h
  intro x hx
  simpa using h x hx

theorem lookup_isSome {cmp : R → R → Int} {m : List R} {k : R} : (lookup cmp m k).isSome = true ↔ ∃ x ∈ m, cmp x k = 0 := by
  unfold lookup
  rw [List.find?_isSome]
  simp

theorem others_none {cmp : R → R → Int} {m : List R} {k : R} (h : ∀ x ∈ m, cmp x k ≠ 0) : others cmp m k = m := by
  unfold others
  rw [List.filter_eq_self]
  intro x hx
  simpa using h x hx

theorem others_congr {cmp : R → R → Int} (L : CmpLaws cmp) {m : List R} {a b : R} (h : cmp a b = 0) :
    others cmp m a = others cmp m b := by
  unfold others
  congr 1
  funext x
  congr 2
  exact propext ⟨fun hx => eq_trans L hx h, fun hx => eq_trans L hx (eq_symm L h)⟩

theorem others_idem {cmp : R → R → Int} {m : List R} {a : R} : others cmp (others cmp m a) a = others cmp m a := by
  unfold others
  rw [List.filter_filter]
  congr 1
  funext x
  simp

theorem others_cons_eq {cmp : R → R → Int} {m : List R} {a b : R} (h : cmp b a = 0) :
    others cmp (b :: m) a = others cmp m a := by
  unfold others
  rw [List.filter_cons_of_neg (by simpa using h)]

theorem mem_others {cmp : R → R → Int} {m : List R} {a x : R} : x ∈ others cmp m a ↔ x ∈ m ∧ cmp x a ≠ 0 := by
  unfold others
  rw [List.mem_filter]; simp

theorem others_perm {cmp : R → R → Int} {m m' : List R} (h : m.Perm m') (a : R) : (others cmp m a).Perm (others cmp m' a) :=
  h.filter _

theorem uniq_perm {cmp : R → R → Int} (L : CmpLaws cmp) {m m' : List R} (h : m.Perm m') (hu : Uniq cmp m) : Uniq cmp m' :=
  h.pairwise hu (fun h => ne_symm L h)

theorem uniq_others {cmp : R → R → Int} {m : List R} (hu : Uniq cmp m) (a : R) : Uniq cmp (others cmp m a) :=
  hu.filter _

theorem uniq_cons_others {cmp : R → R → Int} (L : CmpLaws cmp) {m : List R} (hu : Uniq cmp m) {a r : R}
    (h : cmp a r = 0) : Uniq cmp (r :: others cmp m a) := by
  refine List.pairwise_cons.2 ⟨?_, uniq_others hu a⟩
  intro x hx
  have h1 := (mem_others.1 hx).2
  intro h2
  exact h1 (eq_symm L (eq_trans L h h2))

/-- the row found and the others are all the rows -/
theorem uniq_split {cmp : R → R → Int} (L : CmpLaws cmp) : ∀ {m : List R}, Uniq cmp m → ∀ {k y : R},
    y ∈ m → cmp y k = 0 → (y :: others cmp m k).Perm m := by
  intro m
  induction m with
  | nil => intro _ k y h; simp at h
  | cons a m ih =>
    intro hu k y hy hk
    obtain ⟨h1, h2⟩ := List.pairwise_cons.1 hu
    rcases List.mem_cons.1 hy with rfl | hy
    · rw [others_cons_eq hk, others_none]
      intro x hx h
      exact h1 x hx (eq_trans L hk (eq_symm L h))
    · have ha : cmp a k ≠ 0 := by
        intro h
        exact h1 y hy (eq_trans L h (eq_symm L hk))
      unfold others
      rw [List.filter_cons_of_pos (by simpa using ha)]
      exact (List.Perm.swap a y _).trans ((ih h2 hy hk).cons a)

theorem lookup_perm {cmp : R → R → Int} (L : CmpLaws cmp) {m m' : List R} (h : m.Perm m') (hu : Uniq cmp m) (k : R) :
    lookup cmp m k = lookup cmp m' k := by
  cases h1 : lookup cmp m k with
  | none =>
    have := lookup_none h1
    symm
    unfold lookup
    rw [List.find?_eq_none]
    intro x hx
    simpa using this x (h.mem_iff.2 hx)
  | some y =>
    obtain ⟨hy, hk⟩ := lookup_some h1
    cases h2 : lookup cmp m' k with
    | none => exact absurd hk (lookup_none h2 y (h.mem_iff.1 hy))
    | some z =>
      obtain ⟨hz, hzk⟩ := lookup_some h2
      have hz' := h.mem_iff.2 hz
      have p := uniq_split L hu hy hk
      have := p.mem_iff.2 hz'
      rcases List.mem_cons.1 this with rfl | h3
      · rfl
      · exact absurd hzk (mem_others.1 h3).2

/-! ## Indexes -/

structure Good (ix : Ix R) : Prop where
  laws : CmpLaws ix.cmp
  uniq : Uniq ix.cmp ix.rows

theorem undo_cmp (ix : Ix R) (e : LogRow R) : (undo ix e).cmp = ix.cmp := by unfold undo; split <;> rfl
theorem undo_hash (ix : Ix R) (e : LogRow R) : (undo ix e).hash = ix.hash := by unfold undo; split <;> rfl

theorem Same.refl (a : Ix R) : Same a a := ⟨rfl, rfl, .rfl⟩
theorem Same.trans {a b c : Ix R} (h : Same a b) (h' : Same b c) : Same a c :=
  ⟨h.cmp.trans h'.cmp, h.hash.trans h'.hash, h.rows.trans h'.rows⟩
theorem Same.symm {a b : Ix R} (h : Same a b) : Same b a := ⟨h.cmp.symm, h.hash.symm, h.rows.symm⟩
theorem Same.good {a b : Ix R} (h : Same a b) (g : Good a) : Good b :=
  ⟨h.cmp ▸ g.laws, h.cmp ▸ uniq_perm g.laws h.rows g.uniq⟩

theorem good_undo {ix : Ix R} (g : Good ix) (e : LogRow R) : Good (undo ix e) := by
  unfold undo
  cases e.prev with
  | some p => exact ⟨g.laws, uniq_cons_others g.laws g.uniq (self_eq g.laws p)⟩
  | none => exact ⟨g.laws, uniq_others g.uniq _⟩

theorem undo_same {a b : Ix R} (h : Same a b) (e : LogRow R) : Same (undo a e) (undo b e) := by
  unfold undo
  cases e.prev with
  | some p =>
    refine ⟨h.cmp, h.hash, ?_⟩
    simp only [Ix.replaceBy]
    rw [h.cmp]
    exact (others_perm h.rows p).cons p
  | none =>
    refine ⟨h.cmp, h.hash, ?_⟩
    simp only [Ix.deleteBy]
    rw [h.cmp]
    exact others_perm h.rows _

/-- one logged change of an index that its record undoes -/
structure Change (ix ix' : Ix R) (e : LogRow R) : Prop where
  cmp  : ix'.cmp = ix.cmp
  hash : ix'.hash = ix.hash
  good : Good ix'
  back : Same (undo ix' e) ix

theorem change_replaceBy {ix : Ix R} (g : Good ix) (i : Nat) (b : Bool) (r : R) :
    Change ix (ix.replaceBy r).2 ⟨i, b, r, (ix.replaceBy r).1⟩ := by
  refine ⟨rfl, rfl, ⟨g.laws, uniq_cons_others g.laws g.uniq (self_eq g.laws r)⟩, ?_⟩
  cases hl : lookup ix.cmp ix.rows r with
  | none =>
    have hn := lookup_none hl
    refine ⟨undo_cmp _ _, undo_hash _ _, ?_⟩
    simp only [undo, Ix.replaceBy, Ix.deleteBy, hl]
    rw [others_cons_eq (self_eq g.laws r), others_none hn, others_none hn]
  | some y =>
    obtain ⟨hy, hk⟩ := lookup_some hl
    refine ⟨undo_cmp _ _, undo_hash _ _, ?_⟩
    simp only [undo, Ix.replaceBy, hl]
    rw [others_cons_eq (eq_symm g.laws hk), others_congr g.laws hk, others_idem]
    exact uniq_split g.laws g.uniq hy hk

theorem change_replaceAt {ix : Ix R} (g : Good ix) (i : Nat) (b : Bool) {y r : R} (hy : y ∈ ix.rows)
    (hk : ix.cmp y r = 0) : Change ix (ix.replaceAt y r).2 ⟨i, b, r, some y⟩ := by
  refine ⟨rfl, rfl, ⟨g.laws, uniq_cons_others g.laws g.uniq hk⟩, rfl, rfl, ?_⟩
  simp only [undo, Ix.replaceBy, Ix.replaceAt]
  rw [others_cons_eq (eq_symm g.laws hk), others_idem]
  exact uniq_split g.laws g.uniq hy (self_eq g.laws y)

theorem change_deleteBy {ix : Ix R} (g : Good ix) (i : Nat) (b : Bool) (r : R) :
    Change ix (ix.deleteBy r).2 ⟨i, b, r, (ix.deleteBy r).1⟩ := by
  refine ⟨rfl, rfl, ⟨g.laws, uniq_others g.uniq r⟩, ?_⟩
  cases hl : lookup ix.cmp ix.rows r with
  | none =>
    have hn := lookup_none hl
    refine ⟨undo_cmp _ _, undo_hash _ _, ?_⟩
    simp only [undo, Ix.deleteBy, hl]
    rw [others_none hn, others_none hn]
  | some y =>
    obtain ⟨hy, hk⟩ := lookup_some hl
    refine ⟨undo_cmp _ _, undo_hash _ _, ?_⟩
    simp only [undo, Ix.replaceBy, Ix.deleteBy, hl]
    rw [others_congr g.laws hk, others_idem]
    exact uniq_split g.laws g.uniq hy hk

theorem change_deleteAt {ix : Ix R} (g : Good ix) (i : Nat) (b : Bool) {y : R} (hy : y ∈ ix.rows) :
    Change ix (ix.deleteAt y).2 ⟨i, b, y, some y⟩ := by
  refine ⟨rfl, rfl, ⟨g.laws, uniq_others g.uniq y⟩, rfl, rfl, ?_⟩
  simp only [undo, Ix.replaceBy, Ix.deleteAt]
  rw [others_idem]
  exact uniq_split g.laws g.uniq hy (self_eq g.laws y)

theorem change_upsert {ix : Ix R} (g : Good ix) (i : Nat) (b : Bool) {r : R} (h : lookup ix.cmp ix.rows r = none) :
    Change ix { ix with rows := r :: ix.rows } ⟨i, b, r, none⟩ := by
  have hn := lookup_none h
  refine ⟨rfl, rfl, ⟨g.laws, ?_⟩, rfl, rfl, ?_⟩
  · refine List.pairwise_cons.2 ⟨?_, g.uniq⟩
    intro x hx
    exact ne_symm g.laws (hn x hx)
  · simp only [undo, Ix.deleteBy]
    rw [others_cons_eq (self_eq g.laws r), others_none hn]

/-! ## Several indexes -/

/-- `log` records at most one change per index, from position `i` on -/
def Steps : Nat → List (LogRow R) → List (Ix R) → List (Ix R) → Prop
  | _, log, [], [] => log = []
  | i, log, a :: as, b :: bs => ∃ l l', log = l ++ l' ∧
      ((l = [] ∧ b = a) ∨ ∃ e, l = [e] ∧ e.index = i ∧ Change a b e) ∧ Steps (i + 1) l' as bs
  | _, _, _, _ => False

theorem steps_same : ∀ (i : Nat) (ixs : List (Ix R)), Steps i [] ixs ixs := by
  intro i ixs
  induction ixs generalizing i with
  | nil => exact rfl
  | cons a as ih => exact ⟨[], [], rfl, .inl ⟨rfl, rfl⟩, ih (i + 1)⟩

def AllGood (ixs : List (Ix R)) : Prop := ∀ ix ∈ ixs, Good ix

theorem insertSecondary_steps (replace : Bool) (r : R) : ∀ (ixs : List (Ix R)) (i : Nat), AllGood ixs →
    Steps i (insertSecondary replace r i ixs).2.1 ixs (insertSecondary replace r i ixs).1 := by
  intro ixs
  induction ixs with
  | nil => intro i _; exact rfl
  | cons ix ixs ih =>
    intro i hg
    have g := hg ix (by simp)
    unfold insertSecondary
    simp only
    split
    · exact ⟨[_], [], rfl, .inr ⟨_, rfl, rfl, change_replaceBy g i false r⟩, steps_same _ _⟩
    · exact ⟨[_], _, rfl, .inr ⟨_, rfl, rfl, change_replaceBy g i false r⟩, ih (i + 1) fun x hx => hg x (by simp [hx])⟩

theorem updateSecondary_steps (r : R) : ∀ (ixs : List (Ix R)) (i : Nat), AllGood ixs →
    Steps i (updateSecondary r i ixs).2.1 ixs (updateSecondary r i ixs).1 := by
  intro ixs
  induction ixs with
  | nil => intro i _; exact rfl
  | cons ix ixs ih =>
    intro i hg
    have g := hg ix (by simp)
    unfold updateSecondary
    cases hl : lookup ix.cmp ix.rows r with
    | none => exact steps_same _ _
    | some z =>
      obtain ⟨hz, hk⟩ := lookup_some hl
      exact ⟨[_], _, rfl, .inr ⟨_, rfl, rfl, change_replaceAt g i false hz hk⟩, ih (i + 1) fun x hx => hg x (by simp [hx])⟩

theorem deleteSecondary_steps (y : R) : ∀ (ixs : List (Ix R)) (i : Nat), AllGood ixs →
    Steps i (deleteSecondary y i ixs).2 ixs (deleteSecondary y i ixs).1 := by
  intro ixs
  induction ixs with
  | nil => intro i _; exact rfl
  | cons ix ixs ih =>
    intro i hg
    have g := hg ix (by simp)
    unfold deleteSecondary
    exact ⟨[_], _, rfl, .inr ⟨_, rfl, rfl, change_deleteBy g i true y⟩, ih (i + 1) fun x hx => hg x (by simp [hx])⟩

theorem SameAll.refl (as : List (Ix R)) : SameAll as as := by
  induction as with
  | nil => exact .nil
  | cons a as ih => exact .cons (Same.refl a) ih

theorem SameAll.trans {as bs cs : List (Ix R)} (h : SameAll as bs) (h' : SameAll bs cs) : SameAll as cs := by
  induction h generalizing cs with
  | nil => cases h'; exact .nil
  | cons h1 _ ih => cases h' with | cons h2 h3 => exact .cons (h1.trans h2) (ih h3)

theorem SameAll.good {as bs : List (Ix R)} (h : SameAll as bs) (g : AllGood as) : AllGood bs := by
  induction h with
  | nil => intro x hx; simp at hx
  | cons h1 _ ih =>
    intro x hx
    rcases List.mem_cons.1 hx with rfl | hx
    · exact h1.good (g _ (by simp))
    · exact ih (fun y hy => g y (by simp [hy])) x hx

/-- undo one record -/
def undoAt (e : LogRow R) (ixs : List (Ix R)) : List (Ix R) := ixs.modify e.index fun ix => undo ix e

def undoAll (log : List (LogRow R)) (ixs : List (Ix R)) : List (Ix R) := log.foldr undoAt ixs

theorem abort_ixs (log : List (LogRow R)) (st : St R) : (trAbort log st).ixs = undoAll log st.ixs := by
  unfold trAbort undoAll
  induction log with
  | nil => rfl
  | cons e log ih => simp only [List.foldr_cons, abortOp, undoAt, ih]

theorem undoAll_append (a b : List (LogRow R)) (ixs : List (Ix R)) :
    undoAll (a ++ b) ixs = undoAll a (undoAll b ixs) := by
  simp [undoAll, List.foldr_append]

theorem undoAt_same {as bs : List (Ix R)} (h : SameAll as bs) (e : LogRow R) :
    SameAll (undoAt e as) (undoAt e bs) := by
  unfold undoAt
  generalize e.index = i
  induction h generalizing i with
  | nil => rw [List.modify_nil]; exact .nil
  | cons h1 h2 ih =>
    cases i with
    | zero => simp only [List.modify_zero_cons]; exact .cons (undo_same h1 e) h2
    | succ i => simp only [List.modify_succ_cons]; exact .cons h1 (ih i)

theorem undoAll_same {as bs : List (Ix R)} (h : SameAll as bs) (log : List (LogRow R)) :
    SameAll (undoAll log as) (undoAll log bs) := by
  unfold undoAll
  induction log with
  | nil => exact h
  | cons e log ih => exact undoAt_same ih e

/-- shifting: records behind position 0 leave the first index alone -/
theorem undoAll_cons (log : List (LogRow R)) (a : Ix R) (as : List (Ix R)) (h : ∀ e ∈ log, 0 < e.index) :
    undoAll log (a :: as) = a :: undoAll (log.map fun e => { e with index := e.index - 1 }) as := by
  induction log with
  | nil => rfl
  | cons e log ih =>
    have h1 := h e (by simp)
    have := ih fun x hx => h x (by simp [hx])
    unfold undoAll at this ⊢
    simp only [List.foldr_cons, List.map_cons, this, undoAt]
    cases hi : e.index with
    | zero => omega
    | succ i =>
      simp only [List.modify_succ_cons]
      congr 1

theorem steps_index : ∀ {as bs : List (Ix R)} {i : Nat} {log : List (LogRow R)}, Steps i log as bs → ∀ e ∈ log, i ≤ e.index := by
  intro as
  induction as with
  | nil =>
    intro bs i log h e he
    cases bs with
    | nil => simp only [Steps] at h; subst h; simp at he
    | cons b bs => simp [Steps] at h
  | cons a as ih =>
    intro bs i log h e he
    cases bs with
    | nil => simp [Steps] at h
    | cons b bs =>
      simp only [Steps] at h
      obtain ⟨l, l', rfl, h1, h2⟩ := h
      rcases List.mem_append.1 he with he | he
      · rcases h1 with ⟨rfl, _⟩ | ⟨x, rfl, hx, _⟩
        · simp at he
        · simp only [List.mem_singleton] at he; subst he; omega
      · have := ih h2 e he; omega

theorem steps_shift : ∀ {as bs : List (Ix R)} {i : Nat} {log : List (LogRow R)}, Steps (i + 1) log as bs →
    Steps i (log.map fun e => { e with index := e.index - 1 }) as bs := by
  intro as
  induction as with
  | nil =>
    intro bs i log h
    cases bs with
    | nil => simp only [Steps] at h ⊢; subst h; rfl
    | cons b bs => simp [Steps] at h
  | cons a as ih =>
    intro bs i log h
    cases bs with
    | nil => simp [Steps] at h
    | cons b bs =>
      simp only [Steps] at h ⊢
      obtain ⟨l, l', rfl, h1, h2⟩ := h
      refine ⟨_, _, List.map_append, ?_, ih h2⟩
      rcases h1 with ⟨rfl, h⟩ | ⟨x, rfl, hx, hc⟩
      · exact .inl ⟨rfl, h⟩
      · exact .inr ⟨_, rfl, by simp only; omega, ⟨hc.cmp, hc.hash, hc.good, hc.back⟩⟩

/-- undoing the records of the steps brings back the old indexes -/
theorem steps_undo : ∀ {as bs : List (Ix R)} {log : List (LogRow R)}, Steps 0 log as bs →
    SameAll (undoAll log bs) as := by
  intro as
  induction as with
  | nil =>
    intro bs log h
    cases bs with
    | nil => simp only [Steps] at h; subst h; exact .nil
    | cons b bs => simp [Steps] at h
  | cons a as ih =>
    intro bs log h
    cases bs with
    | nil => simp [Steps] at h
    | cons b bs =>
      simp only [Steps] at h
      obtain ⟨l, l', rfl, h1, h2⟩ := h
      have hi := steps_index h2
      rw [undoAll_append, undoAll_cons l' b bs (fun e he => by have := hi e he; omega)]
      have := ih (steps_shift h2)
      rcases h1 with ⟨rfl, h⟩ | ⟨x, rfl, hx, hc⟩
      · subst h; exact .cons (Same.refl _) this
      · simp only [undoAll, List.foldr_cons, List.foldr_nil, undoAt, hx, List.modify_zero_cons]
        exact .cons hc.back this

theorem steps_good : ∀ {as bs : List (Ix R)} {i : Nat} {log : List (LogRow R)}, Steps i log as bs → AllGood as →
    AllGood bs := by
  intro as
  induction as with
  | nil =>
    intro bs i log h g
    cases bs with
    | nil => exact g
    | cons b bs => simp [Steps] at h
  | cons a as ih =>
    intro bs i log h g
    cases bs with
    | nil => simp [Steps] at h
    | cons b bs =>
      simp only [Steps] at h
      obtain ⟨l, l', rfl, h1, h2⟩ := h
      intro x hx
      rcases List.mem_cons.1 hx with rfl | hx
      · rcases h1 with ⟨_, h⟩ | ⟨_, _, _, hc⟩
        · subst h; exact g _ (by simp)
        · exact hc.good
      · exact ih h2 (fun y hy => g y (by simp [hy])) x hx

theorem steps_cmps : ∀ {as bs : List (Ix R)} {i : Nat} {log : List (LogRow R)}, Steps i log as bs →
    bs.map Ix.cmp = as.map Ix.cmp := by
  intro as
  induction as with
  | nil =>
    intro bs i log h
    cases bs with
    | nil => rfl
    | cons b bs => simp [Steps] at h
  | cons a as ih =>
    intro bs i log h
    cases bs with
    | nil => simp [Steps] at h
    | cons b bs =>
      simp only [Steps] at h
      obtain ⟨l, l', rfl, h1, h2⟩ := h
      have : b.cmp = a.cmp := by
        rcases h1 with ⟨_, h⟩ | ⟨_, _, _, hc⟩
        · rw [h]
        · exact hc.cmp
      simp only [List.map_cons, this, ih h2]

variable [DecidableEq R]

/-- a statement whose cursor is on the primary index and that does not change the primary key -/
def Stmt.OnPrimary (cmps : List (R → R → Int)) : Stmt R → Prop
  | .update c y r => c = 0 ∧ ∀ cmp ∈ cmps.head?, cmp y r = 0
  | .delete c _ => c = 0
  | _ => True

theorem cursorCheck_done {ixs : List (Ix R)} {y : R} (h : cursorCheck ixs 0 y = .done) :
    ∃ p rest, ixs = p :: rest ∧ y ∈ p.rows := by
  cases ixs with
  | nil => simp [cursorCheck] at h
  | cons p rest =>
    refine ⟨p, rest, rfl, ?_⟩
    simp only [cursorCheck, List.getElem?_cons_zero] at h
    by_cases hy : y ∈ p.rows
    · exact hy
    · simp [hy] at h

theorem partDelete_steps {st : St R} {y : R} (g : AllGood st.ixs) :
    Steps 0 (partDelete 0 y st).2.1 st.ixs (partDelete 0 y st).1.ixs := by
  unfold partDelete
  cases hc : cursorCheck st.ixs 0 y with
  | done =>
    obtain ⟨p, rest, he, hy⟩ := cursorCheck_done hc
    simp only [he, List.modify_zero_cons]
    rw [he] at g
    exact ⟨[_], _, rfl, .inr ⟨_, rfl, rfl, change_deleteAt (g p (by simp)) 0 true hy⟩,
      deleteSecondary_steps y rest 1 fun x hx => g x (by simp [hx])⟩
  | _ => exact steps_same _ _

theorem exec_steps {st : St R} {s : Stmt R} (g : AllGood st.ixs) (hp : s.OnPrimary (st.ixs.map Ix.cmp)) :
    Steps 0 (exec st s).2.1 st.ixs (exec st s).1.ixs := by
  cases s with
  | insert replace r =>
    simp only [exec, partInsert]
    exact insertSecondary_steps replace r _ 0 g
  | upsert r =>
    simp only [exec, partUpsert]
    cases he : st.ixs with
    | nil => simp only [he]; exact rfl
    | cons p rest =>
      rw [he] at g
      simp only [Ix.upsert]
      cases hl : lookup p.cmp p.rows r with
      | some y => simp only [he]; exact steps_same _ _
      | none =>
        simp only
        exact ⟨[_], _, rfl, .inr ⟨_, rfl, rfl, change_upsert (g p (by simp)) 0 false hl⟩,
          insertSecondary_steps false r rest 1 fun x hx => g x (by simp [hx])⟩
  | update c y r =>
    obtain ⟨rfl, hk⟩ := hp
    simp only [exec, partUpdate]
    cases hc : cursorCheck st.ixs 0 y with
    | done =>
      obtain ⟨p, rest, he, hy⟩ := cursorCheck_done hc
      simp only [he, List.modify_zero_cons]
      rw [he] at g hk
      exact ⟨[_], _, rfl, .inr ⟨_, rfl, rfl, change_replaceAt (g p (by simp)) 0 false hy (hk p.cmp (by simp))⟩,
        updateSecondary_steps r rest 1 fun x hx => g x (by simp [hx])⟩
    | _ => exact steps_same _ _
  | delete c y =>
    simp only [Stmt.OnPrimary] at hp
    subst hp
    exact partDelete_steps g
  | deleteBy r =>
    simp only [exec, partDeleteBy]
    cases he : st.ixs with
    | nil => simp only [he]; exact rfl
    | cons p rest =>
      cases hl : lookup p.cmp p.rows r with
      | none => simp only [hl, he]; exact steps_same _ _
      | some y =>
        simp only [hl]
        rw [← he]
        exact partDelete_steps g

/-- rollback of any statements, after success or failure -/
theorem execAll_rollback : ∀ (ss : List (Stmt R)) (st : St R), AllGood st.ixs →
    (∀ s ∈ ss, s.OnPrimary (st.ixs.map Ix.cmp)) →
    SameAll (undoAll (execAll st ss).2.1 (execAll st ss).1.ixs) st.ixs ∧ AllGood (execAll st ss).1.ixs ∧
      (execAll st ss).1.ixs.map Ix.cmp = st.ixs.map Ix.cmp := by
  intro ss
  induction ss with
  | nil => intro st g _; exact ⟨SameAll.refl _, g, rfl⟩
  | cons s ss ih =>
    intro st g hp
    have h1 := exec_steps g (hp s (by simp))
    have g1 := steps_good h1 g
    have c1 := steps_cmps h1
    have u1 := steps_undo h1
    unfold execAll
    cases hx : exec st s with
    | mk st' p =>
      obtain ⟨log, o⟩ := p
      rw [hx] at h1 g1 c1 u1
      obtain ⟨i1, i2, i3⟩ := ih st' g1 (fun t ht => by rw [c1]; exact hp t (by simp [ht]))
      have both : SameAll (undoAll (log ++ (execAll st' ss).2.1) (execAll st' ss).1.ixs) st.ixs := by
        rw [undoAll_append]
        exact (undoAll_same i1 log).trans u1
      cases o with
      | failed => exact ⟨u1, g1, c1⟩
      | ub => exact ⟨u1, g1, c1⟩
      | done => exact ⟨both, i2, i3.trans c1⟩
      | existed => exact ⟨both, i2, i3.trans c1⟩
      | noRow => exact ⟨both, i2, i3.trans c1⟩

end Verif.Part
