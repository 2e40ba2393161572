import Verif.Query.Props
/-!
# The union iterator commutes with maps; unions of rows whose keys are well behaved
-/
set_option linter.unusedSimpArgs false
set_option linter.unusedVariables false
set_option autoImplicit false
namespace Verif.Query
open Verif.Index (CmpLaws Normal)
open Verif.Index.Merge (pickMin Visits)
variable {A B : Type}

def mapPos (f : A → B) (p : UPos A) : UPos B := ⟨p.its.map (List.map f), p.cur⟩

theorem map_modify_tail (f : A → B) : ∀ (its : List (List A)) (i : Nat),
    (its.map (List.map f)).modify i List.tail = (its.modify i List.tail).map (List.map f) := by
  intro its
  induction its with
  | nil => intro i; simp
  | cons a its ih =>
    intro i
    cases i with
    | zero => cases a <;> simp
    | succ i => simp [ih]

theorem advance_map (f : A → B) (p : UPos A) : (mapPos f p).advance = p.advance.map (List.map f) := by
  unfold UPos.advance mapPos
  cases p.cur with
  | none => rfl
  | some i => exact map_modify_tail f _ i

theorem pickFirst_map (f : A → B) : ∀ (its : List (List A)) (k : Nat),
    pickFirst (its.map (List.map f)) k = (pickFirst its k).map fun q => (q.1, f q.2) := by
  intro its
  induction its with
  | nil => intro k; rfl
  | cons a its ih =>
    intro k
    cases a with
    | nil => simp [pickFirst, ih]
    | cons x a => simp [pickFirst]

theorem pickMin_map (f : A → B) (cmp : B → B → Int) : ∀ (l : List (Option A)) (k : Nat) (best : Option (Nat × A)),
    pickMin cmp (l.map (Option.map f)) k (best.map fun q => (q.1, f q.2)) =
      (pickMin (fun a b => cmp (f a) (f b)) l k best).map fun q => (q.1, f q.2) := by
  intro l
  induction l with
  | nil => intro k best; simp [pickMin]
  | cons a l ih =>
    intro k best
    cases a with
    | none => simpa [pickMin] using ih (k + 1) best
    | some x =>
      cases best with
      | none => simpa [pickMin] using ih (k + 1) (some (k, x))
      | some b =>
        obtain ⟨i, m⟩ := b
        simp only [List.map_cons, Option.map_some, pickMin]
        split
        · exact ih (k + 1) (some (k, x))
        · exact ih (k + 1) (some (i, m))

theorem pickLeast_map (f : A → B) (cmp : B → B → Int) (its : List (List A)) :
    pickLeast cmp (its.map (List.map f)) = (pickLeast (fun a b => cmp (f a) (f b)) its).map fun q => (q.1, f q.2) := by
  unfold pickLeast
  have e : (its.map (List.map f)).map List.head? = (its.map List.head?).map (Option.map f) := by
    simp [List.map_map, Function.comp_def]
  rw [e]
  exact pickMin_map f cmp _ 0 none

theorem stepWith_map (f : A → B) {pa : List (List A) → Option (Nat × A)} {pb : List (List B) → Option (Nat × B)}
    (h : ∀ its, pb (its.map (List.map f)) = (pa its).map fun q => (q.1, f q.2)) (p : UPos A) :
    stepWith pb (mapPos f p) = (mapPos f (stepWith pa p).1, (stepWith pa p).2.map f) := by
  unfold stepWith
  rw [advance_map, h]
  cases pa p.advance <;> rfl

theorem skipEqual_map (f : A → B) (cmp : B → B → Int) (first : A) : ∀ (n : Nat) (p : UPos A),
    skipEqual cmp (f first) n (mapPos f p) = mapPos f (skipEqual (fun a b => cmp (f a) (f b)) first n p) := by
  intro n
  induction n with
  | zero => intro p; rfl
  | succ n ih =>
    intro p
    unfold skipEqual
    rw [stepWith_map f (pickLeast_map f cmp)]
    cases (stepWith (pickLeast fun a b => cmp (f a) (f b)) p).2 with
    | none => rfl
    | some x =>
      simp only [Option.map_some]
      split
      · exact ih _
      · rfl

theorem distinctFirst_map (f : A → B) (cmp : B → B → Int) (p : UPos A) :
    distinctFirst cmp (mapPos f p) =
      (mapPos f (distinctFirst (fun a b => cmp (f a) (f b)) p).1, (distinctFirst (fun a b => cmp (f a) (f b)) p).2.map f) := by
  unfold distinctFirst
  show (match p.cur with | _ => _) = _
  cases hc : p.cur with
  | none => simp only [mapPos, hc]; have := stepWith_map f (pickLeast_map f cmp) p; simpa [mapPos, hc] using this
  | some i =>
    simp only [mapPos, hc]
    congr 1
    rw [List.getElem?_map]
    cases p.its[i]? with
    | none => rfl
    | some l => cases l <;> rfl

theorem flatten_map_length (f : A → B) (its : List (List A)) : (its.map (List.map f)).flatten.length = its.flatten.length := by
  rw [← List.map_flatten, List.length_map]

theorem stepOf_map (f : A → B) (cmp : B → B → Int) (ty : UType) (p : UPos A) :
    stepOf cmp ty (mapPos f p) =
      (mapPos f (stepOf (fun a b => cmp (f a) (f b)) ty p).1, (stepOf (fun a b => cmp (f a) (f b)) ty p).2.map f) := by
  cases ty with
  | all => exact stepWith_map (pa := fun its => pickFirst its 0) (pb := fun its => pickFirst its 0) f (fun its => pickFirst_map f its 0) p
  | ordered => exact stepWith_map f (pickLeast_map f cmp) p
  | distinct =>
    show stepDistinct cmp (mapPos f p) = _
    simp only [stepOf]
    unfold stepDistinct
    rw [distinctFirst_map]
    cases h : (distinctFirst (fun a b => cmp (f a) (f b)) p).2 with
    | none => rfl
    | some x =>
      simp only [Option.map_some]
      rw [show (mapPos f (distinctFirst (fun a b => cmp (f a) (f b)) p).1).its.flatten.length =
        (distinctFirst (fun a b => cmp (f a) (f b)) p).1.its.flatten.length from flatten_map_length f _, skipEqual_map]

def mapIt (f : A → B) (u : UIt A) : UIt B := ⟨mapPos f u.pos, u.at_.map f, u.limit⟩

theorem next_map (f : A → B) (cmp : B → B → Int) (ty : UType) (u : UIt A) :
    UIt.next (stepOf cmp ty) (mapIt f u) = mapIt f (UIt.next (stepOf (fun a b => cmp (f a) (f b)) ty) u) := by
  unfold UIt.next
  show (if u.limit ≤ 0 then _ else _) = _
  split
  · rfl
  · simp only [mapIt, stepOf_map]

theorem skip_map (f : A → B) (cmp : B → B → Int) (ty : UType) : ∀ (n : Nat) (u : UIt A),
    UIt.skip (stepOf cmp ty) n (mapIt f u) = mapIt f (UIt.skip (stepOf (fun a b => cmp (f a) (f b)) ty) n u) := by
  intro n
  induction n with
  | zero => intro u; rfl
  | succ n ih =>
    intro u
    unfold UIt.skip
    have e : (mapIt f u).at_.isSome = u.at_.isSome := by simp [mapIt]
    rw [e]
    split
    · rw [next_map]; exact ih _
    · rfl

theorem open_map (f : A → B) (cmp : B → B → Int) (ty : UType) (limit : Option Nat) (offset : Nat) (its : List (List A)) :
    UIt.open (stepOf cmp ty) limit offset (its.map (List.map f)) =
      mapIt f (UIt.open (stepOf (fun a b => cmp (f a) (f b)) ty) limit offset its) := by
  unfold UIt.open
  have e : (its.map (List.map f)).isEmpty = its.isEmpty := by cases its <;> rfl
  rw [e]
  have n : ∀ (l : Int), UIt.next (stepOf cmp ty) ⟨⟨its.map (List.map f), none⟩, none, l⟩ =
      mapIt f (UIt.next (stepOf (fun a b => cmp (f a) (f b)) ty) ⟨⟨its, none⟩, none, l⟩) := fun l =>
    next_map f cmp ty ⟨⟨its, none⟩, none, l⟩
  split
  · rfl
  · split
    · exact n _
    · rw [n, skip_map]
      simp only [mapIt]
      congr 1
      split <;> rfl

theorem visits_map (f : A → B) (cmp : B → B → Int) (ty : UType) {u : UIt A} {out : List A}
    (h : Visits UIt.at_ (UIt.next (stepOf (fun a b => cmp (f a) (f b)) ty)) u out) :
    Visits UIt.at_ (UIt.next (stepOf cmp ty)) (mapIt f u) (out.map f) := by
  induction h with
  | done s h => exact .done _ (by simp [mapIt, h])
  | more s r l h _ ih =>
    refine .more _ (f r) _ (by simp [mapIt, h]) ?_
    rw [next_map]; exact ih

/-- a union of mapped rows returns the mapped rows -/
theorem returns_map (f : A → B) (cmp : B → B → Int) (ty : UType) (limit : Option Nat) (offset : Nat) (its : List (List A))
    (out : List A) (h : Returns (fun a b => cmp (f a) (f b)) ty limit offset its out) :
    Returns cmp ty limit offset (its.map (List.map f)) (out.map f) := by
  unfold Returns
  rw [open_map]
  exact visits_map f cmp ty h

theorem page_map (f : A → B) (limit : Option Nat) (offset : Nat) (l : List A) :
    page limit offset (l.map f) = (page limit offset l).map f := by
  cases limit <;> simp [page, List.map_take, List.map_drop]

theorem dedup_map (f : A → B) (cmp : B → B → Int) (l : List A) :
    dedup cmp (l.map f) = (dedup (fun a b => cmp (f a) (f b)) l).map f := by
  have aux : ∀ (l : List A) (a : A), dedupAux cmp (f a) (l.map f) = (dedupAux (fun a b => cmp (f a) (f b)) a l).map f := by
    intro l
    induction l with
    | nil => intro a; rfl
    | cons b l ih =>
      intro a
      simp only [List.map_cons, dedupAux]
      split
      · exact ih a
      · simp [ih b]
  cases l with
  | nil => rfl
  | cons a l => simp [dedup, aux]

/-! ## Rows that satisfy a predicate -/

variable {R : Type}

theorem lift_list {P : R → Prop} (l : List R) (h : ∀ r ∈ l, P r) : ∃ l' : List { r // P r }, l'.map Subtype.val = l :=
  ⟨l.attachWith P h, by simp⟩

theorem lift_lists {P : R → Prop} : ∀ (its : List (List R)), (∀ l ∈ its, ∀ r ∈ l, P r) →
    ∃ its' : List (List { r // P r }), its'.map (List.map Subtype.val) = its := by
  intro its
  induction its with
  | nil => intro _; exact ⟨[], rfl⟩
  | cons l its ih =>
    intro h
    obtain ⟨l', e⟩ := lift_list l (h l (by simp))
    obtain ⟨its', e'⟩ := ih (fun x hx => h x (List.mem_cons_of_mem _ hx))
    exact ⟨l' :: its', by simp [e, e']⟩

/-- the laws of a comparison on the rows that satisfy `P` -/
structure CmpOn (P : R → Prop) (cmp : R → R → Int) : Prop where
  anti : ∀ a b, P a → P b → (cmp a b < 0 ↔ 0 < cmp b a)
  trans : ∀ a b c, P a → P b → P c → cmp a b ≤ 0 → cmp b c ≤ 0 → cmp a c ≤ 0

def NormalOn (P : R → Prop) (cmp : R → R → Int) : Prop := ∀ a b, P a → P b → 0 < cmp a b → cmp a b = 1

theorem CmpOn.sub {P : R → Prop} {cmp : R → R → Int} (L : CmpOn P cmp) :
    CmpLaws (fun a b : { r // P r } => cmp a.1 b.1) :=
  ⟨fun a b => L.anti _ _ a.2 b.2, fun a b c => L.trans _ _ _ a.2 b.2 c.2⟩

theorem ascending_val {P : R → Prop} {cmp : R → R → Int} (l : List { r // P r }) :
    Ascending cmp (l.map Subtype.val) ↔ Ascending (fun a b : { r // P r } => cmp a.1 b.1) l := by
  unfold Ascending; rw [List.pairwise_map]

theorem flatten_val {P : R → Prop} (its : List (List { r // P r })) :
    its.flatten.map Subtype.val = (its.map (List.map Subtype.val)).flatten := by rw [List.map_flatten]

/-- an ordered union of ascending sets: all their rows in order -/
theorem ordered_full {P : R → Prop} {cmp : R → R → Int} (L : CmpOn P cmp) (hn : NormalOn P cmp) (its : List (List R))
    (hP : ∀ l ∈ its, ∀ r ∈ l, P r) (hs : ∀ l ∈ its, Ascending cmp l) (limit : Option Nat) (offset : Nat)
    (hlen : its.flatten.length + 1 < 2 ^ 63 - 1) :
    ∃ m, m.Perm its.flatten ∧ Ascending cmp m ∧ ∀ out, Returns cmp .ordered limit offset its out ↔ out = page limit offset m := by
  obtain ⟨its', rfl⟩ := lift_lists its hP
  have L' := L.sub
  have hn' : Normal (fun a b : { r // P r } => cmp a.1 b.1) := fun a b h => hn _ _ a.2 b.2 h
  have P' := pickLeast_picks L' hn'
  rw [flatten_map_length] at hlen
  have hr := returns_of_streams (ordered_streams L' hn' its') (Nat.le_of_eq (allOuts_length P' _)) hlen limit offset
  have hr' := returns_map Subtype.val cmp .ordered limit offset its' _ hr
  rw [← page_map] at hr'
  refine ⟨_, ?_, ?_, returns_iff hr'⟩
  · rw [← flatten_val]; exact (outs_perm P' _ its' (Nat.le_refl _)).map _
  · rw [ascending_val]
    refine allOuts_ascending L' hn' _ _ rfl ?_
    intro v hv
    exact (ascending_val v).1 (hs _ (List.mem_map_of_mem hv))

theorem mergeSort_sorts {cmp : R → R → Int} (L : CmpLaws cmp) : Sorts cmp (fun l => l.mergeSort fun a b => decide (cmp a b ≤ 0)) := by
  intro l
  refine ⟨List.mergeSort_perm _ _, ?_⟩
  have h := List.pairwise_mergeSort (le := fun a b => decide (cmp a b ≤ 0))
    (fun a b c h1 h2 => by simp only [decide_eq_true_eq] at *; exact L.trans a b c h1 h2)
    (fun a b => by
      have := L.anti a b; have := L.anti b a
      simp only [Bool.or_eq_true, decide_eq_true_eq]; omega) l
  unfold Ascending
  exact h.imp fun h => by simpa using h

/-- what a partition returns when `limit + offset` is pushed down to it -/
def cut (limit : Option Nat) (offset : Nat) (l : List R) : List R := limit.elim l fun n => l.take (n + offset)

theorem cut_map {f : A → B} (limit : Option Nat) (offset : Nat) (l : List A) :
    cut limit offset (l.map f) = (cut limit offset l).map f := by
  cases limit <;> simp [cut, List.map_take]

theorem cut_backend {cmp : R → R → Int} (limit offset : Option Nat) (sort : List R → List R) (ho d : Bool) (l : List R) :
    (⟨ho, true, d, limit, offset⟩ : Sel).backend sort l = cut limit (offset.getD 0) l := by
  rw [backend_scan _ _ _ (by simp)]
  cases limit <;> rfl

/-- the same when only `limit + offset` rows are asked of each set -/
theorem ordered_cut {P : R → Prop} {cmp : R → R → Int} (L : CmpOn P cmp) (hn : NormalOn P cmp) (its : List (List R))
    (hP : ∀ l ∈ its, ∀ r ∈ l, P r) (hs : ∀ l ∈ its, Ascending cmp l) (limit offset : Option Nat)
    (hlen : its.flatten.length + 1 < 2 ^ 63 - 1) :
    ∃ m, m.Perm its.flatten ∧ Ascending cmp m ∧
      ∀ out, Returns cmp .ordered limit (offset.getD 0) (its.map (cut limit (offset.getD 0))) out ↔ out = page limit (offset.getD 0) m := by
  obtain ⟨its', rfl⟩ := lift_lists its hP
  have L' := L.sub
  have hn' : Normal (fun a b : { r // P r } => cmp a.1 b.1) := fun a b h => hn _ _ a.2 b.2 h
  rw [flatten_map_length] at hlen
  obtain ⟨m, h1, h2, h3⟩ := order_generic L' hn' _ (mergeSort_sorts L') ⟨true, true, false, limit, offset⟩ rfl rfl its'
    (fun _ v hv => (ascending_val v).1 (hs _ (List.mem_map_of_mem hv))) hlen
  have hr := (h3 _).2 rfl
  unfold Sel.Runs at hr
  simp only [cut_backend (cmp := fun a b : { r // P r } => cmp a.1 b.1), Sel.union, if_true, Bool.false_eq_true, if_false] at hr
  have hr' := returns_map Subtype.val cmp .ordered _ _ _ _ hr
  rw [← page_map, List.map_map] at hr'
  rw [List.map_map]
  rw [show ((⟨true, true, false, limit, offset⟩ : Sel).backend fun l => l.mergeSort fun (a b : { r // P r }) => decide (cmp a.1 b.1 ≤ 0)) =
    fun l => cut limit (offset.getD 0) l from funext fun l => cut_backend (cmp := fun a b : { r // P r } => cmp a.1 b.1) limit offset _ true false l] at hr'
  refine ⟨m.map Subtype.val, ?_, (ascending_val m).2 h2, returns_iff ?_⟩
  · rw [← flatten_val]; exact h1.map _
  · have e : (List.map Subtype.val ∘ fun (l : List { r // P r }) => cut limit (offset.getD 0) l) =
        (cut limit (offset.getD 0) ∘ List.map Subtype.val) := by
      funext l; exact (cut_map limit (offset.getD 0) l).symm
    rw [← e]; exact hr'

theorem onePerKey_val {P : R → Prop} {cmp : R → R → Int} {rows m : List { r // P r }}
    (h : OnePerKey (fun a b : { r // P r } => cmp a.1 b.1) rows m) :
    OnePerKey cmp (rows.map Subtype.val) (m.map Subtype.val) := by
  refine ⟨?_, ?_, ?_⟩
  · rw [List.pairwise_map]; exact h.order
  · intro r hr
    obtain ⟨x, hx, rfl⟩ := List.mem_map.1 hr
    exact List.mem_map_of_mem (h.from_rows x hx)
  · intro r hr
    obtain ⟨x, hx, rfl⟩ := List.mem_map.1 hr
    obtain ⟨y, hy, e⟩ := h.complete x hx
    exact ⟨y.1, List.mem_map_of_mem hy, e⟩

/-- a distinct union of ascending sets: one row of every key -/
theorem distinct_full {P : R → Prop} {cmp : R → R → Int} (L : CmpOn P cmp) (hn : NormalOn P cmp) (its : List (List R))
    (hP : ∀ l ∈ its, ∀ r ∈ l, P r) (hs : ∀ l ∈ its, Ascending cmp l) (limit : Option Nat) (offset : Nat)
    (hlen : its.flatten.length + 1 < 2 ^ 63 - 1) :
    ∃ m, OnePerKey cmp its.flatten m ∧ ∀ out, Returns cmp .distinct limit offset its out ↔ out = page limit offset m := by
  obtain ⟨its', rfl⟩ := lift_lists its hP
  have L' := L.sub
  have hn' : Normal (fun a b : { r // P r } => cmp a.1 b.1) := fun a b h => hn _ _ a.2 b.2 h
  have P' := pickLeast_picks L' hn'
  rw [flatten_map_length] at hlen
  have hr := returns_of_streams (distinct_streams L' hn' its')
    (Nat.le_trans (dedup_length _ _) (Nat.le_of_eq (allOuts_length P' _))) hlen limit offset
  have hr' := returns_map Subtype.val cmp .distinct limit offset its' _ hr
  rw [← page_map] at hr'
  have hall := outs_perm P' _ its' (Nat.le_refl _)
  obtain ⟨h1, h2, h3⟩ := dedup_spec L' _ (allOuts_ascending L' hn' _ its' rfl
    (fun v hv => (ascending_val v).1 (hs _ (List.mem_map_of_mem hv))))
  refine ⟨_, ?_, returns_iff hr'⟩
  rw [← flatten_val]
  exact onePerKey_val ⟨h1, fun r hr => hall.mem_iff.1 (h2 r hr), fun r hr => h3 r (hall.mem_iff.2 hr)⟩

/-- the same with the pushed-down limit, if no key occurs twice -/
theorem distinct_cut {P : R → Prop} {cmp : R → R → Int} (L : CmpOn P cmp) (hn : NormalOn P cmp) (its : List (List R))
    (hP : ∀ l ∈ its, ∀ r ∈ l, P r) (hs : ∀ l ∈ its, Ascending cmp l) (hne : its.flatten.Pairwise fun a b => cmp a b ≠ 0)
    (limit offset : Option Nat) (hlen : its.flatten.length + 1 < 2 ^ 63 - 1) :
    ∃ m, OnePerKey cmp its.flatten m ∧
      ∀ out, Returns cmp .distinct limit (offset.getD 0) (its.map (cut limit (offset.getD 0))) out ↔ out = page limit (offset.getD 0) m := by
  obtain ⟨its', rfl⟩ := lift_lists its hP
  have L' := L.sub
  have hn' : Normal (fun a b : { r // P r } => cmp a.1 b.1) := fun a b h => hn _ _ a.2 b.2 h
  rw [flatten_map_length] at hlen
  rw [← flatten_val, List.pairwise_map] at hne
  obtain ⟨m, h1, h3⟩ := distinct_generic L' hn' _ (mergeSort_sorts L') ⟨true, true, true, limit, offset⟩ rfl rfl its'
    (fun _ => ⟨fun v hv => (ascending_val v).1 (hs _ (List.mem_map_of_mem hv)), hne⟩) hlen
  have hr := (h3 _).2 rfl
  unfold Sel.Runs at hr
  simp only [cut_backend (cmp := fun a b : { r // P r } => cmp a.1 b.1), Sel.union, if_true] at hr
  have hr' := returns_map Subtype.val cmp .distinct _ _ _ _ hr
  rw [← page_map, List.map_map] at hr'
  rw [List.map_map]
  rw [show ((⟨true, true, true, limit, offset⟩ : Sel).backend fun l => l.mergeSort fun (a b : { r // P r }) => decide (cmp a.1 b.1 ≤ 0)) =
    fun l => cut limit (offset.getD 0) l from funext fun l => cut_backend (cmp := fun a b : { r // P r } => cmp a.1 b.1) limit offset _ true true l] at hr'
  refine ⟨m.map Subtype.val, ?_, returns_iff ?_⟩
  · rw [← flatten_val]; exact onePerKey_val h1
  · have e : (List.map Subtype.val ∘ fun (l : List { r // P r }) => cut limit (offset.getD 0) l) =
        (cut limit (offset.getD 0) ∘ List.map Subtype.val) := by
      funext l; exact (cut_map limit (offset.getD 0) l).symm
    rw [← e]; exact hr'

/-! ## One set -/

/-- the sign of a comparison -/
def sgn (i : Int) : Int := if i < 0 then -1 else if 0 < i then 1 else 0

theorem sgn_neg (i : Int) : sgn i < 0 ↔ i < 0 := by unfold sgn; split <;> (try split) <;> omega
theorem sgn_pos (i : Int) : 0 < sgn i ↔ 0 < i := by unfold sgn; split <;> (try split) <;> omega
theorem sgn_le (i : Int) : sgn i ≤ 0 ↔ i ≤ 0 := by unfold sgn; split <;> (try split) <;> omega
theorem sgn_zero (i : Int) : sgn i = 0 ↔ i = 0 := by unfold sgn; split <;> (try split) <;> omega
theorem sgn_one (i : Int) (h : 0 < sgn i) : sgn i = 1 := by unfold sgn at *; split <;> (try split) <;> simp_all

theorem advance_one {p : UPos R} (h : p.its.length ≤ 1) : p.advance.length ≤ 1 := by
  unfold UPos.advance; cases p.cur <;> simpa using h

theorem pickLeast_one {c d : R → R → Int} {its : List (List R)} (h : its.length ≤ 1) : pickLeast c its = pickLeast d its := by
  match its, h with
  | [], _ => rfl
  | [l], _ => cases l <;> rfl

theorem stepWith_one {c d : R → R → Int} {p : UPos R} (h : p.its.length ≤ 1) :
    stepWith (pickLeast c) p = stepWith (pickLeast d) p ∧ (stepWith (pickLeast d) p).1.its.length ≤ 1 := by
  refine ⟨?_, advance_one h⟩
  unfold stepWith
  rw [pickLeast_one (advance_one h)]

theorem skipEqual_one {c d : R → R → Int} (hcd : ∀ a b, c a b = 0 ↔ d a b = 0) (first : R) : ∀ (n : Nat) (p : UPos R),
    p.its.length ≤ 1 → skipEqual c first n p = skipEqual d first n p ∧ (skipEqual d first n p).its.length ≤ 1 := by
  intro n
  induction n with
  | zero => intro p h; exact ⟨rfl, h⟩
  | succ n ih =>
    intro p h
    obtain ⟨e, h'⟩ := stepWith_one (c := c) (d := d) h
    unfold skipEqual
    rw [e]
    cases (stepWith (pickLeast d) p).2 with
    | none => exact ⟨rfl, h'⟩
    | some x =>
      dsimp only
      by_cases hx : d first x = 0
      · simp only [hx, (hcd first x).2 hx, if_true]; exact ih _ h'
      · have hy : ¬ c first x = 0 := fun h => hx ((hcd first x).1 h)
        simp only [hx, hy, if_false]; exact ⟨trivial, h'⟩

theorem stepDistinct_one {c d : R → R → Int} (hcd : ∀ a b, c a b = 0 ↔ d a b = 0) {p : UPos R} (h : p.its.length ≤ 1) :
    stepDistinct c p = stepDistinct d p ∧ (stepDistinct d p).1.its.length ≤ 1 := by
  have hf : distinctFirst c p = distinctFirst d p ∧ (distinctFirst d p).1.its.length ≤ 1 := by
    unfold distinctFirst
    cases p.cur with
    | none => exact stepWith_one h
    | some i => exact ⟨rfl, h⟩
  unfold stepDistinct
  rw [hf.1]
  cases (distinctFirst d p).2 with
  | none => exact ⟨rfl, hf.2⟩
  | some x =>
    dsimp only
    have := skipEqual_one hcd x ((distinctFirst d p).1.its.flatten.length + 1) _ hf.2
    exact ⟨by rw [this.1], this.2⟩

theorem streams_one {c d : R → R → Int} (hcd : ∀ a b, c a b = 0 ↔ d a b = 0) {p : UPos R} {out : List R}
    (h : Streams (stepOf d .distinct) p out) : p.its.length ≤ 1 → Streams (stepOf c .distinct) p out := by
  induction h with
  | done p h =>
    intro hp
    refine .done _ ?_
    show (stepDistinct c p).2 = none
    rw [(stepDistinct_one hcd hp).1]; exact h
  | more p r l h _ ih =>
    intro hp
    have e := stepDistinct_one hcd hp
    refine .more _ r l ?_ ?_
    · show (stepDistinct c p).2 = some r
      rw [e.1]; exact h
    · show Streams (stepOf c .distinct) (stepDistinct c p).1 l
      rw [e.1]; exact ih e.2

/-- a distinct union of one ascending set; any comparison, also of text -/
theorem distinct_one {P : R → Prop} {cmp : R → R → Int} (L : CmpOn P cmp) (l : List R)
    (hP : ∀ r ∈ l, P r) (hs : Ascending cmp l) (limit : Option Nat) (offset : Nat) (hlen : l.length + 1 < 2 ^ 63 - 1) :
    ∃ m, OnePerKey cmp l m ∧ ∀ out, Returns cmp .distinct limit offset [l] out ↔ out = page limit offset m := by
  obtain ⟨l', rfl⟩ := lift_list l hP
  have L' := L.sub
  have Ls : CmpLaws (fun a b : { r // P r } => sgn (cmp a.1 b.1)) :=
    ⟨fun a b => (sgn_neg _).trans ((L'.anti a b).trans (sgn_pos _).symm),
     fun a b c h1 h2 => (sgn_le _).2 (L'.trans a b c ((sgn_le _).1 h1) ((sgn_le _).1 h2))⟩
  have hns : Normal (fun a b : { r // P r } => sgn (cmp a.1 b.1)) := fun a b h => sgn_one _ h
  have hz : ∀ a b : { r // P r }, cmp a.1 b.1 = 0 ↔ sgn (cmp a.1 b.1) = 0 := fun a b => (sgn_zero _).symm
  have Ps := pickLeast_picks Ls hns
  have hst := streams_one hz (distinct_streams Ls hns [l']) (by simp)
  have hall := outs_perm Ps _ [l'] (Nat.le_refl _)
  have hss : ∀ v ∈ [l'], Ascending (fun a b : { r // P r } => sgn (cmp a.1 b.1)) v := by
    intro v hv
    have : v = l' := by simpa using hv
    subst this
    have h0 := (ascending_val v).1 hs
    unfold Ascending at *
    refine h0.imp ?_
    intro a b h; exact (sgn_le _).2 h
  have hr := returns_of_streams hst (Nat.le_trans (dedup_length _ _) (Nat.le_of_eq (allOuts_length Ps _)))
    (by simpa using hlen) limit offset
  have hr' := returns_map Subtype.val cmp .distinct limit offset [l'] _ hr
  rw [← page_map] at hr'
  obtain ⟨h1, h2, h3⟩ := dedup_spec Ls _ (allOuts_ascending Ls hns _ [l'] rfl hss)
  refine ⟨_, ?_, returns_iff hr'⟩
  have hmem : ∀ r, r ∈ allOuts (pickLeast fun a b : { r // P r } => sgn (cmp a.1 b.1)) [l'] ↔ r ∈ l' := by
    intro r
    have := hall.mem_iff (a := r)
    unfold allOuts
    simpa only [List.flatten_cons, List.flatten_nil, List.append_nil] using this
  refine onePerKey_val ⟨?_, fun r hr => (hmem r).1 (h2 r hr), fun r hr => ?_⟩
  · refine h1.imp ?_
    intro a b h; exact (sgn_neg _).1 h
  · obtain ⟨r', h, e⟩ := h3 r ((hmem r).2 hr)
    exact ⟨r', h, (hz r' r).2 e⟩

/-- an ordered union of one set returns it as it is -/
theorem ordered_one (cmp : R → R → Int) (l : List R) (limit : Option Nat) (offset : Nat) (hlen : l.length + 1 < 2 ^ 63 - 1) :
    ∀ out, Returns cmp .ordered limit offset [l] out ↔ out = page limit offset l := by
  have hst : ∀ (n : Nat) (l : List R) (p : UPos R), l.length = n → p.advance = [l] → Streams (stepOf cmp .ordered) p l := by
    intro n
    induction n with
    | zero =>
      intro l p hl hp
      have : l = [] := List.length_eq_zero_iff.1 hl
      subst this
      exact .done _ (by simp only [stepOf, stepWith, hp]; rfl)
    | succ n ih =>
      intro l p hl hp
      cases l with
      | nil => simp at hl
      | cons a l =>
        refine .more _ a l (by simp only [stepOf, stepWith, hp]; rfl) ?_
        refine ih l _ (by simpa using hl) ?_
        simp only [stepOf, stepWith, hp]; rfl
  exact returns_iff (returns_of_streams (hst _ l ⟨[l], none⟩ rfl rfl) (by simp) (by simpa using hlen) limit offset)

/-- the union of a plain scan with the pushed-down limit -/
theorem all_cut (cmp : R → R → Int) (its : List (List R)) (limit offset : Option Nat) (hlen : its.flatten.length + 1 < 2 ^ 63 - 1) :
    ∃ m, m.Perm its.flatten ∧
      ∀ out, Returns cmp .all limit (offset.getD 0) (its.map (cut limit (offset.getD 0))) out ↔ out = page limit (offset.getD 0) m := by
  obtain ⟨m, h1, h2⟩ := C61_limit cmp id ⟨false, true, false, limit, offset⟩ rfl its hlen
  refine ⟨m, h1, ?_⟩
  intro out
  have := h2 out
  unfold Sel.Runs at this
  have e : its.map ((⟨false, true, false, limit, offset⟩ : Sel).backend id) = its.map (cut limit (offset.getD 0)) :=
    List.map_congr_left fun l _ => cut_backend (cmp := cmp) limit offset id false false l
  rw [e] at this
  exact this

end Verif.Query
