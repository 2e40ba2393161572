import Verif.Json.Skip
set_option linter.unusedSimpArgs false
/-!
# json_compare is the lexicographic order of the token sequence
-/
namespace Verif.Json
open Verif

/-- a C comparison result from an `Ordering` -/
def ordInt : Ordering → Int
  | .lt => -1
  | .eq => 0
  | .gt => 1

mutual
/-- Order key of a value: its sequence of tokens, each a list of numbers
(kind, then the scalar's content); spec for the comparison order. -/
def key : J → List (List Int)
  | .null   => [[0]]
  | .bool b => [[1, if b then 1 else 0]]
  | .real r => [[3, f64key r]]
  | .int i  => [[5, i]]
  | .str s  => [42 :: s.map Int.ofNat]
  | .obj l  => [78] :: (keyFields l ++ [[79]])
  | .arr l  => [80] :: (keyList l ++ [[81]])
def keyList : List J → List (List Int)
  | []     => []
  | v :: t => key v ++ keyList t
def keyFields : List (Bytes × J) → List (List Int)
  | []          => []
  | (k, v) :: t => (42 :: k.map Int.ofNat) :: (key v ++ keyFields t)
end

mutual
/-- no NaN inside the value -/
def NoNaN : J → Prop
  | .real r => f64isNaN r = false
  | .arr l  => NoNaNList l
  | .obj l  => NoNaNFields l
  | .null | .bool _ | .int _ | .str _ => True
def NoNaNList : List J → Prop
  | []     => True
  | v :: t => NoNaN v ∧ NoNaNList t
def NoNaNFields : List (Bytes × J) → Prop
  | []          => True
  | (_, v) :: t => NoNaN v ∧ NoNaNFields t
end

/-- kind rank of a value, the first number of its key -/
def rank : J → Int
  | .null => 0 | .bool _ => 1 | .real _ => 3 | .int _ => 5 | .str _ => 42 | .obj _ => 78 | .arr _ => 80

mutual
/-- structural comparison -/
def cmpJ : J → J → Ordering
  | .null, .null => .eq
  | .bool a, .bool b => Ord.compare (if a then (1 : Int) else 0) (if b then 1 else 0)
  | .real a, .real b => Ord.compare (f64key a) (f64key b)
  | .int a, .int b => Ord.compare a b
  | .str a, .str b => Ord.compare (a.map Int.ofNat) (b.map Int.ofNat)
  | .arr a, .arr b => cmpL a b
  | .obj a, .obj b => cmpF a b
  | a, b => Ord.compare (rank a) (rank b)
def cmpL : List J → List J → Ordering
  | [], [] => .eq
  | [], _ :: _ => .gt
  | _ :: _, [] => .lt
  | a :: as, b :: bs => (cmpJ a b).then (cmpL as bs)
def cmpF : List (Bytes × J) → List (Bytes × J) → Ordering
  | [], [] => .eq
  | [], _ :: _ => .gt
  | _ :: _, [] => .lt
  | (k, a) :: as, (k', b) :: bs =>
    (Ord.compare (k.map Int.ofNat) (k'.map Int.ofNat)).then ((cmpJ a b).then (cmpF as bs))
end

theorem key_head (v : J) : ∃ x r, key v = (rank v :: x) :: r := by
  cases v <;> simp [key, rank]

theorem rank_lt (v : J) : rank v < 81 := by cases v <;> simp [rank]

theorem cmp_cons {α} [Ord α] (a b : α) (s t : List α) :
    Ord.compare (a :: s) (b :: t) = (Ord.compare a b).then (Ord.compare s t) :=
  List.compare_cons_cons

theorem cmp_self (a : Int) : Ord.compare a a = .eq := by simp [Std.compare_self]

theorem cmpInt_lt {a b : Int} (h : a < b) : Ord.compare a b = .lt := Int.compare_eq_lt.2 h

theorem cmpInt_gt {a b : Int} (h : b < a) : Ord.compare a b = .gt := Int.compare_eq_gt.2 h

theorem key_mismatch (a b : J) (p q : List (List Int)) (h : rank a ≠ rank b) :
    Ord.compare (key a ++ p) (key b ++ q) = (Ord.compare (rank a) (rank b)).then (Ord.compare p q) := by
  obtain ⟨x, r, hx⟩ := key_head a
  obtain ⟨y, s, hy⟩ := key_head b
  rw [hx, hy, List.cons_append, List.cons_append, cmp_cons, cmp_cons]
  rcases Int.lt_or_gt_of_ne h with h | h
  · simp [cmpInt_lt h]
  · simp [cmpInt_gt h]

theorem then_assoc (a b c : Ordering) : (a.then b).then c = a.then (b.then c) := by
  cases a <;> rfl

mutual
theorem key_cmp : (a b : J) → ∀ (p q : List (List Int)),
    Ord.compare (key a ++ p) (key b ++ q) = (cmpJ a b).then (Ord.compare p q)
  | .null, .null, p, q => by simp [key, cmpJ, cmp_cons]
  | .bool a, .bool b, p, q => by
      simp only [key, cmpJ, List.cons_append, List.nil_append, cmp_cons, cmp_self]; cases a <;> cases b <;> rfl
  | .real a, .real b, p, q => by simp [key, cmpJ, cmp_cons, then_assoc]
  | .int a, .int b, p, q => by simp [key, cmpJ, cmp_cons, then_assoc]
  | .str a, .str b, p, q => by simp [key, cmpJ, cmp_cons]
  | .arr a, .arr b, p, q => by
      have := keyList_cmp a b p q
      simp only [key, cmpJ, List.cons_append, cmp_cons, List.append_assoc, List.nil_append, cmp_self]
      simpa using this
  | .obj a, .obj b, p, q => by
      have := keyFields_cmp a b p q
      simp only [key, cmpJ, List.cons_append, cmp_cons, List.append_assoc, List.nil_append, cmp_self]
      simpa using this
  | .null, .bool _, p, q | .null, .real _, p, q | .null, .int _, p, q | .null, .str _, p, q
  | .null, .arr _, p, q | .null, .obj _, p, q
  | .bool _, .null, p, q | .bool _, .real _, p, q | .bool _, .int _, p, q | .bool _, .str _, p, q
  | .bool _, .arr _, p, q | .bool _, .obj _, p, q
  | .real _, .null, p, q | .real _, .bool _, p, q | .real _, .int _, p, q | .real _, .str _, p, q
  | .real _, .arr _, p, q | .real _, .obj _, p, q
  | .int _, .null, p, q | .int _, .real _, p, q | .int _, .bool _, p, q | .int _, .str _, p, q
  | .int _, .arr _, p, q | .int _, .obj _, p, q
  | .str _, .null, p, q | .str _, .real _, p, q | .str _, .int _, p, q | .str _, .bool _, p, q
  | .str _, .arr _, p, q | .str _, .obj _, p, q
  | .arr _, .null, p, q | .arr _, .real _, p, q | .arr _, .int _, p, q | .arr _, .str _, p, q
  | .arr _, .bool _, p, q | .arr _, .obj _, p, q
  | .obj _, .null, p, q | .obj _, .real _, p, q | .obj _, .int _, p, q | .obj _, .str _, p, q
  | .obj _, .arr _, p, q | .obj _, .bool _, p, q => by
      rw [key_mismatch _ _ _ _ (by simp [rank])]; rfl
theorem keyList_cmp : (a b : List J) → ∀ (p q : List (List Int)),
    Ord.compare (keyList a ++ ([81] :: p)) (keyList b ++ ([81] :: q)) = (cmpL a b).then (Ord.compare p q)
  | [], [], p, q => by simp [keyList, cmpL, cmp_cons]
  | [], v :: t, p, q => by
      obtain ⟨x, r, hx⟩ := key_head v
      simp [keyList, cmpL, hx, cmp_cons, cmpInt_gt (rank_lt v)]
  | v :: t, [], p, q => by
      obtain ⟨x, r, hx⟩ := key_head v
      simp [keyList, cmpL, hx, cmp_cons, cmpInt_lt (rank_lt v)]
  | a :: as, b :: bs, p, q => by
      have h1 := key_cmp a b (keyList as ++ ([81] :: p)) (keyList bs ++ ([81] :: q))
      have h2 := keyList_cmp as bs p q
      simp only [keyList, cmpL, List.append_assoc, h1, h2, then_assoc]
theorem keyFields_cmp : (a b : List (Bytes × J)) → ∀ (p q : List (List Int)),
    Ord.compare (keyFields a ++ ([79] :: p)) (keyFields b ++ ([79] :: q)) = (cmpF a b).then (Ord.compare p q)
  | [], [], p, q => by simp [keyFields, cmpF, cmp_cons]
  | [], (k, v) :: t, p, q => by
      simp [keyFields, cmpF, cmp_cons, cmpInt_gt (show (42 : Int) < 79 by omega)]
  | (k, v) :: t, [], p, q => by
      simp [keyFields, cmpF, cmp_cons, cmpInt_lt (show (42 : Int) < 79 by omega)]
  | (k, a) :: as, (k', b) :: bs, p, q => by
      have h1 := key_cmp a b (keyFields as ++ ([79] :: p)) (keyFields bs ++ ([79] :: q))
      have h2 := keyFields_cmp as bs p q
      simp only [keyFields, cmpF, List.append_assoc, List.cons_append, cmp_cons, cmp_self, h1, h2, then_assoc]
      rfl
end

theorem cmpJ_eq (a b : J) : cmpJ a b = Ord.compare (key a) (key b) := by
  have := key_cmp a b [] []
  simp at this
  exact this.symm

/-! the C comparison functions as `Ordering`s -/

theorem cmpInt_eq (a b : Int) : cmpInt a b = ordInt (Ord.compare a b) := by
  unfold cmpInt
  rcases Int.lt_trichotomy a b with h | h | h
  · rw [cmpInt_lt h, if_neg (by omega), if_pos h]; rfl
  · subst h; simp [ordInt]
  · rw [cmpInt_gt h, if_pos h, if_neg (by omega)]; rfl

theorem cmpStr_eq (a b : Bytes) : cmpStr a b = ordInt (Ord.compare (a.map Int.ofNat) (b.map Int.ofNat)) := by
  induction a generalizing b with
  | nil =>
    cases b with
    | nil => rfl
    | cons y ys => rfl
  | cons x xs ih =>
    cases b with
    | nil => rfl
    | cons y ys =>
      simp only [cmpStr, List.map_cons, cmp_cons]
      rcases Nat.lt_trichotomy x y with h | h | h
      · rw [if_pos h, cmpInt_lt (by simpa using h)]; rfl
      · subst h; simp [ih]
      · rw [if_neg (by omega), if_pos h, cmpInt_gt (by simpa using h)]; rfl

theorem ordInt_zero (o : Ordering) : ordInt o = 0 ↔ o = .eq := by cases o <;> simp [ordInt]

/-! simulation of the loop -/

/-- what the loop does with an `Ordering` found for two documents -/
def cmpCont (o : Ordering) (f : Nat) (level : Int) (ra rb : Bytes) : Res Int :=
  match o with
  | .lt => .ok (-1)
  | .gt => .ok 1
  | .eq => if level > 0 then cmpLoop f level ra rb else .ok 0

theorem cmpLoop_ret {level rc : Int} {a b : Bytes} (f : Nat) (h : cmpStep level a b = .ok (.ret rc)) :
    cmpLoop (f + 1) level a b = .ok rc := by
  simp only [cmpLoop, h, bind, Except.bind]

theorem cmpLoop_next {level l' : Int} {a b a' b' : Bytes} (f : Nat) (h : cmpStep level a b = .ok (.next a' b' l')) :
    cmpLoop (f + 1) level a b = if l' > 0 then cmpLoop f l' a' b' else .ok 0 := by
  simp only [cmpLoop, h, bind, Except.bind]

/-- scalar step -/
theorem cmpLoop_scalar {level : Int} {a b ra rb : Bytes} (f : Nat) (o : Ordering)
    (h : cmpStep level a b = if ordInt o ≠ 0 then .ok (.ret (ordInt o)) else .ok (.next ra rb level)) :
    cmpLoop (f + 1) level a b = cmpCont o f level ra rb := by
  cases o
  · simp [ordInt] at h; rw [cmpLoop_ret f h]; rfl
  · simp [ordInt] at h; rw [cmpLoop_next f h]; rfl
  · simp [ordInt] at h; rw [cmpLoop_ret f h]; rfl

/-- first tag and class of a document -/
def cls : J → Cls
  | .null => .null | .bool _ => .bool | .real _ => .real | .int _ => .int | .str _ => .str
  | .obj _ => .obj | .arr _ => .arr

theorem enc_tag (v : J) : ∃ t r, enc v = t :: r ∧ clsOf t = cls v ∧
    ((t : Int) < 81) ∧ (∀ w u s, enc w = u :: s → rank v < rank w → (t : Int) < u) := by
  have hh : ∀ w : J, ∃ t r, enc w = t :: r ∧ clsOf t = cls w ∧ t < 81 ∧
      (rank w : Int) ≤ t ∧ ∀ w', rank w < rank w' → (t : Int) < rank w' := by
    intro w
    cases w with
    | null => exact ⟨0, [], by simp [enc], by decide, by omega, by simp [rank], by intro w'; cases w' <;> simp [rank]⟩
    | bool b =>
      obtain ⟨t, h, ht⟩ := writeBool_head b
      refine ⟨t, [], by simp [enc, h], by rcases ht with rfl | rfl <;> rfl, by omega, by simp [rank]; omega, ?_⟩
      intro w'; cases w' <;> simp [rank] <;> omega
    | real q =>
      obtain ⟨t, r, h, ht⟩ := writeReal_head q
      refine ⟨t, r, by simp [enc, h], by rcases ht with rfl | rfl <;> rfl, by omega, by simp [rank]; omega, ?_⟩
      intro w'; cases w' <;> simp [rank] <;> omega
    | int q =>
      obtain ⟨t, r, h, ht⟩ := writeInteger_head q
      refine ⟨t, r, by simp [enc, h], by simp [cls, clsOf_int t ht], by omega, by simp [rank]; omega, ?_⟩
      intro w'; cases w' <;> simp [rank] <;> omega
    | str q =>
      obtain ⟨t, r, h, ht⟩ := writeRaw_head q
      refine ⟨t, r, by simp [enc, h], by simp [cls, clsOf_str t ht], by omega, by simp [rank]; omega, ?_⟩
      intro w'; cases w' <;> simp [rank] <;> omega
    | obj q =>
      refine ⟨78, encFields q ++ [79], by simp [enc], by rfl, by omega, by simp [rank], ?_⟩
      intro w'; cases w' <;> simp [rank]
    | arr q =>
      refine ⟨80, encList q ++ [81], by simp [enc], by rfl, by omega, by simp [rank], ?_⟩
      intro w'; cases w' <;> simp [rank]
  obtain ⟨t, r, h, hc, hlt, h1, h2⟩ := hh v
  refine ⟨t, r, h, hc, by omega, ?_⟩
  intro w u s hu hr
  obtain ⟨t', r', h', _, _, h1', _⟩ := hh w
  rw [hu] at h'
  have : u = t' := by simp at h'; exact h'.1
  have := h2 w hr
  omega

theorem cmpStep_mismatch (level : Int) {ta tb : Nat} (ra rb : Bytes) (h : clsOf ta ≠ clsOf tb)
    (hb : clsOf ta ≠ .bad) : cmpStep level (ta :: ra) (tb :: rb) = .ok (.ret (cmpInt ta tb)) := by
  unfold cmpStep
  simp only [peek, bind, Except.bind]
  cases hc : clsOf ta <;> simp only [hc] at h hb ⊢ <;> first | (rw [if_pos (Ne.symm h)]) | exact absurd rfl hb

theorem cls_ne_of_rank {a b : J} (h : rank a ≠ rank b) : cls a ≠ cls b := by
  cases a <;> cases b <;> simp [rank, cls] at h ⊢

theorem cls_ne_bad (a : J) : cls a ≠ .bad := by cases a <;> simp [cls]

theorem cmpLoop_mismatch (a b : J) (f : Nat) (level : Int) (ra rb : Bytes) (h : rank a ≠ rank b) :
    cmpLoop (f + 1) level (enc a ++ ra) (enc b ++ rb) = .ok (ordInt (Ord.compare (rank a) (rank b))) := by
  obtain ⟨t, r, ha, hca, _, hra⟩ := enc_tag a
  obtain ⟨u, s, hb, hcb, _, hrb⟩ := enc_tag b
  have hne : clsOf t ≠ clsOf u := by rw [hca, hcb]; exact cls_ne_of_rank h
  have := cmpStep_mismatch level (r ++ ra) (s ++ rb) hne (by rw [hca]; exact cls_ne_bad a)
  rw [ha, hb, List.cons_append, List.cons_append, cmpLoop_ret f this]
  rcases Int.lt_or_gt_of_ne h with h | h
  · have := hra b u s hb h
    rw [cmpInt_eq, cmpInt_lt this, cmpInt_lt h]
  · have := hrb a t r ha h
    rw [cmpInt_eq, cmpInt_gt this, cmpInt_gt h]

theorem cmpCont_ne {o : Ordering} (h : o ≠ .eq) (f : Nat) (level : Int) (ra rb : Bytes) :
    cmpCont o f level ra rb = .ok (ordInt o) := by
  cases o <;> first | rfl | exact absurd rfl h

theorem cmp_int_ne {a b : Int} (h : a ≠ b) : Ord.compare a b ≠ .eq := by
  simpa using h

theorem storedReal_nan (r : Nat) (h : f64isNaN r = false) : f64isNaN (storedReal r) = false := by
  unfold storedReal
  split
  · rename_i hr
    simp [inFloatRange] at hr
    unfold f64OfF32 f32OfF64 f64isNaN f64mag
    simp only [decide_eq_false_iff_not]
    split
    · rw [if_neg (by omega), if_neg (by omega)]
      omega
    · rw [if_neg (by omega), if_neg (by omega)]
      omega
  · exact h

theorem rank_stored (v : J) : rank (stored v) = rank v := by cases v <;> rfl

theorem cmpJ_mismatch {a b : J} (h : rank a ≠ rank b) : cmpJ a b = Ord.compare (rank a) (rank b) := by
  cases a <;> cases b <;> first | rfl | exact absurd rfl h

theorem ntok_pos (v : J) : 1 ≤ ntok v := by cases v <;> simp [ntok]

theorem sim_mismatch (a b : J) (f : Nat) (level : Int) (ra rb : Bytes) (h : rank a ≠ rank b) :
    cmpLoop (f + ntok a) level (enc a ++ ra) (enc b ++ rb) = cmpCont (cmpJ (stored a) (stored b)) f level ra rb := by
  have h' : rank (stored a) ≠ rank (stored b) := by rw [rank_stored, rank_stored]; exact h
  have := ntok_pos a
  rw [show f + ntok a = (f + (ntok a - 1)) + 1 by omega, cmpLoop_mismatch a b _ level ra rb h,
    cmpJ_mismatch h', cmpCont_ne (cmp_int_ne h'), rank_stored, rank_stored]

theorem cmpLoop_scalar' {level : Int} {a b ra rb : Bytes} (f : Nat) (o : Ordering) (rc : Int) (hrc : rc = ordInt o)
    (h : cmpStep level a b = if rc ≠ 0 then .ok (.ret rc) else .ok (.next ra rb level)) :
    cmpLoop (f + 1) level a b = cmpCont o f level ra rb := by
  subst hrc; exact cmpLoop_scalar f o h

theorem cmpStep_int {i j : Int} (h1 : -(2 ^ 63) ≤ i ∧ i < 2 ^ 63) (h2 : -(2 ^ 63) ≤ j ∧ j < 2 ^ 63)
    (level : Int) (ra rb : Bytes) :
    cmpStep level (writeInteger i ++ ra) (writeInteger j ++ rb) =
      if cmpInt i j ≠ 0 then .ok (.ret (cmpInt i j)) else .ok (.next ra rb level) := by
  have e1 := readInteger_write i h1.1 h1.2 ra
  have e2 := readInteger_write j h2.1 h2.2 rb
  obtain ⟨t, r, h, ht⟩ := writeInteger_head i
  obtain ⟨u, s, g, gt⟩ := writeInteger_head j
  rw [h] at e1 ⊢; rw [g] at e2 ⊢
  simp only [cmpStep, List.cons_append, peek, bind, Except.bind, clsOf_int t ht, clsOf_int u gt] at e1 e2 ⊢
  simp [e1, e2]

theorem cmpStep_str {i j : Bytes} (h1 : i.length < 2 ^ 31) (h2 : j.length < 2 ^ 31) (level : Int) (ra rb : Bytes) :
    cmpStep level (writeRaw i ++ ra) (writeRaw j ++ rb) =
      if cmpStr i j ≠ 0 then .ok (.ret (cmpStr i j)) else .ok (.next ra rb level) := by
  have e1 := readRaw_write i h1 ra
  have e2 := readRaw_write j h2 rb
  obtain ⟨t, r, h, ht⟩ := writeRaw_head i
  obtain ⟨u, s, g, gt⟩ := writeRaw_head j
  rw [h] at e1 ⊢; rw [g] at e2 ⊢
  simp only [cmpStep, List.cons_append, peek, bind, Except.bind, clsOf_str t ht, clsOf_str u gt] at e1 e2 ⊢
  simp [e1, e2]

theorem cmpStep_real {i j : Nat} (h1 : i < 2 ^ 64) (h2 : j < 2 ^ 64) (level : Int) (ra rb : Bytes) :
    cmpStep level (writeReal i ++ ra) (writeReal j ++ rb) =
      if cmpDouble (storedReal i) (storedReal j) ≠ 0 then .ok (.ret (cmpDouble (storedReal i) (storedReal j)))
      else .ok (.next ra rb level) := by
  have e1 := readReal_write i h1 ra
  have e2 := readReal_write j h2 rb
  obtain ⟨t, r, h, ht⟩ := writeReal_head i
  obtain ⟨u, s, g, gt⟩ := writeReal_head j
  rw [h] at e1 ⊢; rw [g] at e2 ⊢
  have hc : clsOf t = .real := by rcases ht with rfl | rfl <;> decide
  have hd : clsOf u = .real := by rcases gt with rfl | rfl <;> decide
  simp only [cmpStep, List.cons_append, peek, bind, Except.bind, hc, hd] at e1 e2 ⊢
  simp [e1, e2]

theorem cmpCont_then (o p : Ordering) (f f' : Nat) (level : Int) (hl : 0 < level) (x y ra rb : Bytes)
    (h : cmpLoop f level x y = cmpCont p f' level ra rb) :
    cmpCont o f level x y = cmpCont (o.then p) f' level ra rb := by
  cases o
  · rfl
  · simp only [cmpCont, Ordering.then]; rw [if_pos hl, h]; rfl
  · rfl

theorem cmpLoop_down {o : Ordering} {f : Nat} {level : Int} {x y ra rb : Bytes} (hl : 0 ≤ level)
    (h : cmpStep (level + 1) x y = .ok (.next ra rb level)) :
    cmpCont o (f + 1) (level + 1) x y = cmpCont o f level ra rb := by
  cases o
  · rfl
  · simp only [cmpCont]
    rw [if_pos (by omega), cmpLoop_next f h]
  · rfl

theorem cmpStep_arrEnd (level : Int) (ra rb : Bytes) :
    cmpStep (level + 1) (tARRAY_END :: ra) (tARRAY_END :: rb) = .ok (.next ra rb level) := by
  simp only [cmpStep, peek, bind, Except.bind, show clsOf tARRAY_END = .arrEnd by decide]
  simp

theorem cmpStep_objEnd (level : Int) (ra rb : Bytes) :
    cmpStep (level + 1) (tOBJ_END :: ra) (tOBJ_END :: rb) = .ok (.next ra rb level) := by
  simp only [cmpStep, peek, bind, Except.bind, show clsOf tOBJ_END = .objEnd by decide]
  simp

theorem cmpStep_arr (level : Int) (ra rb : Bytes) :
    cmpStep level (tARRAY :: ra) (tARRAY :: rb) = .ok (.next ra rb (level + 1)) := by
  simp only [cmpStep, peek, bind, Except.bind, show clsOf tARRAY = .arr by decide]
  simp

theorem cmpStep_obj (level : Int) (ra rb : Bytes) :
    cmpStep level (tOBJ :: ra) (tOBJ :: rb) = .ok (.next ra rb (level + 1)) := by
  simp only [cmpStep, peek, bind, Except.bind, show clsOf tOBJ = .obj by decide]
  simp

theorem cmpLoop_arrEnd_left (v : J) (f : Nat) (level : Int) (ra rb : Bytes) :
    cmpLoop (f + 1) level (tARRAY_END :: ra) (enc v ++ rb) = .ok 1 := by
  obtain ⟨t, r, h, hc, hlt, _⟩ := enc_tag v
  rw [h, List.cons_append, cmpLoop_ret f (cmpStep_mismatch level ra _ (ta := tARRAY_END) (tb := t)
    (by rw [hc]; cases v <;> simp [cls, clsOf]) (by decide))]
  rw [cmpInt_eq, cmpInt_gt (by omega)]; rfl

theorem cmpLoop_arrEnd_right (v : J) (f : Nat) (level : Int) (ra rb : Bytes) :
    cmpLoop (f + 1) level (enc v ++ ra) (tARRAY_END :: rb) = .ok (-1) := by
  obtain ⟨t, r, h, hc, hlt, _⟩ := enc_tag v
  rw [h, List.cons_append, cmpLoop_ret f (cmpStep_mismatch level _ rb (ta := t) (tb := tARRAY_END)
    (by rw [hc]; cases v <;> simp [cls, clsOf]) (by rw [hc]; exact cls_ne_bad v))]
  rw [cmpInt_eq, cmpInt_lt (by omega)]; rfl

theorem cmpLoop_objEnd_left (s : Bytes) (f : Nat) (level : Int) (ra rb : Bytes) :
    cmpLoop (f + 1) level (tOBJ_END :: ra) (writeRaw s ++ rb) = .ok 1 := by
  obtain ⟨t, r, h, ht⟩ := writeRaw_head s
  rw [h, List.cons_append, cmpLoop_ret f (cmpStep_mismatch level ra _ (ta := tOBJ_END) (tb := t)
    (by rw [clsOf_str t ht]; decide) (by decide))]
  rw [cmpInt_eq, cmpInt_gt (by omega)]; rfl

theorem cmpLoop_objEnd_right (s : Bytes) (f : Nat) (level : Int) (ra rb : Bytes) :
    cmpLoop (f + 1) level (writeRaw s ++ ra) (tOBJ_END :: rb) = .ok (-1) := by
  obtain ⟨t, r, h, ht⟩ := writeRaw_head s
  rw [h, List.cons_append, cmpLoop_ret f (cmpStep_mismatch level _ rb (ta := t) (tb := tOBJ_END)
    (by rw [clsOf_str t ht]; decide) (by rw [clsOf_str t ht]; decide))]
  rw [cmpInt_eq, cmpInt_lt (by omega)]; rfl

mutual
theorem sim : (a b : J) → WF a → WF b → NoNaN a → NoNaN b → ∀ (f : Nat) (level : Int) (ra rb : Bytes), 0 ≤ level →
    cmpLoop (f + ntok a) level (enc a ++ ra) (enc b ++ rb) = cmpCont (cmpJ (stored a) (stored b)) f level ra rb
  | .null, .null, _, _, _, _, f, level, ra, rb, _ => by
      refine cmpLoop_scalar f .eq ?_
      have h1 := skip_enc .null (by simp [WF]) ra
      have h2 := skip_enc .null (by simp [WF]) rb
      simp only [enc, List.cons_append, List.nil_append] at h1 h2
      simp [enc, cmpStep, peek, bind, Except.bind, show clsOf 0 = .null by decide, h1, h2, ordInt]
  | .bool a, .bool b, _, _, _, _, f, level, ra, rb, _ => by
      refine cmpLoop_scalar f _ ?_
      cases a <;> cases b <;> rfl
  | .int a, .int b, wa, wb, _, _, f, level, ra, rb, _ => by
      simp only [WF] at wa wb
      exact cmpLoop_scalar' f _ _ (cmpInt_eq a b) (by simpa [enc] using cmpStep_int wa wb level ra rb)
  | .str a, .str b, wa, wb, _, _, f, level, ra, rb, _ => by
      simp only [WF] at wa wb
      exact cmpLoop_scalar' f _ _ (cmpStr_eq a b) (by simpa [enc] using cmpStep_str wa.2 wb.2 level ra rb)
  | .real a, .real b, wa, wb, na, nb, f, level, ra, rb, _ => by
      simp only [WF] at wa wb
      simp only [NoNaN] at na nb
      refine cmpLoop_scalar' f _ (cmpDouble (storedReal a) (storedReal b)) ?_
        (by simpa [enc] using cmpStep_real wa wb level ra rb)
      simp only [cmpDouble, storedReal_nan a na, storedReal_nan b nb]
      simp [stored, cmpJ, cmpInt_eq]
  | .arr a, .arr b, wa, wb, na, nb, f, level, ra, rb, hl => by
      simp only [WF] at wa wb
      simp only [NoNaN] at na nb
      have h := simL a b wa wb na nb (f + 1) (level + 1) ra rb (by omega) (by omega)
      have e : f + ntok (.arr a) = (f + 1 + ntokL a) + 1 := by simp [ntok]; omega
      simp only [enc, List.cons_append, List.append_assoc, List.nil_append, stored, cmpJ]
      rw [e, cmpLoop_next _ (cmpStep_arr level _ _), if_pos (by omega), h]
      exact cmpLoop_down hl (cmpStep_arrEnd level ra rb)
  | .obj a, .obj b, wa, wb, na, nb, f, level, ra, rb, hl => by
      simp only [WF] at wa wb
      simp only [NoNaN] at na nb
      have h := simF a b wa wb na nb (f + 1) (level + 1) ra rb (by omega) (by omega)
      have e : f + ntok (.obj a) = (f + 1 + ntokF a) + 1 := by simp [ntok]; omega
      simp only [enc, List.cons_append, List.append_assoc, List.nil_append, stored, cmpJ]
      rw [e, cmpLoop_next _ (cmpStep_obj level _ _), if_pos (by omega), h]
      exact cmpLoop_down hl (cmpStep_objEnd level ra rb)
  | .null, .bool _, _, _, _, _, p, q, _, _, _ | .null, .real _, _, _, _, _, p, q, _, _, _
  | .null, .int _, _, _, _, _, p, q, _, _, _ | .null, .str _, _, _, _, _, p, q, _, _, _
  | .null, .arr _, _, _, _, _, p, q, _, _, _ | .null, .obj _, _, _, _, _, p, q, _, _, _
  | .bool _, .null, _, _, _, _, p, q, _, _, _ | .bool _, .real _, _, _, _, _, p, q, _, _, _
  | .bool _, .int _, _, _, _, _, p, q, _, _, _ | .bool _, .str _, _, _, _, _, p, q, _, _, _
  | .bool _, .arr _, _, _, _, _, p, q, _, _, _ | .bool _, .obj _, _, _, _, _, p, q, _, _, _
  | .real _, .null, _, _, _, _, p, q, _, _, _ | .real _, .bool _, _, _, _, _, p, q, _, _, _
  | .real _, .int _, _, _, _, _, p, q, _, _, _ | .real _, .str _, _, _, _, _, p, q, _, _, _
  | .real _, .arr _, _, _, _, _, p, q, _, _, _ | .real _, .obj _, _, _, _, _, p, q, _, _, _
  | .int _, .null, _, _, _, _, p, q, _, _, _ | .int _, .real _, _, _, _, _, p, q, _, _, _
  | .int _, .bool _, _, _, _, _, p, q, _, _, _ | .int _, .str _, _, _, _, _, p, q, _, _, _
  | .int _, .arr _, _, _, _, _, p, q, _, _, _ | .int _, .obj _, _, _, _, _, p, q, _, _, _
  | .str _, .null, _, _, _, _, p, q, _, _, _ | .str _, .real _, _, _, _, _, p, q, _, _, _
  | .str _, .int _, _, _, _, _, p, q, _, _, _ | .str _, .bool _, _, _, _, _, p, q, _, _, _
  | .str _, .arr _, _, _, _, _, p, q, _, _, _ | .str _, .obj _, _, _, _, _, p, q, _, _, _
  | .arr _, .null, _, _, _, _, p, q, _, _, _ | .arr _, .real _, _, _, _, _, p, q, _, _, _
  | .arr _, .int _, _, _, _, _, p, q, _, _, _ | .arr _, .str _, _, _, _, _, p, q, _, _, _
  | .arr _, .bool _, _, _, _, _, p, q, _, _, _ | .arr _, .obj _, _, _, _, _, p, q, _, _, _
  | .obj _, .null, _, _, _, _, p, q, _, _, _ | .obj _, .real _, _, _, _, _, p, q, _, _, _
  | .obj _, .int _, _, _, _, _, p, q, _, _, _ | .obj _, .str _, _, _, _, _, p, q, _, _, _
  | .obj _, .arr _, _, _, _, _, p, q, _, _, _ | .obj _, .bool _, _, _, _, _, p, q, _, _, _ =>
      sim_mismatch _ _ _ _ _ _ (by simp [rank])
theorem simL : (a b : List J) → WFList a → WFList b → NoNaNList a → NoNaNList b →
    ∀ (f : Nat) (level : Int) (ra rb : Bytes), 0 < level → 1 ≤ f →
    cmpLoop (f + ntokL a) level (encList a ++ (tARRAY_END :: ra)) (encList b ++ (tARRAY_END :: rb))
      = cmpCont (cmpL (storedList a) (storedList b)) f level (tARRAY_END :: ra) (tARRAY_END :: rb)
  | [], [], _, _, _, _, f, level, ra, rb, hl, hf => by simp [encList, storedList, cmpL, cmpCont, hl, ntokL]
  | [], v :: t, _, _, _, _, f, level, ra, rb, hl, hf => by
      rw [show f + ntokL [] = (f - 1) + 1 by simp [ntokL]; omega]
      simp only [encList, storedList, cmpL, List.append_assoc, List.nil_append]
      rw [cmpLoop_arrEnd_left]; rfl
  | v :: t, [], _, _, _, _, f, level, ra, rb, hl, hf => by
      have := ntok_pos v
      have e : f + ntokL (v :: t) = (f + ntokL (v :: t) - 1) + 1 := by simp [ntokL]; omega
      simp only [encList, storedList, cmpL, List.append_assoc, List.nil_append]
      rw [e, cmpLoop_arrEnd_right]; rfl
  | a :: as, b :: bs, wa, wb, na, nb, f, level, ra, rb, hl, hf => by
      simp only [WFList] at wa wb
      simp only [NoNaNList] at na nb
      have h1 := sim a b wa.1 wb.1 na.1 nb.1 (f + ntokL as) level (encList as ++ (tARRAY_END :: ra))
        (encList bs ++ (tARRAY_END :: rb)) (by omega)
      have h2 := simL as bs wa.2 wb.2 na.2 nb.2 f level ra rb hl hf
      have e : f + ntokL (a :: as) = (f + ntokL as) + ntok a := by simp [ntokL]; omega
      simp only [encList, storedList, cmpL, List.append_assoc]
      rw [e, h1]
      exact cmpCont_then _ _ _ _ level hl _ _ _ _ h2
theorem simF : (a b : List (Bytes × J)) → WFFields a → WFFields b → NoNaNFields a → NoNaNFields b →
    ∀ (f : Nat) (level : Int) (ra rb : Bytes), 0 < level → 1 ≤ f →
    cmpLoop (f + ntokF a) level (encFields a ++ (tOBJ_END :: ra)) (encFields b ++ (tOBJ_END :: rb))
      = cmpCont (cmpF (storedFields a) (storedFields b)) f level (tOBJ_END :: ra) (tOBJ_END :: rb)
  | [], [], _, _, _, _, f, level, ra, rb, hl, hf => by simp [encFields, storedFields, cmpF, cmpCont, hl, ntokF]
  | [], (k, v) :: t, _, _, _, _, f, level, ra, rb, hl, hf => by
      rw [show f + ntokF [] = (f - 1) + 1 by simp [ntokF]; omega]
      simp only [encFields, storedFields, cmpF, List.append_assoc, List.nil_append]
      rw [cmpLoop_objEnd_left]; rfl
  | (k, v) :: t, [], _, _, _, _, f, level, ra, rb, hl, hf => by
      have e : f + ntokF ((k, v) :: t) = (f + ntokF ((k, v) :: t) - 1) + 1 := by simp [ntokF]; omega
      simp only [encFields, storedFields, cmpF, List.append_assoc, List.nil_append]
      rw [e, cmpLoop_objEnd_right]; rfl
  | (k, a) :: as, (k', b) :: bs, wa, wb, na, nb, f, level, ra, rb, hl, hf => by
      simp only [WFFields] at wa wb
      simp only [NoNaNFields] at na nb
      have h0 := cmpLoop_scalar' (f + ntokF as + ntok a) _ _ (cmpStr_eq k k')
        (cmpStep_str wa.1.2 wb.1.2 level (enc a ++ (encFields as ++ (tOBJ_END :: ra)))
          (enc b ++ (encFields bs ++ (tOBJ_END :: rb))))
      have h1 := sim a b wa.2.1 wb.2.1 na.1 nb.1 (f + ntokF as) level (encFields as ++ (tOBJ_END :: ra))
        (encFields bs ++ (tOBJ_END :: rb)) (by omega)
      have h2 := simF as bs wa.2.2 wb.2.2 na.2 nb.2 f level ra rb hl hf
      have e : f + ntokF ((k, a) :: as) = (f + ntokF as + ntok a) + 1 := by simp [ntokF]; omega
      simp only [encFields, storedFields, cmpF, List.append_assoc]
      rw [e, h0]
      refine cmpCont_then _ _ _ _ level hl _ _ _ _ ?_
      rw [h1]
      exact cmpCont_then _ _ _ _ level hl _ _ _ _ h2
end

end Verif.Json
