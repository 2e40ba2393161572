import Verif.Query.Path
import Verif.Query.PropsCompare
/-!
# A scan through an index returns exactly the rows that match WHERE (C67)
-/
set_option linter.unusedSimpArgs false
set_option linter.unusedVariables false
namespace Verif.Query

/-! ## Specification -/

/-- the value of a key column in a row (timestamps start at 1970: timestamp.h:16-17) -/
def HasTy : KTy → Val → Prop
  | .i32, v => ∃ i, v = .int i ∧ -2 ^ 31 ≤ i ∧ i < 2 ^ 31
  | .i64, v => ∃ i, v = .int i ∧ -2 ^ 63 ≤ i ∧ i < 2 ^ 63
  | .ts, v => ∃ i, v = .timestamp i ∧ 0 ≤ i
  | .uuid, v => ∃ a b, v = .uuid a b
  | .str, v => ∃ s, v = .str s

/-- a value the key column can be compared with: of its type, an integer for a timestamp and so on, or NULL; for an int32
column in its range -/
def Fits : KTy → Val → Prop
  | .i32, v => v = .null ∨ ∃ i, v.asInt = some i ∧ -2 ^ 31 ≤ i ∧ i < 2 ^ 31
  | .i64, v => v = .null ∨ ∃ i, v.asInt = some i
  | .ts, v => v = .null ∨ ∃ i, v.asInt = some i
  | .uuid, v => v = .null ∨ ∃ a b, v = .uuid a b
  | .str, v => v = .null ∨ ∃ s, v = .str s

/-- if `l` is a key column, the value it is compared with fits -/
def FitsPair (keys : List KCol) (l r : Opd) : Prop := ∀ k ∈ keys, l = .col k.col → ∀ v, r = .val v → Fits k.ty v

def Opd.indep : Opd → Prop
  | .val _ => True
  | _ => False

/-- key columns are compared with values that fit, and BETWEEN with a key column has no bounds that depend on the row -/
def Wh.Ok (keys : List KCol) : Wh → Prop
  | .cmp _ l r => FitsPair keys l r ∧ FitsPair keys r l
  | .between l x y => (FitsPair keys l x ∧ FitsPair keys x l ∧ FitsPair keys l y ∧ FitsPair keys y l) ∧
      ∀ k ∈ keys, (l = .col k.col → x.indep) ∧ (y = .col k.col → l.indep)
  | .and a b => a.Ok keys ∧ b.Ok keys
  | .or _ _ => True
  | .other _ => True

/-- what an index of a partition returns: rows with typed keys, for a tree in key order, with different keys if the index
is unique or a hash index -/
structure IndexRows (idx : Idx) (rows : List TRow) : Prop where
  typed : ∀ r ∈ rows, ∀ k ∈ idx.keys, HasTy k.ty (r.at k.col)
  sorted : idx.tree = true → rows.Pairwise fun a b => keyCmp (keyOf idx.keys a) (keyOf idx.keys b) ≤ 0
  distinct : idx.unique = true ∨ idx.tree = false →
    rows.Pairwise fun a b => keyCmp (keyOf idx.keys a) (keyOf idx.keys b) ≠ 0

/-! ## Comparisons with a key -/

theorem hasTy_ordered {ty : KTy} {v : Val} (h : HasTy ty v) : v.ordered := by
  cases ty <;> obtain ⟨_, h⟩ := h
  · rw [h.1]; trivial
  · rw [h.1]; trivial
  · rw [h.1]; trivial
  · obtain ⟨_, rfl⟩ := h; trivial
  · rw [h]; trivial

theorem keyPart_ordered (j : Junk) (ty : KTy) (v : Option Val) : (keyPart j ty v).ordered := by
  cases ty <;> cases v <;> try trivial
  all_goals (rename_i v; cases v <;> trivial)

theorem keyPart_min (j : Junk) {ty : KTy} {v : Val} (h : HasTy ty v) : 0 ≤ valueCompare v (keyPart j ty none) := by
  cases ty with
  | i32 => obtain ⟨i, rfl, h1, h2⟩ := h; simp only [keyPart, valueCompare, cmpI]; split <;> (try split) <;> omega
  | i64 => obtain ⟨i, rfl, h1, h2⟩ := h; simp only [keyPart, valueCompare, cmpI]; split <;> (try split) <;> omega
  | ts => obtain ⟨i, rfl, h1⟩ := h; simp only [keyPart, valueCompare, cmpI]; split <;> (try split) <;> omega
  | uuid =>
    obtain ⟨a, b, rfl⟩ := h
    simp only [keyPart, valueCompare, cmpI]
    have : (0 : Int) ≤ a := Int.natCast_nonneg _
    have : (0 : Int) ≤ b := Int.natCast_nonneg _
    split <;> split <;> (try split) <;> omega
  | str => obtain ⟨s, rfl⟩ := h; cases s <;> simp [keyPart, valueCompare, cmpS]

theorem w32_id {i : Int} (h1 : -2 ^ 31 ≤ i) (h2 : i < 2 ^ 31) : w32 i = i := by unfold w32; omega

theorem asInt_raw {v : Val} {i : Int} (j : Junk) (h : v.asInt = some i) : rawInt j v = i := by
  cases v <;> simp [Val.asInt] at h <;> simp [rawInt, h]

/-- comparing a key column (left) with a value that fits: whether the operator exists depends only on the types -/
theorem cmp_left (j : Junk) (op : CmpOp) {ty : KTy} {v : Val} (hv : Fits ty v) (hn : v ≠ .null) :
    ∃ s : Bool, ∀ k, HasTy ty k →
      opCmp op k v = if s then some (vbool (op.test (valueCompare k (keyPart j ty (some v))))) else none := by
  cases ty with
  | i32 =>
    obtain ⟨i, hi, h1, h2⟩ := hv.resolve_left hn
    have hr := asInt_raw j hi
    cases v <;> simp [Val.asInt] at hi
    · refine ⟨decide (op = .equ ∨ op = .nequ), ?_⟩
      rintro k ⟨x, rfl, -, -⟩
      simp [opCmp, keyPart, rawInt, hi, w32_id h1 h2, valueCompare, CmpOp.num]
    · refine ⟨true, ?_⟩
      rintro k ⟨x, rfl, -, -⟩
      simp [opCmp, keyPart, rawInt, hi, w32_id h1 h2, valueCompare, CmpOp.num]
    · refine ⟨decide (op = .equ ∨ op = .nequ), ?_⟩
      rintro k ⟨x, rfl, -, -⟩
      simp [opCmp, keyPart, rawInt, hi, w32_id h1 h2, valueCompare, CmpOp.num]
    · refine ⟨true, ?_⟩
      rintro k ⟨x, rfl, -, -⟩
      simp [opCmp, keyPart, rawInt, hi, w32_id h1 h2, valueCompare, CmpOp.num]
  | i64 =>
    obtain ⟨i, hi⟩ := hv.resolve_left hn
    have hr := asInt_raw j hi
    cases v <;> simp [Val.asInt] at hi
    · refine ⟨decide (op = .equ ∨ op = .nequ), ?_⟩
      rintro k ⟨x, rfl, -, -⟩
      simp [opCmp, keyPart, rawInt, hi, valueCompare, CmpOp.num]
    · refine ⟨true, ?_⟩
      rintro k ⟨x, rfl, -, -⟩
      simp [opCmp, keyPart, rawInt, hi, valueCompare, CmpOp.num]
    · refine ⟨decide (op = .equ ∨ op = .nequ), ?_⟩
      rintro k ⟨x, rfl, -, -⟩
      simp [opCmp, keyPart, rawInt, hi, valueCompare, CmpOp.num]
    · refine ⟨true, ?_⟩
      rintro k ⟨x, rfl, -, -⟩
      simp [opCmp, keyPart, rawInt, hi, valueCompare, CmpOp.num]
  | ts =>
    obtain ⟨i, hi⟩ := hv.resolve_left hn
    have hr := asInt_raw j hi
    cases v <;> simp [Val.asInt] at hi
    · refine ⟨false, ?_⟩
      rintro k ⟨x, rfl, -⟩
      simp [opCmp]
    · refine ⟨true, ?_⟩
      rintro k ⟨x, rfl, -⟩
      simp [opCmp, keyPart, rawInt, hi, valueCompare, CmpOp.num]
    · refine ⟨false, ?_⟩
      rintro k ⟨x, rfl, -⟩
      simp [opCmp]
    · refine ⟨true, ?_⟩
      rintro k ⟨x, rfl, -⟩
      simp [opCmp, keyPart, rawInt, hi, valueCompare, CmpOp.num]
  | uuid =>
    obtain ⟨a, b, rfl⟩ := hv.resolve_left hn
    refine ⟨true, ?_⟩
    rintro k ⟨x, y, rfl⟩
    simp [opCmp, keyPart]
  | str =>
    obtain ⟨s, rfl⟩ := hv.resolve_left hn
    refine ⟨true, ?_⟩
    rintro k ⟨x, rfl⟩
    simp [opCmp, keyPart, valueCompare]

/-- the same with the key on the right -/
theorem cmp_right (j : Junk) (op : CmpOp) {ty : KTy} {v : Val} (hv : Fits ty v) (hn : v ≠ .null) :
    ∃ s : Bool, ∀ k, HasTy ty k →
      opCmp op v k = if s then some (vbool (op.test (valueCompare (keyPart j ty (some v)) k))) else none := by
  cases ty with
  | i32 =>
    obtain ⟨i, hi, h1, h2⟩ := hv.resolve_left hn
    have hr := asInt_raw j hi
    cases v <;> simp [Val.asInt] at hi
    · refine ⟨decide (op = .equ ∨ op = .nequ), ?_⟩
      rintro k ⟨x, rfl, -, -⟩
      simp [opCmp, keyPart, rawInt, hi, w32_id h1 h2, valueCompare, CmpOp.num]
    · refine ⟨true, ?_⟩
      rintro k ⟨x, rfl, -, -⟩
      simp [opCmp, keyPart, rawInt, hi, w32_id h1 h2, valueCompare, CmpOp.num]
    · refine ⟨true, ?_⟩
      rintro k ⟨x, rfl, -, -⟩
      simp [opCmp, keyPart, rawInt, hi, w32_id h1 h2, valueCompare, CmpOp.num]
    · refine ⟨true, ?_⟩
      rintro k ⟨x, rfl, -, -⟩
      simp [opCmp, keyPart, rawInt, hi, w32_id h1 h2, valueCompare, CmpOp.num]
  | i64 =>
    obtain ⟨i, hi⟩ := hv.resolve_left hn
    have hr := asInt_raw j hi
    cases v <;> simp [Val.asInt] at hi
    · refine ⟨decide (op = .equ ∨ op = .nequ), ?_⟩
      rintro k ⟨x, rfl, -, -⟩
      simp [opCmp, keyPart, rawInt, hi, valueCompare, CmpOp.num]
    · refine ⟨true, ?_⟩
      rintro k ⟨x, rfl, -, -⟩
      simp [opCmp, keyPart, rawInt, hi, valueCompare, CmpOp.num]
    · refine ⟨true, ?_⟩
      rintro k ⟨x, rfl, -, -⟩
      simp [opCmp, keyPart, rawInt, hi, valueCompare, CmpOp.num]
    · refine ⟨true, ?_⟩
      rintro k ⟨x, rfl, -, -⟩
      simp [opCmp, keyPart, rawInt, hi, valueCompare, CmpOp.num]
  | ts =>
    obtain ⟨i, hi⟩ := hv.resolve_left hn
    have hr := asInt_raw j hi
    cases v <;> simp [Val.asInt] at hi
    · refine ⟨false, ?_⟩
      rintro k ⟨x, rfl, -⟩
      simp [opCmp]
    · refine ⟨true, ?_⟩
      rintro k ⟨x, rfl, -⟩
      simp [opCmp, keyPart, rawInt, hi, valueCompare, CmpOp.num]
    · refine ⟨false, ?_⟩
      rintro k ⟨x, rfl, -⟩
      simp [opCmp]
    · refine ⟨true, ?_⟩
      rintro k ⟨x, rfl, -⟩
      simp [opCmp, keyPart, rawInt, hi, valueCompare, CmpOp.num]
  | uuid =>
    obtain ⟨a, b, rfl⟩ := hv.resolve_left hn
    refine ⟨true, ?_⟩
    rintro k ⟨x, y, rfl⟩
    simp [opCmp, keyPart]
  | str =>
    obtain ⟨s, rfl⟩ := hv.resolve_left hn
    refine ⟨true, ?_⟩
    rintro k ⟨x, rfl⟩
    simp [opCmp, keyPart, valueCompare]

/-- the condition of an operation on a key, for a row with key value `kv` -/
def keyCond (op : CmpOp) (keyLeft : Bool) (kv v : Val) : Bool :=
  valueIsTrue ((if keyLeft then opCmp op kv v else opCmp op v kv).getD .null)

theorem keyCond_null (op : CmpOp) (keyLeft : Bool) (kv : Val) : keyCond op keyLeft kv .null = false := by
  unfold keyCond
  cases keyLeft
  · rw [if_neg (by simp), C66_null op .null kv (.inl rfl)]; rfl
  · rw [if_pos rfl, C66_null op kv .null (.inr rfl)]; rfl

theorem keyCond_spec (j : Junk) (op : CmpOp) (keyLeft : Bool) {ty : KTy} {v : Val} (hv : Fits ty v) (hn : v ≠ .null) :
    ∃ s : Bool, ∀ k, HasTy ty k → keyCond op keyLeft k v =
      (s && op.test (if keyLeft then valueCompare k (keyPart j ty (some v)) else valueCompare (keyPart j ty (some v)) k)) := by
  cases keyLeft with
  | true =>
    obtain ⟨s, hs⟩ := cmp_left j op hv hn
    refine ⟨s, fun k hk => ?_⟩
    unfold keyCond
    rw [if_pos rfl, hs k hk, if_pos rfl]
    cases s
    · rfl
    · simp [isTrue_vbool]
  | false =>
    obtain ⟨s, hs⟩ := cmp_right j op hv hn
    refine ⟨s, fun k hk => ?_⟩
    unfold keyCond
    simp only [Bool.false_eq_true, if_false]
    rw [hs k hk]
    cases s
    · rfl
    · simp [isTrue_vbool]

/-! ## What the path knows about a key -/

/-- an operation that puts a lower bound on the key, and one that puts an upper bound -/
def lowOp (op : CmpOp) (keyLeft : Bool) : Prop :=
  op = .equ ∨ (keyLeft = true ∧ (op = .gt ∨ op = .gte)) ∨ (keyLeft = false ∧ (op = .lt ∨ op = .lte))
def highOp (op : CmpOp) (keyLeft : Bool) : Prop :=
  (keyLeft = true ∧ (op = .lt ∨ op = .lte)) ∨ (keyLeft = false ∧ (op = .gt ∨ op = .gte))

theorem low_ge {op : CmpOp} {keyLeft : Bool} (h : lowOp op keyLeft) {k p : Val} (hk : k.ordered) (hp : p.ordered)
    (ht : op.test (if keyLeft then valueCompare k p else valueCompare p k) = true) : 0 ≤ valueCompare k p := by
  have a1 := valueCompare_laws.anti k p hk hp
  have a2 := valueCompare_laws.anti p k hp hk
  rcases h with rfl | ⟨rfl, rfl | rfl⟩ | ⟨rfl, rfl | rfl⟩
  · cases keyLeft <;> simp [CmpOp.test] at ht <;> omega
  all_goals (simp [CmpOp.test] at ht; omega)

theorem eq_zero {keyLeft : Bool} {k p : Val} (hk : k.ordered) (hp : p.ordered)
    (ht : CmpOp.equ.test (if keyLeft then valueCompare k p else valueCompare p k) = true) : valueCompare k p = 0 := by
  have a1 := valueCompare_laws.anti k p hk hp
  have a2 := valueCompare_laws.anti p k hp hk
  cases keyLeft <;> simp [CmpOp.test] at ht <;> omega

/-- an upper bound that fails for a key fails for every larger key -/
theorem high_mono {op : CmpOp} {keyLeft : Bool} (h : highOp op keyLeft) {k k' p : Val} (hk : k.ordered) (hk' : k'.ordered)
    (hp : p.ordered) (hle : valueCompare k k' ≤ 0)
    (ht : op.test (if keyLeft then valueCompare k' p else valueCompare p k') = true) :
    op.test (if keyLeft then valueCompare k p else valueCompare p k) = true := by
  have a1 := valueCompare_laws.anti k p hk hp
  have a2 := valueCompare_laws.anti p k hp hk
  have a3 := valueCompare_laws.anti k' p hk' hp
  have a4 := valueCompare_laws.anti p k' hp hk'
  have t1 := valueCompare_laws.trans k k' p hk hk' hp hle
  have t2 := valueCompare_laws.trans p k k' hp hk hk'
  rcases h with ⟨rfl, rfl | rfl⟩ | ⟨rfl, rfl | rfl⟩ <;> simp [CmpOp.test] at ht ⊢ <;> omega

/-- operations whose value does not depend on the row and fits, as far as the path may use them -/
def GoodOp (keys : List KCol) (p : POp) : Prop := ∀ k ∈ keys,
  (p.l = .col k.col → outer p.depsR = true → ∃ v, p.r = .val v ∧ Fits k.ty v) ∧
  (p.r = .col k.col → outer p.depsL = true → ∃ v, p.l = .val v ∧ Fits k.ty v)

theorem indep_val {o : Opd} (h : o.indep) : ∃ v, o = .val v := by
  cases o with
  | val v => exact ⟨v, rfl⟩
  | col _ => exact absurd h id
  | expr _ => exact absurd h id

theorem outer_val {l : List Opd} (h : outer l = true) {o : Opd} (ho : o ∈ l) : ∃ v, o = .val v := by
  have := List.all_eq_true.1 h o ho
  cases o with
  | val v => exact ⟨v, rfl⟩
  | col _ => simp at this
  | expr _ => simp at this

theorem pathOps_good {keys : List KCol} : ∀ {w : Wh}, w.Ok keys → ∀ p ∈ pathOps w, GoodOp keys p
  | .cmp op l r, h, p, hp => by
    simp only [pathOps] at hp
    split at hp
    · simp at hp
    · simp at hp; subst hp
      intro k hk
      constructor
      · intro e ho
        obtain ⟨v, rfl⟩ := outer_val ho (o := r) (by simp)
        exact ⟨v, rfl, h.1 k hk e v rfl⟩
      · intro e ho
        obtain ⟨v, rfl⟩ := outer_val ho (o := l) (by simp)
        exact ⟨v, rfl, h.2 k hk e v rfl⟩
  | .between l x y, h, p, hp => by
    obtain ⟨⟨f1, f2, f3, f4⟩, hi⟩ := h
    simp only [pathOps, List.mem_cons, List.not_mem_nil, or_false] at hp
    rcases hp with rfl | rfl
    · intro k hk
      constructor
      · intro e _
        obtain ⟨v, rfl⟩ := indep_val ((hi k hk).1 e)
        exact ⟨v, rfl, f1 k hk e v rfl⟩
      · intro e ho
        obtain ⟨v, rfl⟩ := outer_val ho (o := l) (by simp)
        exact ⟨v, rfl, f2 k hk e v rfl⟩
    · intro k hk
      constructor
      · intro e ho
        obtain ⟨v, rfl⟩ := outer_val ho (o := y) (by simp)
        exact ⟨v, rfl, f3 k hk e v rfl⟩
      · intro e _
        obtain ⟨v, rfl⟩ := indep_val ((hi k hk).2 e)
        exact ⟨v, rfl, f4 k hk e v rfl⟩
  | .and a b, h, p, hp => by
    rcases List.mem_append.1 hp with hp | hp
    · exact pathOps_good h.1 p hp
    · exact pathOps_good h.2 p hp
  | .or _ _, _, p, hp => by simp [pathOps] at hp
  | .other _, _, p, hp => by simp [pathOps] at hp

/-- a row that matches WHERE satisfies every operation of the path -/
theorem pathOps_true : ∀ {w : Wh} {r : TRow}, valueIsTrue (w.eval r) = true → ∀ p ∈ pathOps w,
    valueIsTrue (evalCmp p.op p.l p.r r) = true
  | .cmp op l r, row, h, p, hp => by
    simp only [pathOps] at hp
    split at hp
    · simp at hp
    · simp at hp; subst hp; exact h
  | .between l x y, row, h, p, hp => by
    simp only [Wh.eval, isTrue_and, Bool.and_eq_true] at h
    simp only [pathOps, List.mem_cons, List.not_mem_nil, or_false] at hp
    rcases hp with rfl | rfl
    · exact h.1
    · exact h.2
  | .and a b, row, h, p, hp => by
    simp only [Wh.eval, isTrue_and, Bool.and_eq_true] at h
    rcases List.mem_append.1 hp with hp | hp
    · exact pathOps_true h.1 p hp
    · exact pathOps_true h.2 p hp
  | .or _ _, _, _, p, hp => by simp [pathOps] at hp
  | .other _, _, _, p, hp => by simp [pathOps] at hp

/-- `p` compares column `c` with the value `v` -/
def Uses (p : POp) (c : Nat) (keyLeft : Bool) (v : Opd) : Prop :=
  if keyLeft then p.l = .col c ∧ p.r = v ∧ outer p.depsR = true else p.r = .col c ∧ p.l = v ∧ outer p.depsL = true

structure KeyInv (ops : List POp) (order c : Nat) (k : PathKey) : Prop where
  start : ∀ eq v, k.start = some (eq, v) → ∃ p ∈ ops, ∃ keyLeft, Uses p c keyLeft v ∧ lowOp p.op keyLeft ∧ (eq = true → p.op = .equ)
  stop : ∀ p v, k.stop = some (p, v) → p ∈ ops ∧ order = 0 ∧ ∃ keyLeft, Uses p c keyLeft v ∧ highOp p.op keyLeft

theorem isCol_iff {c : Nat} {o : Opd} : isCol c o = true ↔ o = .col c := by
  cases o <;> simp [isCol]

theorem applyOp_inv {pc : Opd → Opd → Int} {ops : List POp} {order c : Nat} {k : PathKey} (h : KeyInv ops order c k)
    {p : POp} (hp : p ∈ ops) {keyLeft : Bool} {v : Opd} (hu : Uses p c keyLeft v) :
    KeyInv ops order c (applyOp pc order k p keyLeft v) := by
  have setStart : ∀ eq : Bool, lowOp p.op keyLeft → (eq = true → p.op = .equ) →
      KeyInv ops order c (if takeStart pc k eq v then { k with start := some (eq, v) } else k) := by
    intro eq hl he
    split
    · refine ⟨?_, h.stop⟩
      intro eq' v' e
      simp at e
      obtain ⟨rfl, rfl⟩ := e
      exact ⟨p, hp, keyLeft, hu, hl, he⟩
    · exact h
  have setStop : highOp p.op keyLeft →
      KeyInv ops order c (if takeStop pc order k v then { k with stop := some (p, v) } else k) := by
    intro hh
    split
    · rename_i ht
      refine ⟨h.start, ?_⟩
      intro p' v' e
      simp at e
      obtain ⟨rfl, rfl⟩ := e
      refine ⟨hp, ?_, keyLeft, hu, hh⟩
      unfold takeStop at ht
      split at ht
      · simp at ht
      · omega
    · exact h
  unfold applyOp
  split
  · rename_i e; exact setStart true (.inl e) (fun _ => e)
  · rename_i e; exact setStart false (.inr (.inl ⟨rfl, .inl e⟩)) (by simp)
  · rename_i e; exact setStart false (.inr (.inl ⟨rfl, .inr e⟩)) (by simp)
  · rename_i e; exact setStart false (.inr (.inr ⟨rfl, .inl e⟩)) (by simp)
  · rename_i e; exact setStart false (.inr (.inr ⟨rfl, .inr e⟩)) (by simp)
  · rename_i e; exact setStop (.inl ⟨rfl, .inl e⟩)
  · rename_i e; exact setStop (.inl ⟨rfl, .inr e⟩)
  · rename_i e; exact setStop (.inr ⟨rfl, .inl e⟩)
  · rename_i e; exact setStop (.inr ⟨rfl, .inr e⟩)
  · exact h

theorem pathKey_inv (pc : Opd → Opd → Int) (order c : Nat) (ops : List POp) : KeyInv ops order c (pathKey pc order c ops) := by
  unfold pathKey
  have : ∀ (l : List POp) (k : PathKey), (∀ p ∈ l, p ∈ ops) → KeyInv ops order c k →
      KeyInv ops order c (l.foldl (pathKeyOp pc order c) k) := by
    intro l
    induction l with
    | nil => intro k _ h; exact h
    | cons p l ih =>
      intro k hl h
      refine ih _ (fun q hq => hl q (by simp [hq])) ?_
      unfold pathKeyOp
      split
      · rename_i e
        split
        · rename_i ho
          exact applyOp_inv h (hl p (by simp)) (by simp [Uses, isCol_iff.1 e, ho])
        · exact h
      · split
        · rename_i e
          split
          · rename_i ho
            exact applyOp_inv h (hl p (by simp)) (by simp [Uses, isCol_iff.1 e, ho])
          · exact h
        · exact h
  exact this ops _ (fun _ h => h) ⟨by simp, by simp⟩

/-! ## The start key -/

/-- rows that satisfy all operations -/
def Sat (ops : List POp) (r : TRow) : Prop := ∀ p ∈ ops, valueIsTrue (evalCmp p.op p.l p.r r) = true

theorem uses_cond {p : POp} {c : Nat} {keyLeft : Bool} {v : Val} (hu : Uses p c keyLeft (.val v)) (r : TRow) :
    valueIsTrue (evalCmp p.op p.l p.r r) = keyCond p.op keyLeft (r.at c) v := by
  unfold Uses at hu
  cases keyLeft
  · simp only [Bool.false_eq_true, if_false] at hu
    simp [evalCmp, keyCond, hu.1, hu.2.1, Opd.eval]
  · simp only [if_true] at hu
    simp [evalCmp, keyCond, hu.1, hu.2.1, Opd.eval]

theorem uses_val {keys : List KCol} {p : POp} (hg : GoodOp keys p) {k : KCol} (hk : k ∈ keys) {keyLeft : Bool} {o : Opd}
    (hu : Uses p k.col keyLeft o) : ∃ v, o = .val v ∧ Fits k.ty v := by
  unfold Uses at hu
  cases keyLeft
  · simp only [Bool.false_eq_true, if_false] at hu
    obtain ⟨v, h1, h2⟩ := (hg k hk).2 hu.1 hu.2.2
    exact ⟨v, hu.2.1.symm.trans h1, h2⟩
  · simp only [if_true] at hu
    obtain ⟨v, h1, h2⟩ := (hg k hk).1 hu.1 hu.2.2
    exact ⟨v, hu.2.1.symm.trans h1, h2⟩

theorem start_bound (j : Junk) {keys : List KCol} {ops : List POp} (hg : ∀ p ∈ ops, GoodOp keys p) {order : Nat} {k : KCol}
    (hk : k ∈ keys) {pk : PathKey} (hi : KeyInv ops order k.col pk) {eq : Bool} {o : Opd} (hs : pk.start = some (eq, o)) :
    ∃ v, o = .val v ∧ ∀ r, HasTy k.ty (r.at k.col) → Sat ops r →
      0 ≤ valueCompare (r.at k.col) (keyPart j k.ty (some v)) ∧
      (eq = true → valueCompare (r.at k.col) (keyPart j k.ty (some v)) = 0) := by
  obtain ⟨p, hp, keyLeft, hu, hl, he⟩ := hi.start eq o hs
  obtain ⟨v, rfl, hf⟩ := uses_val (hg p hp) hk hu
  refine ⟨v, rfl, ?_⟩
  intro r hr hsat
  have hc := hsat p hp
  rw [uses_cond hu r] at hc
  have hn : v ≠ .null := by rintro rfl; rw [keyCond_null] at hc; simp at hc
  obtain ⟨s, hs'⟩ := keyCond_spec j p.op keyLeft hf hn
  rw [hs' _ hr, Bool.and_eq_true] at hc
  refine ⟨low_ge hl (hasTy_ordered hr) (keyPart_ordered _ _ _) hc.2, ?_⟩
  intro e
  rw [he e] at hc
  exact eq_zero (hasTy_ordered hr) (keyPart_ordered _ _ _) hc.2

theorem keyCmp_cons (x y : Val) (xs ys : List Val) : keyCmp (x :: xs) (y :: ys) =
    if valueCompare x y ≠ 0 then valueCompare x y else keyCmp xs ys := by
  simp [keyCmp, keysCompare]

theorem startKey_bound (j : Junk) (pc : Opd → Opd → Int) {all : List KCol} {ops : List POp} (hg : ∀ p ∈ ops, GoodOp all p) :
    ∀ (keys : List KCol) (order : Nat), (∀ k ∈ keys, k ∈ all) →
      ∃ vals, startVals (startOpds (pathKeys pc ops order keys)) = some vals ∧
        ∀ r, (∀ k ∈ keys, HasTy k.ty (r.at k.col)) → Sat ops r →
          0 ≤ keyCmp (keyOf keys r) (createKey j keys vals) ∧
          (isLookup (pathKeys pc ops order keys) = true → keyCmp (keyOf keys r) (createKey j keys vals) = 0) := by
  have none_bound : ∀ (keys : List KCol) (r : TRow), (∀ k ∈ keys, HasTy k.ty (r.at k.col)) →
      0 ≤ keyCmp (keyOf keys r) (createKey j keys []) := by
    intro keys r
    induction keys with
    | nil => intro _; simp [keyOf, createKey, keyCmp, keysCompare]
    | cons k keys ih =>
      intro h
      have h0 := keyPart_min j (h k (by simp))
      have h1 := ih fun k hk => h k (by simp [hk])
      show 0 ≤ keyCmp (r.at k.col :: keyOf keys r) (keyPart j k.ty none :: createKey j keys [])
      rw [keyCmp_cons]
      split
      · exact h0
      · exact h1
  intro keys
  induction keys with
  | nil => intro order _; exact ⟨[], rfl, fun r _ _ => by simp [keyOf, createKey, keyCmp, keysCompare]⟩
  | cons k keys ih =>
    intro order hall
    have hinv := pathKey_inv pc order k.col ops
    cases hs : (pathKey pc order k.col ops).start with
    | none =>
      refine ⟨[], by simp [pathKeys, startOpds, hs, startVals], ?_⟩
      intro r hr hsat
      refine ⟨none_bound _ _ hr, ?_⟩
      intro hl
      simp [pathKeys, isLookup, PathKey.isEq, hs] at hl
    | some sv =>
      obtain ⟨eq, o⟩ := sv
      obtain ⟨v, rfl, hb⟩ := start_bound j hg (hall k (by simp)) hinv hs
      obtain ⟨vals, hv, hrest⟩ := ih (order + 1) (fun k hk => hall k (by simp [hk]))
      refine ⟨v :: vals, by simp [pathKeys, startOpds, hs, startVals, hv], ?_⟩
      intro r hr hsat
      obtain ⟨b1, b2⟩ := hb r (hr k (by simp)) hsat
      obtain ⟨r1, r2⟩ := hrest r (fun k hk => hr k (by simp [hk])) hsat
      show 0 ≤ keyCmp (r.at k.col :: keyOf keys r) (keyPart j k.ty (some v) :: createKey j keys vals) ∧
        (isLookup (pathKeys pc ops order (k :: keys)) = true →
          keyCmp (r.at k.col :: keyOf keys r) (keyPart j k.ty (some v) :: createKey j keys vals) = 0)
      rw [keyCmp_cons]
      constructor
      · split
        · exact b1
        · exact r1
      · intro hl
        have hl' : (pathKey pc order k.col ops).isEq = true ∧ isLookup (pathKeys pc ops (order + 1) keys) = true := by
          simpa only [pathKeys, isLookup, List.all_cons, Bool.and_eq_true] using hl
        have : eq = true := by have := hl'.1; rw [PathKey.isEq, hs] at this; exact this
        rw [b2 this, if_neg (by simp)]
        exact r2 hl'.2

/-! ## The scan -/

theorem filter_dropWhile {p wh : TRow → Bool} : ∀ {rows : List TRow}, (∀ r ∈ rows, p r = true → wh r = false) →
    (rows.dropWhile p).filter wh = rows.filter wh
  | [], _ => rfl
  | r :: rows, h => by
    rw [List.dropWhile_cons]
    split
    · rename_i hp
      rw [filter_dropWhile fun r hr => h r (by simp [hr]), List.filter_cons, h r (by simp) hp]
      simp
    · rfl

theorem scanLoop_filter {stop wh : TRow → Bool} : ∀ {rows : List TRow},
    rows.Pairwise (fun a b => stop b = true → stop a = true) → (∀ r ∈ rows, wh r = true → stop r = true) →
    scanLoop stop wh false rows = rows.filter wh
  | [], _, _ => rfl
  | r :: rows, hp, hw => by
    rw [List.pairwise_cons] at hp
    simp only [scanLoop, Bool.false_eq_true, if_false]
    by_cases hs : stop r = true
    · rw [if_pos hs, scanLoop_filter hp.2 fun r hr => hw r (by simp [hr]), List.filter_cons]
      split <;> simp
    · rw [if_neg hs]
      symm
      rw [List.filter_eq_nil_iff]
      intro a ha hwa
      have h1 := hw a ha hwa
      rcases List.mem_cons.1 ha with rfl | ha
      · exact hs h1
      · exact hs (hp.1 a ha h1)

theorem scanLoop_once {stop wh : TRow → Bool} : ∀ {rows : List TRow},
    (∀ r ∈ rows, wh r = true → stop r = true) → (∀ r rest, rows = r :: rest → ∀ a ∈ rest, wh a = false) →
    scanLoop stop wh true rows = rows.filter wh
  | [], _, _ => rfl
  | r :: rows, hw, h1 => by
    have hn : rows.filter wh = [] := by
      rw [List.filter_eq_nil_iff]
      intro a ha
      rw [h1 r rows rfl a ha]; simp
    simp only [scanLoop, if_true, List.filter_cons, hn, List.append_nil]
    by_cases hr : wh r = true
    · simp [hr, hw r (by simp) hr]
    · simp [hr]

theorem createKey_length (j : Junk) : ∀ (keys : List KCol) (vals : List Val), (createKey j keys vals).length = keys.length
  | [], _ => rfl
  | _ :: keys, [] => by simp [createKey, createKey_length j keys]
  | _ :: keys, _ :: vals => by simp [createKey, createKey_length j keys]

theorem createKey_ordered (j : Junk) : ∀ (keys : List KCol) (vals : List Val), RowOrdered (createKey j keys vals)
  | [], _ => by simp [createKey, RowOrdered]
  | k :: keys, [] => by
    have := createKey_ordered j keys []
    intro v hv
    rcases List.mem_cons.1 hv with rfl | hv
    · exact keyPart_ordered _ _ _
    · exact this v hv
  | k :: keys, x :: vals => by
    have := createKey_ordered j keys vals
    intro v hv
    rcases List.mem_cons.1 hv with rfl | hv
    · exact keyPart_ordered _ _ _
    · exact this v hv

theorem keyOf_ordered {keys : List KCol} {r : TRow} (h : ∀ k ∈ keys, HasTy k.ty (r.at k.col)) : RowOrdered (keyOf keys r) := by
  intro v hv
  obtain ⟨k, hk, rfl⟩ := List.mem_map.1 hv
  exact hasTy_ordered (h k hk)

theorem keyCmp_eq {n : Nat} {a b : List Val} (h : a.length = n) : keyCmp a b = keysCompare (List.replicate n true) a b := by
  have : (a.map fun _ => true) = List.replicate n true := by rw [List.map_const', h]
  rw [keyCmp, this]

theorem keyCmp_anti {n : Nat} {a b : List Val} (ha : a.length = n) (hb : b.length = n) (oa : RowOrdered a) (ob : RowOrdered b) :
    keyCmp a b < 0 ↔ 0 < keyCmp b a := by
  rw [keyCmp_eq ha, keyCmp_eq hb]; exact (keysCompare_laws _).anti _ _ oa ob

theorem keyCmp_trans {n : Nat} {a b c : List Val} (ha : a.length = n) (hb : b.length = n)
    (oa : RowOrdered a) (ob : RowOrdered b) (oc : RowOrdered c) (h1 : keyCmp a b ≤ 0) (h2 : keyCmp b c ≤ 0) : keyCmp a c ≤ 0 := by
  rw [keyCmp_eq ha] at *; rw [keyCmp_eq hb] at *; exact (keysCompare_laws _).trans _ _ _ oa ob oc h1 h2

theorem keyOf_length (keys : List KCol) (r : TRow) : (keyOf keys r).length = keys.length := by simp [keyOf]

theorem stopOps_mem {pc : Opd → Opd → Int} {ops : List POp} : ∀ {keys : List KCol} {order : Nat} {p : POp},
    p ∈ stopOps (pathKeys pc ops order keys) → order = 0 ∧ p ∈ ops ∧
      ∃ k rest, keys = k :: rest ∧ ∃ keyLeft o, Uses p k.col keyLeft o ∧ highOp p.op keyLeft
  | [], _, p, h => by simp [pathKeys, stopOps] at h
  | k :: keys, order, p, h => by
    have hinv := pathKey_inv pc order k.col ops
    simp only [pathKeys, stopOps] at h
    cases hs : (pathKey pc order k.col ops).stop with
    | none => rw [hs] at h; simp at h
    | some po =>
      obtain ⟨q, o⟩ := po
      rw [hs] at h
      rcases List.mem_cons.1 h with rfl | h
      · obtain ⟨h1, h2, kl, hu, hh⟩ := hinv.stop p o hs
        exact ⟨h2, h1, k, keys, rfl, kl, o, hu, hh⟩
      · exact absurd (stopOps_mem h).1 (by omega)

/-- a stop condition that holds for a row holds for every row before it -/
theorem stop_mono (pc : Opd → Opd → Int) {keys : List KCol} {ops : List POp} (hg : ∀ p ∈ ops, GoodOp keys p) {a b : TRow}
    (ha : ∀ k ∈ keys, HasTy k.ty (a.at k.col)) (hb : ∀ k ∈ keys, HasTy k.ty (b.at k.col))
    (hle : keyCmp (keyOf keys a) (keyOf keys b) ≤ 0) (hs : evalStop (stopOps (pathKeys pc ops 0 keys)) b = true) :
    evalStop (stopOps (pathKeys pc ops 0 keys)) a = true := by
  refine List.all_eq_true.2 fun p hp => ?_
  have hb' := List.all_eq_true.1 hs p hp
  obtain ⟨-, hpo, k, rest, rfl, kl, o, hu, hh⟩ := stopOps_mem hp
  have hk : k ∈ k :: rest := by simp
  obtain ⟨v, rfl, hf⟩ := uses_val (hg p hpo) hk hu
  rw [uses_cond hu] at hb' ⊢
  have hn : v ≠ .null := by rintro rfl; rw [keyCond_null] at hb'; simp at hb'
  obtain ⟨s, hs'⟩ := keyCond_spec ⟨0, (0, 0), []⟩ p.op kl hf hn
  rw [hs' _ (hb k hk), Bool.and_eq_true] at hb'
  rw [hs' _ (ha k hk), Bool.and_eq_true]
  refine ⟨hb'.1, high_mono hh (hasTy_ordered (ha k hk)) (hasTy_ordered (hb k hk)) (keyPart_ordered _ _ _) ?_ hb'.2⟩
  have : keyCmp (a.at k.col :: keyOf rest a) (b.at k.col :: keyOf rest b) ≤ 0 := hle
  rw [keyCmp_cons] at this
  split at this <;> omega

theorem dropWhile_head {p : TRow → Bool} : ∀ {rows : List TRow} {r : TRow} {rest : List TRow},
    rows.dropWhile p = r :: rest → p r = false
  | x :: rows, r, rest, h => by
    rw [List.dropWhile_cons] at h
    split at h
    · exact dropWhile_head h
    · rename_i hp
      injection h with h1 h2
      subst h1; simpa using hp

theorem dropWhile_sublist' (p : TRow → Bool) : ∀ (rows : List TRow), (rows.dropWhile p).Sublist rows
  | [] => by simp
  | x :: rows => by
    rw [List.dropWhile_cons]
    split
    · exact (dropWhile_sublist' p rows).cons _
    · exact List.Sublist.refl _

/-- A scan through any index of a table, whatever path the compiler takes from WHERE (start key, point lookup, stop
conditions), returns exactly the rows of the partition for which WHERE is true, in index order; key columns are compared with
values that fit their type. -/
theorem C67_scan_partial (pc : Opd → Opd → Int) (j : Junk) (idx : Idx) (w : Wh) (rows : List TRow) (hi : IndexRows idx rows)
    (hw : w.Ok idx.keys) : scanTable pc j idx w rows = some (rows.filter fun r => valueIsTrue (w.eval r)) := by
  have hg := pathOps_good hw
  obtain ⟨vals, hv, hb⟩ := startKey_bound j pc hg idx.keys 0 (fun _ h => h)
  simp only [scanTable, hv, Option.map_some]
  congr 1
  have hsat : ∀ r, valueIsTrue (w.eval r) = true → Sat (pathOps w) r := fun r h p hp => pathOps_true h p hp
  have lenK : (createKey j idx.keys vals).length = idx.keys.length := createKey_length _ _ _
  have ordK : RowOrdered (createKey j idx.keys vals) := createKey_ordered _ _ _
  -- what the cursor skips does not match
  have hcur : (cursorRows idx (isLookup (pathKeys pc (pathOps w) 0 idx.keys)) (createKey j idx.keys vals) rows).filter
      (fun r => valueIsTrue (w.eval r)) = rows.filter fun r => valueIsTrue (w.eval r) := by
    unfold cursorRows
    split
    · refine filter_dropWhile fun r hr hd => ?_
      have hd := of_decide_eq_true hd
      refine Bool.eq_false_iff.2 fun h => ?_
      have := (hb r (hi.typed r hr) (hsat r h)).1
      omega
    · split
      · rename_i hl
        refine filter_dropWhile fun r hr hd => ?_
        have hd := of_decide_eq_true hd
        refine Bool.eq_false_iff.2 fun h => ?_
        exact hd ((hb r (hi.typed r hr) (hsat r h)).2 hl)
      · rfl
  have hsub : (cursorRows idx (isLookup (pathKeys pc (pathOps w) 0 idx.keys)) (createKey j idx.keys vals) rows).Sublist rows := by
    unfold cursorRows
    split
    · exact dropWhile_sublist' _ _
    · split
      · exact dropWhile_sublist' _ _
      · exact List.Sublist.refl _
  have hstop : ∀ r, valueIsTrue (w.eval r) = true →
      (if idx.tree then evalStop (stopOps (pathKeys pc (pathOps w) 0 idx.keys)) else fun _ => true) r = true := by
    intro r h
    split
    · refine List.all_eq_true.2 fun p hp => ?_
      exact hsat r h p (stopOps_mem hp).2.1
    · rfl
  rw [← hcur]
  by_cases hone : (isLookup (pathKeys pc (pathOps w) 0 idx.keys) && idx.unique) = true
  · rw [hone]
    obtain ⟨hl, hu⟩ := Bool.and_eq_true_iff.1 hone
    refine scanLoop_once (fun r hr => hstop r) ?_
    intro r rest e a ha
    refine Bool.eq_false_iff.2 fun hm => ?_
    have hdist := (hi.distinct (.inl hu)).sublist hsub
    rw [e, List.pairwise_cons] at hdist
    have hra := hdist.1 a ha
    have hrmem : r ∈ rows := hsub.subset (by rw [e]; simp)
    have hamem : a ∈ rows := hsub.subset (by rw [e]; simp [ha])
    have hz := (hb a (hi.typed a hamem) (hsat a hm)).2 hl
    have la := keyOf_length idx.keys a
    have lr := keyOf_length idx.keys r
    have oa := keyOf_ordered (hi.typed a hamem)
    have or' := keyOf_ordered (hi.typed r hrmem)
    have hz' : keyCmp (createKey j idx.keys vals) (keyOf idx.keys a) ≤ 0 := by
      have := keyCmp_anti la lenK oa ordK
      omega
    have hz0 : keyCmp (keyOf idx.keys a) (createKey j idx.keys vals) ≤ 0 := by omega
    by_cases ht : idx.tree = true
    · have hsort := (hi.sorted ht).sublist hsub
      rw [e, List.pairwise_cons] at hsort
      have hlt := hsort.1 a ha
      have hge : ¬ keyCmp (keyOf idx.keys r) (createKey j idx.keys vals) < 0 := by
        unfold cursorRows at e
        rw [if_pos ht] at e
        have := dropWhile_head e
        simpa using this
      have h3 : keyCmp (createKey j idx.keys vals) (keyOf idx.keys r) ≤ 0 := by
        have := keyCmp_anti lenK lr ordK or'
        have := keyCmp_anti lr lenK or' ordK
        omega
      have h4 := keyCmp_trans la lenK oa ordK or' hz0 h3
      have := keyCmp_anti la lr oa or'
      have := keyCmp_anti lr la or' oa
      omega
    · have he : keyCmp (keyOf idx.keys r) (createKey j idx.keys vals) = 0 := by
        unfold cursorRows at e
        rw [if_neg ht, if_pos hl] at e
        have := dropWhile_head e
        simpa using this
      have h3 : keyCmp (createKey j idx.keys vals) (keyOf idx.keys r) ≤ 0 := by
        have := keyCmp_anti lr lenK or' ordK
        omega
      have h4 := keyCmp_trans la lenK oa ordK or' hz0 h3
      have h5 := keyCmp_trans lr lenK or' ordK oa (by omega) hz'
      have := keyCmp_anti la lr oa or'
      have := keyCmp_anti lr la or' oa
      omega
  · rw [Bool.not_eq_true] at hone
    rw [hone]
    refine scanLoop_filter ?_ (fun r hr => hstop r)
    by_cases ht : idx.tree = true
    · have hsort := (hi.sorted ht).sublist hsub
      rw [List.pairwise_iff_forall_sublist] at *
      intro a b hab
      have ha : a ∈ rows := hsub.subset (hab.subset (by simp))
      have hb' : b ∈ rows := hsub.subset (hab.subset (by simp))
      intro hs
      simp only [ht, if_true] at hs ⊢
      exact stop_mono pc hg (hi.typed a ha) (hi.typed b hb') (hsort hab) hs
    · rw [List.pairwise_iff_forall_sublist]
      intro a b _ _
      simp [ht]

/-! ## Partitions -/

/-- every pair of operands that WHERE compares, outside of OR -/
def Wh.Pairs (P : Opd → Opd → Prop) : Wh → Prop
  | .cmp _ l r => P l r ∧ P r l
  | .between l x y => P l x ∧ P x l ∧ P l y ∧ P y l
  | .and a b => a.Pairs P ∧ b.Pairs P
  | .or _ _ => True
  | .other _ => True

/-- key columns are compared with integers, timestamps, uuids and strings only (no NULL, boolean, date) -/
def Wh.Hashes (keys : List KCol) (w : Wh) : Prop :=
  w.Pairs fun l r => ∀ k ∈ keys, l = .col k.col → ∀ v, r = .val v → hashable v = true

theorem pathOps_pairs {P : Opd → Opd → Prop} : ∀ {w : Wh}, w.Pairs P → ∀ p ∈ pathOps w, P p.l p.r ∧ P p.r p.l
  | .cmp op l r, h, p, hp => by
    simp only [pathOps] at hp
    split at hp
    · simp at hp
    · simp at hp; subst hp; exact h
  | .between l x y, h, p, hp => by
    simp only [pathOps, List.mem_cons, List.not_mem_nil, or_false] at hp
    rcases hp with rfl | rfl
    · exact ⟨h.1, h.2.1⟩
    · exact ⟨h.2.2.1, h.2.2.2⟩
  | .and a b, h, p, hp => by
    rcases List.mem_append.1 hp with hp | hp
    · exact pathOps_pairs h.1 p hp
    · exact pathOps_pairs h.2 p hp
  | .or _ _, _, p, hp => by simp [pathOps] at hp
  | .other _, _, p, hp => by simp [pathOps] at hp

theorem startVals_hashable (pc : Opd → Opd → Int) {all : List KCol} {w : Wh} (hh : w.Hashes all) :
    ∀ (keys : List KCol) (order : Nat) (vals : List Val), (∀ k ∈ keys, k ∈ all) →
      startVals (startOpds (pathKeys pc (pathOps w) order keys)) = some vals → vals.all hashable = true := by
  intro keys
  induction keys with
  | nil => intro order vals _ h; simp [pathKeys, startOpds, startVals] at h; subst h; rfl
  | cons k keys ih =>
    intro order vals hall h
    have hinv := pathKey_inv pc order k.col (pathOps w)
    cases hs : (pathKey pc order k.col (pathOps w)).start with
    | none => simp [pathKeys, startOpds, hs, startVals] at h; subst h; rfl
    | some sv =>
      obtain ⟨eq, o⟩ := sv
      obtain ⟨p, hp, kl, hu, -, -⟩ := hinv.start eq o hs
      simp only [pathKeys, startOpds, hs] at h
      cases o with
      | col _ => simp [startVals] at h
      | expr _ => simp [startVals] at h
      | val v =>
        simp only [startVals, Option.map_eq_some_iff] at h
        obtain ⟨l, hl, rfl⟩ := h
        have := ih (order + 1) l (fun k hk => hall k (by simp [hk])) hl
        rw [List.all_cons, this, Bool.and_true]
        have hpp := pathOps_pairs hh p hp
        unfold Uses at hu
        cases kl
        · simp only [Bool.false_eq_true, if_false] at hu
          exact hpp.2 k (hall k (by simp)) hu.1 v hu.2.1
        · simp only [if_true] at hu
          exact hpp.1 k (hall k (by simp)) hu.1 v hu.2.1

theorem keyPart_same (j : Junk) {ty : KTy} {k : Val} {v : Option Val} (hk : HasTy ty k)
    (h : valueCompare k (keyPart j ty v) = 0) : k = keyPart j ty v := by
  cases ty with
  | i32 => obtain ⟨i, rfl, -⟩ := hk; cases v <;> simpa [keyPart, valueCompare, cmpI_zero'] using h
  | i64 => obtain ⟨i, rfl, -⟩ := hk; cases v <;> simpa [keyPart, valueCompare, cmpI_zero'] using h
  | ts => obtain ⟨i, rfl, -⟩ := hk; cases v <;> simpa [keyPart, valueCompare, cmpI_zero'] using h
  | uuid =>
    obtain ⟨a, b, rfl⟩ := hk
    have : ∀ c d : Nat, valueCompare (.uuid a b) (.uuid c d) = 0 → Val.uuid a b = .uuid c d := by
      intro c d h
      simp only [valueCompare, ne_eq, cmpI_zero'] at h
      by_cases hx : (a : Int) = c
      · rw [if_neg (by simpa using hx), cmpI_zero'] at h
        congr <;> omega
      · rw [if_pos hx, cmpI_zero'] at h
        exact absurd h hx
    cases v with
    | none => exact this _ _ h
    | some v => cases v <;> exact this _ _ h
  | str =>
    obtain ⟨s, rfl⟩ := hk
    have : ∀ t : List Nat, valueCompare (.str s) (.str t) = 0 → Val.str s = .str t := by
      intro t h
      simp only [valueCompare, cmpS_zero'] at h
      rw [h]
    cases v with
    | none => exact this _ h
    | some v => cases v <;> exact this _ h

theorem createKey_same (j : Junk) : ∀ (keys : List KCol) (vals : List Val) (r : TRow), (∀ k ∈ keys, HasTy k.ty (r.at k.col)) →
    keyCmp (keyOf keys r) (createKey j keys vals) = 0 → keyOf keys r = createKey j keys vals
  | [], _, _, _, _ => rfl
  | k :: keys, vals, r, hr, h => by
    have step : ∀ (x : Option Val) (rest : List Val),
        keyCmp (r.at k.col :: keyOf keys r) (keyPart j k.ty x :: createKey j keys rest) = 0 →
        (r.at k.col :: keyOf keys r) = keyPart j k.ty x :: createKey j keys rest := by
      intro x rest h
      rw [keyCmp_cons] at h
      by_cases hz : valueCompare (r.at k.col) (keyPart j k.ty x) = 0
      · rw [if_neg (by simpa using hz)] at h
        rw [← keyPart_same j (hr k (by simp)) hz, ← createKey_same j keys rest r (fun k hk => hr k (by simp [hk])) h]
      · rw [if_pos hz] at h; exact absurd h hz
    cases vals with
    | nil => exact step none [] h
    | cons v vals => exact step (some v) vals h

theorem flatten_one {α : Type} (f : List TRow → List α) : ∀ (parts : List (List TRow)) (p : Nat), f [] = [] →
    (∀ i, i ≠ p → f (parts.getD i []) = []) → (parts.map f).flatten = f (parts.getD p [])
  | [], p, h0, _ => by simp [h0]
  | x :: parts, 0, h0, h => by
    have : (parts.map f).flatten = [] := by
      rw [List.flatten_eq_nil_iff]
      intro l hl
      obtain ⟨y, hy, rfl⟩ := List.mem_map.1 hl
      obtain ⟨i, hi, rfl⟩ := List.mem_iff_getElem.1 hy
      have := h (i + 1) (by omega)
      simpa [List.getD_eq_getElem?_getD, hi] using this
    simp [this]
  | x :: parts, p + 1, h0, h => by
    have h1 : f x = [] := by simpa using h 0 (by omega)
    have := flatten_one f parts p h0 fun i hi => by simpa using h (i + 1) (by omega)
    simp [h1, this]

/-- a table: every partition holds the rows whose primary key maps to it -/
structure TableRows (place : List Val → Nat) (primary idx : Idx) (parts : List (List TRow)) : Prop where
  index : ∀ rows ∈ parts, IndexRows idx rows
  typed : ∀ rows ∈ parts, ∀ r ∈ rows, ∀ k ∈ primary.keys, HasTy k.ty (r.at k.col)
  placed : ∀ i, ∀ r ∈ parts.getD i [], place (keyOf primary.keys r) = i

theorem getD_mem {parts : List (List TRow)} {i : Nat} {r : TRow} (h : r ∈ parts.getD i []) : parts.getD i [] ∈ parts := by
  by_cases hi : i < parts.length
  · simp [List.getD_eq_getElem?_getD, hi]
  · simp [List.getD_eq_getElem?_getD, hi] at h

theorem indexRows_getD {idx : Idx} {parts : List (List TRow)} (h : ∀ rows ∈ parts, IndexRows idx rows) (i : Nat) :
    IndexRows idx (parts.getD i []) := by
  by_cases hi : i < parts.length
  · exact h _ (by simp [List.getD_eq_getElem?_getD, hi])
  · have : parts.getD i [] = [] := by simp [List.getD_eq_getElem?_getD, hi]
    rw [this]
    exact ⟨by simp, by simp, by simp⟩

/-- SELECT, UPDATE and DELETE over a partitioned table, whether sent to one partition (a lookup by primary key) or to all,
and whatever index they scan, see exactly the rows for which WHERE is true. -/
theorem C67_table_partial (pc : Opd → Opd → Int) (j : Junk) (place : List Val → Nat) (primary idx : Idx) (w : Wh)
    (parts : List (List TRow)) (ht : TableRows place primary idx parts) (hw : w.Ok idx.keys) (hp : w.Ok primary.keys)
    (hh : w.Hashes primary.keys) :
    ∃ out, runTable pc j place primary idx w parts = some out ∧
      out.flatten = parts.flatten.filter fun r => valueIsTrue (w.eval r) := by
  have hscan : ∀ rows, IndexRows idx rows → scanTable pc j idx w rows = some (rows.filter fun r => valueIsTrue (w.eval r)) :=
    fun rows h => C67_scan_partial pc j idx w rows h hw
  obtain ⟨vals, hv, hb⟩ := startKey_bound j pc (pathOps_good hp) primary.keys 0 (fun _ h => h)
  have hflat : parts.flatten.filter (fun r => valueIsTrue (w.eval r)) =
      (parts.map fun rows => rows.filter fun r => valueIsTrue (w.eval r)).flatten := by
    rw [List.filter_flatten]
  by_cases hl : isLookup (pathKeys pc (pathOps w) 0 primary.keys) = true
  · refine ⟨[(parts.getD (place (createKey j primary.keys vals)) []).filter fun r => valueIsTrue (w.eval r)], ?_, ?_⟩
    · simp only [runTable, hl, if_true, hv, Option.bind_some,
        startVals_hashable pc hh primary.keys 0 vals (fun _ h => h) hv, hscan _ (indexRows_getD ht.index _), Option.map_some]
    · rw [hflat, flatten_one (fun rows => rows.filter fun r => valueIsTrue (w.eval r)) parts
        (place (createKey j primary.keys vals)) rfl]
      · simp
      · intro i hne
        rw [List.filter_eq_nil_iff]
        intro r hr hm
        have hty := ht.typed _ (getD_mem hr) r hr
        have hz := (hb r hty (fun p hp => pathOps_true hm p hp)).2 hl
        have := ht.placed i r hr
        rw [createKey_same j _ _ _ hty hz] at this
        exact hne this.symm
  · refine ⟨parts.map fun rows => rows.filter fun r => valueIsTrue (w.eval r), ?_, hflat.symm⟩
    simp only [runTable, hl, Bool.false_eq_true, if_false]
    have hall := ht.index
    clear ht hflat
    induction parts with
    | nil => simp
    | cons x parts ih =>
      rw [List.mapM_cons, hscan x (hall x (by simp)), ih fun y hy => hall y (by simp [hy])]
      rfl

/-- A point lookup in a subquery or a join through an index that contains all columns of the primary key finds the row in
whatever partition it is. -/
theorem C67_subquery_partial (pc : Opd → Opd → Int) (j : Junk) (place : List Val → Nat) (primary idx : Idx) (w : Wh)
    (parts : List (List TRow)) (ht : TableRows place primary idx parts) (hw : w.Ok idx.keys)
    (hl : isLookup (pathKeys pc (pathOps w) 0 idx.keys) = true)
    (hc : ∀ k ∈ primary.keys, ∃ i ∈ idx.keys, i.col = k.col) :
    crossLookup pc j place primary idx w parts = some (parts.flatten.filter fun r => valueIsTrue (w.eval r)) := by
  obtain ⟨vals, hv, hb⟩ := startKey_bound j pc (pathOps_good hw) idx.keys 0 (fun _ h => h)
  have hcov : (primary.keys.all fun k => idx.keys.any fun i => decide (i.col = k.col)) = true := by
    rw [List.all_eq_true]
    intro k hk
    obtain ⟨i, hi, e⟩ := hc k hk
    rw [List.any_eq_true]
    exact ⟨i, hi, by simp [e]⟩
  have hfind : ∀ (r : TRow) (k : KCol), (∃ i ∈ idx.keys, i.col = k.col) →
      ((idx.keys.zip (keyOf idx.keys r)).find? fun p => decide (p.1.col = k.col)).elim Val.null (·.2) = r.at k.col := by
    intro r k
    generalize idx.keys = l
    induction l with
    | nil => rintro ⟨i, hi, -⟩; simp at hi
    | cons x l ih =>
      rintro ⟨i, hi, e⟩
      simp only [keyOf, List.map_cons, List.zip_cons_cons, List.find?_cons]
      by_cases hx : x.col = k.col
      · simp [hx]
      · simp only [hx, decide_false]
        rcases List.mem_cons.1 hi with rfl | hi
        · exact absurd e hx
        · exact ih ⟨i, hi, e⟩
  simp only [crossLookup, hv, Option.bind_some, crossPart, hcov, if_true,
    C67_scan_partial pc j idx w _ (indexRows_getD ht.index _) hw]
  congr 1
  rw [List.filter_flatten, flatten_one (fun rows => rows.filter fun r => valueIsTrue (w.eval r)) parts _ rfl]
  intro i hne
  rw [List.filter_eq_nil_iff]
  intro r hr hm
  have hty := (indexRows_getD ht.index i).typed r hr
  have hz := (hb r hty (fun p hp => pathOps_true hm p hp)).2 hl
  have hplace := ht.placed i r hr
  have hk : keyOf primary.keys r = primary.keys.map fun k =>
      ((idx.keys.zip (createKey j idx.keys vals)).find? fun p => decide (p.1.col = k.col)).elim Val.null (·.2) := by
    rw [← createKey_same j _ _ _ hty hz]
    unfold keyOf
    refine List.map_congr_left fun k hk => ?_
    exact (hfind r k (hc k hk)).symm
  rw [hk] at hplace
  exact hne hplace.symm

/-! ## A case -/

def exPc : Opd → Opd → Int := fun a b => match a, b with
  | .val (.int x), .val (.int y) => cmpI x y
  | _, _ => -1
def exJunk : Junk := ⟨77, (7, 7), [7]⟩
/-- PRIMARY KEY (a int, b text) -/
def exIdx : Idx := ⟨[⟨0, .i32⟩, ⟨1, .str⟩], true, true⟩
def exRows : List TRow := [[.int 1, .str [97], .int 5], [.int 2, .str [97], .int 6], [.int 2, .str [98], .int 7],
  [.int 4, .str [97], .int 8], [.int 9, .str [], .int 9]]
/-- a >= 2 AND a < 9 AND b = 'a' AND c > 6 -/
def exWh : Wh := .and (.and (.cmp .gte (.col 0) (.val (.int 2))) (.cmp .gt (.val (.int 9)) (.col 0)))
  (.and (.cmp .equ (.col 1) (.val (.str [97]))) (.cmp .gt (.col 2) (.val (.int 6))))

theorem ex_indexRows : IndexRows exIdx exRows := by
  refine ⟨?_, fun _ => by decide, fun _ => by decide⟩
  intro r hr k hk
  simp only [exRows, List.mem_cons, List.not_mem_nil, or_false] at hr
  simp only [exIdx, List.mem_cons, List.not_mem_nil, or_false] at hk
  rcases hk with rfl | rfl <;> rcases hr with rfl | rfl | rfl | rfl | rfl <;>
    simp [HasTy, TRow.at]

theorem ex_ok : exWh.Ok exIdx.keys := by
  simp [exWh, Wh.Ok, FitsPair, exIdx, Fits, Val.asInt]

example : scanTable exPc exJunk exIdx exWh exRows = some [[.int 4, .str [97], .int 8]] := by
  rw [C67_scan_partial exPc exJunk exIdx exWh exRows ex_indexRows ex_ok]
  decide

/-- the path has a start key and a stop condition in this case -/
example : startVals (startOpds (pathKeys exPc (pathOps exWh) 0 exIdx.keys)) = some [.int 2, .str [97]] ∧
    (stopOps (pathKeys exPc (pathOps exWh) 0 exIdx.keys)).length = 1 := by decide

/-- two partitions: odd and even values of `a` -/
def exPlace : List Val → Nat
  | .int i :: _ => (i % 2).toNat
  | _ => 2
def exParts : List (List TRow) := [[[.int 2, .str [97], .int 6], [.int 2, .str [98], .int 7], [.int 4, .str [97], .int 8]],
  [[.int 1, .str [97], .int 5], [.int 9, .str [], .int 9]]]
/-- a = 2 AND 'b' = b -/
def exLookup : Wh := .and (.cmp .equ (.col 0) (.val (.int 2))) (.cmp .equ (.val (.str [98])) (.col 1))

theorem ex_table : TableRows exPlace exIdx exIdx exParts := by
  have typed : ∀ rows ∈ exParts, ∀ r ∈ rows, ∀ k ∈ exIdx.keys, HasTy k.ty (r.at k.col) := by
    intro rows hrows r hr k hk
    simp only [exIdx, List.mem_cons, List.not_mem_nil, or_false] at hk
    simp only [exParts, List.mem_cons, List.not_mem_nil, or_false] at hrows
    rcases hrows with rfl | rfl
    · simp only [List.mem_cons, List.not_mem_nil, or_false] at hr
      rcases hk with rfl | rfl <;> rcases hr with rfl | rfl | rfl <;> simp [HasTy, TRow.at]
    · simp only [List.mem_cons, List.not_mem_nil, or_false] at hr
      rcases hk with rfl | rfl <;> rcases hr with rfl | rfl <;> simp [HasTy, TRow.at]
  refine ⟨?_, typed, ?_⟩
  · intro rows hrows
    refine ⟨typed rows hrows, ?_, ?_⟩ <;> intro _ <;> simp only [exParts, List.mem_cons, List.not_mem_nil, or_false] at hrows <;>
      rcases hrows with rfl | rfl <;> decide
  · intro i r hr
    match i, hr with
    | 0, hr =>
      simp only [exParts, List.getD_cons_zero, List.mem_cons, List.not_mem_nil, or_false] at hr
      rcases hr with rfl | rfl | rfl <;> rfl
    | 1, hr =>
      simp only [exParts, List.getD_cons_zero, List.getD_cons_succ, List.mem_cons, List.not_mem_nil, or_false] at hr
      rcases hr with rfl | rfl <;> rfl
    | i + 2, hr => simp [exParts] at hr

example : ∃ out, runTable exPc exJunk exPlace exIdx exIdx exLookup exParts = some out ∧
    out.flatten = [[.int 2, .str [98], .int 7]] := by
  obtain ⟨out, h1, h2⟩ := C67_table_partial exPc exJunk exPlace exIdx exIdx exLookup exParts ex_table
    (by simp [exLookup, Wh.Ok, FitsPair, exIdx, Fits, Val.asInt]) (by simp [exLookup, Wh.Ok, FitsPair, exIdx, Fits, Val.asInt])
    (by simp [exLookup, Wh.Hashes, Wh.Pairs, exIdx, hashable])
  exact ⟨out, h1, h2.trans (by decide)⟩

example : crossLookup exPc exJunk exPlace exIdx exIdx exLookup exParts = some [[.int 2, .str [98], .int 7]] := by
  rw [C67_subquery_partial exPc exJunk exPlace exIdx exIdx exLookup exParts ex_table
    (by simp [exLookup, Wh.Ok, FitsPair, exIdx, Fits, Val.asInt]) (by decide) (fun k hk => ⟨k, hk, rfl⟩)]
  decide

/-! ## Where the code differs -/

/-- id int primary key -/
def idIdx : Idx := ⟨[⟨0, .i32⟩], true, true⟩

/-- `WHERE id > 0.5`: row_create_key stores the bits of the double (0x3FE0000000000000) as the start key; a 64-bit key is
larger than every row, and no row is found although WHERE is true for id = 1. -/
theorem C67_double_false : ∃ w : Wh, valueIsTrue (w.eval [.int 1]) = true ∧ IndexRows ⟨[⟨0, .i64⟩], true, true⟩ [[.int 1]] ∧
    scanTable exPc exJunk ⟨[⟨0, .i64⟩], true, true⟩ w [[.int 1]] = some [] := by
  refine ⟨.cmp .gt (.col 0) (.val (.dbl 0x3FE0000000000000)), by decide +kernel, ?_, by decide +kernel⟩
  exact ⟨by simp [HasTy, TRow.at], by simp, by simp⟩

/-- `WHERE id > -3000000000` on an int (32-bit) key: the start key wraps to 1294967296 and every row below it is lost. -/
theorem C67_int32_false : ∃ w : Wh, valueIsTrue (w.eval [.int 1]) = true ∧ IndexRows idIdx [[.int 1]] ∧
    scanTable exPc exJunk idIdx w [[.int 1]] = some [] := by
  refine ⟨.cmp .gt (.col 0) (.val (.int (-3000000000))), by decide +kernel, ?_, by decide +kernel⟩
  exact ⟨by simp [HasTy, TRow.at, idIdx], by simp, by simp⟩

/-- `WHERE id BETWEEN x AND 10` where x is a column of the row: the path takes x as its start key and reads it through the
cursor that is not open yet. -/
theorem C67_between_false : ∃ w : Wh, valueIsTrue (w.eval [.int 1, .int 0]) = true ∧ IndexRows idIdx [[.int 1, .int 0]] ∧
    scanTable exPc exJunk idIdx w [[.int 1, .int 0]] = none := by
  refine ⟨.between (.col 0) (.col 1) (.val (.int 10)), by decide +kernel, ?_, by decide +kernel⟩
  exact ⟨by simp [HasTy, TRow.at, idIdx], by simp, by simp⟩

/-- `WHERE id = NULL` and `WHERE id = 1.5` on a primary key end the process: value_hash() calls abort(). -/
theorem C67_abort_false (v : Val) (h : v = .null ∨ ∃ b, v = .dbl b) (place : List Val → Nat) (parts : List (List TRow)) :
    runTable exPc exJunk place idIdx idIdx (.cmp .equ (.col 0) (.val v)) parts = none := by
  rcases h with rfl | ⟨b, rfl⟩ <;>
    simp [runTable, pathOps, pathKeys, idIdx, pathKey, pathKeyOp, isCol, outer, applyOp, takeStart, isLookup, PathKey.isEq,
      startOpds, startVals, hashable]

/-- a point lookup in a subquery or join through a secondary unique index hashes the columns of the primary key in a key row
that does not have them -/
theorem C67_subquery_false (place : List Val → Nat) (parts : List (List TRow)) :
    crossLookup exPc exJunk place idIdx ⟨[⟨1, .i32⟩], true, true⟩ (.cmp .equ (.col 1) (.val (.int 5))) parts = none := by
  simp [crossLookup, crossPart, pathOps, pathKeys, idIdx, pathKey, pathKeyOp, isCol, outer, applyOp, takeStart,
      startOpds, startVals]

end Verif.Query
