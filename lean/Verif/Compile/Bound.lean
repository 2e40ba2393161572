import Verif.Compile.Main
/-!
# The registers the code names exist; the machine is deterministic
-/
set_option linter.unusedSimpArgs false
set_option linter.unusedVariables false
namespace Verif.Compile
open Verif.Query (CmpOp)

variable {W : Type} {E : Env W} {S : Sig}

/-- the registers an instruction reads or writes -/
def Instr.regs : Instr → List Nat
  | .const r _ => [r] | .value r _ _ => [r] | .var r _ => [r] | .col r _ _ => [r] | .array r _ => [r] | .object r _ => [r]
  | .nullop a b c => [a, b, c] | .op _ a b c => [a, b, c] | .is a b => [a, b] | .and a b c => [a, b, c] | .or a b c => [a, b, c]
  | .not a b => [a, b] | .negI a b => [a, b] | .negF a b => [a, b] | .negL a b => [a, b] | .inv a b => [a, b]
  | .inlist a b _ => [a, b] | .quant _ _ a b c => [a, b, c] | .call r _ _ => [r] | .mov a b => [a, b]
  | .jmp _ => [] | .jntr _ b => [b] | .push b => [b] | .pushc _ _ => [] | .pushvar _ => []

/-- every register the code names is below the size of the register map -/
def Bounded (c : CS) : Prop := ∀ i ∈ c.code, ∀ r ∈ i.regs, r < c.map.length

theorem pin_lt (m : List (Option Ty)) (t : Ty) : (pinAt m t).2 < (pinAt m t).1.length ∧ m.length ≤ (pinAt m t).1.length := by
  induction m with
  | nil => simp [pinAt]
  | cons x m ih =>
    cases x with
    | none => simp [pinAt]
    | some u => simp only [pinAt, List.length_cons]; omega

/-- the map only grows, the code stays in bounds -/
structure Grows (c c' : CS) : Prop where
  le : c.map.length ≤ c'.map.length
  ok : Bounded c → Bounded c'

theorem Grows.refl (c : CS) : Grows c c := ⟨Nat.le_refl _, fun h => h⟩
theorem Grows.trans {a b c : CS} (h : Grows a b) (h' : Grows b c) : Grows a c := ⟨Nat.le_trans h.le h'.le, fun x => h'.ok (h.ok x)⟩
theorem Grows.pin (c : CS) (t : Ty) : Grows c (c.pin t).1 :=
  ⟨(pin_lt c.map t).2, fun h i hi r hr => Nat.lt_of_lt_of_le (h i hi r hr) (pin_lt c.map t).2⟩
theorem Grows.op (c : CS) (i : Instr) (h : ∀ r ∈ i.regs, r < c.map.length) : Grows c (c.op i) := by
  refine ⟨Nat.le_refl _, fun hb x hx => ?_⟩
  change x ∈ c.code ++ [i] at hx
  rcases List.mem_append.mp hx with hx | hx
  · exact hb x hx
  · rw [List.mem_singleton] at hx; subst hx; exact h
theorem Grows.unpin (c : CS) (r : Nat) : Grows c (c.unpin r) := by
  refine ⟨by simp [CS.unpin], fun hb x hx r' hr' => ?_⟩
  have := hb x hx r' hr'
  simpa [CS.unpin] using this
theorem Grows.assign (c : CS) (r : Nat) (t : Ty) : Grows c (c.assign r t) := by
  refine ⟨by simp [CS.assign], fun hb x hx r' hr' => ?_⟩
  have := hb x hx r' hr'
  simpa [CS.assign] using this
theorem setA_regs (t : Nat) (i : Instr) : (i.setA t).regs = i.regs := by cases i <;> rfl
theorem mem_modify {l : List Instr} {n : Nat} {f : Instr → Instr} {x : Instr} (h : x ∈ l.modify n f) : x ∈ l ∨ ∃ y ∈ l, x = f y := by
  induction l generalizing n with
  | nil => simp at h
  | cons a l ih =>
    cases n with
    | zero =>
      rw [List.modify_zero_cons] at h
      rcases List.mem_cons.mp h with h | h
      · exact .inr ⟨a, by simp, h⟩
      · exact .inl (by simp [h])
    | succ n =>
      rw [List.modify_succ_cons] at h
      rcases List.mem_cons.mp h with h | h
      · exact .inl (by simp [h])
      · rcases ih h with h | ⟨y, hy, h⟩
        · exact .inl (by simp [h])
        · exact .inr ⟨y, by simp [hy], h⟩
theorem Grows.patch (c : CS) (p t : Nat) : Grows c (c.patch p t) := by
  refine ⟨Nat.le_refl _, fun hb x hx r hr => ?_⟩
  rcases mem_modify hx with h | ⟨y, hy, h⟩
  · exact hb x h r hr
  · subst h; rw [setA_regs] at hr; exact hb y hy r hr
theorem Grows.patchAll (js : List Nat) (t : Nat) (c : CS) : Grows c (patchAll js t c) := by
  induction js generalizing c with
  | nil => exact .refl _
  | cons j js ih => exact (Grows.patch c j t).trans (ih _)

theorem Grows.oppin (c : CS) (t : Ty) (i : Nat → Instr) (h : ∀ a r, r ∈ (i a).regs → r = a ∨ r < c.map.length) :
    Grows c (c.oppin t i).1 ∧ (c.oppin t i).2 < (c.oppin t i).1.map.length := by
  refine ⟨(Grows.pin c t).trans (Grows.op _ _ fun r hr => ?_), (pin_lt c.map t).1⟩
  rcases h _ r hr with e | e
  · subst e; exact (pin_lt c.map t).1
  · exact Nat.lt_of_lt_of_le e (pin_lt c.map t).2

/-- code with a result -/
def GrowsR (c : CS) (o : Option (CS × Nat)) : Prop := ∀ c' r, o = some (c', r) → Grows c c' ∧ r < c'.map.length

theorem growsR_un (c : CS) (t : Ty) (i : Nat → Instr) (b : Nat) (hb : b < c.map.length) (h : ∀ a r, r ∈ (i a).regs → r = a ∨ r = b) :
    GrowsR c (some (c.un t i b)) := by
  intro c' r he
  have he : c.un t i b = (c', r) := Option.some.inj he
  cases he
  obtain ⟨g1, g2⟩ := Grows.oppin c t i fun a r hr => (h a r hr).imp id (fun e => by rw [e]; exact hb)
  exact ⟨g1.trans (Grows.unpin _ _), Nat.lt_of_lt_of_le g2 (Grows.unpin _ _).le⟩
theorem growsR_bi (c : CS) (t : Ty) (i : Nat → Instr) (l b : Nat) (hl : l < c.map.length) (hb : b < c.map.length)
    (h : ∀ a r, r ∈ (i a).regs → r = a ∨ r = l ∨ r = b) : GrowsR c (some (c.bi t i l b)) := by
  intro c' r he
  have he : c.bi t i l b = (c', r) := Option.some.inj he
  cases he
  obtain ⟨g1, g2⟩ := Grows.oppin c t i fun a r hr => (h a r hr).imp id (fun e => by rcases e with e | e <;> rw [e] <;> assumption)
  exact ⟨(g1.trans (Grows.unpin _ _)).trans (Grows.unpin _ _), Nat.lt_of_lt_of_le (Nat.lt_of_lt_of_le g2 (Grows.unpin _ _).le) (Grows.unpin _ _).le⟩

theorem growsR_bind {c : CS} {o : Option (CS × Nat)} {k : CS × Nat → Option (CS × Nat)} (h : GrowsR c o)
    (hk : ∀ c1 r1, Grows c c1 → r1 < c1.map.length → GrowsR c1 (k (c1, r1))) : GrowsR c (o.bind k) := by
  intro c' r he
  rw [Option.bind_eq_some_iff] at he
  obtain ⟨⟨c1, r1⟩, h1, h2⟩ := he
  obtain ⟨g1, g2⟩ := h c1 r1 h1
  obtain ⟨g3, g4⟩ := hk c1 r1 g1 g2 c' r h2
  exact ⟨g1.trans g3, g4⟩

theorem growsR_cast (o : Op) (l b : Nat) (c : CS) (hl : l < c.map.length) (hb : b < c.map.length) : GrowsR c (castOperator o l b c) := by
  rw [castOperator_eq]
  intro c' r he
  rw [Option.bind_eq_some_iff] at he
  obtain ⟨⟨t, i⟩, hsel, he⟩ := he
  refine growsR_bi c t (fun a => i a l b) l b hl hb (fun a r hr => ?_) c' r he
  unfold selCast at hsel
  by_cases hn : c.rtype l = .null ∨ c.rtype b = .null
  · rw [if_pos hn] at hsel; cases hsel; simpa [Instr.regs] using hr
  · rw [if_neg hn, Option.map_eq_some_iff] at hsel
    obtain ⟨e, _, h⟩ := hsel
    cases h; simpa [Instr.regs] using hr

theorem growsR_not (c : CS) (b : Nat) (hb : b < c.map.length) : GrowsR c (some (c.notOf b)) :=
  growsR_un c .bool _ b hb fun a r hr => by simpa [Instr.regs] using hr

theorem grows_caseMove {rres q : Nat} {c d : CS} (h1 : rres < c.map.length) (h2 : q < c.map.length) (h : caseMove rres q c = some d) : Grows c d := by
  unfold caseMove at h
  rw [Option.bind_eq_some_iff] at h
  obtain ⟨c1, h3, h4⟩ := h
  have g1 : Grows c c1 := by
    unfold caseType at h3
    split at h3
    · cases h3; exact Grows.assign _ _ _
    · split at h3
      · cases h3
      · cases h3; exact .refl _
  cases h4
  refine (g1.trans (Grows.op _ _ fun r hr => ?_)).trans (Grows.unpin _ _)
  simp only [Instr.regs, List.mem_cons, List.not_mem_nil, or_false] at hr
  rcases hr with e | e <;> rw [e]
  · exact Nat.lt_of_lt_of_le h1 g1.le
  · exact Nat.lt_of_lt_of_le h2 g1.le

theorem growsR_leaf (c : CS) (t : Ty) (i : Nat → Instr) (h : ∀ a r, r ∈ (i a).regs → r = a) : GrowsR c (some (c.oppin t i)) := by
  intro c' r he
  have he : c.oppin t i = (c', r) := Option.some.inj he
  have := Grows.oppin c t i fun a r hr => .inl (h a r hr)
  rw [he] at this; exact this

mutual
theorem grows (e : Expr) (c : CS) : GrowsR c (emit S e c) := by
  cases e with
  | const v => rw [emit]; exact growsR_leaf _ _ _ fun a r hr => by simpa [Instr.regs] using hr
  | value v o => rw [emit]; exact growsR_leaf _ _ _ fun a r hr => by simpa [Instr.regs] using hr
  | var n => rw [emit]; exact growsR_leaf _ _ _ fun a r hr => by simpa [Instr.regs] using hr
  | col t n =>
    rw [emit]
    cases h : S.cursor t with
    | none => intro c' r hc; cases hc
    | some rc =>
      simp only [Option.bind]
      exact growsR_leaf _ _ _ fun a r hr => by simpa [Instr.regs] using hr
  | array a =>
    rw [emit]
    intro c' r he
    rw [Option.bind_eq_some_iff] at he
    obtain ⟨⟨c1, ts⟩, h1, h2⟩ := he
    have g := grows_args a c [] c1 ts h1
    obtain ⟨g1, g2⟩ := growsR_leaf c1 .json (fun r => .array r ts.length) (fun a r hr => by simpa [Instr.regs] using hr) c' r h2
    exact ⟨g.trans g1, g2⟩
  | object a =>
    rw [emit]
    intro c' r he
    rw [Option.bind_eq_some_iff] at he
    obtain ⟨⟨c1, ts⟩, h1, h2⟩ := he
    have g := grows_args a c [] c1 ts h1
    obtain ⟨g1, g2⟩ := growsR_leaf c1 .json (fun r => .object r ts.length) (fun a r hr => by simpa [Instr.regs] using hr) c' r h2
    exact ⟨g.trans g1, g2⟩
  | bin o l r =>
    rw [emit]
    exact growsR_bind (grows l c) fun c1 r1 _ h1 => growsR_bind (grows r c1) fun c2 r2 g2 h2 =>
      growsR_cast o r1 r2 c2 (Nat.lt_of_lt_of_le h1 g2.le) h2
  | nequ l r =>
    rw [emit]
    exact growsR_bind (grows l c) fun c1 r1 _ h1 => growsR_bind (grows r c1) fun c2 r2 g2 h2 =>
      growsR_bind (growsR_cast _ r1 r2 c2 (Nat.lt_of_lt_of_le h1 g2.le) h2) fun c3 r3 _ h3 => growsR_not c3 r3 h3
  | like neg l r =>
    rw [emit]
    refine growsR_bind (grows l c) fun c1 r1 _ h1 => growsR_bind (grows r c1) fun c2 r2 g2 h2 =>
      growsR_bind (growsR_cast _ r1 r2 c2 (Nat.lt_of_lt_of_le h1 g2.le) h2) fun c3 r3 _ h3 => ?_
    cases neg with
    | true => exact growsR_not c3 r3 h3
    | false =>
      intro c' r' he
      cases he
      exact ⟨.refl _, h3⟩
  | and l r =>
    rw [emit]
    exact growsR_bind (grows l c) fun c1 r1 _ h1 => growsR_bind (grows r c1) fun c2 r2 g2 h2 =>
      growsR_bi c2 _ _ r1 r2 (Nat.lt_of_lt_of_le h1 g2.le) h2 fun a r hr => by simpa [Instr.regs] using hr
  | or l r =>
    rw [emit]
    exact growsR_bind (grows l c) fun c1 r1 _ h1 => growsR_bind (grows r c1) fun c2 r2 g2 h2 =>
      growsR_bi c2 _ _ r1 r2 (Nat.lt_of_lt_of_le h1 g2.le) h2 fun a r hr => by simpa [Instr.regs] using hr
  | not e =>
    rw [emit]
    exact growsR_bind (grows e c) fun c1 r1 _ h1 => growsR_not c1 r1 h1
  | neg e =>
    rw [emit]
    refine growsR_bind (grows e c) fun c1 r1 _ h1 => ?_
    dsimp only
    by_cases t1 : c1.rtype r1 = .int
    · rw [if_pos t1]; exact growsR_un c1 _ _ r1 h1 fun a r hr => by simpa [Instr.regs] using hr
    · rw [if_neg t1]
      by_cases t2 : c1.rtype r1 = .double
      · rw [if_pos t2]; exact growsR_un c1 _ _ r1 h1 fun a r hr => by simpa [Instr.regs] using hr
      · rw [if_neg t2]
        by_cases t3 : c1.rtype r1 = .interval
        · rw [if_pos t3]; exact growsR_un c1 _ _ r1 h1 fun a r hr => by simpa [Instr.regs] using hr
        · rw [if_neg t3]; intro c' r he; cases he
  | inv e =>
    rw [emit]
    refine growsR_bind (grows e c) fun c1 r1 _ h1 => ?_
    dsimp only
    by_cases t1 : c1.rtype r1 = .int
    · rw [if_pos t1]; exact growsR_un c1 _ _ r1 h1 fun a r hr => by simpa [Instr.regs] using hr
    · rw [if_neg t1]; intro c' r he; cases he
  | call f a =>
    rw [emit]
    intro c' r he
    rw [Option.bind_eq_some_iff] at he
    obtain ⟨⟨c1, ts⟩, h1, h2⟩ := he
    rw [Option.bind_eq_some_iff] at h2
    obtain ⟨t, _, h2⟩ := h2
    have g := grows_args a c [] c1 ts h1
    obtain ⟨g1, g2⟩ := growsR_leaf c1 t (fun r => .call r f ts.length) (fun a r hr => by simpa [Instr.regs] using hr) c' r h2
    exact ⟨g.trans g1, g2⟩
  | case ws e =>
    rw [emit]
    intro c' r he
    simp only [Option.bind_eq_some_iff, Option.some.injEq, Prod.mk.injEq] at he
    obtain ⟨⟨c1, js⟩, h1, ⟨c2, q⟩, h2, d, h3, h4, h5⟩ := he
    have hp := (pin_lt c.map .null).1
    have g0 := Grows.pin c .null
    have g1 := grows_whens _ none (fun em h => by cases h) ws _ [] hp c1 js h1
    obtain ⟨g2, hq⟩ := grows e c1 c2 q h2
    have hr2 : (c.pin .null).2 < c2.map.length := Nat.lt_of_lt_of_le hp (g1.trans g2).le
    have g3 := grows_caseMove hr2 hq h3
    have g4 := Grows.patchAll js d.code.length d
    dsimp only at h4
    rw [h4] at g4
    refine ⟨(((g0.trans g1).trans g2).trans g3).trans g4, ?_⟩
    rw [← h5]; exact Nat.lt_of_lt_of_le hr2 (g3.trans g4).le
  | caseOf o ws e =>
    rw [emit]
    intro c' r he
    simp only [Option.bind_eq_some_iff, Option.some.injEq, Prod.mk.injEq] at he
    obtain ⟨⟨c1, js⟩, h1, ⟨c2, q⟩, h2, d, h3, h4, h5⟩ := he
    have hp := (pin_lt c.map .null).1
    have g0 := Grows.pin c .null
    have g1 := grows_whens _ (some (emit S o)) (fun em h c => by cases h; exact grows o c) ws _ [] hp c1 js h1
    obtain ⟨g2, hq⟩ := grows e c1 c2 q h2
    have hr2 : (c.pin .null).2 < c2.map.length := Nat.lt_of_lt_of_le hp (g1.trans g2).le
    have g3 := grows_caseMove hr2 hq h3
    have g4 := Grows.patchAll js d.code.length d
    dsimp only at h4
    rw [h4] at g4
    refine ⟨(((g0.trans g1).trans g2).trans g3).trans g4, ?_⟩
    rw [← h5]; exact Nat.lt_of_lt_of_le hr2 (g3.trans g4).le
  | between neg e x y =>
    rw [emit]
    refine growsR_bind (grows e c) fun c1 r1 _ h1 => growsR_bind (grows x c1) fun c2 r2 g2 h2 =>
      growsR_bind (growsR_cast _ r1 r2 c2 (Nat.lt_of_lt_of_le h1 g2.le) h2) fun c3 r3 _ h3 =>
      growsR_bind (grows e c3) fun c4 r4 g4 h4 => growsR_bind (grows y c4) fun c5 r5 g5 h5 =>
      growsR_bind (growsR_cast _ r4 r5 c5 (Nat.lt_of_lt_of_le h4 g5.le) h5) fun c6 r6 g6 h6 => ?_
    have hb := growsR_bi c6 .bool (fun a => .and a r3 r6) r3 r6 (Nat.lt_of_lt_of_le h3 ((g4.trans g5).trans g6).le) h6 (fun a r hr => by simpa [Instr.regs] using hr)
    cases neg with
    | false => exact hb
    | true => exact growsR_bind (k := fun p => some (p.1.notOf p.2)) hb fun c7 r7 _ h7 => growsR_not c7 r7 h7
  | isNull neg e =>
    rw [emit]
    refine growsR_bind (grows e c) fun c1 r1 _ h1 => ?_
    have hb := growsR_un c1 .bool (fun a => .is a r1) r1 h1 (fun a r hr => by simpa [Instr.regs] using hr)
    cases neg with
    | false => exact hb
    | true => exact growsR_bind (k := fun p => some (p.1.notOf p.2)) hb fun c7 r7 _ h7 => growsR_not c7 r7 h7
  | inlist neg e a =>
    rw [emit]
    refine growsR_bind (grows e c) fun c1 r1 _ h1 => ?_
    intro c' r he
    rw [Option.bind_eq_some_iff] at he
    obtain ⟨⟨c2, ts⟩, h2, h3⟩ := he
    have g := grows_args a c1 [] c2 ts h2
    have hb := growsR_un c2 .bool (fun a => .inlist a r1 ts.length) r1 (Nat.lt_of_lt_of_le h1 g.le) (fun a r hr => by simpa [Instr.regs] using hr)
    have hn : GrowsR c2 (if neg then
        some ((c2.un .bool (fun a => .inlist a r1 ts.length) r1).1.notOf (c2.un .bool (fun a => .inlist a r1 ts.length) r1).2)
        else some (c2.un .bool (fun a => .inlist a r1 ts.length) r1)) := by
      cases neg with
      | false => exact hb
      | true => exact growsR_bind (k := fun p => some (p.1.notOf p.2)) hb fun c7 r7 _ h7 => growsR_not c7 r7 h7
    obtain ⟨g1, g2⟩ := hn c' r h3
    exact ⟨g.trans g1, g2⟩
  | quant all k a b =>
    rw [emit]
    exact growsR_bind (grows a c) fun c1 r1 _ h1 => growsR_bind (grows b c1) fun c2 r2 g2 h2 =>
      growsR_bi c2 _ _ r1 r2 (Nat.lt_of_lt_of_le h1 g2.le) h2 fun a r hr => by simpa [Instr.regs] using hr
theorem grows_args (a : Args) (c : CS) (ts : List Ty) (c' : CS) (ts' : List Ty) (h : emitArgs S a c ts = some (c', ts')) : Grows c c' := by
  cases a with
  | nil => rw [emitArgs] at h; cases h; exact .refl _
  | cons e rest =>
    rw [emitArgs, Option.bind_eq_some_iff] at h
    obtain ⟨⟨c1, t⟩, h1, h2⟩ := h
    refine Grows.trans ?_ (grows_args rest c1 _ c' ts' h2)
    have hd : ((emit S e c).bind fun p => some ((p.1.op (.push p.2)).unpin p.2, p.1.rtype p.2)) = some (c1, t) → Grows c c1 := by
      intro hx
      rw [Option.bind_eq_some_iff] at hx
      obtain ⟨⟨c2, r⟩, h3, h4⟩ := hx
      obtain ⟨g1, g2⟩ := grows e c c2 r h3
      cases h4
      exact (g1.trans (Grows.op _ _ fun r hr => by simp only [Instr.regs, List.mem_singleton] at hr; rw [hr]; exact g2)).trans (Grows.unpin _ _)
    cases e with
    | const v => cases h1; exact Grows.op _ _ fun r hr => by simp [Instr.regs] at hr
    | value v o => cases h1; exact Grows.op _ _ fun r hr => by simp [Instr.regs] at hr
    | var n => cases h1; exact Grows.op _ _ fun r hr => by simp [Instr.regs] at hr
    | col t n => exact hd h1
    | array n => exact hd h1
    | object n => exact hd h1
    | bin o l r => exact hd h1
    | nequ l r => exact hd h1
    | like n l r => exact hd h1
    | and l r => exact hd h1
    | or l r => exact hd h1
    | not e => exact hd h1
    | neg e => exact hd h1
    | inv e => exact hd h1
    | call f a => exact hd h1
    | case ws e => exact hd h1
    | caseOf o ws e => exact hd h1
    | between n e x y => exact hd h1
    | isNull n e => exact hd h1
    | inlist n e a => exact hd h1
    | quant all k a b => exact hd h1
theorem grows_whens (rres : Nat) (opd : Option (CS → Option (CS × Nat))) (ho : ∀ em, opd = some em → ∀ c, GrowsR c (em c)) (ws : Whens) (c : CS)
    (js : List Nat) (hr : rres < c.map.length) (c' : CS) (js' : List Nat) (h : emitWhens S rres opd ws c js = some (c', js')) : Grows c c' := by
  cases ws with
  | nil => rw [emitWhens] at h; cases h; exact .refl _
  | cons w t rest =>
    rw [emitWhens, Option.bind_eq_some_iff] at h
    obtain ⟨⟨c1, k⟩, h1, h⟩ := h
    simp only [Option.bind_eq_some_iff] at h
    obtain ⟨⟨c2, q⟩, h2, d, h3, h4⟩ := h
    have hc : Grows c c1 ∧ k < c1.map.length := by
      cases opd with
      | none => exact grows w c c1 k h1
      | some em =>
        exact growsR_bind (ho em rfl c) (k := fun p => (emit S w p.1).bind fun q => castOperator (.cmp .equ) p.2 q.2 q.1)
          (fun c3 r3 _ h3 => growsR_bind (grows w c3) fun c4 r4 g4 h4 => growsR_cast _ r3 r4 c4 (Nat.lt_of_lt_of_le h3 g4.le) h4) c1 k h1
    obtain ⟨g1, hk⟩ := hc
    have g2 : Grows c1 (c1.op (.jntr 0 k)) := Grows.op _ _ fun r hr => by simp only [Instr.regs, List.mem_singleton] at hr; rw [hr]; exact hk
    obtain ⟨g3, hq⟩ := grows t _ c2 q h2
    have hr2 : rres < c2.map.length := Nat.lt_of_lt_of_le hr ((g1.trans g2).trans g3).le
    have g4 := grows_caseMove hr2 hq h3
    have g5 : Grows d (((d.op (.jmp 0)).patch c1.code.length (d.code.length + 1)).unpin k) :=
      ((Grows.op _ _ fun r hr => by simp [Instr.regs] at hr).trans (Grows.patch _ _ _)).trans (Grows.unpin _ _)
    exact ((((g1.trans g2).trans g3).trans g4).trans g5).trans
      (grows_whens rres opd ho rest _ _ (Nat.lt_of_lt_of_le hr2 (g4.trans g5).le) c' js' h4)
end

/-! ## One run -/

theorem Exec.linear {code : List Instr} {s a b : VM W} (h : Exec E code s a) (h' : Exec E code s b) : Exec E code a b ∨ Exec E code b a := by
  induction h generalizing b with
  | refl s => exact .inl h'
  | step h1 h2 h3 ih =>
    cases h' with
    | refl => exact .inr (.step h1 h2 h3)
    | step g1 g2 g3 =>
      rw [h1] at g1; cases g1
      rw [h2] at g2; cases g2
      exact ih g3

theorem Exec.stuck {code : List Instr} {s a : VM W} (hs : code[s.pc]? = none) (h : Exec E code s a) : a = s := by
  cases h with
  | refl => rfl
  | step h1 _ _ => rw [hs] at h1; cases h1

end Verif.Compile
