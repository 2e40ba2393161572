import Verif.Compile.Sim
/-!
# The instructions do what the operators say
-/
set_option linter.unusedSimpArgs false
set_option linter.unusedVariables false
namespace Verif.Compile
open Verif.Query (CmpOp)

variable {W : Type}

theorem one_nullop (E : Env W) (s : VM W) (a b c : Nat) (hab : a ≠ b) (hac : a ≠ c) :
    One E (.nullop a b c) s a [b, c] (.ok .null) := by
  refine ⟨fun v hv => ?_, fun x hx => by cases hx⟩
  cases hv
  obtain ⟨s1, h, r⟩ := one_put_free2 s a b c .null false hab hac
  exact ⟨s1, by rw [h]; rfl, r⟩

theorem one_op (E : Env W) (s : VM W) (a b c : Nat) (hab : a ≠ b) (hac : a ≠ c) {o : Op} {l r t : Ty} {k : Opc}
    (hk : OpcOk E.P o l r t k) (hb : HasTy (s.reg b).val l) (hc : HasTy (s.reg c).val r) :
    One E (.op k a b c) s a [b, c] (binSem E.P o (s.reg b).val (s.reg c).val) := by
  have hheap : k.frees = false → ∀ x ∈ [b, c], (s.reg x).val.heap = false := by
    intro hf x hx
    simp only [List.mem_cons, List.not_mem_nil, or_false] at hx
    rcases hx with rfl | rfl
    · exact hb.nonheap (hk.free hf).1
    · exact hc.nonheap (hk.free hf).2
  by_cases hn : (s.reg b).val = .null ∨ (s.reg c).val = .null
  · have hbin : binSem E.P o (s.reg b).val (s.reg c).val = .ok .null := by rw [binSem, if_pos hn]
    rw [hbin]
    refine ⟨fun v hv => ?_, fun x hx => by cases hx⟩
    cases hv
    by_cases hf : k.frees = true
    · obtain ⟨s1, h, r⟩ := one_free2_put s a b c .null false hab hac
      refine ⟨s1, ?_, r⟩
      simp only [stepI, if_pos hn, if_pos hf, h]
    · obtain ⟨s1, h, r⟩ := one_put s a [b, c] .null false (by simp [hab, hac]) (hheap (by simpa using hf))
      refine ⟨s1, ?_, r⟩
      simp only [stepI, if_pos hn, if_neg hf, h]
  · have hbin : binSem E.P o (s.reg b).val (s.reg c).val = execOp E.P k (s.reg b).val (s.reg c).val := by
      rw [binSem, if_neg hn]
      refine (hk.sem _ _ ?_ ?_).symm
      · rcases hb with h | h
        · exact absurd (.inl h) hn
        · exact h
      · rcases hc with h | h
        · exact absurd (.inr h) hn
        · exact h
    rw [hbin]
    refine ⟨fun v hv => ?_, fun x hx => ?_⟩
    · by_cases hf : k.frees = true
      · obtain ⟨s1, h, r⟩ := one_put_free2 s a b c v (k.owns (s.reg b).buf) hab hac
        refine ⟨s1, ?_, r⟩
        simp only [stepI, if_neg hn, hv, Except.bind, if_pos hf, h]
      · obtain ⟨s1, h, r⟩ := one_put s a [b, c] v (k.owns (s.reg b).buf) (by simp [hab, hac]) (hheap (by simpa using hf))
        refine ⟨s1, ?_, r⟩
        simp only [stepI, if_neg hn, hv, Except.bind, if_neg hf, h]
    · simp only [stepI, if_neg hn, hx, Except.bind]

theorem one_and (E : Env W) (s : VM W) (a b c : Nat) (hab : a ≠ b) (hac : a ≠ c) :
    One E (.and a b c) s a [b, c] (andSem (s.reg b).val (s.reg c).val) := by
  by_cases hn : (s.reg b).val = .null ∨ (s.reg c).val = .null
  · refine ⟨fun v hv => ?_, fun x hx => by rw [andSem, if_pos hn] at hx; cases hx⟩
    rw [andSem, if_pos hn] at hv; cases hv
    obtain ⟨s1, h, r⟩ := one_free2_put s a b c .null false hab hac
    exact ⟨s1, by simp only [stepI, if_pos hn, h], r⟩
  · rw [andSem, if_neg hn]
    cases hx : isTrue (s.reg b).val with
    | error e =>
      refine ⟨fun v hv => by simp [Except.bind] at hv, fun x hx' => ?_⟩
      simp only [Except.bind] at hx'
      simp only [stepI, if_neg hn, hx, Except.bind]; cases hx'; rfl
    | ok x =>
      cases hy : (if x then isTrue (s.reg c).val else .ok false : Except Stop Bool) with
      | error e =>
        refine ⟨fun v hv => by simp [Except.bind, Except.map, hy] at hv, fun x hx' => ?_⟩
        simp only [Except.bind, Except.map, hy] at hx'
        simp only [stepI, if_neg hn, hx, hy, Except.bind]; cases hx'; rfl
      | ok y =>
        refine ⟨fun v hv => ?_, fun x hx' => by simp [Except.bind, Except.map, hy] at hx'⟩
        simp only [Except.bind, Except.map, hy] at hv
        cases hv
        obtain ⟨s1, h, r⟩ := one_put_free2 s a b c (vbool y) false hab hac
        exact ⟨s1, by simp only [stepI, if_neg hn, hx, hy, Except.bind, h], r⟩

theorem one_or (E : Env W) (s : VM W) (a b c : Nat) (hab : a ≠ b) (hac : a ≠ c) :
    One E (.or a b c) s a [b, c] (orSem (s.reg b).val (s.reg c).val) := by
  by_cases hn : (s.reg b).val = .null ∧ (s.reg c).val = .null
  · refine ⟨fun v hv => ?_, fun x hx => by rw [orSem, if_pos hn] at hx; cases hx⟩
    rw [orSem, if_pos hn] at hv; cases hv
    obtain ⟨s1, h, r⟩ := one_put_free2 s a b c .null false hab hac
    exact ⟨s1, by simp only [stepI, if_pos hn, h], r⟩
  · rw [orSem, if_neg hn]
    cases hx : isTrue (s.reg b).val with
    | error e =>
      refine ⟨fun v hv => by simp [Except.bind] at hv, fun x hx' => ?_⟩
      simp only [Except.bind] at hx'
      simp only [stepI, if_neg hn, hx, Except.bind]; cases hx'; rfl
    | ok x =>
      cases hy : (if x then .ok true else isTrue (s.reg c).val : Except Stop Bool) with
      | error e =>
        refine ⟨fun v hv => by simp [Except.bind, Except.map, hy] at hv, fun x hx' => ?_⟩
        simp only [Except.bind, Except.map, hy] at hx'
        simp only [stepI, if_neg hn, hx, hy, Except.bind]; cases hx'; rfl
      | ok y =>
        refine ⟨fun v hv => ?_, fun x hx' => by simp [Except.bind, Except.map, hy] at hx'⟩
        simp only [Except.bind, Except.map, hy] at hv
        cases hv
        obtain ⟨s1, h, r⟩ := one_put_free2 s a b c (vbool y) false hab hac
        exact ⟨s1, by simp only [stepI, if_neg hn, hx, hy, Except.bind, h], r⟩

theorem one_not (E : Env W) (s : VM W) (a b : Nat) (hab : a ≠ b) :
    One E (.not a b) s a [b] (notSem (s.reg b).val) := by
  by_cases hn : (s.reg b).val = .null
  · refine ⟨fun v hv => ?_, fun x hx => by rw [notSem, if_pos hn] at hx; cases hx⟩
    rw [notSem, if_pos hn] at hv; cases hv
    obtain ⟨s1, h, r⟩ := one_free_put s a b .null false hab
    exact ⟨s1, by simp only [stepI, if_pos hn, h], r⟩
  · rw [notSem, if_neg hn]
    cases hx : isTrue (s.reg b).val with
    | error e =>
      refine ⟨fun v hv => by simp [Except.map] at hv, fun x hx' => ?_⟩
      simp only [Except.map] at hx'
      simp only [stepI, if_neg hn, hx, Except.bind]; cases hx'; rfl
    | ok x =>
      refine ⟨fun v hv => ?_, fun x hx' => by simp [Except.map] at hx'⟩
      simp only [Except.map] at hv
      cases hv
      obtain ⟨s1, h, r⟩ := one_put_free s a b (vbool (!x)) false hab
      exact ⟨s1, by simp only [stepI, if_neg hn, hx, Except.bind, h], r⟩

theorem one_is (E : Env W) (s : VM W) (a b : Nat) (hab : a ≠ b) :
    One E (.is a b) s a [b] (.ok (vbool (decide ((s.reg b).val = .null)))) := by
  refine ⟨fun v hv => ?_, fun x hx => by cases hx⟩
  cases hv
  obtain ⟨s1, h, r⟩ := one_put_free s a b (vbool (decide ((s.reg b).val = .null))) false hab
  exact ⟨s1, by simp only [stepI, h], r⟩

theorem HasTy.int_cases {v : Val} (h : HasTy v .int) : v = .null ∨ ∃ i, v = .int i := by
  rcases h with h | h
  · exact .inl h
  · cases v <;> simp_all [Val.ty]
theorem HasTy.dbl_cases {v : Val} (h : HasTy v .double) : v = .null ∨ ∃ i, v = .dbl i := by
  rcases h with h | h
  · exact .inl h
  · cases v <;> simp_all [Val.ty]
theorem HasTy.iv_cases {v : Val} (h : HasTy v .interval) : v = .null ∨ ∃ i, v = .interval i := by
  rcases h with h | h
  · exact .inl h
  · cases v <;> simp_all [Val.ty]

theorem one_negI (E : Env W) (s : VM W) (a b : Nat) (hab : a ≠ b) (ht : HasTy (s.reg b).val .int) :
    One E (.negI a b) s a [b] (negSem E.P (s.reg b).val) := by
  have hh : ∀ x ∈ [b], (s.reg x).val.heap = false := by
    intro x hx; simp only [List.mem_cons, List.not_mem_nil, or_false] at hx; subst hx; exact ht.nonheap rfl
  rcases ht.int_cases with hn | ⟨i, hi⟩
  · refine ⟨fun v hv => ?_, fun x hx => by rw [hn] at hx; cases hx⟩
    rw [hn] at hv; cases hv
    obtain ⟨s1, h, r⟩ := one_put s a [b] .null false (by simp [hab]) hh
    exact ⟨s1, by simp only [stepI, if_pos hn, h], r⟩
  · rw [hi]
    simp only [negSem]
    by_cases hm : i = i64min
    · rw [if_pos hm]
      refine ⟨fun v hv => (by cases hv), fun x hx => ?_⟩
      cases hx
      simp [stepI, hi, fInt, Except.bind, hm]
    · rw [if_neg hm]
      refine ⟨fun v hv => ?_, fun x hx => by cases hx⟩
      cases hv
      obtain ⟨s1, h, r⟩ := one_put s a [b] (.int (-i)) false (by simp [hab]) hh
      exact ⟨s1, by simp [stepI, hi, fInt, Except.bind, hm, h], r⟩

theorem one_negF (E : Env W) (s : VM W) (a b : Nat) (hab : a ≠ b) (ht : HasTy (s.reg b).val .double) :
    One E (.negF a b) s a [b] (negSem E.P (s.reg b).val) := by
  have hh : ∀ x ∈ [b], (s.reg x).val.heap = false := by
    intro x hx; simp only [List.mem_cons, List.not_mem_nil, or_false] at hx; subst hx; exact ht.nonheap rfl
  rcases ht.dbl_cases with hn | ⟨i, hi⟩
  · refine ⟨fun v hv => ?_, fun x hx => by rw [hn] at hx; cases hx⟩
    rw [hn] at hv; cases hv
    obtain ⟨s1, h, r⟩ := one_put s a [b] .null false (by simp [hab]) hh
    exact ⟨s1, by simp only [stepI, if_pos hn, h], r⟩
  · rw [hi]
    simp only [negSem]
    refine ⟨fun v hv => ?_, fun x hx => by cases hx⟩
    cases hv
    obtain ⟨s1, h, r⟩ := one_put s a [b] (.dbl (E.P.fneg i)) false (by simp [hab]) hh
    exact ⟨s1, by simp [stepI, hi, fDbl, Except.bind, h], r⟩

theorem one_negL (E : Env W) (s : VM W) (a b : Nat) (hab : a ≠ b) (ht : HasTy (s.reg b).val .interval) :
    One E (.negL a b) s a [b] (negSem E.P (s.reg b).val) := by
  have hh : ∀ x ∈ [b], (s.reg x).val.heap = false := by
    intro x hx; simp only [List.mem_cons, List.not_mem_nil, or_false] at hx; subst hx; exact ht.nonheap rfl
  rcases ht.iv_cases with hn | ⟨i, hi⟩
  · refine ⟨fun v hv => ?_, fun x hx => by rw [hn] at hx; cases hx⟩
    rw [hn] at hv; cases hv
    obtain ⟨s1, h, r⟩ := one_put s a [b] .null false (by simp [hab]) hh
    exact ⟨s1, by simp only [stepI, if_pos hn, h], r⟩
  · rw [hi]
    simp only [negSem]
    refine ⟨fun v hv => ?_, fun x hx => by cases hx⟩
    cases hv
    obtain ⟨s1, h, r⟩ := one_put s a [b] (.interval (E.P.ivNeg i)) false (by simp [hab]) hh
    exact ⟨s1, by simp [stepI, hi, fIv, Except.bind, h], r⟩

theorem one_inv (E : Env W) (s : VM W) (a b : Nat) (hab : a ≠ b) (ht : HasTy (s.reg b).val .int) :
    One E (.inv a b) s a [b] (invSem (s.reg b).val) := by
  have hh : ∀ x ∈ [b], (s.reg x).val.heap = false := by
    intro x hx; simp only [List.mem_cons, List.not_mem_nil, or_false] at hx; subst hx; exact ht.nonheap rfl
  rcases ht.int_cases with hn | ⟨i, hi⟩
  · refine ⟨fun v hv => ?_, fun x hx => by rw [hn] at hx; cases hx⟩
    rw [hn] at hv; cases hv
    obtain ⟨s1, h, r⟩ := one_free_put s a b .null false hab
    exact ⟨s1, by simp only [stepI, if_pos hn, h], r⟩
  · rw [hi]
    simp only [invSem]
    refine ⟨fun v hv => ?_, fun x hx => by cases hx⟩
    cases hv
    obtain ⟨s1, h, r⟩ := one_put s a [b] (.int (~~~ (bits i)).toInt) false (by simp [hab]) hh
    exact ⟨s1, by simp [stepI, hi, fInt, Except.bind, h], r⟩

theorem quantSem_eq (P : Prims) (all : Bool) (k : CmpOp) (a b : Val) (hn : ¬ (a = .null ∨ b = .null)) :
    quantSem P all k a b = if b.ty ≠ .json then .error .err
      else (fJson b).bind fun j => (orErr (P.quant all k a j)).map vopt := by
  rw [not_or] at hn
  cases a <;> cases b <;> simp_all [quantSem, Val.ty, fJson, Except.bind]

theorem quantSem_null (P : Prims) (all : Bool) (k : CmpOp) (a b : Val) (hn : a = .null ∨ b = .null) :
    quantSem P all k a b = .ok .null := by
  rcases hn with h | h <;> subst h
  · cases b <;> rfl
  · cases a <;> rfl

theorem one_quant (E : Env W) (s : VM W) (all : Bool) (k : CmpOp) (a b c : Nat) (hab : a ≠ b) (hac : a ≠ c) :
    One E (.quant all k a b c) s a [b, c] (quantSem E.P all k (s.reg b).val (s.reg c).val) := by
  by_cases hn : (s.reg b).val = .null ∨ (s.reg c).val = .null
  · rw [quantSem_null _ _ _ _ _ hn]
    refine ⟨fun v hv => ?_, fun x hx => by cases hx⟩
    cases hv
    obtain ⟨s1, h, r⟩ := one_free2_put s a b c .null false hab hac
    exact ⟨s1, by simp only [stepI, if_pos hn, h], r⟩
  · rw [quantSem_eq _ _ _ _ _ hn]
    by_cases ht : (s.reg c).val.ty ≠ .json
    · rw [if_pos ht]
      refine ⟨fun v hv => (by cases hv), fun x hx => ?_⟩
      cases hx
      simp only [stepI, if_neg hn, if_pos ht]
    · rw [if_neg ht]
      have hj : ∃ j, (s.reg c).val = .json j := by
        cases hv : (s.reg c).val <;> simp_all [Val.ty]
      obtain ⟨j, hj⟩ := hj
      rw [hj]
      simp only [fJson, Except.bind]
      cases hq : E.P.quant all k (s.reg b).val j with
      | none =>
        refine ⟨fun v hv => by simp [orErr, Except.map] at hv, fun x hx => ?_⟩
        simp only [orErr, Except.map] at hx
        cases hx
        simp only [stepI, if_neg hn, if_neg ht]
        simp [hj, fJson, Except.bind, hq, orErr]
      | some v =>
        refine ⟨fun v' hv => ?_, fun x hx => by simp [orErr, Except.map] at hx⟩
        simp only [orErr, Except.map] at hv
        cases hv
        obtain ⟨s1, h, r⟩ := one_put_free2 s a b c (vopt v) false hab hac
        refine ⟨s1, ?_, r⟩
        simp only [stepI, if_neg hn, if_neg ht]
        simp [hj, fJson, Except.bind, hq, orErr, h]

end Verif.Compile
