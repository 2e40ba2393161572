import Verif.Recover.FilesSpec
set_option linter.unusedSimpArgs false
set_option linter.unusedVariables false
/-! # Proofs about files -/
namespace Verif.Recover
open Verif

def FsOp.names : FsOp → List Name
  | .create n => [n]
  | .byte n _ => [n]
  | .unlink n => [n]
  | .rename a b => [a, b]

theorem apply_frame (fs : Fs) (op : FsOp) (n : Name) (h : n ∉ op.names) : op.apply fs n = fs n := by
  cases op with
  | create m => simp [FsOp.names] at h; simp [FsOp.apply, Fs.set, h]
  | byte m b => simp [FsOp.names] at h; simp [FsOp.apply, Fs.set, h]
  | unlink m => simp [FsOp.names] at h; simp [FsOp.apply, Fs.set, h]
  | rename a b =>
    simp [FsOp.names] at h
    simp only [FsOp.apply]
    cases fs a with
    | none => rfl
    | some d => simp [Fs.set, h.1, h.2]

theorem applyAll_frame (ops : List FsOp) (n : Name) (h : ∀ op ∈ ops, n ∉ op.names) : ∀ fs, applyAll fs ops n = fs n := by
  induction ops with
  | nil => intro fs; rfl
  | cons o r ih =>
    intro fs
    show applyAll (o.apply fs) r n = _
    rw [ih (fun op ho => h op (by simp [ho])), apply_frame _ _ _ (h o (by simp))]

theorem applyAll_append (fs : Fs) (a b : List FsOp) : applyAll fs (a ++ b) = applyAll (applyAll fs a) b := by
  unfold applyAll; rw [List.foldl_append]

theorem apply_congr (fs fs' : Fs) (op : FsOp) (S : List Name) (hS : ∀ n ∈ op.names, n ∈ S) (h : ∀ n ∈ S, fs n = fs' n) :
    ∀ n ∈ S, op.apply fs n = op.apply fs' n := by
  intro n hn
  cases op with
  | create m => simp only [FsOp.apply, Fs.set]; exact (by split; rfl; exact h n hn)
  | byte m b =>
    simp only [FsOp.apply, Fs.set]
    split
    · rw [h m (hS m (by simp [FsOp.names]))]
    · exact h n hn
  | unlink m => simp only [FsOp.apply, Fs.set]; exact (by split; rfl; exact h n hn)
  | rename a b =>
    have ha := h a (hS a (by simp [FsOp.names]))
    simp only [FsOp.apply, ← ha]
    cases fs a with
    | none => exact h n hn
    | some d =>
      simp only [Fs.set]
      split
      · rfl
      · split
        · rfl
        · exact h n hn

theorem write_result (n : Name) (d : Bytes) : ∀ (fs : Fs) (d0 : Bytes), fs n = some d0 → applyAll fs (write n d) n = some (d0 ++ d) := by
  induction d with
  | nil => intro fs d0 h; simpa [write, applyAll] using h
  | cons x r ih =>
    intro fs d0 h
    show applyAll (FsOp.apply fs (.byte n x)) (write n r) n = _
    rw [ih _ (d0 ++ [x]) (by simp [FsOp.apply, Fs.set, h])]
    simp

theorem create_write (n : Name) (d : Bytes) (fs : Fs) : applyAll fs (.create n :: write n d) n = some d := by
  show applyAll (FsOp.apply fs (.create n)) (write n d) n = _
  rw [write_result n d _ [] (by simp [FsOp.apply, Fs.set])]
  rfl

theorem mem_write {op : FsOp} {n : Name} {d : Bytes} (h : op ∈ write n d) : op.names = [n] := by
  unfold write at h
  obtain ⟨b, _, rfl⟩ := List.mem_map.mp h
  rfl

/-- a part of the operations -/
theorem take_split {α : Type} (P R : List α) (i : Nat) : (P ++ R).take i = P.take i ∧ i ≤ P.length ∨ ∃ k, 0 < k ∧ (P ++ R).take i = P ++ R.take k ∧ i = P.length + k := by
  by_cases h : i ≤ P.length
  · left; exact ⟨List.take_append_of_le_length h, h⟩
  · right
    refine ⟨i - P.length, by omega, ?_, by omega⟩
    rw [List.take_append, List.take_of_length_le (by omega)]

/-! ## the catalog -/

def CatOk (ts : List Bytes) (up : Bool) (fs : Fs) : Prop :=
  (∃ d ∈ ts, fs .cat = some d) ∨ (up = false ∧ fs .cat = none ∧ ∃ d ∈ ts, fs .catInc = some d)

theorem catWrite_take (text : Bytes) (fs : Fs) (i : Nat) :
    let fs' := applyAll fs ((catWrite text).take i)
    fs' .cat = fs .cat ∨ (fs' .cat = none ∧ fs' .catInc = some text) ∨ fs' .cat = some text := by
  intro fs'
  have hP : catWrite text = (.unlink .catInc :: .create .catInc :: write .catInc text) ++ [.unlink .cat, .rename .catInc .cat] := rfl
  have hfr : ∀ op ∈ (FsOp.unlink .catInc :: .create .catInc :: write .catInc text), Name.cat ∉ op.names := by
    intro op ho
    simp only [List.mem_cons] at ho
    rcases ho with rfl | rfl | ho
    · simp [FsOp.names]
    · simp [FsOp.names]
    · rw [mem_write ho]; simp
  have hinc : applyAll fs (.unlink .catInc :: .create .catInc :: write .catInc text) .catInc = some text :=
    create_write .catInc text (FsOp.apply fs (.unlink .catInc))
  rcases take_split (.unlink .catInc :: .create .catInc :: write .catInc text) [.unlink .cat, .rename .catInc .cat] i with ⟨e, _⟩ | ⟨k, hk, e, _⟩
  · left
    show applyAll fs ((catWrite text).take i) .cat = _
    rw [hP, e]
    exact applyAll_frame _ _ (fun op ho => hfr op (List.mem_of_mem_take ho)) fs
  · have e' : fs' = applyAll (applyAll fs (.unlink .catInc :: .create .catInc :: write .catInc text)) ([FsOp.unlink .cat, .rename .catInc .cat].take k) := by
      show applyAll fs ((catWrite text).take i) = _
      rw [hP, e, applyAll_append]
    generalize applyAll fs (.unlink .catInc :: .create .catInc :: write .catInc text) = g at hinc e'
    rw [e']
    match k, hk with
    | 1, _ => right; left; exact ⟨by simp [applyAll, FsOp.apply, Fs.set], by simp [applyAll, FsOp.apply, Fs.set, hinc]⟩
    | k + 2, _ =>
      right; right
      simp [applyAll, FsOp.apply, Fs.set, hinc]

theorem catWrite_all (text : Bytes) (fs : Fs) : applyAll fs (catWrite text) .cat = some text := by
  have hinc : applyAll fs (.unlink .catInc :: .create .catInc :: write .catInc text) .catInc = some text :=
    create_write .catInc text (FsOp.apply fs (.unlink .catInc))
  have hP : catWrite text = (.unlink .catInc :: .create .catInc :: write .catInc text) ++ [.unlink .cat, .rename .catInc .cat] := rfl
  rw [hP, applyAll_append]
  generalize applyAll fs (.unlink .catInc :: .create .catInc :: write .catInc text) = g at hinc
  simp [applyAll, FsOp.apply, Fs.set, hinc]

theorem catRead_take {ts : List Bytes} {up : Bool} {fs : Fs} (h : CatOk ts up fs) (i : Nat) : CatOk ts false (applyAll fs ((catRead fs).1.take i)) := by
  have hz : CatOk ts false fs := by
    rcases h with h | ⟨_, h⟩
    · exact Or.inl h
    · exact Or.inr ⟨rfl, h⟩
  rcases hz with ⟨d, hd, h⟩ | ⟨_, h1, d, hd, h2⟩
  · unfold catRead
    simp only [h]
    by_cases hc : (fs .catInc).isSome
    · simp only [hc, if_true]
      cases i with
      | zero => exact Or.inl ⟨d, hd, h⟩
      | succ i => exact Or.inl ⟨d, hd, by simp [applyAll, FsOp.apply, Fs.set, h]⟩
    · simp only [hc]
      exact Or.inl ⟨d, hd, by simpa [applyAll] using h⟩
  · unfold catRead
    simp only [h1, h2]
    cases i with
    | zero => exact Or.inr ⟨rfl, h1, d, hd, h2⟩
    | succ i => exact Or.inl ⟨d, hd, by simp [applyAll, FsOp.apply, Fs.set, h2]⟩

theorem catRead_all {ts : List Bytes} {up : Bool} {fs : Fs} (h : CatOk ts up fs) :
    ∃ d ∈ ts, (catRead fs).2 = some d ∧ applyAll fs (catRead fs).1 .cat = some d := by
  rcases h with ⟨d, hd, h⟩ | ⟨_, h1, d, hd, h2⟩
  · refine ⟨d, hd, by simp [catRead, h], ?_⟩
    unfold catRead
    simp only [h]
    split
    · simp [applyAll, FsOp.apply, Fs.set, h]
    · simpa [applyAll] using h
  · refine ⟨d, hd, by simp [catRead, h1, h2], ?_⟩
    unfold catRead
    simp [h1, h2, applyAll, FsOp.apply, Fs.set]

theorem cat_run (es : List CatEvent) : ∀ (ts : List Bytes) (up : Bool) (fs : Fs), CatOk ts up fs → readsFirst up es →
    ∃ up', CatOk (catAllowed ts es) up' (catRun fs es) := by
  induction es with
  | nil => intro ts up fs h _; exact ⟨up, h⟩
  | cons e r ih =>
    intro ts up fs h hr
    cases e with
    | writeStop t i =>
      obtain ⟨rfl, hr⟩ := hr
      refine ih _ false _ ?_ hr
      rcases h with ⟨d, hd, h⟩ | ⟨h, _⟩
      · rcases catWrite_take t fs i with e | e | e
        · exact Or.inl ⟨d, by simp [hd], by show applyAll _ _ _ = _; rw [e, h]⟩
        · exact Or.inr ⟨rfl, e.1, t, by simp, e.2⟩
        · exact Or.inl ⟨t, by simp, e⟩
      · cases h
    | write t =>
      obtain ⟨rfl, hr⟩ := hr
      exact ih _ true _ (Or.inl ⟨t, by simp, catWrite_all t fs⟩) hr
    | readStop i => exact ih ts false _ (catRead_take h i) hr
    | read =>
      obtain ⟨d, hd, _, h2⟩ := catRead_all h
      exact ih ts true _ (Or.inl ⟨d, hd, h2⟩) hr

/-! ## refreshes -/

def Job.names (j : Job) : List Name := [.part j.a, .part j.b, .partInc j.b, .svc j.c, .svcInc j.c]

theorem prep_names (T : SvcText) (j : Job) : ∀ op ∈ j.prep T, ∀ n ∈ op.names, n ∈ [Name.partInc j.b, .svc j.c, .svcInc j.c] := by
  intro op ho n hn
  unfold Job.prep createService at ho
  simp only [List.cons_append, List.mem_cons, List.mem_append, List.mem_singleton, List.not_mem_nil, or_false] at ho
  rcases ho with rfl | ho | rfl | ho | rfl
  · simp [FsOp.names] at hn; simp [hn]
  · rw [mem_write ho] at hn; simp at hn; simp [hn]
  · simp [FsOp.names] at hn; simp [hn]
  · rw [mem_write ho] at hn; simp at hn; simp [hn]
  · simp [FsOp.names] at hn; rcases hn with rfl | rfl <;> simp

theorem ops_names (T : SvcText) (j : Job) : ∀ op ∈ j.ops T, ∀ n ∈ op.names, n ∈ j.names := by
  intro op ho n hn
  unfold Job.ops at ho
  rcases List.mem_append.mp ho with ho | ho
  · have := prep_names T j op ho n hn
    simp only [List.mem_cons, List.not_mem_nil, or_false] at this
    rcases this with rfl | rfl | rfl <;> simp [Job.names]
  · simp only [List.mem_cons, List.not_mem_nil, or_false] at ho
    rcases ho with rfl | rfl | rfl
    · simp [FsOp.names] at hn; simp [hn, Job.names]
    · simp [FsOp.names] at hn; rcases hn with rfl | rfl <;> simp [Job.names]
    · simp [FsOp.names] at hn; simp [hn, Job.names]

/-- a refresh of which a part is done: the partition has a file unless it stopped between the unlink and the rename -/
def JobSt (T : SvcText) (j : Job) (fs : Fs) : Prop :=
  OldOrNew j fs ∧ (fs (.svc j.c) = none ∨ fs (.svc j.c) = some (T.enc [.part j.a] [.part j.b]))

theorem prep_result (T : SvcText) (j : Job) (fs : Fs) (hs : fs (.svc j.c) = none) :
    applyAll fs (j.prep T) (.partInc j.b) = some j.new ∧ applyAll fs (j.prep T) (.svc j.c) = some (T.enc [.part j.a] [.part j.b]) ∧
    ∀ i, applyAll fs ((j.prep T).take i) (.svc j.c) = none ∨ applyAll fs ((j.prep T).take i) (.svc j.c) = some (T.enc [.part j.a] [.part j.b]) := by
  have hP : j.prep T = (.create (.partInc j.b) :: write (.partInc j.b) j.new) ++ ((.create (.svcInc j.c) :: write (.svcInc j.c) (T.enc [.part j.a] [.part j.b])) ++
      [.rename (.svcInc j.c) (.svc j.c)]) := by
    simp [Job.prep, createService]
  have f1 : ∀ op ∈ (FsOp.create (.svcInc j.c) :: write (.svcInc j.c) (T.enc [.part j.a] [.part j.b])), op.names = [.svcInc j.c] := by
    intro op ho
    rcases List.mem_cons.mp ho with rfl | ho
    · rfl
    · exact mem_write ho
  have f0 : ∀ op ∈ (FsOp.create (.partInc j.b) :: write (.partInc j.b) j.new), op.names = [.partInc j.b] := by
    intro op ho
    rcases List.mem_cons.mp ho with rfl | ho
    · rfl
    · exact mem_write ho
  have full : applyAll fs (j.prep T) (.svc j.c) = some (T.enc [.part j.a] [.part j.b]) := by
    rw [hP, applyAll_append, applyAll_append]
    have hinc := create_write (.svcInc j.c) (T.enc [.part j.a] [.part j.b]) (applyAll fs (.create (.partInc j.b) :: write (.partInc j.b) j.new))
    generalize applyAll (applyAll fs (.create (.partInc j.b) :: write (.partInc j.b) j.new)) _ = g at hinc
    simp [applyAll, FsOp.apply, Fs.set, hinc]
  refine ⟨?_, full, ?_⟩
  · rw [hP, applyAll_append, applyAll_append]
    show applyAll _ [FsOp.rename (.svcInc j.c) (.svc j.c)] _ = _
    rw [applyAll_frame [FsOp.rename (.svcInc j.c) (.svc j.c)] _ (by intro op ho; simp at ho; subst ho; simp [FsOp.names]),
      applyAll_frame _ _ (fun op ho => by rw [f1 op ho]; simp)]
    exact create_write _ _ fs
  · intro i
    have hP2 : j.prep T = ((FsOp.create (.partInc j.b) :: write (.partInc j.b) j.new) ++ (.create (.svcInc j.c) :: write (.svcInc j.c) (T.enc [.part j.a] [.part j.b]))) ++
        [.rename (.svcInc j.c) (.svc j.c)] := by rw [hP, List.append_assoc]
    rcases take_split ((FsOp.create (.partInc j.b) :: write (.partInc j.b) j.new) ++ (.create (.svcInc j.c) :: write (.svcInc j.c) (T.enc [.part j.a] [.part j.b])))
      [.rename (.svcInc j.c) (.svc j.c)] i with ⟨e, _⟩ | ⟨k, hk, e, _⟩
    · left
      rw [hP2, e, applyAll_frame _ _ ?_, hs]
      intro op ho
      rcases List.mem_append.mp (List.mem_of_mem_take ho) with ho | ho
      · rw [f0 op ho]; simp
      · rw [f1 op ho]; simp
    · right
      have : (j.prep T).take i = j.prep T := by
        rw [hP2, e]
        match k, hk with
        | k + 1, _ => simp
      rw [this]; exact full

/-- after `i` operations of a refresh -/
theorem job_take (T : SvcText) (j : Job) (fs : Fs) (hab : j.a ≠ j.b) (h1 : fs (.part j.a) = some j.old) (h2 : fs (.part j.b) = none)
    (h3 : fs (.svc j.c) = none) (i : Nat) :
    let fs' := applyAll fs ((j.ops T).take i)
    JobSt T j fs' ∨ (fs' (.part j.a) = none ∧ fs' (.part j.b) = none) := by
  intro fs'
  obtain ⟨p1, p2, p3⟩ := prep_result T j fs h3
  have hfr : ∀ k, ∀ op ∈ (j.prep T).take k, Name.part j.a ∉ op.names ∧ Name.part j.b ∉ op.names := by
    intro k op ho
    have := prep_names T j op (List.mem_of_mem_take ho)
    constructor <;> (intro hn; have := this _ hn; simp at this)
  have ha : ∀ k, applyAll fs ((j.prep T).take k) (.part j.a) = some j.old := fun k => by
    rw [applyAll_frame _ _ (fun op ho => (hfr k op ho).1)]; exact h1
  have hb : ∀ k, applyAll fs ((j.prep T).take k) (.part j.b) = none := fun k => by
    rw [applyAll_frame _ _ (fun op ho => (hfr k op ho).2)]; exact h2
  rcases take_split (j.prep T) [.unlink (.part j.a), .rename (.partInc j.b) (.part j.b), .unlink (.svc j.c)] i with ⟨e, _⟩ | ⟨k, hk, e, _⟩
  · left
    have e : fs' = applyAll fs ((j.prep T).take i) := by show applyAll fs ((j.ops T).take i) = _; unfold Job.ops; rw [e]
    rw [e]
    exact ⟨Or.inl ⟨ha i, hb i⟩, p3 i⟩
  · have e' : fs' = applyAll (applyAll fs (j.prep T)) ([FsOp.unlink (.part j.a), .rename (.partInc j.b) (.part j.b), .unlink (.svc j.c)].take k) := by
      show applyAll fs ((j.ops T).take i) = _
      unfold Job.ops
      rw [e, applyAll_append]
    have ha' := ha (j.prep T).length
    have hb' := hb (j.prep T).length
    rw [List.take_length] at ha' hb'
    rw [e']
    generalize applyAll fs (j.prep T) = g at p1 p2 ha' hb'
    match k, hk with
    | 1, _ =>
      right
      constructor
      · simp [applyAll, FsOp.apply, Fs.set]
      · simp [applyAll, FsOp.apply, Fs.set, hab.symm, hb']
    | 2, _ =>
      left
      refine ⟨Or.inr ⟨?_, ?_⟩, Or.inr ?_⟩ <;> simp [applyAll, FsOp.apply, Fs.set, p1, p2, hab]
    | k + 3, _ =>
      left
      refine ⟨Or.inr ⟨?_, ?_⟩, Or.inl ?_⟩ <;> simp [applyAll, FsOp.apply, Fs.set, p1, p2, hab]

/-! ### at the same time -/

theorem adv_agree (js : Nat → Option (List FsOp)) (names : Nat → List Name) (hn : ∀ i ops, js i = some ops → ∀ op ∈ ops, ∀ n ∈ op.names, n ∈ names i)
    (hd : ∀ i k, i ≠ k → ∀ n ∈ names i, n ∉ names k) (fs0 : Fs) (sched : List Nat) : ∀ (prog : Nat → Nat) (fs : Fs),
    (∀ i ops, js i = some ops → ∀ n ∈ names i, fs n = applyAll fs0 (ops.take (prog i)) n) → (∀ n, (∀ i ops, js i = some ops → n ∉ names i) → fs n = fs0 n) →
    ∃ prog' fs', advance js sched prog fs = (prog', fs') ∧ (∀ i ops, js i = some ops → ∀ n ∈ names i, fs' n = applyAll fs0 (ops.take (prog' i)) n) ∧
      (∀ n, (∀ i ops, js i = some ops → n ∉ names i) → fs' n = fs0 n) := by
  induction sched with
  | nil => intro prog fs h1 h2; exact ⟨prog, fs, rfl, h1, h2⟩
  | cons i r ih =>
    intro prog fs h1 h2
    unfold advance
    cases hj : js i with
    | none => exact ih prog fs h1 h2
    | some ops =>
      cases ho : ops[prog i]? with
      | none => simp only [ho]; exact ih prog fs h1 h2
      | some op =>
        simp only [ho]
        obtain ⟨hlt, hget⟩ := List.getElem?_eq_some_iff.mp ho
        have hmem : op ∈ ops := by rw [← hget]; exact List.getElem_mem hlt
        have hon := hn i ops hj op hmem
        refine ih _ _ ?_ ?_
        · intro k kops hk n hnk
          by_cases e : k = i
          · subst e
            rw [hj] at hk; cases hk
            simp only [if_true]
            rw [List.take_succ_eq_append_getElem hlt, applyAll_append, hget]
            exact apply_congr fs _ op (names k) hon (h1 k ops hj) n hnk
          · simp only [e, if_false]
            rw [apply_frame _ _ _ (fun hm => hd k i e n hnk (hon n hm))]
            exact h1 k kops hk n hnk
        · intro n hno
          rw [apply_frame _ _ _ (fun hm => hno i ops hj (hon n hm))]
          exact h2 n hno

/-! ### recovery -/

/-- the state of all refreshes -/
structure AllSt (T : SvcText) (js : List Job) (fs0 fs : Fs) : Prop where
  jobs : ∀ j ∈ js, JobSt T j fs
  svc  : ∀ c d, fs (.svc c) = some d → ∃ j ∈ js, j.c = c ∧ d = T.enc [.part j.a] [.part j.b]
  rest : ∀ x, (∀ j ∈ js, x ≠ j.a ∧ x ≠ j.b) → fs (.part x) = fs0 (.part x)

theorem nodup_fm {α β : Type} (f : α → List β) : ∀ l : List α, (l.flatMap f).Nodup → (∀ x ∈ l, (f x).Nodup) ∧
    ∀ i k (hi : i < l.length) (hk : k < l.length), i < k → ∀ y ∈ f l[i], y ∉ f l[k]
  | [], _ => ⟨by simp, fun i k hi => absurd hi (Nat.not_lt_zero _)⟩
  | x :: l, h => by
    rw [List.flatMap_cons, List.nodup_append] at h
    obtain ⟨h1, h2, h3⟩ := h
    obtain ⟨i1, i2⟩ := nodup_fm f l h2
    refine ⟨?_, ?_⟩
    · intro y hy
      rcases List.mem_cons.mp hy with rfl | hy
      · exact h1
      · exact i1 y hy
    · intro i k hi hk hlt y hy
      cases k with
      | zero => omega
      | succ k =>
        have hk' : k < l.length := by simpa using hk
        simp only [List.getElem_cons_succ]
        cases i with
        | zero =>
          simp only [List.getElem_cons_zero] at hy
          intro hy'
          exact h3 y hy y (List.mem_flatMap.mpr ⟨l[k], List.getElem_mem hk', hy'⟩) rfl
        | succ i =>
          simp only [List.getElem_cons_succ] at hy
          exact i2 i k (by simpa using hi) hk' (by omega) y hy

theorem distinct_abc {js : List Job} (h : Distinct js) : ∀ j ∈ js, j.a ≠ j.b ∧ j.a ≠ j.c ∧ j.b ≠ j.c := by
  intro j hj
  have := (nodup_fm _ _ h.ids).1 j hj
  simp at this
  exact ⟨this.1.1, this.1.2, this.2⟩

theorem distinct_pair {js : List Job} (h : Distinct js) : ∀ i k (hi : i < js.length) (hk : k < js.length), i ≠ k →
    ∀ x ∈ [js[i].a, js[i].b, js[i].c], x ∉ [js[k].a, js[k].b, js[k].c] := by
  intro i k hi hk hne x hx hx'
  have h2 := (nodup_fm _ _ h.ids).2
  rcases Nat.lt_or_gt_of_ne hne with hlt | hlt
  · exact h2 i k hi hk hlt x hx hx'
  · exact h2 k i hk hi hlt x hx' hx

theorem distinct_job {js : List Job} (h : Distinct js) {j j' : Job} (hj : j ∈ js) (hj' : j' ∈ js) {x : Nat} (h1 : x ∈ [j.a, j.b, j.c]) (h2 : x ∈ [j'.a, j'.b, j'.c]) : j = j' := by
  obtain ⟨i, hi, rfl⟩ := List.mem_iff_getElem.mp hj
  obtain ⟨k, hk, rfl⟩ := List.mem_iff_getElem.mp hj'
  by_cases e : i = k
  · subst e; rfl
  · exact absurd h2 (distinct_pair h i k hi hk e x h1)

/-- unlinking a temporary file changes nothing -/
theorem st_temp {T : SvcText} {js : List Job} {fs0 fs : Fs} (h : AllSt T js fs0 fs) {n : Name} (hn : (∃ x, n = .svcInc x) ∨ (∃ x, n = .partInc x) ∨ (∃ x, n = .objInc x)) :
    AllSt T js fs0 (FsOp.apply fs (.unlink n)) := by
  have hp : ∀ x, FsOp.apply fs (.unlink n) (.part x) = fs (.part x) := by
    intro x; apply apply_frame; rcases hn with ⟨y, rfl⟩ | ⟨y, rfl⟩ | ⟨y, rfl⟩ <;> simp [FsOp.names]
  have hs : ∀ x, FsOp.apply fs (.unlink n) (.svc x) = fs (.svc x) := by
    intro x; apply apply_frame; rcases hn with ⟨y, rfl⟩ | ⟨y, rfl⟩ | ⟨y, rfl⟩ <;> simp [FsOp.names]
  refine ⟨?_, ?_, ?_⟩
  · intro j hj; unfold JobSt OldOrNew; rw [hp, hp, hs]; exact h.jobs j hj
  · intro c d; rw [hs]; exact h.svc c d
  · intro x hx; rw [hp]; exact h.rest x hx

theorem st_unsvc {T : SvcText} {js : List Job} {fs0 fs : Fs} (hd : Distinct js) (h : AllSt T js fs0 fs) (c : Nat) : AllSt T js fs0 (FsOp.apply fs (.unlink (.svc c))) := by
  have hp : ∀ x, FsOp.apply fs (.unlink (.svc c)) (.part x) = fs (.part x) := by
    intro x; apply apply_frame; simp [FsOp.names]
  refine ⟨?_, ?_, ?_⟩
  · intro j hj
    unfold JobSt OldOrNew; rw [hp, hp]
    refine ⟨(h.jobs j hj).1, ?_⟩
    by_cases e : j.c = c
    · left; simp [FsOp.apply, Fs.set, e]
    · have : FsOp.apply fs (.unlink (.svc c)) (.svc j.c) = fs (.svc j.c) := by apply apply_frame; simp [FsOp.names, e]
      rw [this]; exact (h.jobs j hj).2
  · intro c' d hc
    by_cases e : c' = c
    · subst e; simp [FsOp.apply, Fs.set] at hc
    · have : FsOp.apply fs (.unlink (.svc c)) (.svc c') = fs (.svc c') := by apply apply_frame; simp [FsOp.names, e]
      rw [this] at hc; exact h.svc c' d hc
  · intro x hx; rw [hp]; exact h.rest x hx

/-- unlinking a file that does not exist changes nothing -/
theorem st_none {T : SvcText} {js : List Job} {fs0 fs : Fs} (h : AllSt T js fs0 fs) {n : Name} (hn : fs n = none) : AllSt T js fs0 (FsOp.apply fs (.unlink n)) := by
  have : FsOp.apply fs (.unlink n) = fs := by
    funext m; simp only [FsOp.apply, Fs.set]; split
    · next e => rw [e, hn]
    · rfl
  rw [this]; exact h

theorem entry_ok {T : SvcText} {js : List Job} {fs0 fs : Fs} (hd : Distinct js) (h : AllSt T js fs0 fs) (e : Name) :
    ∃ ops, entryOps T fs e = some ops ∧ ∀ i, AllSt T js fs0 (applyAll fs (ops.take i)) := by
  have one : ∀ n, AllSt T js fs0 (FsOp.apply fs (.unlink n)) → ∀ i, AllSt T js fs0 (applyAll fs ([FsOp.unlink n].take i)) := by
    intro n hn i
    cases i with
    | zero => exact h
    | succ i => simpa [applyAll] using hn
  have two : ∀ n n', AllSt T js fs0 (FsOp.apply fs (.unlink n)) → AllSt T js fs0 (FsOp.apply (FsOp.apply fs (.unlink n)) (.unlink n')) →
      ∀ i, AllSt T js fs0 (applyAll fs ([FsOp.unlink n, .unlink n'].take i)) := by
    intro n n' h1 h2 i
    match i with
    | 0 => exact h
    | 1 => simpa [applyAll] using h1
    | i + 2 => simpa [applyAll] using h2
  have nil : ∀ i, AllSt T js fs0 (applyAll fs (([] : List FsOp).take i)) := by intro i; simpa [applyAll] using h
  cases e with
  | part x => exact ⟨[], rfl, nil⟩
  | obj x => exact ⟨[], rfl, nil⟩
  | cat => exact ⟨[], rfl, nil⟩
  | catInc => exact ⟨[], rfl, nil⟩
  | svcInc x => exact ⟨_, rfl, one _ (st_temp h (Or.inl ⟨x, rfl⟩))⟩
  | partInc x => exact ⟨_, rfl, one _ (st_temp h (Or.inr (Or.inl ⟨x, rfl⟩)))⟩
  | objInc x => exact ⟨_, rfl, one _ (st_temp h (Or.inr (Or.inr ⟨x, rfl⟩)))⟩
  | svc c =>
    unfold entryOps
    cases hc : fs (.svc c) with
    | none => simp only [hc]; exact ⟨[], rfl, nil⟩
    | some d =>
      obtain ⟨j, hj, rfl, rfl⟩ := h.svc c d hc
      simp only [hc, T.law]
      refine ⟨_, rfl, ?_⟩
      rcases (h.jobs j hj).1 with ⟨h1, h2⟩ | ⟨h1, h2⟩
      · simp only [List.all_cons, List.all_nil, h2, Option.isSome_none, Bool.false_and, Bool.false_eq_true, if_false, List.map_cons, List.map_nil, List.cons_append, List.nil_append]
        have hh := st_none h h2
        exact two _ _ hh (st_unsvc hd hh _)
      · simp only [List.all_cons, List.all_nil, h2, Option.isSome_some, Bool.true_and, if_true, List.map_cons, List.map_nil, List.cons_append, List.nil_append]
        have hh := st_none h h1
        exact two _ _ hh (st_unsvc hd hh _)

theorem rec_ok {T : SvcText} {js : List Job} {fs0 : Fs} (hd : Distinct js) (es : List Name) : ∀ fs, AllSt T js fs0 fs →
    ∃ ops, recOps T fs es = some ops ∧ ∀ i, AllSt T js fs0 (applyAll fs (ops.take i)) := by
  induction es with
  | nil => intro fs h; exact ⟨[], rfl, fun i => by simpa [applyAll] using h⟩
  | cons e es ih =>
    intro fs h
    obtain ⟨o, o1, o2⟩ := entry_ok hd h e
    have hfull : AllSt T js fs0 (applyAll fs o) := by have := o2 o.length; rwa [List.take_length] at this
    obtain ⟨r, r1, r2⟩ := ih _ hfull
    unfold recOps
    simp only [o1, r1]
    refine ⟨_, rfl, fun i => ?_⟩
    rcases take_split o r i with ⟨e, _⟩ | ⟨k, _, e, _⟩
    · rw [e]; exact o2 i
    · rw [e, applyAll_append]; exact r2 k

theorem crashed_ok {T : SvcText} {js : List Job} {fs0 : Fs} (hd : Distinct js) (cs : List (List Name × Nat)) : ∀ fs, AllSt T js fs0 fs →
    ∃ fs', crashed T fs cs = some fs' ∧ AllSt T js fs0 fs' := by
  induction cs with
  | nil => intro fs h; exact ⟨fs, rfl, h⟩
  | cons x r ih =>
    obtain ⟨es, i⟩ := x
    intro fs h
    obtain ⟨ops, o1, o2⟩ := rec_ok hd es fs h
    unfold crashed
    simp only [o1]
    exact ih _ (o2 i)

/-- recovery creates no files -/
theorem entry_unlinks {T : SvcText} {fs : Fs} {e : Name} {ops : List FsOp} (h : entryOps T fs e = some ops) : ∀ op ∈ ops, ∃ n, op = .unlink n := by
  cases e <;> simp only [entryOps] at h
  case svc c =>
    split at h
    · cases h; simp
    · split at h
      · cases h
      · cases h
        intro op ho
        rcases List.mem_append.mp ho with ho | ho
        · obtain ⟨n, _, rfl⟩ := List.mem_map.mp ho; exact ⟨n, rfl⟩
        · simp at ho; exact ⟨_, ho⟩
  all_goals (cases h; intro op ho; simp at ho; try exact ⟨_, ho⟩)

theorem unlinks_none (ops : List FsOp) (h : ∀ op ∈ ops, ∃ n, op = FsOp.unlink n) : ∀ (fs : Fs) (n : Name), fs n = none → applyAll fs ops n = none := by
  induction ops with
  | nil => intro fs n hn; exact hn
  | cons o r ih =>
    intro fs n hn
    obtain ⟨m, rfl⟩ := h o (by simp)
    refine ih (fun op ho => h op (by simp [ho])) _ n ?_
    simp only [FsOp.apply, Fs.set]
    exact (by split; rfl; exact hn)

def Temp (n : Name) : Prop := (∃ x, n = .svc x) ∨ (∃ x, n = .svcInc x) ∨ (∃ x, n = .partInc x)

/-- an entry is removed -/
theorem entry_removes {T : SvcText} {fs : Fs} {e : Name} {ops : List FsOp} (h : entryOps T fs e = some ops) (ht : Temp e) : applyAll fs ops e = none := by
  rcases ht with ⟨x, rfl⟩ | ⟨x, rfl⟩ | ⟨x, rfl⟩ <;> simp only [entryOps] at h
  · split at h
    · next hc => cases h; exact hc
    · split at h
      · cases h
      · cases h
        rw [applyAll_append]
        simp [applyAll, FsOp.apply, Fs.set]
  · cases h; simp [applyAll, FsOp.apply, Fs.set]
  · cases h; simp [applyAll, FsOp.apply, Fs.set]

theorem rec_removes {T : SvcText} (es : List Name) : ∀ (fs : Fs) (ops : List FsOp), recOps T fs es = some ops →
    ∀ n, (fs n = none ∨ (Temp n ∧ n ∈ es)) → applyAll fs ops n = none := by
  induction es with
  | nil =>
    intro fs ops h n hn
    cases h
    rcases hn with hn | ⟨_, hn⟩
    · exact hn
    · cases hn
  | cons e es ih =>
    intro fs ops h n hn
    unfold recOps at h
    split at h
    · cases h
    · next o ho =>
      split at h
      · cases h
      · next r hr =>
        cases h
        rw [applyAll_append]
        refine ih _ r hr n ?_
        rcases hn with hn | ⟨ht, hn⟩
        · left; exact unlinks_none o (entry_unlinks ho) fs n hn
        · rcases List.mem_cons.mp hn with rfl | hn
          · left; exact entry_removes ho ht
          · right; exact ⟨ht, hn⟩

end Verif.Recover
