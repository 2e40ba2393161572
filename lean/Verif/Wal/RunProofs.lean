import Verif.Wal.LsnProofs
set_option linter.unusedSimpArgs false
set_option linter.unusedVariables false
/-! # The log after a sequence of requests -/
namespace Verif.Wal
open Verif Verif.Store

structure LEnt where
  id  : Nat
  txs : List (Nat × List WLog)

def LEnt.file (a : LEnt) : File := ⟨a.id, (a.txs.map bytesOf).flatten⟩
def LEnt.ent (a : LEnt) : Ent := ⟨a.id, a.txs.map bytesOf, []⟩

structure S (w : Wal) (A : List LEnt) : Prop where
  files : w.files = A.map LEnt.file
  ne    : A ≠ []
  sort  : A.Pairwise fun a b => a.id < b.id ∧ ∀ t ∈ a.txs, t.1 < b.id
  ge    : ∀ a ∈ A, ∀ t ∈ a.txs, a.id ≤ t.1
  asc   : ((A.flatMap LEnt.txs).map Prod.fst).Pairwise (· < ·)
  le    : ∀ a ∈ A, ∀ t ∈ a.txs, t.1 ≤ w.lsn
  idle  : ∀ a ∈ A, a.id ≤ w.lsn + 1

theorem s_init : S Wal.init [⟨1, []⟩] := by
  refine ⟨rfl, by simp, by simp, by simp, by simp, by simp, ?_⟩
  simp [Wal.init]

/-! ## bytes -/

theorem batch_eq (n : Nat) (ws : List (List WLog)) : batch n ws = ((number n ws).map bytesOf).flatten := by
  induction ws generalizing n with
  | nil => rfl
  | cons w ws ih => simp [batch, number, bytesOf, ih]

theorem appendLast_concat (fs : List File) (f : File) (b : Bytes) : appendLast (fs ++ [f]) b = fs ++ [⟨f.id, f.bytes ++ b⟩] := by
  induction fs with
  | nil => rfl
  | cons x t ih =>
    cases t with
    | nil => simp [appendLast]
    | cons y t => simp only [List.cons_append, appendLast] at ih ⊢; rw [ih]

theorem truncateLast_concat (fs : List File) (f : File) (n : Nat) : truncateLast (fs ++ [f]) n = fs ++ [⟨f.id, f.bytes.take n⟩] := by
  induction fs with
  | nil => rfl
  | cons x t ih =>
    cases t with
    | nil => simp [truncateLast]
    | cons y t => simp only [List.cons_append, truncateLast] at ih ⊢; rw [ih]

theorem undo (fs : List File) (b : Bytes) : truncateLast (appendLast fs b) (currentSize fs) = fs := by
  rcases List.eq_nil_or_concat fs with e | ⟨t, f, e⟩
  · subst e; rfl
  · subst e
    rw [List.concat_eq_append, appendLast_concat, truncateLast_concat]
    simp [currentSize]

/-! ## numbers -/

theorem number_mem {n : Nat} {ws : List (List WLog)} {t : Nat × List WLog} (h : t ∈ number n ws) : n < t.1 ∧ t.1 ≤ n + ws.length := by
  induction ws generalizing n with
  | nil => simp [number] at h
  | cons w ws ih =>
    simp only [number, List.mem_cons] at h
    rcases h with h | h
    · subst h; simp
    · have := ih h; simp; omega

theorem number_asc (n : Nat) (ws : List (List WLog)) : ((number n ws).map Prod.fst).Pairwise (· < ·) := by
  induction ws generalizing n with
  | nil => simp [number]
  | cons w ws ih =>
    simp only [number, List.map_cons, List.pairwise_cons]
    refine ⟨fun x hx => ?_, ih _⟩
    obtain ⟨t, ht, rfl⟩ := List.mem_map.mp hx
    have := number_mem ht
    omega

/-! ## one request -/

theorem s_write {w : Wal} {A0 : List LEnt} {a : LEnt} (h : S w (A0 ++ [a])) (ws : List (List WLog)) :
    S ⟨appendLast w.files (batch w.lsn ws), w.lsn + ws.length⟩ (A0 ++ [⟨a.id, a.txs ++ number w.lsn ws⟩]) := by
  refine ⟨?_, by simp, ?_, ?_, ?_, ?_, ?_⟩
  · simp only [h.files, List.map_append, List.map_cons, List.map_nil, appendLast_concat, batch_eq, LEnt.file, List.flatten_append]
  · have hs := h.sort
    rw [List.pairwise_append] at hs ⊢
    refine ⟨hs.1, by simp, ?_⟩
    intro x hx y hy
    simp at hy; subst hy
    exact hs.2.2 x hx a (by simp)
  · intro x hx t ht
    rcases List.mem_append.mp hx with hx | hx
    · exact h.ge x (by simp [hx]) t ht
    · simp at hx; subst hx
      rcases List.mem_append.mp ht with ht | ht
      · exact h.ge a (by simp) t ht
      · have := number_mem ht; have := h.idle a (by simp); simp; omega
  · have ha := h.asc
    simp only [List.flatMap_append, List.flatMap_cons, List.flatMap_nil, List.append_nil] at ha ⊢
    rw [← List.append_assoc, List.map_append, List.pairwise_append]
    refine ⟨ha, number_asc _ _, ?_⟩
    intro x hx y hy
    obtain ⟨t, ht, rfl⟩ := List.mem_map.mp hx
    obtain ⟨u, hu, rfl⟩ := List.mem_map.mp hy
    have h1 : t.1 ≤ w.lsn := by
      rcases List.mem_append.mp ht with ht | ht
      · obtain ⟨b, hb, ht⟩ := List.mem_flatMap.mp ht
        exact h.le b (by simp [hb]) t ht
      · exact h.le a (by simp) t ht
    have := number_mem hu
    omega
  · intro x hx t ht
    show t.1 ≤ w.lsn + ws.length
    rcases List.mem_append.mp hx with hx | hx
    · have := h.le x (by simp [hx]) t ht; omega
    · simp at hx; subst hx
      rcases List.mem_append.mp ht with ht | ht
      · have := h.le a (by simp) t ht; omega
      · exact (number_mem ht).2
  · intro x hx
    show x.id ≤ w.lsn + ws.length + 1
    rcases List.mem_append.mp hx with hx | hx
    · have := h.idle x (by simp [hx]); omega
    · simp at hx; subst hx
      have := h.idle a (by simp); simp; omega

theorem s_create {w : Wal} {A : List LEnt} (h : S w A) (hi : ∀ a ∈ A, a.id ≤ w.lsn) : S (w.create (w.lsn + 1)) (A ++ [⟨w.lsn + 1, []⟩]) := by
  have hn : w.lsn + 1 ∉ ids w.files := by
    rw [h.files]
    unfold ids
    intro hm
    simp only [List.map_map, List.mem_map, Function.comp] at hm
    obtain ⟨a, ha, e⟩ := hm
    have := hi a ha
    simp only [LEnt.file] at e
    omega
  unfold Wal.create
  rw [if_neg hn]
  refine ⟨?_, by simp, ?_, ?_, ?_, ?_, ?_⟩
  · simp [h.files, LEnt.file]
  · rw [List.pairwise_append]
    refine ⟨h.sort, by simp, ?_⟩
    intro x hx y hy
    simp at hy; subst hy
    refine ⟨by have := hi x hx; simp; omega, fun t ht => by have := h.le x hx t ht; simp; omega⟩
  · intro x hx t ht
    rcases List.mem_append.mp hx with hx | hx
    · exact h.ge x hx t ht
    · simp at hx; subst hx; simp at ht
  · simpa using h.asc
  · intro x hx t ht
    rcases List.mem_append.mp hx with hx | hx
    · exact h.le x hx t ht
    · simp at hx; subst hx; simp at ht
  · intro x hx
    rcases List.mem_append.mp hx with hx | hx
    · exact h.idle x hx
    · simp at hx; subst hx; simp

theorem s_call {w : Wal} {A : List LEnt} (h : S w A) (c : Call) : ∃ A', S (w.mgrWrite c.ws c.o).1 A' ∧
    A'.flatMap LEnt.txs = A.flatMap LEnt.txs ++ (if c.o.writeFails = none then number w.lsn c.ws else []) ∧
    A'.head?.map LEnt.id = A.head?.map LEnt.id ∧
    (w.mgrWrite c.ws c.o).1.lsn = w.lsn + (if c.o.writeFails = none then c.ws.length else 0) := by
  unfold Wal.mgrWrite
  by_cases h0 : c.ws.length = 0
  · have : c.ws = [] := List.length_eq_zero_iff.mp h0
    refine ⟨A, ?_, ?_, rfl, ?_⟩
    · simp [h0]; exact h
    · simp [this, number]
    · simp [h0]
  · rw [if_neg h0]
    rcases hf : c.o.writeFails with _ | n
    · rcases List.eq_nil_or_concat A with e | ⟨A0, a, e⟩
      · exact absurd e h.ne
      subst e
      rw [List.concat_eq_append] at h ⊢
      have hw := s_write h c.ws
      have hb : ∀ x ∈ A0 ++ [(⟨a.id, a.txs ++ number w.lsn c.ws⟩ : LEnt)], x.id ≤ w.lsn + c.ws.length := by
        intro x hx
        rcases List.mem_append.mp hx with hx | hx
        · have := h.idle x (by simp [hx]); omega
        · simp at hx; subst hx; have := h.idle a (by simp); simp; omega
      have hhd : (A0 ++ [(⟨a.id, a.txs ++ number w.lsn c.ws⟩ : LEnt)]).head?.map LEnt.id = (A0 ++ [a]).head?.map LEnt.id := by
        cases A0 <;> simp
      have base : ∀ w', w' = (⟨appendLast w.files (batch w.lsn c.ws), w.lsn + c.ws.length⟩ : Wal) → ∃ A', S w' A' ∧
          A'.flatMap LEnt.txs = (A0 ++ [a]).flatMap LEnt.txs ++ number w.lsn c.ws ∧ A'.head?.map LEnt.id = (A0 ++ [a]).head?.map LEnt.id ∧
          w'.lsn = w.lsn + c.ws.length := by
        intro w' hw'
        subst hw'
        exact ⟨_, hw, by simp, hhd, rfl⟩
      simp only [Wal.write, Bool.not_true, Bool.false_eq_true, if_false, if_true]
      split
      · exact base _ rfl
      · split
        · exact base _ rfl
        · split
          · exact base _ rfl
          · refine ⟨_, s_create hw hb, by simp, ?_, ?_⟩
            · rw [← hhd]
              cases A0 <;> simp
            · unfold Wal.create
              split <;> rfl
    · simp only [Wal.write, Bool.not_false, if_true, undo]
      refine ⟨A, ?_, by simp, rfl, by simp⟩
      exact ⟨h.files, h.ne, h.sort, h.ge, h.asc, h.le, h.idle⟩

theorem s_run (calls : List Call) : ∀ {w : Wal} {A : List LEnt}, S w A → ∃ A', S (runCalls w calls) A' ∧
    A'.flatMap LEnt.txs = A.flatMap LEnt.txs ++ logged w.lsn calls ∧ A'.head?.map LEnt.id = A.head?.map LEnt.id := by
  induction calls with
  | nil => intro w A h; exact ⟨A, h, by simp [logged], rfl⟩
  | cons c cs ih =>
    intro w A h
    obtain ⟨A1, s1, e1, d1, l1⟩ := s_call h c
    obtain ⟨A2, s2, e2, d2⟩ := ih s1
    refine ⟨A2, s2, ?_, by rw [d2, d1]⟩
    rw [e2, e1, l1]
    simp only [logged]
    split <;> simp

theorem runCalls_append (w : Wal) (a b : List Call) : runCalls w (a ++ b) = runCalls (runCalls w a) b := by
  simp [runCalls]

/-! ## from transactions to bytes -/

theorem lsnOf_bytesOf (t : Nat × List WLog) (hl : t.1 < 2 ^ 64) (hs : (bytesOf t).length < 2 ^ 32) : lsnOf (bytesOf t) = t.1 := by
  have := (record_read t.1 t.2 hl hs []).1
  rw [List.append_nil] at this
  exact this

theorem goodRec_bytesOf (t : Nat × List WLog) (hl : t.1 < 2 ^ 64) (h1 : 24 < (bytesOf t).length) (h2 : (bytesOf t).length < 2 ^ 31) :
    GoodRec (bytesOf t) := by
  have hr := record_read t.1 t.2 hl (by have : (bytesOf t).length = (record t.1 t.2).length := rfl; omega) []
  have hv := record_validate t.1 t.2 hl (by have : (bytesOf t).length = (record t.1 t.2).length := rfl; omega) []
  rw [List.append_nil] at hr hv
  exact ⟨h1, h2, hr.2.1, hv⟩

theorem flatMap_ent (A : List LEnt) : (A.map LEnt.ent).flatMap Ent.recs = (A.flatMap LEnt.txs).map bytesOf := by
  induction A with
  | nil => rfl
  | cons a t ih => simp [LEnt.ent, ih]

theorem files_ent (A : List LEnt) : Files (A.map LEnt.ent) = A.map LEnt.file := by
  simp [Files, LEnt.ent, LEnt.file, Ent.file, Function.comp_def]

structure Sz (w : Wal) (A : List LEnt) : Prop where
  file : ∀ a ∈ A, ((a.txs.map bytesOf).flatten).length + 24 < 2 ^ 32
  recs : ∀ a ∈ A, ∀ t ∈ a.txs, t.1 < 2 ^ 64 ∧ 24 < (bytesOf t).length ∧ (bytesOf t).length < 2 ^ 31
  ids  : ∀ a ∈ A, a.id < IdMgr.NONE

theorem sz_of {w : Wal} {A : List LEnt} (h : S w A) (hz : Sized w (A.flatMap LEnt.txs)) : Sz w A := by
  refine ⟨fun a ha => ?_, fun a ha t ht => ?_, fun a ha => ?_⟩
  · exact hz.file a.file (by rw [h.files]; exact List.mem_map_of_mem ha)
  · have h1 := h.le a ha t ht
    have h2 := hz.lsn
    have h3 := hz.recs t (List.mem_flatMap.mpr ⟨a, ha, ht⟩)
    exact ⟨by omega, h3⟩
  · have h1 := h.idle a ha
    have h2 := hz.lsn
    unfold IdMgr.NONE
    omega

/-- the files of a log, with a torn tail in each of them -/
theorem lok_of {w : Wal} {A : List LEnt} (h : S w A) (hz : Sz w A) (tail : LEnt → Bytes)
    (htail : ∀ a ∈ A, ((a.txs.map bytesOf).flatten ++ tail a).length + 24 < 2 ^ 32 ∧ Torn (a.txs.map bytesOf).flatten (tail a)) :
    LOk (A.map fun a => (⟨a.id, a.txs.map bytesOf, tail a⟩ : Ent)) := by
  have hfl : ∀ B : List LEnt, (B.map fun a => (⟨a.id, a.txs.map bytesOf, tail a⟩ : Ent)).flatMap Ent.recs = (B.flatMap LEnt.txs).map bytesOf := by
    intro B
    induction B with
    | nil => rfl
    | cons a t ih => simp [ih]
  have hlsn : ∀ a ∈ A, ∀ t ∈ a.txs, lsnOf (bytesOf t) = t.1 := fun a ha t ht => by
    obtain ⟨h1, h2, h3⟩ := hz.recs a ha t ht
    exact lsnOf_bytesOf t h1 (by omega)
  refine ⟨⟨?_, ?_, ?_⟩, ?_, ?_, ?_⟩
  · intro e he
    obtain ⟨a, ha, rfl⟩ := List.mem_map.mp he
    refine ⟨(htail a ha).1, ?_, (htail a ha).2⟩
    intro r hr
    obtain ⟨t, ht, rfl⟩ := List.mem_map.mp hr
    obtain ⟨h1, h2, h3⟩ := hz.recs a ha t ht
    exact goodRec_bytesOf t h1 h2 h3
  · rw [List.pairwise_map]
    exact h.sort.imp fun hab => hab.1
  · intro e he
    obtain ⟨a, ha, rfl⟩ := List.mem_map.mp he
    exact hz.ids a ha
  · rw [List.pairwise_map]
    apply List.Pairwise.imp_of_mem _ h.sort
    intro a b ha hb hab r hr
    obtain ⟨t, ht, rfl⟩ := List.mem_map.mp hr
    rw [hlsn a ha t ht]
    exact hab.2 t ht
  · intro e he r hr
    obtain ⟨a, ha, rfl⟩ := List.mem_map.mp he
    obtain ⟨t, ht, rfl⟩ := List.mem_map.mp hr
    rw [hlsn a ha t ht]
    exact h.ge a ha t ht
  · rw [hfl, List.map_map]
    have : (A.flatMap LEnt.txs).map (lsnOf ∘ bytesOf) = (A.flatMap LEnt.txs).map Prod.fst := by
      apply List.map_congr_left
      intro t ht
      obtain ⟨a, ha, ht⟩ := List.mem_flatMap.mp ht
      exact hlsn a ha t ht
    rw [this]
    exact h.asc

theorem torn_nil (pre : Bytes) : Torn pre [] := Or.inl (by simp)

theorem lok_clean {w : Wal} {A : List LEnt} (h : S w A) (hz : Sz w A) : LOk (A.map LEnt.ent) := by
  have := lok_of h hz (fun _ => []) (fun a ha => ⟨by simpa using hz.file a ha, torn_nil _⟩)
  exact this

theorem filter_lsn {w : Wal} {A : List LEnt} (hz : Sz w A) (l : Nat) :
    ((A.flatMap LEnt.txs).map bytesOf).filter (fun r => l ≤ lsnOf r) = (fromLsn l (A.flatMap LEnt.txs)).map bytesOf := by
  have key : (A.flatMap LEnt.txs).filter ((fun r => decide (l ≤ lsnOf r)) ∘ bytesOf) = (A.flatMap LEnt.txs).filter fun t => decide (l ≤ t.1) := by
    apply List.filter_congr
    intro t ht
    obtain ⟨a, ha, ht⟩ := List.mem_flatMap.mp ht
    obtain ⟨h1, h2, h3⟩ := hz.recs a ha t ht
    have e := lsnOf_bytesOf t h1 (by omega)
    simp only [Function.comp, e]
  unfold fromLsn
  rw [List.filter_map, key]

/-- reading the log from a position -/
theorem read_s {w : Wal} {A : List LEnt} (h : S w A) (hz : Sz w A) (check : Bool) (fuel l : Nat) (hf : (A.flatMap LEnt.txs).length ≤ fuel)
    (hin : l ≠ 0 → ∃ a ∈ A, a.id ≤ l) :
    readFrom w.files true check fuel l = .ok ((fromLsn l (A.flatMap LEnt.txs)).map bytesOf) := by
  have hl := lok_clean h hz
  have := readFrom_ok hl check fuel l (by rw [flatMap_ent]; simpa using hf) (fun h0 => by
    obtain ⟨a, ha, hle⟩ := hin h0
    exact ⟨a.ent, List.mem_map_of_mem ha, hle⟩)
  rw [flatMap_ent, files_ent, ← h.files, filter_lsn hz] at this
  exact this

theorem recover_s {w : Wal} {A : List LEnt} (h : S w A) (hz : Sz w A) (check : Bool) (fuel : Nat) (hf : (A.flatMap LEnt.txs).length ≤ fuel) :
    recover w.files check fuel = .ok ((A.flatMap LEnt.txs).map bytesOf) := by
  have := recover_ok (lok_clean h hz) check fuel (by rw [flatMap_ent]; simpa using hf)
  rw [flatMap_ent, files_ent, ← h.files] at this
  exact this

end Verif.Wal
