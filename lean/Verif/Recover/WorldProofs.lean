import Verif.Recover.FlatProofs
set_option linter.unusedSimpArgs false
set_option linter.unusedVariables false
/-! # Histories of changes, and the contents after a part of them -/
namespace Verif.Recover
open Verif Verif.Wal
variable {K : Type} [DecidableEq K]

abbrev Hist := List (Nat × Change)

def app (env : Env K) (w : World K) (c : Change) : World K := (World.change env w c).getD w

/-- contents after the first `n` changes -/
def W (env : Env K) (H : Hist) (n : Nat) : World K := ((H.take n).map Prod.snd).foldl (app env) World.init

/-- how many changes have a number up to `L` -/
def idx : Hist → Nat → Nat
  | [], _ => 0
  | x :: t, L => if x.1 ≤ L then idx t L + 1 else 0

def Keep (env : Env K) (c : Change) : Prop := ∀ cmd op, c = Change.op cmd op → ∀ t, env.ddl op ≠ .drop t ∧ env.ddl op ≠ .truncate t

def Touches (env : Env K) (c : Change) (t : Tid) (p : Nat) : Prop :=
  ∃ cmd row, c = Change.row cmd t.1 t.2 row ∧ env.slot t (env.key t row) = some p

def IsOp (c : Change) : Prop := ∃ cmd op, c = Change.op cmd op

/-- tables that do not exist, and keys without a partition, have no rows -/
def Clean (env : Env K) (w : World K) : Prop := ∀ t k, (t ∉ w.tabs ∨ env.slot t k = none) → w.rows t k = none

/-- a sorted history all of whose changes can be made -/
structure HOk (env : Env K) (H : Hist) : Prop where
  sorted : H.Pairwise fun a b => a.1 ≤ b.1
  pos    : ∀ x ∈ H, 0 < x.1
  keep   : ∀ x ∈ H, Keep env x.2
  ok     : ∀ n (h : n < H.length), World.change env (W env H n) H[n].2 = some (W env H (n + 1))

theorem W_zero (env : Env K) (H : Hist) : W env H 0 = World.init := rfl

theorem W_succ (env : Env K) (H : Hist) (n : Nat) (h : n < H.length) : W env H (n + 1) = app env (W env H n) H[n].2 := by
  unfold W
  rw [List.take_succ_eq_append_getElem h, List.map_append, List.foldl_append]
  rfl

theorem W_append (env : Env K) (H H' : Hist) (n : Nat) (h : n ≤ H.length) : W env (H ++ H') n = W env H n := by
  unfold W
  rw [List.take_append_of_le_length h]

theorem idx_le : ∀ (H : Hist) (L : Nat), idx H L ≤ H.length
  | [], _ => Nat.le_refl _
  | x :: t, L => by
    unfold idx
    split
    · have := idx_le t L; simp; omega
    · omega

theorem idx_iff : ∀ (H : Hist) (L : Nat), (H.Pairwise fun a b => a.1 ≤ b.1) → ∀ i (h : i < H.length), (H[i].1 ≤ L ↔ i < idx H L)
  | [], _, _, i, h => by simp at h
  | x :: t, L, hs, i, h => by
    rw [List.pairwise_cons] at hs
    unfold idx
    by_cases hx : x.1 ≤ L
    · rw [if_pos hx]
      cases i with
      | zero => simp [hx]
      | succ i =>
        have := idx_iff t L hs.2 i (by simpa using h)
        simp only [List.getElem_cons_succ]
        rw [this]; omega
    · rw [if_neg hx]
      cases i with
      | zero => simp; omega
      | succ i =>
        have hi : i < t.length := by simpa using h
        have := hs.1 t[i] (List.getElem_mem hi)
        simp only [List.getElem_cons_succ]
        omega

theorem idx_append (H H' : Hist) (L : Nat) (h : ∀ x ∈ H', ¬ x.1 ≤ L) : idx (H ++ H') L = idx H L := by
  induction H with
  | nil =>
    cases H' with
    | nil => rfl
    | cons y t => simp only [List.nil_append, idx]; rw [if_neg (h y (by simp))]
  | cons x t ih => simp only [List.cons_append, idx, ih]

theorem idx_all (H : Hist) (L : Nat) (h : ∀ x ∈ H, x.1 ≤ L) : idx H L = H.length := by
  induction H with
  | nil => rfl
  | cons x t ih => simp only [idx]; rw [if_pos (h x (by simp)), ih (fun y hy => h y (by simp [hy]))]; rfl

theorem idx_zero (H : Hist) (h : ∀ x ∈ H, 0 < x.1) : idx H 0 = 0 := by
  cases H with
  | nil => rfl
  | cons x t =>
    have := h x (by simp)
    simp only [idx]; rw [if_neg (by omega)]

/-! ## one change -/

theorem change_row {env : Env K} {w w' : World K} {cmd a b : Nat} {row : Bytes} (h : World.change env w (.row cmd a b row) = some w') :
    (a, b) ∈ w.tabs ∧ (∃ p, env.slot (a, b) (env.key (a, b) row) = some p) ∧ w'.tabs = w.tabs ∧
    (cmd ≠ REPLACE → w.rows (a, b) (env.key (a, b) row) ≠ none) ∧
    (∀ t k, w'.rows t k = if t = (a, b) ∧ k = env.key (a, b) row then (if cmd = REPLACE then some row else none) else w.rows t k) := by
  unfold World.change at h
  simp only at h
  split at h
  · cases h
  · next h0 =>
    simp only [not_or, Decidable.not_not] at h0
    have hs : ∃ p, env.slot (a, b) (env.key (a, b) row) = some p := by
      cases e : env.slot (a, b) (env.key (a, b) row) with
      | none => exact absurd e h0.2
      | some p => exact ⟨p, rfl⟩
    split at h
    · next hc =>
      cases h
      refine ⟨h0.1, hs, rfl, fun h => absurd hc h, ?_⟩
      intro t k
      simp [World.set, hc]
    · next hc =>
      split at h
      · cases h
      · next hr =>
        cases h
        refine ⟨h0.1, hs, rfl, fun _ => hr, ?_⟩
        intro t k
        simp [World.set, hc]

theorem change_op {env : Env K} {w w' : World K} {cmd : Nat} {op : Bytes} (hk : Keep env (.op cmd op)) (h : World.change env w (.op cmd op) = some w') :
    (∃ t, env.ddl op = .create t ∧ t ∉ w.tabs ∧ w'.tabs = w.tabs ++ [t] ∧ ∀ t' k, w'.rows t' k = if t' = t then none else w.rows t' k) ∨
    (env.ddl op = .other ∧ w' = w) := by
  have hk := hk cmd op rfl
  unfold World.change at h
  cases e : env.ddl op with
  | create t =>
    simp only [e] at h
    split at h
    · cases h
    · next hn => cases h; exact Or.inl ⟨t, rfl, hn, rfl, fun _ _ => rfl⟩
  | drop t => exact absurd e (hk t).1
  | truncate t => exact absurd e (hk t).2
  | other => simp only [e] at h; cases h; exact Or.inr ⟨rfl, rfl⟩

theorem change_mono {env : Env K} {w w' : World K} {c : Change} (hk : Keep env c) (h : World.change env w c = some w') :
    ∀ t ∈ w.tabs, t ∈ w'.tabs := by
  intro t ht
  cases c with
  | row cmd a b row => rw [(change_row h).2.2.1]; exact ht
  | op cmd op =>
    rcases change_op hk h with ⟨t', _, _, e, _⟩ | ⟨_, e⟩
    · rw [e]; simp [ht]
    · rw [e]; exact ht

theorem change_clean {env : Env K} {w w' : World K} {c : Change} (hk : Keep env c) (h : World.change env w c = some w') (hw : Clean env w) :
    Clean env w' := by
  intro t k hn
  have hn' : t ∉ w.tabs ∨ env.slot t k = none := hn.imp (fun h1 h2 => h1 (change_mono hk h t h2)) id
  cases c with
  | row cmd a b row =>
    obtain ⟨h1, ⟨p, h2⟩, h3, _, h5⟩ := change_row h
    rw [h5, if_neg]
    · exact hw t k hn'
    · rintro ⟨rfl, rfl⟩
      rcases hn' with h | h
      · exact h h1
      · rw [h2] at h; cases h
  | op cmd op =>
    rcases change_op hk h with ⟨t', _, _, _, e⟩ | ⟨_, e⟩
    · rw [e]
      split
      · rfl
      · exact hw t k hn'
    · rw [e]; exact hw t k hn'

theorem change_frame {env : Env K} {w w' : World K} {c : Change} (hk : Keep env c) (h : World.change env w c = some w') (hw : Clean env w)
    {t : Tid} {p : Nat} {k : K} (ht : ¬ Touches env c t p) (hs : env.slot t k = some p) : w'.rows t k = w.rows t k := by
  cases c with
  | row cmd a b row =>
    obtain ⟨h1, _, h3, _, h5⟩ := change_row h
    rw [h5, if_neg]
    rintro ⟨rfl, rfl⟩
    exact ht ⟨cmd, row, rfl, hs⟩
  | op cmd op =>
    rcases change_op hk h with ⟨t', _, hn, _, e⟩ | ⟨_, e⟩
    · rw [e]
      split
      · next he => subst he; exact (hw t k (Or.inl hn)).symm
      · rfl
    · rw [e]

/-! ## ranges -/

theorem W_clean {env : Env K} {H : Hist} (h : HOk env H) : ∀ n, n ≤ H.length → Clean env (W env H n)
  | 0, _ => fun _ _ _ => rfl
  | n + 1, hn => change_clean (h.keep _ (List.getElem_mem (by omega))) (h.ok n (by omega)) (W_clean h n (by omega))

theorem W_mono {env : Env K} {H : Hist} (h : HOk env H) : ∀ a b, a ≤ b → b ≤ H.length → ∀ t ∈ (W env H a).tabs, t ∈ (W env H b).tabs := by
  intro a b hab hb t ht
  induction b with
  | zero => have : a = 0 := by omega
            subst this; exact ht
  | succ b ih =>
    by_cases e : a = b + 1
    · subst e; exact ht
    · exact change_mono (h.keep _ (List.getElem_mem (by omega))) (h.ok b (by omega)) t (ih (by omega) (by omega))

theorem W_rows_frame {env : Env K} {H : Hist} (h : HOk env H) {t : Tid} {p : Nat} {k : K} (hs : env.slot t k = some p) : ∀ a b, a ≤ b →
    b ≤ H.length → (∀ i (hi : i < H.length), a ≤ i → i < b → ¬ Touches env H[i].2 t p) → (W env H b).rows t k = (W env H a).rows t k := by
  intro a b hab hb hn
  induction b with
  | zero => have : a = 0 := by omega
            subst this; rfl
  | succ b ih =>
    by_cases e : a = b + 1
    · subst e; rfl
    · rw [change_frame (h.keep _ (List.getElem_mem (by omega))) (h.ok b (by omega)) (W_clean h b (by omega)) (hn b (by omega) (by omega) (by omega)) hs]
      exact ih (by omega) (by omega) (fun i hi h1 h2 => hn i hi h1 (by omega))

theorem W_tabs_frame {env : Env K} {H : Hist} (h : HOk env H) : ∀ a b, a ≤ b → b ≤ H.length →
    (∀ i (hi : i < H.length), a ≤ i → i < b → ¬ IsOp H[i].2) → (W env H b).tabs = (W env H a).tabs := by
  intro a b hab hb hn
  induction b with
  | zero => have : a = 0 := by omega
            subst this; rfl
  | succ b ih =>
    by_cases e : a = b + 1
    · subst e; rfl
    · rw [← ih (by omega) (by omega) (fun i hi h1 h2 => hn i hi h1 (by omega))]
      have h1 := h.ok b (by omega)
      have h2 := hn b (by omega) (by omega) (by omega)
      cases e : H[b].2 with
      | row cmd a b row => rw [e] at h1; exact (change_row h1).2.2.1
      | op cmd op => exact absurd ⟨cmd, op, e⟩ h2

theorem touches_tab {env : Env K} {H : Hist} (h : HOk env H) {i : Nat} (hi : i < H.length) {t : Tid} {p : Nat} (ht : Touches env H[i].2 t p) :
    t ∈ (W env H i).tabs := by
  obtain ⟨cmd, row, e, _⟩ := ht
  have := h.ok i hi
  rw [e] at this
  exact (change_row this).1

theorem touches_unique {env : Env K} {c : Change} {t t' : Tid} {p p' : Nat} (h : Touches env c t p) (h' : Touches env c t' p') : t = t' ∧ p = p' := by
  obtain ⟨cmd, row, rfl, h2⟩ := h
  obtain ⟨cmd', row', e, h4⟩ := h'
  simp only [Change.row.injEq] at e
  obtain ⟨_, e1, e2, e3⟩ := e
  have : t = t' := Prod.ext e1 e2
  subst this; subst e3
  rw [h2] at h4
  exact ⟨rfl, by simpa using h4⟩

/-! ## heaps -/

/-- the heap has one row for each key of the index -/
structure Coh (env : Env K) (t : Tid) (m : Mem K) : Prop where
  rows : m.rows = loadRows (env.key t) m.heap
  nodup : (m.heap.map (env.key t)).Nodup

theorem load_fold (key : Bytes → K) (h : List Bytes) : ∀ (f : K → Option Bytes) (k : K),
    (k ∉ h.map key → h.foldl (fun f r => setRow f (key r) (some r)) f k = f k) ∧
    ((h.map key).Nodup → ∀ r ∈ h, key r = k → h.foldl (fun f r => setRow f (key r) (some r)) f k = some r) := by
  induction h with
  | nil => intro f k; exact ⟨fun _ => rfl, fun _ r hr => by simp at hr⟩
  | cons x t ih =>
    intro f k
    constructor
    · intro hk
      simp only [List.map_cons, List.mem_cons, not_or] at hk
      rw [List.foldl_cons, (ih _ k).1 hk.2]
      simp [setRow, hk.1]
    · intro hn r hr hk
      rw [List.map_cons, List.nodup_cons] at hn
      rw [List.foldl_cons]
      rcases List.mem_cons.mp hr with rfl | hr
      · rw [(ih _ k).1 (by rw [← hk]; exact hn.1)]
        simp [setRow, hk]
      · exact (ih _ k).2 hn.2 r hr hk

theorem load_none {key : Bytes → K} {h : List Bytes} {k : K} (hk : k ∉ h.map key) : loadRows key h k = none := (load_fold key h _ k).1 hk

theorem load_some {key : Bytes → K} {h : List Bytes} (hn : (h.map key).Nodup) {r : Bytes} (hr : r ∈ h) : loadRows key h (key r) = some r :=
  (load_fold key h _ (key r)).2 hn r hr rfl

theorem load_cases {key : Bytes → K} {h : List Bytes} (hn : (h.map key).Nodup) (k : K) :
    (k ∉ h.map key ∧ loadRows key h k = none) ∨ ∃ r ∈ h, key r = k ∧ loadRows key h k = some r := by
  by_cases hk : k ∈ h.map key
  · obtain ⟨r, hr, rfl⟩ := List.mem_map.mp hk
    exact Or.inr ⟨r, hr, rfl, load_some hn hr⟩
  · exact Or.inl ⟨hk, load_none hk⟩

theorem nodup_erase_map {key : Bytes → K} {h : List Bytes} (hn : (h.map key).Nodup) (r : Bytes) : ((h.erase r).map key).Nodup :=
  List.Nodup.sublist (List.Sublist.map key List.erase_sublist) hn

theorem nodup_of_map {key : Bytes → K} {h : List Bytes} (hn : (h.map key).Nodup) : h.Nodup := by
  induction h with
  | nil => simp
  | cons x t ih =>
    rw [List.map_cons, List.nodup_cons] at hn
    rw [List.nodup_cons]
    exact ⟨fun hx => hn.1 (List.mem_map.mpr ⟨x, hx, rfl⟩), ih hn.2⟩

theorem load_erase {key : Bytes → K} {h : List Bytes} (hn : (h.map key).Nodup) {r : Bytes} (hr : r ∈ h) (k : K) :
    loadRows key (h.erase r) k = if k = key r then none else loadRows key h k := by
  have hne : key r ∉ (h.erase r).map key := by
    intro hm
    obtain ⟨r', h1, h2⟩ := List.mem_map.mp hm
    have h3 : r' ∈ h := List.mem_of_mem_erase h1
    have e := load_some hn h3
    rw [h2, load_some hn hr] at e
    simp only [Option.some.injEq] at e
    subst e
    exact (List.Nodup.not_mem_erase (nodup_of_map hn)) h1
  split
  · next hk => subst hk; exact load_none hne
  · next hk =>
    rcases load_cases hn k with ⟨h1, h2⟩ | ⟨r', h1, h2, h3⟩
    · rw [h2, load_none]
      intro hm
      obtain ⟨r', h3, h4⟩ := List.mem_map.mp hm
      exact h1 (List.mem_map.mpr ⟨r', List.mem_of_mem_erase h3, h4⟩)
    · rw [h3]
      have : r' ∈ h.erase r := by
        rw [List.mem_erase_of_ne]
        · exact h1
        · intro e; subst e; exact hk h2.symm
      rw [← h2]
      exact load_some (nodup_erase_map hn r) this

theorem load_snoc {key : Bytes → K} {h : List Bytes} {row : Bytes} (hk : key row ∉ h.map key) (k : K) :
    loadRows key (h ++ [row]) k = if k = key row then some row else loadRows key h k := by
  unfold loadRows
  rw [List.foldl_append]
  simp [setRow]

theorem coh_put {env : Env K} {t : Tid} {m : Mem K} (h : Coh env t m) (row : Bytes) : Coh env t (m.put (env.key t row) row) := by
  unfold Mem.put
  rw [h.rows]
  rcases load_cases h.nodup (env.key t row) with ⟨h1, h2⟩ | ⟨r, h1, h2, h3⟩
  · constructor
    · funext k
      simp only [h2]
      rw [load_snoc h1]; rfl
    · simp only [h2, List.map_append, List.map_cons, List.map_nil]
      rw [List.nodup_append]
      refine ⟨h.nodup, by simp, ?_⟩
      intro a ha b hb
      simp at hb; subst hb
      intro e; subst e; exact h1 ha
  · have hne : env.key t row ∉ (m.heap.erase r).map (env.key t) := by
      intro hm
      have e := load_erase h.nodup h1 (env.key t row)
      rw [if_pos h2.symm] at e
      obtain ⟨r', h4, h5⟩ := List.mem_map.mp hm
      have := load_some (nodup_erase_map h.nodup r) h4
      rw [h5, e] at this
      cases this
    constructor
    · funext k
      simp only [h3]
      rw [load_snoc hne, load_erase h.nodup h1]
      simp only [setRow]
      split
      · rfl
      · next hk => rw [if_neg (by rw [h2]; exact hk)]
    · simp only [h3, List.map_append, List.map_cons, List.map_nil]
      rw [List.nodup_append]
      refine ⟨nodup_erase_map h.nodup r, by simp, ?_⟩
      intro a ha b hb
      simp at hb; subst hb
      intro e; subst e; exact hne ha

theorem coh_del {env : Env K} {t : Tid} {m m' : Mem K} (h : Coh env t m) (k : K) (hd : m.del k = .ok m') :
    Coh env t m' ∧ m'.rows = setRow m.rows k none := by
  unfold Mem.del at hd
  rw [h.rows] at hd
  rcases load_cases h.nodup k with ⟨h1, h2⟩ | ⟨r, h1, h2, h3⟩
  · rw [h2] at hd; cases hd
  · rw [h3] at hd
    simp only [Except.ok.injEq] at hd
    subst hd
    refine ⟨⟨?_, nodup_erase_map h.nodup r⟩, by rw [h.rows]⟩
    funext k'
    rw [load_erase h.nodup h1]
    simp only [setRow, h2]

/-- a change of a row: it can be made if it can be made to the contents, and the result is the same -/
theorem mem_row {env : Env K} {t : Tid} {m : Mem K} (h : Coh env t m) (cmd : Nat) (row : Bytes) :
    (cmd ≠ REPLACE → m.rows (env.key t row) ≠ none) →
    ∃ m', m.row cmd (env.key t row) row = .ok m' ∧ Coh env t m' ∧
      m'.rows = setRow m.rows (env.key t row) (if cmd = REPLACE then some row else none) := by
  intro hok
  unfold Mem.row
  by_cases hc : cmd = REPLACE
  · rw [if_pos hc]
    refine ⟨_, rfl, coh_put h row, ?_⟩
    rw [if_pos hc]; rfl
  · rw [if_neg hc, if_neg hc]
    have := hok hc
    cases e : m.rows (env.key t row) with
    | none => exact absurd e this
    | some r =>
      have hd : m.del (env.key t row) = .ok { m with rows := setRow m.rows (env.key t row) none, heap := m.heap.erase r } := by
        unfold Mem.del; rw [e]
      exact ⟨_, hd, coh_del h _ hd⟩

theorem mem_row_err {m : Mem K} {cmd : Nat} {k : K} {row : Bytes} (hc : cmd ≠ REPLACE) (h : m.rows k = none) : m.row cmd k row = .error .err := by
  unfold Mem.row Mem.del
  rw [if_neg hc, h]

end Verif.Recover
