import Verif.Recover.WorldProofs
set_option linter.unusedSimpArgs false
set_option linter.unusedVariables false
set_option linter.unusedSectionVars false
/-! # The running system follows the contents -/
namespace Verif.Recover
open Verif Verif.Wal
variable {K : Type} [DecidableEq K]

/-- the file of a partition; a file that does not exist is an empty one -/
def fileOf (s : Sys K) (t : Tid) (p : Nat) : Image := (s.img t p).getD ⟨0, []⟩

/-- a file has the contents up to its number -/
structure ImgOk (env : Env K) (H : Hist) (i : Image) (t : Tid) (p : Nat) : Prop where
  nodup : (i.heap.map (env.key t)).Nodup
  rows  : ∀ k, env.slot t k = some p → loadRows (env.key t) i.heap k = (W env H (idx H i.lsn)).rows t k

structure Live (env : Env K) (H : Hist) (B L : Nat) (s : Sys K) : Prop where
  hok   : HOk env H
  tabs  : s.tabs = (W env H H.length).tabs
  coh   : ∀ t ∈ s.tabs, ∀ p, Coh env t (s.parts t p)
  rows  : ∀ t ∈ s.tabs, ∀ p k, env.slot t k = some p → (s.parts t p).rows k = (W env H H.length).rows t k
  lsnl  : ∀ t ∈ s.tabs, ∀ p, (fileOf s t p).lsn ≤ (s.parts t p).lsn
  lsnt  : ∀ t ∈ s.tabs, ∀ p, (s.parts t p).lsn ≤ (s.parts t p).track
  lsnb  : ∀ t ∈ s.tabs, ∀ p, (s.parts t p).lsn ≤ B
  trk   : ∀ t ∈ s.tabs, ∀ p, (s.parts t p).track ≤ L
  touch : ∀ x ∈ H, ∀ t p, Touches env x.2 t p → x.1 ≤ (s.parts t p).track
  noimg : ∀ t, t ∉ s.tabs → ∀ p, s.img t p = none ∧ s.busy t p = none
  img   : ∀ t p, ImgOk env H (fileOf s t p) t p
  big   : ∀ t p, env.nparts ≤ p → (fileOf s t p).lsn = 0 ∧ s.busy t p = none
  busy  : ∀ t p i, s.busy t p = some i → ImgOk env H i t p ∧ i.lsn = (s.parts t p).lsn
  free  : ∀ t ∈ s.tabs, ∀ p, s.busy t p = none → (fileOf s t p).lsn = (s.parts t p).lsn
  catp  : s.cat ≤ s.pending
  catb  : s.cat ≤ B
  pend  : s.pending ≤ L
  ops   : ∀ x ∈ H, IsOp x.2 → x.1 ≤ s.pending
  catt  : s.catTabs = (W env H (idx H s.cat)).tabs
  all   : ∀ x ∈ H, x.1 ≤ L

theorem ImgOk.empty (env : Env K) {H : Hist} (h : HOk env H) (t : Tid) (p : Nat) : ImgOk env H ⟨0, []⟩ t p := by
  refine ⟨by simp, fun k _ => ?_⟩
  rw [idx_zero H h.pos]; rfl

theorem Live.weaken {env : Env K} {H : Hist} {B B' L L' : Nat} {s : Sys K} (h : Live env H B L s) (hB : B ≤ B') (hL : L ≤ L') : Live env H B' L' s :=
  { h with
    lsnb := fun t ht p => Nat.le_trans (h.lsnb t ht p) hB
    trk := fun t ht p => Nat.le_trans (h.trk t ht p) hL
    catb := Nat.le_trans h.catb hB
    pend := Nat.le_trans h.pend hL
    all := fun x hx => Nat.le_trans (h.all x hx) hL }

/-- only the number of the last transaction and the log differ -/
theorem Live.congr {env : Env K} {H : Hist} {B L : Nat} {s : Sys K} (h : Live env H B L s) (l : Nat) (g : List Bytes) :
    Live env H B L { s with lsn := l, log := g } :=
  ⟨h.hok, h.tabs, h.coh, h.rows, h.lsnl, h.lsnt, h.lsnb, h.trk, h.touch, h.noimg, h.img, h.big, h.busy, h.free, h.catp, h.catb, h.pend, h.ops,
   h.catt, h.all⟩

theorem HOk.snoc {env : Env K} {H : Hist} (h : HOk env H) {L : Nat} {c : Change} {w' : World K} (hl : ∀ x ∈ H, x.1 ≤ L) (hp : 0 < L)
    (hk : Keep env c) (hc : World.change env (W env H H.length) c = some w') :
    HOk env (H ++ [(L, c)]) ∧ W env (H ++ [(L, c)]) (H ++ [(L, c)]).length = w' := by
  have e1 : W env (H ++ [(L, c)]) H.length = W env H H.length := W_append _ _ _ _ (Nat.le_refl _)
  have e2 : W env (H ++ [(L, c)]) (H.length + 1) = w' := by
    rw [W_succ _ _ _ (by simp), e1]
    simp [app, hc]
  refine ⟨⟨?_, ?_, ?_, ?_⟩, by simpa using e2⟩
  · rw [List.pairwise_append]
    refine ⟨h.sorted, by simp, ?_⟩
    intro a ha b hb
    simp at hb; subst hb
    exact hl a ha
  · intro x hx
    rcases List.mem_append.mp hx with hx | hx
    · exact h.pos x hx
    · simp at hx; subst hx; exact hp
  · intro x hx
    rcases List.mem_append.mp hx with hx | hx
    · exact h.keep x hx
    · simp at hx; subst hx; exact hk
  · intro n hn
    by_cases e : n = H.length
    · subst e
      rw [e1, e2]
      simp [hc]
    · have hn' : n < H.length := by simp at hn; omega
      rw [W_append _ _ _ _ (by omega), W_append _ _ _ _ (by omega), List.getElem_append_left hn']
      exact h.ok n hn'

theorem ImgOk.snoc {env : Env K} {H : Hist} {i : Image} {t : Tid} {p L : Nat} {c : Change} (h : ImgOk env H i t p) (hl : i.lsn < L) :
    ImgOk env (H ++ [(L, c)]) i t p := by
  refine ⟨h.nodup, fun k hk => ?_⟩
  rw [h.rows k hk, idx_append _ _ _ (by intro x hx; simp at hx; subst hx; show ¬ L ≤ i.lsn; omega), W_append _ _ _ _ (idx_le _ _)]

theorem follow_bounds (env : Env K) (s : Sys K) (t : Tid) :
    s.lsn ≤ followParts env s t ∧ (∀ p, p < env.nparts → (s.parts t p).lsn ≤ followParts env s t) ∧
    (∀ B, s.lsn ≤ B → (∀ p, (s.parts t p).lsn ≤ B) → followParts env s t ≤ B) := by
  have key : ∀ (l : List Nat) (a : Nat), a ≤ l.foldl (fun l p => max l (s.parts t p).lsn) a ∧
      (∀ p ∈ l, (s.parts t p).lsn ≤ l.foldl (fun l p => max l (s.parts t p).lsn) a) ∧
      (∀ B, a ≤ B → (∀ p, (s.parts t p).lsn ≤ B) → l.foldl (fun l p => max l (s.parts t p).lsn) a ≤ B) := by
    intro l
    induction l with
    | nil => intro a; exact ⟨Nat.le_refl _, by simp, fun B h _ => h⟩
    | cons x r ih =>
      intro a
      obtain ⟨i1, i2, i3⟩ := ih (max a (s.parts t x).lsn)
      rw [List.foldl_cons]
      refine ⟨by omega, ?_, fun B h1 h2 => i3 B (by have := h2 x; omega) h2⟩
      intro p hp
      rcases List.mem_cons.mp hp with rfl | hp
      · omega
      · exact i2 p hp
  obtain ⟨k1, k2, k3⟩ := key (List.range env.nparts) s.lsn
  exact ⟨k1, fun p hp => k2 p (List.mem_range.mpr hp), k3⟩

/-- a file that is loaded -/
theorem load_eq (env : Env K) (t : Tid) (i : Option Image) : load env t i = load env t (some (i.getD ⟨0, []⟩)) := by
  cases i <;> rfl

theorem coh_load {env : Env K} {H : Hist} {i : Image} {t : Tid} {p : Nat} (h : ImgOk env H i t p) : Coh env t (load env t (some i)) := ⟨rfl, h.nodup⟩

/-- a change that cannot be made to the contents fails -/
theorem live_fail {env : Env K} {H : Hist} {B L : Nat} {s : Sys K} (h : Live env H B L s) {c : Change}
    (hc : World.change env (W env H H.length) c = none) (l : Nat) : runChange env l s c = .error .err := by
  cases c with
  | row cmd a b row =>
    unfold World.change at hc
    unfold runChange
    simp only [← h.tabs] at hc ⊢
    by_cases ht : (a, b) ∈ s.tabs
    · simp only [ht, not_true, false_or, if_false] at hc ⊢
      cases e : env.slot (a, b) (env.key (a, b) row) with
      | none => rfl
      | some p =>
        simp only [e, reduceCtorEq, if_false] at hc ⊢
        split at hc
        · cases hc
        · next hr =>
          split at hc
          · next hn =>
            rw [mem_row_err hr (by rw [h.rows _ ht p _ e]; exact hn)]
            rfl
          · cases hc
    · simp only [ht, not_false_eq_true, if_true]
  | op cmd op =>
    unfold World.change at hc
    unfold runChange execDdl
    simp only [← h.tabs] at hc
    cases e : env.ddl op with
    | create t =>
      simp only [e] at hc ⊢
      split at hc
      · next ht => simp only [ht, if_true]; rfl
      · cases hc
    | drop t =>
      simp only [e] at hc ⊢
      split at hc
      · next ht => rw [if_pos ht]; rfl
      · cases hc
    | truncate t =>
      simp only [e] at hc ⊢
      split at hc
      · next ht => rw [if_pos ht]; rfl
      · cases hc
    | other => simp only [e] at hc; cases hc

theorem touches_mem {env : Env K} {c : Change} {t : Tid} {p : Nat} {w w' : World K} (h : Touches env c t p) (hc : World.change env w c = some w') :
    t ∈ w.tabs := by
  obtain ⟨cmd, row, rfl, _⟩ := h
  exact (change_row hc).1

theorem touch_tabs {env : Env K} {H : Hist} (h : HOk env H) {x : Nat × Change} (hx : x ∈ H) {t : Tid} {p : Nat} (ht : Touches env x.2 t p) :
    t ∈ (W env H H.length).tabs := by
  obtain ⟨i, hi, rfl⟩ := List.mem_iff_getElem.mp hx
  exact W_mono h i _ (by omega) (Nat.le_refl _) t (touches_tab h hi ht)

theorem live_row {env : Env K} {H : Hist} {B L : Nat} {s : Sys K} (h : Live env H B L s) (hB : B < L) {cmd a b : Nat} {row : Bytes} {w' : World K}
    (hk : Keep env (.row cmd a b row)) (hc : World.change env (W env H H.length) (.row cmd a b row) = some w') :
    ∃ s', runChange env L s (.row cmd a b row) = .ok s' ∧ Live env (H ++ [(L, .row cmd a b row)]) B L s' ∧ s'.log = s.log ∧ s'.lsn = s.lsn ∧
      s'.cat = s.cat ∧ s'.busy = s.busy ∧ (∀ t p, fileOf s' t p = fileOf s t p) := by
  obtain ⟨h1, ⟨p, h2⟩, h3, h4, h5⟩ := change_row hc
  rw [← h.tabs] at h1
  obtain ⟨hH, hW⟩ := h.hok.snoc (L := L) h.all (by omega) hk hc
  have hr := h.rows _ h1 p _ h2
  obtain ⟨m', m1, m2, m3⟩ := mem_row (h.coh _ h1 p) cmd row (fun hc => by rw [hr]; exact h4 hc)
  have hmeta := row_meta m1
  refine ⟨{ s with parts := setPart s.parts (a, b) p { m' with track := L } }, ?_, ?_, rfl, rfl, rfl, rfl, fun _ _ => rfl⟩
  · unfold runChange
    simp only [h1, not_true, if_false, h2, m1]
    rfl
  · have hp : ∀ t q, (setPart s.parts (a, b) p { m' with track := L } t q = { m' with track := L } ∧ t = (a, b) ∧ q = p) ∨
        (setPart s.parts (a, b) p { m' with track := L } t q = s.parts t q ∧ ¬ (t = (a, b) ∧ q = p)) := by
      intro t q
      unfold setPart
      by_cases e : t = (a, b) ∧ q = p
      · left; simp [e]
      · right; simp [e]
    have hlsn : ∀ t q, (setPart s.parts (a, b) p { m' with track := L } t q).lsn = (s.parts t q).lsn := by
      intro t q
      rcases hp t q with ⟨e, rfl, rfl⟩ | ⟨e, _⟩
      · rw [e]; exact hmeta.1
      · rw [e]
    refine ⟨hH, ?_, ?_, ?_, ?_, ?_, ?_, ?_, ?_, h.noimg, ?_, h.big, ?_, ?_, h.catp, h.catb, h.pend, ?_, ?_, ?_⟩
    · rw [hW, h3]; exact h.tabs
    · intro t ht q
      rcases hp t q with ⟨e, rfl, rfl⟩ | ⟨e, _⟩
      · show Coh env (a, b) (setPart _ _ _ _ _ _)
        rw [e]; exact ⟨m2.rows, m2.nodup⟩
      · show Coh env t (setPart _ _ _ _ _ _)
        rw [e]; exact h.coh t ht q
    · intro t ht q k hs
      rw [hW, h5]
      rcases hp t q with ⟨e, rfl, rfl⟩ | ⟨e, hne⟩
      · show Mem.rows (setPart _ _ _ _ _ _) k = _
        rw [e]
        show m'.rows k = _
        rw [m3]
        simp only [setRow, true_and]
        by_cases hkk : k = env.key (a, b) row
        · simp [hkk]
        · simp only [hkk, if_false]; exact h.rows _ ht q k hs
      · show Mem.rows (setPart _ _ _ _ _ _) k = _
        rw [e, if_neg]
        · exact h.rows t ht q k hs
        · rintro ⟨rfl, rfl⟩
          rw [h2] at hs
          simp at hs
          exact hne ⟨rfl, hs.symm⟩
    · intro t ht q; rw [hlsn]; exact h.lsnl t ht q
    · intro t ht q
      rw [hlsn]
      rcases hp t q with ⟨e, rfl, rfl⟩ | ⟨e, hne⟩
      · show _ ≤ Mem.track (setPart _ _ _ _ _ _)
        rw [e]
        show _ ≤ L
        have := h.lsnb _ ht q; omega
      · show _ ≤ Mem.track (setPart _ _ _ _ _ _)
        rw [e]; exact h.lsnt t ht q
    · intro t ht q; rw [hlsn]; exact h.lsnb t ht q
    · intro t ht q
      rcases hp t q with ⟨e, rfl, rfl⟩ | ⟨e, hne⟩
      · show Mem.track (setPart _ _ _ _ _ _) ≤ _
        rw [e]; exact Nat.le_refl _
      · show Mem.track (setPart _ _ _ _ _ _) ≤ _
        rw [e]; exact h.trk t ht q
    · intro x hx t q ht
      rcases hp t q with ⟨e, rfl, rfl⟩ | ⟨e, hne⟩
      · show _ ≤ Mem.track (setPart _ _ _ _ _ _)
        rw [e]
        show _ ≤ L
        rcases List.mem_append.mp hx with hx | hx
        · exact h.all x hx
        · simp at hx; subst hx; exact Nat.le_refl _
      · show _ ≤ Mem.track (setPart _ _ _ _ _ _)
        rw [e]
        rcases List.mem_append.mp hx with hx | hx
        · exact h.touch x hx t q ht
        · simp at hx; subst hx
          exact absurd (touches_unique ht (show Touches env (Change.row cmd a b row) (a, b) p from ⟨cmd, row, rfl, h2⟩)) hne
    · intro t q
      refine (h.img t q).snoc ?_
      by_cases ht : t ∈ s.tabs
      · have := h.lsnl t ht q; have := h.lsnb t ht q
        show (fileOf s t q).lsn < L
        omega
      · show (fileOf s t q).lsn < L
        unfold fileOf
        rw [(h.noimg t ht q).1]
        show 0 < L
        omega
    · intro t q i hi
      obtain ⟨b1, b2⟩ := h.busy t q i hi
      refine ⟨b1.snoc ?_, by rw [hlsn]; exact b2⟩
      have ht : t ∈ s.tabs := by
        by_cases ht : t ∈ s.tabs
        · exact ht
        · have := (h.noimg t ht q).2
          rw [show s.busy t q = some i from hi] at this
          cases this
      have := h.lsnb t ht q
      omega
    · intro t ht q hq; rw [hlsn]; exact h.free t ht q hq
    · intro x hx ho
      rcases List.mem_append.mp hx with hx | hx
      · exact h.ops x hx ho
      · simp at hx; subst hx
        obtain ⟨_, _, e⟩ := ho; cases e
    · have hcb := h.catb
      rw [idx_append _ _ _ (by intro x hx; simp at hx; subst hx; show ¬ L ≤ s.cat; omega), W_append _ _ _ _ (idx_le _ _)]
      exact h.catt
    · intro x hx
      rcases List.mem_append.mp hx with hx | hx
      · exact h.all x hx
      · simp at hx; subst hx; exact Nat.le_refl _

theorem file_create {env : Env K} {s : Sys K} {t : Tid} (t' : Tid) (p : Nat) :
    ((if t' = t then some ((s.img t p).getD ⟨0, []⟩) else s.img t' p).getD ⟨0, []⟩ : Image) = fileOf s t' p := by
  unfold fileOf
  by_cases e : t' = t
  · subst e; simp
  · simp [e]

theorem live_op {env : Env K} {H : Hist} {B L : Nat} {s : Sys K} (h : Live env H B L s) (hB : B < L) {cmd : Nat} {op : Bytes} {w' : World K}
    (hk : Keep env (.op cmd op)) (hc : World.change env (W env H H.length) (.op cmd op) = some w') :
    ∃ s', runChange env L s (.op cmd op) = .ok s' ∧ Live env (H ++ [(L, .op cmd op)]) B L s' ∧ s'.log = s.log ∧
      s'.cat = s.cat ∧ s'.busy = s.busy ∧ (∀ t p, fileOf s' t p = fileOf s t p) := by
  obtain ⟨hH, hW⟩ := h.hok.snoc (L := L) h.all (by omega) hk hc
  have himg : ∀ t q, ImgOk env (H ++ [(L, Change.op cmd op)]) (fileOf s t q) t q := by
    intro t q
    refine (h.img t q).snoc ?_
    by_cases ht : t ∈ s.tabs
    · have := h.lsnl t ht q; have := h.lsnb t ht q; omega
    · unfold fileOf
      rw [(h.noimg t ht q).1]
      show 0 < L
      omega
  have hbusyt : ∀ t q i, s.busy t q = some i → t ∈ s.tabs := by
    intro t q i hi
    by_cases ht : t ∈ s.tabs
    · exact ht
    · have := (h.noimg t ht q).2
      rw [hi] at this
      cases this
  have hbusy : ∀ t q i, s.busy t q = some i → ImgOk env (H ++ [(L, Change.op cmd op)]) i t q ∧ i.lsn = (s.parts t q).lsn := by
    intro t q i hi
    obtain ⟨b1, b2⟩ := h.busy t q i hi
    refine ⟨b1.snoc ?_, b2⟩
    have := h.lsnb t (hbusyt t q i hi) q
    omega
  have htouch : ∀ x ∈ H ++ [(L, Change.op cmd op)], ∀ t p, Touches env x.2 t p → x ∈ H := by
    intro x hx t p ht
    rcases List.mem_append.mp hx with hx | hx
    · exact hx
    · simp at hx; subst hx
      obtain ⟨_, _, e, _⟩ := ht; cases e
  have hall : ∀ x ∈ H ++ [(L, Change.op cmd op)], x.1 ≤ L := by
    intro x hx
    rcases List.mem_append.mp hx with hx | hx
    · exact h.all x hx
    · simp at hx; subst hx; exact Nat.le_refl _
  have hcatt : s.catTabs = (W env (H ++ [(L, Change.op cmd op)]) (idx (H ++ [(L, Change.op cmd op)]) s.cat)).tabs := by
    have hcb := h.catb
    rw [idx_append _ _ _ (by intro x hx; simp at hx; subst hx; show ¬ L ≤ s.cat; omega), W_append _ _ _ _ (idx_le _ _)]
    exact h.catt
  have hcat : s.cat ≤ L := by have := h.catb; omega
  rcases change_op hk hc with ⟨t, e1, e2, e3, e4⟩ | ⟨e1, e2⟩
  · rw [← h.tabs] at e2
    have hld : ∀ p, load env t (s.img t p) = ⟨0, 0, fun _ => none, []⟩ := by
      intro p; rw [(h.noimg t e2 p).1]; rfl
    have hfile : ∀ p, fileOf s t p = ⟨0, []⟩ := by
      intro p; unfold fileOf; rw [(h.noimg t e2 p).1]; rfl
    unfold runChange execDdl
    simp only [e1, e2, if_false]
    refine ⟨_, rfl, ?_, rfl, rfl, rfl, fun t' p => file_create (env := env) t' p⟩
    have hne : ∀ t' ∈ s.tabs, t' ≠ t := fun t' ht e => e2 (e ▸ ht)
    refine ⟨hH, ?_, ?_, ?_, ?_, ?_, ?_, ?_, ?_, ?_, ?_, ?_, ?_, ?_, hcat, h.catb, Nat.le_refl _, fun x hx _ => hall x hx, hcatt, hall⟩
    · rw [hW, e3, ← h.tabs]
    · intro t' ht' p
      show Coh env t' (if t' = t then load env t (s.img t p) else s.parts t' p)
      by_cases e : t' = t
      · subst e
        simp only [if_true, hld]
        exact ⟨rfl, by simp⟩
      · simp only [e, if_false]
        refine h.coh t' ?_ p
        simpa [e] using ht'
    · intro t' ht' p k hs
      show (if t' = t then load env t (s.img t p) else s.parts t' p).rows k = _
      rw [hW, e4]
      by_cases e : t' = t
      · subst e
        simp only [if_true, hld]
      · simp only [e, if_false]
        exact h.rows t' (by simpa [e] using ht') p k hs
    · intro t' ht' p
      show ((if t' = t then some ((s.img t p).getD ⟨0, []⟩) else s.img t' p).getD ⟨0, []⟩ : Image).lsn ≤
        (if t' = t then load env t (s.img t p) else s.parts t' p).lsn
      rw [file_create (env := env)]
      by_cases e : t' = t
      · subst e; rw [hfile]; exact Nat.zero_le _
      · simp only [e, if_false]; exact h.lsnl t' (by simpa [e] using ht') p
    · intro t' ht' p
      show (if t' = t then load env t (s.img t p) else s.parts t' p).lsn ≤ (if t' = t then load env t (s.img t p) else s.parts t' p).track
      by_cases e : t' = t
      · subst e; simp only [if_true, hld, Nat.le_refl]
      · simp only [e, if_false]; exact h.lsnt t' (by simpa [e] using ht') p
    · intro t' ht' p
      show (if t' = t then load env t (s.img t p) else s.parts t' p).lsn ≤ _
      by_cases e : t' = t
      · subst e; simp only [if_true, hld, Nat.zero_le]
      · simp only [e, if_false]; exact h.lsnb t' (by simpa [e] using ht') p
    · intro t' ht' p
      show (if t' = t then load env t (s.img t p) else s.parts t' p).track ≤ _
      by_cases e : t' = t
      · subst e; simp only [if_true, hld, Nat.zero_le]
      · simp only [e, if_false]; exact h.trk t' (by simpa [e] using ht') p
    · intro x hx t' p ht'
      have hx := htouch x hx t' p ht'
      have hm := touch_tabs h.hok hx ht'
      rw [← h.tabs] at hm
      show _ ≤ (if t' = t then load env t (s.img t p) else s.parts t' p).track
      simp only [hne t' hm, if_false]
      exact h.touch x hx t' p ht'
    · intro t' ht' p
      have : t' ≠ t ∧ t' ∉ s.tabs := by
        constructor
        · rintro rfl; exact ht' (by simp)
        · intro h1; exact ht' (by simp [h1])
      show (if t' = t then some ((s.img t p).getD ⟨0, []⟩) else s.img t' p) = none ∧ _
      simp only [this.1, if_false]
      exact h.noimg t' this.2 p
    · intro t' p
      show ImgOk env _ ((if t' = t then some ((s.img t p).getD ⟨0, []⟩) else s.img t' p).getD ⟨0, []⟩) t' p
      rw [file_create (env := env)]; exact himg t' p
    · intro t' p hp
      show ((if t' = t then some ((s.img t p).getD ⟨0, []⟩) else s.img t' p).getD ⟨0, []⟩ : Image).lsn = 0 ∧ _
      rw [file_create (env := env)]; exact h.big t' p hp
    · intro t' p i hi
      have := hne t' (hbusyt t' p i hi)
      show _ ∧ _ = (if t' = t then load env t (s.img t p) else s.parts t' p).lsn
      simp only [this, if_false]
      exact hbusy t' p i hi
    · intro t' ht' p hb
      show ((if t' = t then some ((s.img t p).getD ⟨0, []⟩) else s.img t' p).getD ⟨0, []⟩ : Image).lsn =
        (if t' = t then load env t (s.img t p) else s.parts t' p).lsn
      rw [file_create (env := env)]
      by_cases e : t' = t
      · subst e; simp only [if_true, hld, hfile]
      · simp only [e, if_false]; exact h.free t' (by simpa [e] using ht') p hb
  · unfold runChange execDdl
    simp only [e1]
    refine ⟨_, rfl, ?_, rfl, rfl, rfl, fun _ _ => rfl⟩
    subst e2
    refine ⟨hH, ?_, h.coh, ?_, h.lsnl, h.lsnt, h.lsnb, h.trk, fun x hx t p ht => h.touch x (htouch x hx t p ht) t p ht, h.noimg, himg, h.big, hbusy,
      h.free, hcat, h.catb, Nat.le_refl _, fun x hx _ => hall x hx, hcatt, hall⟩
    · rw [hW]; exact h.tabs
    · rw [hW]; exact h.rows

/-- a transaction -/
theorem live_tx {env : Env K} {B L : Nat} (hB : B < L) (cs : List Change) (hk : ∀ c ∈ cs, Keep env c) : ∀ {H : Hist} {s : Sys K}, Live env H B L s →
    (cs.foldlM (World.change env) (W env H H.length) = none → ∃ e, cs.foldlM (runChange env L) s = .error e) ∧
    (∀ w', cs.foldlM (World.change env) (W env H H.length) = some w' →
      W env (H ++ cs.map fun c => (L, c)) (H ++ cs.map fun c => (L, c)).length = w' ∧
      ∃ s', cs.foldlM (runChange env L) s = .ok s' ∧ Live env (H ++ cs.map fun c => (L, c)) B L s' ∧ s'.log = s.log ∧
        s'.cat = s.cat ∧ s'.busy = s.busy ∧ (∀ t p, fileOf s' t p = fileOf s t p)) := by
  induction cs with
  | nil =>
    intro H s h
    refine ⟨fun h => (by cases h), ?_⟩
    intro w' hw
    cases hw
    simp only [List.map_nil, List.append_nil]
    exact ⟨trivial, s, rfl, h, rfl, rfl, rfl, fun _ _ => rfl⟩
  | cons c r ih =>
    intro H s h
    have hk' := fun c hc => hk c (List.mem_cons_of_mem _ hc)
    rw [foldlM_ok_cons, List.foldlM_cons]
    cases hc : World.change env (W env H H.length) c with
    | none =>
      rw [live_fail h hc]
      refine ⟨fun _ => ⟨_, rfl⟩, fun _ hw => (nomatch hw)⟩
    | some w1 =>
      have hck := hk c (by simp)
      obtain ⟨hH, hW⟩ := h.hok.snoc (L := L) h.all (by omega) hck hc
      have hstep : ∃ s', runChange env L s c = .ok s' ∧ Live env (H ++ [(L, c)]) B L s' ∧ s'.log = s.log ∧
          s'.cat = s.cat ∧ s'.busy = s.busy ∧ (∀ t p, fileOf s' t p = fileOf s t p) := by
        cases c with
        | row cmd a b row =>
          obtain ⟨s', a1, a2, a3, _, a4⟩ := live_row h hB hck hc
          exact ⟨s', a1, a2, a3, a4⟩
        | op cmd op => exact live_op h hB hck hc
      obtain ⟨s1, r1, r2, r3, r4, r5, r6⟩ := hstep
      obtain ⟨i1, i2⟩ := ih hk' r2
      rw [r1]
      rw [hW] at i1 i2
      have happ : H ++ (c :: r).map (fun c => (L, c)) = H ++ [(L, c)] ++ r.map fun c => (L, c) := by simp
      rw [happ]
      refine ⟨fun hn => i1 hn, fun w' hw => ?_⟩
      obtain ⟨j1, s', j2, j3, j4, j5, j6, j7⟩ := i2 w' hw
      exact ⟨j1, s', j2, j3, by rw [j4, r3], by rw [j5, r4], by rw [j6, r5], fun t p => by rw [j7, r6]⟩

end Verif.Recover
