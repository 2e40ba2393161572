import Verif.Recover.LiveProofs
set_option linter.unusedSimpArgs false
set_option linter.unusedVariables false
set_option linter.unusedSectionVars false
/-! # Replay of the log -/
namespace Verif.Recover
open Verif Verif.Wal
variable {K : Type} [DecidableEq K]

/-- what is known after `n` changes of the history have been replayed on the files of `s`; `l` is the number of the current record -/
structure Rp (env : Env K) (H : Hist) (s : Sys K) (n l : Nat) (r : Sys K) : Prop where
  le    : n ≤ H.length
  file  : ∀ t p, fileOf r t p = fileOf s t p
  noimg : ∀ t, t ∉ r.tabs → ∀ p, r.img t p = s.img t p
  busy  : ∀ t p, r.busy t p = none
  cat   : r.cat = s.cat
  catt  : r.catTabs = s.catTabs
  log   : r.log = s.log
  tabs  : r.tabs = (W env H (max n (idx H s.cat))).tabs
  coh   : ∀ t ∈ r.tabs, ∀ p, Coh env t (r.parts t p)
  rows  : ∀ t ∈ r.tabs, ∀ p k, env.slot t k = some p → (r.parts t p).rows k = (W env H (max n (idx H (fileOf s t p).lsn))).rows t k
  plsn  : ∀ t ∈ r.tabs, ∀ p, (r.parts t p).lsn = (fileOf s t p).lsn
  lsnt  : ∀ t ∈ r.tabs, ∀ p, (fileOf s t p).lsn ≤ (r.parts t p).track
  trk   : ∀ t ∈ r.tabs, ∀ p, (r.parts t p).track ≤ max r.lsn l
  lsnr  : ∀ t ∈ r.tabs, ∀ p, (fileOf s t p).lsn ≤ r.lsn
  touch : ∀ i (hi : i < H.length), i < n → ∀ t p, Touches env H[i].2 t p → H[i].1 ≤ (r.parts t p).track
  catp  : r.cat ≤ r.pending
  pend  : r.pending ≤ max r.lsn l
  ops   : ∀ i (hi : i < H.length), i < n → IsOp H[i].2 → H[i].1 ≤ r.pending
  all   : ∀ i (hi : i < H.length), i < n → H[i].1 ≤ max r.lsn l
  lsn   : r.lsn ≤ s.lsn
  catl  : s.cat ≤ r.lsn

theorem rp_le {env : Env K} {H : Hist} {s r : Sys K} {n l l' : Nat} (h : Rp env H s n l r) (hl : l ≤ l') : Rp env H s n l' r :=
  { h with
    trk := fun t ht p => by have := h.trk t ht p; omega
    pend := by have := h.pend; omega
    all := fun i hi hn => by have := h.all i hi hn; omega }

theorem rp_end {env : Env K} {H : Hist} {s r : Sys K} {n l : Nat} (h : Rp env H s n l r) (hl : l ≤ s.lsn) :
    Rp env H s n 0 { r with lsn := max r.lsn l } :=
  ⟨h.le, h.file, h.noimg, h.busy, h.cat, h.catt, h.log, h.tabs, h.coh, h.rows, h.plsn, h.lsnt,
   fun t ht p => by have := h.trk t ht p; show (r.parts t p).track ≤ max (max r.lsn l) 0; omega,
   fun t ht p => by have := h.lsnr t ht p; show _ ≤ max r.lsn l; omega,
   h.touch, h.catp, by have := h.pend; show r.pending ≤ max (max r.lsn l) 0; omega, h.ops,
   fun i hi hn => by have := h.all i hi hn; show _ ≤ max (max r.lsn l) 0; omega,
   by have := h.lsn; show max r.lsn l ≤ _; omega,
   by have := h.catl; show _ ≤ max r.lsn l; omega⟩

theorem rp_idx {env : Env K} {H : Hist} {s r : Sys K} {n l : Nat} (h : Rp env H s n l r) (m : Nat) : max n (idx H m) ≤ H.length := by
  have := h.le; have := idx_le H m; omega

/-- tables that exist at the change are known -/
theorem rp_known {env : Env K} {H : Hist} {s r : Sys K} {n l : Nat} (hH : HOk env H) (h : Rp env H s n l r) {i : Nat} (hi : i ≤ n) {t : Tid}
    (ht : t ∈ (W env H i).tabs) : t ∈ r.tabs := by
  rw [h.tabs]
  exact W_mono hH i _ (by omega) (rp_idx h _) t ht

/-- the contents of partitions that are not touched by change `n` -/
theorem rows_next {env : Env K} {H : Hist} (hH : HOk env H) {n : Nat} (hn : n < H.length) (m : Nat) {t : Tid} {p : Nat} {k : K}
    (hs : env.slot t k = some p) (ht : ¬ Touches env H[n].2 t p ∨ n < idx H m) :
    (W env H (max (n + 1) (idx H m))).rows t k = (W env H (max n (idx H m))).rows t k := by
  by_cases hc : n < idx H m
  · rw [show max (n + 1) (idx H m) = max n (idx H m) by omega]
  · have ht := ht.resolve_right hc
    rw [show max (n + 1) (idx H m) = n + 1 by omega, show max n (idx H m) = n by omega]
    exact change_frame (hH.keep _ (List.getElem_mem hn)) (hH.ok n hn) (W_clean hH n (by omega)) ht hs

theorem tabs_next {env : Env K} {H : Hist} (hH : HOk env H) {n : Nat} (hn : n < H.length) (m : Nat) (ht : ¬ IsOp H[n].2 ∨ n < idx H m) :
    (W env H (max (n + 1) (idx H m))).tabs = (W env H (max n (idx H m))).tabs := by
  by_cases hc : n < idx H m
  · rw [show max (n + 1) (idx H m) = max n (idx H m) by omega]
  · have ht := ht.resolve_right hc
    rw [show max (n + 1) (idx H m) = n + 1 by omega, show max n (idx H m) = n by omega]
    exact W_tabs_frame hH n (n + 1) (by omega) (by omega) (fun i hi h1 h2 => by
      have : i = n := by omega
      subst this; exact ht)

theorem op_no_touch {env : Env K} {c : Change} {t : Tid} {p : Nat} (h : IsOp c) : ¬ Touches env c t p := by
  rintro ⟨_, _, e, _⟩
  obtain ⟨_, _, e'⟩ := h
  rw [e] at e'
  cases e'

theorem row_touches {env : Env K} {w w' : World K} {cmd a b : Nat} {row : Bytes} (h : World.change env w (.row cmd a b row) = some w') :
    ∃ p, Touches env (.row cmd a b row) (a, b) p := by
  obtain ⟨p, hp⟩ := (change_row h).2.1
  exact ⟨p, cmd, row, rfl, hp⟩

/-- a change that is in the files needs no replay -/
theorem rp_skip {env : Env K} {H : Hist} {s r : Sys K} {n l : Nat} (hH : HOk env H) (h : Rp env H s n l r) (hn : n < H.length)
    (hrow : ∀ t p, Touches env H[n].2 t p → H[n].1 ≤ (fileOf s t p).lsn) (hop : IsOp H[n].2 → H[n].1 ≤ s.cat) : Rp env H s (n + 1) l r := by
  have hx := fun m => idx_iff H m hH.sorted n hn
  have htabs := tabs_next hH hn s.cat (by
    by_cases ho : IsOp H[n].2
    · exact Or.inr ((hx _).mp (hop ho))
    · exact Or.inl ho)
  have htouch : ∀ t p, Touches env H[n].2 t p → t ∈ r.tabs := fun t p ht => rp_known hH h (Nat.le_refl _) (touches_tab hH hn ht)
  have hcase : ∀ i, i < n + 1 → i < n ∨ i = n := fun i hi => by omega
  refine ⟨hn, h.file, h.noimg, h.busy, h.cat, h.catt, h.log, by rw [htabs]; exact h.tabs, h.coh, ?_, h.plsn, h.lsnt, h.trk, h.lsnr, ?_, h.catp, h.pend,
    ?_, ?_, h.lsn, h.catl⟩
  · intro t ht p k hs
    rw [rows_next hH hn _ hs ?_]
    · exact h.rows t ht p k hs
    · by_cases htt : Touches env H[n].2 t p
      · exact Or.inr ((hx _).mp (hrow t p htt))
      · exact Or.inl htt
  · intro i hi hin t p ht
    rcases hcase i hin with hin | rfl
    · exact h.touch i hi hin t p ht
    · have := hrow t p ht
      have := h.lsnt t (htouch t p ht) p
      omega
  · intro i hi hin ho
    rcases hcase i hin with hin | rfl
    · exact h.ops i hi hin ho
    · have := hop ho
      have := h.catp; rw [h.cat] at this
      omega
  · intro i hi hin
    rcases hcase i hin with hin | rfl
    · exact h.all i hi hin
    · cases e : H[i].2 with
      | op cmd op =>
        have := hop ⟨cmd, op, e⟩
        have := h.catl
        omega
      | row cmd a b row =>
        have hk := hH.ok i hi
        rw [e] at hk
        obtain ⟨p, hp⟩ := row_touches hk
        rw [← e] at hp
        have := hrow _ _ hp
        have := h.lsnr _ (htouch _ _ hp) p
        omega

/-- replay of a change of a row -/
theorem rp_row {env : Env K} {H : Hist} {s r : Sys K} {n : Nat} (hH : HOk env H) (hn : n < H.length) (h : Rp env H s n H[n].1 r)
    {cmd a b : Nat} {row : Bytes} (e : H[n].2 = .row cmd a b row) :
    ∃ r', recoverChange env H[n].1 r (.row cmd a b row) = .ok r' ∧ Rp env H s (n + 1) H[n].1 r' := by
  have hk := hH.ok n hn
  rw [e] at hk
  obtain ⟨h1, ⟨p, h2⟩, h3, h4, h5⟩ := change_row hk
  have ht : (a, b) ∈ r.tabs := rp_known hH h (Nat.le_refl _) h1
  have htc : Touches env H[n].2 (a, b) p := by rw [e]; exact ⟨cmd, row, rfl, h2⟩
  have hnop : ¬ IsOp H[n].2 := by rw [e]; rintro ⟨_, _, e'⟩; cases e'
  have hx := fun m => idx_iff H m hH.sorted n hn
  have hcase : ∀ i, i < n + 1 → i < n ∨ i = n := fun i hi => by omega
  have htabs := tabs_next hH hn s.cat (Or.inl hnop)
  -- any new partition that agrees
  have main : ∀ m : Mem K, Coh env (a, b) m → m.lsn = (fileOf s (a, b) p).lsn → m.track = max (r.parts (a, b) p).track H[n].1 →
      (∀ k, env.slot (a, b) k = some p → m.rows k = (W env H (max (n + 1) (idx H (fileOf s (a, b) p).lsn))).rows (a, b) k) →
      Rp env H s (n + 1) H[n].1 { r with parts := setPart r.parts (a, b) p m } := by
    intro m m1 m2 m3 m4
    have hp : ∀ t q, (setPart r.parts (a, b) p m t q = m ∧ t = (a, b) ∧ q = p) ∨
        (setPart r.parts (a, b) p m t q = r.parts t q ∧ ¬ (t = (a, b) ∧ q = p)) := by
      intro t q
      unfold setPart
      by_cases e : t = (a, b) ∧ q = p
      · left; simp [e]
      · right; simp [e]
    refine ⟨hn, h.file, h.noimg, h.busy, h.cat, h.catt, h.log, by rw [htabs]; exact h.tabs, ?_, ?_, ?_, ?_, ?_, h.lsnr, ?_, h.catp, h.pend, ?_, ?_, h.lsn, h.catl⟩
    · intro t ht q
      rcases hp t q with ⟨e, rfl, rfl⟩ | ⟨e, _⟩
      · show Coh env (a, b) (setPart _ _ _ _ _ _)
        rw [e]; exact m1
      · show Coh env t (setPart _ _ _ _ _ _)
        rw [e]; exact h.coh t ht q
    · intro t ht q k hs
      rcases hp t q with ⟨e, rfl, rfl⟩ | ⟨e, hne⟩
      · show Mem.rows (setPart _ _ _ _ _ _) k = _
        rw [e]; exact m4 k hs
      · show Mem.rows (setPart _ _ _ _ _ _) k = _
        rw [e, rows_next hH hn _ hs (Or.inl fun hh => hne (touches_unique hh htc))]
        exact h.rows t ht q k hs
    · intro t ht q
      rcases hp t q with ⟨e, rfl, rfl⟩ | ⟨e, _⟩
      · show Mem.lsn (setPart _ _ _ _ _ _) = _
        rw [e]; exact m2
      · show Mem.lsn (setPart _ _ _ _ _ _) = _
        rw [e]; exact h.plsn t ht q
    · intro t ht q
      rcases hp t q with ⟨e, rfl, rfl⟩ | ⟨e, _⟩
      · show _ ≤ Mem.track (setPart _ _ _ _ _ _)
        rw [e, m3]; have := h.lsnt _ ht q; omega
      · show _ ≤ Mem.track (setPart _ _ _ _ _ _)
        rw [e]; exact h.lsnt t ht q
    · intro t ht q
      rcases hp t q with ⟨e, rfl, rfl⟩ | ⟨e, _⟩
      · show Mem.track (setPart _ _ _ _ _ _) ≤ _
        rw [e, m3]; have := h.trk _ ht q
        show _ ≤ max r.lsn _
        omega
      · show Mem.track (setPart _ _ _ _ _ _) ≤ _
        rw [e]; exact h.trk t ht q
    · intro i hi hin t q htt
      rcases hp t q with ⟨e, rfl, rfl⟩ | ⟨e, hne⟩
      · show _ ≤ Mem.track (setPart _ _ _ _ _ _)
        rw [e, m3]
        rcases hcase i hin with hin | rfl
        · have := h.touch i hi hin _ _ htt; omega
        · omega
      · show _ ≤ Mem.track (setPart _ _ _ _ _ _)
        rw [e]
        rcases hcase i hin with hin | rfl
        · exact h.touch i hi hin _ _ htt
        · exact absurd (touches_unique htt htc) hne
    · intro i hi hin ho
      rcases hcase i hin with hin | rfl
      · exact h.ops i hi hin ho
      · exact absurd ho hnop
    · intro i hi hin
      rcases hcase i hin with hin | rfl
      · exact h.all i hi hin
      · show _ ≤ max r.lsn _
        omega
  have hl := h.plsn _ ht p
  have hr := h.rows _ ht p
  unfold recoverChange
  simp only [ht, not_true, if_false, h2]
  by_cases hle : H[n].1 ≤ (r.parts (a, b) p).lsn
  · simp only [hle, if_true]
    refine ⟨_, rfl, main _ ⟨(h.coh _ ht p).rows, (h.coh _ ht p).nodup⟩ hl rfl ?_⟩
    intro k hs
    rw [rows_next hH hn _ hs (Or.inr ((hx _).mp (by rw [← hl]; exact hle)))]
    exact hr k hs
  · simp only [hle, if_false]
    have hge : ¬ n < idx H (fileOf s (a, b) p).lsn := by rw [← hx, ← hl]; exact hle
    have hmx : max n (idx H (fileOf s (a, b) p).lsn) = n := by omega
    rw [hmx] at hr
    obtain ⟨m', m1, m2, m3⟩ := mem_row (m := { r.parts (a, b) p with track := max (r.parts (a, b) p).track H[n].1 })
      ⟨(h.coh _ ht p).rows, (h.coh _ ht p).nodup⟩ cmd row (fun hc => by
        show (r.parts (a, b) p).rows _ ≠ none
        rw [hr _ h2]; exact h4 hc)
    have hmeta := row_meta m1
    simp only [m1]
    refine ⟨_, rfl, main m' m2 (by rw [hmeta.1]; exact hl) hmeta.2 ?_⟩
    intro k hs
    rw [show max (n + 1) (idx H (fileOf s (a, b) p).lsn) = n + 1 by omega, h5, m3]
    simp only [setRow, true_and]
    by_cases hkk : k = env.key (a, b) row
    · simp [hkk]
    · simp only [hkk, if_false]; exact hr k hs

/-- replay of a DDL operation -/
theorem rp_op {env : Env K} {H : Hist} {s r : Sys K} {n : Nat} (hH : HOk env H) (himg : ∀ t p, ImgOk env H (fileOf s t p) t p)
    (hbig : ∀ t p, env.nparts ≤ p → (fileOf s t p).lsn = 0) (hb : ∀ t p, (fileOf s t p).lsn ≤ s.lsn)
    (hn : n < H.length) (h : Rp env H s n H[n].1 r) {cmd : Nat} {op : Bytes} (e : H[n].2 = .op cmd op) :
    ∃ r', recoverChange env H[n].1 r (.op cmd op) = .ok r' ∧ Rp env H s (n + 1) H[n].1 r' := by
  have hk := hH.ok n hn
  rw [e] at hk
  have hkeep := hH.keep _ (List.getElem_mem hn)
  rw [e] at hkeep
  have hisop : IsOp H[n].2 := by rw [e]; exact ⟨cmd, op, rfl⟩
  have hx := fun m => idx_iff H m hH.sorted n hn
  have hcase : ∀ i, i < n + 1 → i < n ∨ i = n := fun i hi => by omega
  unfold recoverChange
  by_cases hle : H[n].1 ≤ r.cat
  · simp only [hle, if_true]
    rw [h.cat] at hle
    exact ⟨r, rfl, rp_skip hH h hn (fun t p ht => absurd ht (op_no_touch hisop)) (fun _ => hle)⟩
  · simp only [hle, if_false]
    rw [h.cat] at hle
    have hge : ¬ n < idx H s.cat := by rw [← hx]; exact hle
    have hrt : r.tabs = (W env H n).tabs := by rw [h.tabs, show max n (idx H s.cat) = n by omega]
    have hmx : max (n + 1) (idx H s.cat) = n + 1 := by omega
    have hsort : ∀ i (hi : i < H.length), i < n + 1 → H[i].1 ≤ H[n].1 := by
      intro i hi hin
      rcases hcase i hin with hin | rfl
      · exact List.pairwise_iff_getElem.mp hH.sorted i n hi hn hin
      · exact Nat.le_refl _
    have hstep : ∀ i (hi : i < H.length), i < n + 1 → ∀ t p, Touches env H[i].2 t p → i < n := by
      intro i hi hin t p ht
      rcases hcase i hin with hin | rfl
      · exact hin
      · exact absurd ht (op_no_touch hisop)
    rcases change_op hkeep hk with ⟨t, e1, e2, e3, e4⟩ | ⟨e1, e2⟩
    · rw [← hrt] at e2
      unfold execDdl
      simp only [e1, e2, if_false]
      have hne : ∀ t' ∈ r.tabs, t' ≠ t := fun t' ht e => e2 (e ▸ ht)
      have hld : ∀ p, load env t (r.img t p) = load env t (some (fileOf s t p)) := by
        intro p; rw [load_eq, ← h.file t p]; rfl
      have hnot : ∀ i (hi : i < H.length), i < n + 1 → ∀ p, ¬ Touches env H[i].2 t p := by
        intro i hi hin p ht
        have h1 := hstep i hi hin t p ht
        have h2 := touches_tab hH hi ht
        rw [hrt] at e2
        exact e2 (W_mono hH i n (by omega) (by omega) t h2)
      refine ⟨_, rfl, ?_⟩
      generalize hs1 : ({ r with tabs := r.tabs ++ [t]
                                 parts := fun t' p => if t' = t then load env t (r.img t p) else r.parts t' p
                                 img := fun t' p => if t' = t then some ((r.img t p).getD ⟨0, []⟩) else r.img t' p } : Sys K) = s1
      have hs1p : ∀ p, (s1.parts t p).lsn = (fileOf s t p).lsn := by
        intro p; subst hs1
        show (if t = t then load env t (r.img t p) else r.parts t p).lsn = _
        rw [if_pos rfl, hld]; rfl
      obtain ⟨f1, f2, f3⟩ := follow_bounds env s1 t
      have g1 : r.lsn ≤ followParts env s1 t := by subst hs1; exact f1
      have g2 : ∀ p, (fileOf s t p).lsn ≤ followParts env s1 t := by
        intro p
        by_cases hp : p < env.nparts
        · rw [← hs1p p]; exact f2 p hp
        · rw [hbig t p (by omega)]; exact Nat.zero_le _
      have g3 : followParts env s1 t ≤ s.lsn := by
        refine f3 _ ?_ ?_
        · subst hs1; exact h.lsn
        · intro p; rw [hs1p]; exact hb t p
      generalize followParts env s1 t = L' at g1 g2 g3
      subst hs1
      refine ⟨hn, ?_, ?_, h.busy, h.cat, h.catt, h.log, ?_, ?_, ?_, ?_, ?_, ?_, ?_, ?_, ?_, ?_, ?_, ?_, g3, ?_⟩
      · intro t' p
        show ((if t' = t then some ((r.img t p).getD ⟨0, []⟩) else r.img t' p).getD ⟨0, []⟩ : Image) = _
        rw [file_create (env := env)]; exact h.file t' p
      · intro t' ht' p
        have : t' ≠ t ∧ t' ∉ r.tabs := by
          constructor
          · rintro rfl; exact ht' (by simp)
          · intro h1; exact ht' (by simp [h1])
        show (if t' = t then some ((r.img t p).getD ⟨0, []⟩) else r.img t' p) = _
        simp only [this.1, if_false]
        exact h.noimg t' this.2 p
      · show r.tabs ++ [t] = _
        rw [hmx, e3, hrt]
      · intro t' ht' p
        show Coh env t' (if t' = t then load env t (r.img t p) else r.parts t' p)
        by_cases ee : t' = t
        · subst ee
          simp only [if_true, hld]
          exact coh_load (himg t' p)
        · simp only [ee, if_false]
          exact h.coh t' (by simpa [ee] using ht') p
      · intro t' ht' p k hs
        show (if t' = t then load env t (r.img t p) else r.parts t' p).rows k = _
        by_cases ee : t' = t
        · subst ee
          simp only [if_true, hld]
          show loadRows _ _ k = _
          rw [(himg t' p).rows k hs]
          refine (W_rows_frame hH hs _ _ (by omega) (by have := idx_le H (fileOf s t' p).lsn; omega) ?_).symm
          intro i hi h1 h2
          exact hnot i hi (by omega) p
        · simp only [ee, if_false]
          rw [rows_next hH hn _ hs (Or.inl (op_no_touch hisop))]
          exact h.rows t' (by simpa [ee] using ht') p k hs
      · intro t' ht' p
        show (if t' = t then load env t (r.img t p) else r.parts t' p).lsn = _
        by_cases ee : t' = t
        · subst ee; simp only [if_true, hld]; rfl
        · simp only [ee, if_false]; exact h.plsn t' (by simpa [ee] using ht') p
      · intro t' ht' p
        show _ ≤ (if t' = t then load env t (r.img t p) else r.parts t' p).track
        by_cases ee : t' = t
        · subst ee; simp only [if_true, hld]; exact Nat.le_refl _
        · simp only [ee, if_false]; exact h.lsnt t' (by simpa [ee] using ht') p
      · intro t' ht' p
        show (if t' = t then load env t (r.img t p) else r.parts t' p).track ≤ max L' _
        by_cases ee : t' = t
        · subst ee; simp only [if_true, hld]
          have := g2 p
          show (fileOf s t' p).lsn ≤ _
          omega
        · simp only [ee, if_false]
          have := h.trk t' (by simpa [ee] using ht') p
          omega
      · intro t' ht' p
        show _ ≤ L'
        by_cases ee : t' = t
        · subst ee; exact g2 p
        · have := h.lsnr t' (by simpa [ee] using ht') p
          omega
      · intro i hi hin t' p ht'
        have h1 := hstep i hi hin t' p ht'
        have h2 := rp_known hH h (by omega) (touches_tab hH hi ht')
        show _ ≤ (if t' = t then load env t (r.img t p) else r.parts t' p).track
        simp only [hne t' h2, if_false]
        exact h.touch i hi h1 t' p ht'
      · show r.cat ≤ H[n].1
        rw [h.cat]; omega
      · show H[n].1 ≤ max L' _
        omega
      · intro i hi hin _
        exact hsort i hi hin
      · intro i hi hin
        have := hsort i hi hin
        show _ ≤ max L' _
        omega
      · show _ ≤ L'
        have := h.catl; omega
    · unfold execDdl
      simp only [e1]
      refine ⟨_, rfl, hn, h.file, h.noimg, h.busy, h.cat, h.catt, h.log, ?_, h.coh, ?_, h.plsn, h.lsnt, h.trk, h.lsnr, ?_, ?_, ?_, ?_, ?_, h.lsn, h.catl⟩
      · rw [hmx, e2]; exact hrt
      · intro t' ht' p k hs
        rw [rows_next hH hn _ hs (Or.inl (op_no_touch hisop))]
        exact h.rows t' ht' p k hs
      · intro i hi hin t' p ht'
        exact h.touch i hi (hstep i hi hin t' p ht') t' p ht'
      · show r.cat ≤ H[n].1
        rw [h.cat]; omega
      · show H[n].1 ≤ max r.lsn _
        omega
      · intro i hi hin _
        exact hsort i hi hin
      · intro i hi hin
        have := hsort i hi hin
        show _ ≤ max r.lsn _
        omega

end Verif.Recover
