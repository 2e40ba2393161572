import Verif.Recover.ReplayProofs
set_option linter.unusedSimpArgs false
set_option linter.unusedVariables false
set_option linter.unusedSectionVars false
/-! # Recovery restores the contents -/
namespace Verif.Recover
open Verif Verif.Wal
variable {K : Type} [DecidableEq K]

abbrev Txs := List (Nat × List (List Change))

def txHist (x : Nat × List (List Change)) : Hist := x.2.flatten.map fun c => (x.1, c)

/-- the changes of transactions, with their numbers -/
def hist (T : Txs) : Hist := T.flatMap txHist

theorem hist_snoc (T : Txs) (x : Nat × List (List Change)) : hist (T ++ [x]) = hist T ++ txHist x := by simp [hist]

theorem hist_cons (x : Nat × List (List Change)) (T : Txs) : hist (x :: T) = txHist x ++ hist T := by simp [hist]

def recOf (x : Nat × List (List Change)) : Bytes := record x.1 (x.2.map WLog.ofChanges)

/-- the system between two operations; `kept` are the transactions whose records are in the log -/
structure Inv (env : Env K) (T : Txs) (kept : Nat → Bool) (s : Sys K) : Prop where
  live : Live env (hist T) s.lsn s.lsn s
  good : ∀ x ∈ T, GoodTx env x.2
  bnd  : ∀ x ∈ T, x.1 ≤ s.lsn
  log  : s.log = (T.filter fun x => kept x.1).map recOf
  cov  : ∀ x ∈ T, kept x.1 = false → ∀ c ∈ x.2.flatten, (∀ t p, Touches env c t p → x.1 ≤ (fileOf s t p).lsn) ∧ (IsOp c → x.1 ≤ s.cat)

theorem file_le {env : Env K} {H : Hist} {B L : Nat} {s : Sys K} (h : Live env H B L s) (t : Tid) (p : Nat) : (fileOf s t p).lsn ≤ B := by
  by_cases ht : t ∈ s.tabs
  · exact Nat.le_trans (h.lsnl t ht p) (h.lsnb t ht p)
  · unfold fileOf; rw [(h.noimg t ht p).1]; exact Nat.zero_le _

/-- what a restart needs: the files have the contents up to their numbers -/
structure Files (env : Env K) (H : Hist) (s : Sys K) : Prop where
  hok  : HOk env H
  img  : ∀ t p, ImgOk env H (fileOf s t p) t p
  big  : ∀ t p, env.nparts ≤ p → (fileOf s t p).lsn = 0
  le   : ∀ t p, (fileOf s t p).lsn ≤ s.lsn
  catb : s.cat ≤ s.lsn
  catt : s.catTabs = (W env H (idx H s.cat)).tabs

theorem Live.files {env : Env K} {H : Hist} {s : Sys K} (h : Live env H s.lsn s.lsn s) : Files env H s :=
  ⟨h.hok, h.img, fun t p hp => (h.big t p hp).1, file_le h, h.catb, h.catt⟩

theorem restore_lsn (env : Env K) (s1 : Sys K) (l : List Tid) : ∀ a : Nat,
    a ≤ l.foldl (fun l t => followParts env { s1 with lsn := l } t) a ∧
    (∀ t ∈ l, ∀ p, p < env.nparts → (s1.parts t p).lsn ≤ l.foldl (fun l t => followParts env { s1 with lsn := l } t) a) ∧
    (∀ B, a ≤ B → (∀ t p, (s1.parts t p).lsn ≤ B) → l.foldl (fun l t => followParts env { s1 with lsn := l } t) a ≤ B) := by
  induction l with
  | nil => intro a; exact ⟨Nat.le_refl _, by simp, fun B h _ => h⟩
  | cons t r ih =>
    intro a
    obtain ⟨f1, f2, f3⟩ := follow_bounds env { s1 with lsn := a } t
    obtain ⟨i1, i2, i3⟩ := ih (followParts env { s1 with lsn := a } t)
    rw [List.foldl_cons]
    refine ⟨Nat.le_trans f1 i1, ?_, fun B h1 h2 => i3 B (f3 B h1 (h2 t)) h2⟩
    intro t' ht' p hp
    rcases List.mem_cons.mp ht' with rfl | ht'
    · exact Nat.le_trans (f2 p hp) i1
    · exact i2 t' ht' p hp

def restored (env : Env K) (s : Sys K) : Sys K :=
  { s with tabs := s.catTabs
           parts := fun t p => load env t (s.img t p)
           img := fun t p => if t ∈ s.catTabs then some ((s.img t p).getD ⟨0, []⟩) else s.img t p
           busy := fun _ _ => none
           pending := s.cat
           lsn := s.cat }

theorem restore_eq (env : Env K) (s : Sys K) : restoreCatalog env s =
    { restored env s with lsn := s.catTabs.foldl (fun l t => followParts env { restored env s with lsn := l } t) s.cat } := rfl

/-- the files are read -/
theorem rp_init {env : Env K} {H : Hist} {s : Sys K} (h : Files env H s) : Rp env H s 0 0 (restoreCatalog env s) := by
  have hld : ∀ t p, load env t (s.img t p) = load env t (some (fileOf s t p)) := fun t p => load_eq env t _
  rw [restore_eq]
  generalize hs1 : restored env s = s1
  have hs1p : ∀ t p, (s1.parts t p).lsn = (fileOf s t p).lsn := by
    intro t p; subst hs1
    show (load env t (s.img t p)).lsn = _
    rw [hld]; rfl
  obtain ⟨f1, f2, f3⟩ := restore_lsn env s1 s.catTabs s.cat
  have g3 := f3 s.lsn h.catb (fun t p => by rw [hs1p]; exact h.le t p)
  have g2 : ∀ t ∈ s.catTabs, ∀ p, (fileOf s t p).lsn ≤ s.catTabs.foldl (fun l t => followParts env { s1 with lsn := l } t) s.cat := by
    intro t ht p
    by_cases hp : p < env.nparts
    · rw [← hs1p]; exact f2 t ht p hp
    · rw [h.big t p (by omega)]; exact Nat.zero_le _
  generalize s.catTabs.foldl (fun l t => followParts env { s1 with lsn := l } t) s.cat = L' at f1 g2 g3
  subst hs1
  refine ⟨Nat.zero_le _, ?_, ?_, fun _ _ => rfl, rfl, rfl, rfl, ?_, ?_, ?_, ?_, ?_, ?_, ?_, fun i _ hi => absurd hi (Nat.not_lt_zero _), Nat.le_refl _, ?_,
    fun i _ hi => absurd hi (Nat.not_lt_zero _), fun i _ hi => absurd hi (Nat.not_lt_zero _), g3, f1⟩
  · intro t p
    show ((if t ∈ s.catTabs then some ((s.img t p).getD ⟨0, []⟩) else s.img t p).getD ⟨0, []⟩ : Image) = _
    split <;> rfl
  · intro t ht p
    show (if t ∈ s.catTabs then some ((s.img t p).getD ⟨0, []⟩) else s.img t p) = _
    exact if_neg (show ¬ t ∈ s.catTabs from ht)
  · rw [show max 0 (idx H s.cat) = idx H s.cat by omega]; exact h.catt
  · intro t _ p
    show Coh env t (load env t (s.img t p))
    rw [hld]; exact coh_load (h.img t p)
  · intro t _ p k hs
    show (load env t (s.img t p)).rows k = _
    rw [hld, show max 0 (idx H (fileOf s t p).lsn) = idx H (fileOf s t p).lsn by omega]
    exact (h.img t p).rows k hs
  · intro t _ p
    show (load env t (s.img t p)).lsn = _
    rw [hld]; rfl
  · intro t _ p
    show _ ≤ (load env t (s.img t p)).track
    rw [hld]; exact Nat.le_refl _
  · intro t ht p
    show (load env t (s.img t p)).track ≤ max L' 0
    rw [hld]
    have := g2 t ht p
    show (fileOf s t p).lsn ≤ _
    omega
  · intro t ht p
    exact g2 t ht p
  · show s.cat ≤ max L' 0
    omega

/-- the changes of a record -/
theorem rp_changes {env : Env K} {H : Hist} {s : Sys K} (h : Files env H s) (l : Nat) (cs : List Change) : ∀ (pre post : Hist) (r : Sys K),
    H = pre ++ cs.map (fun c => (l, c)) ++ post → Rp env H s pre.length l r →
    ∃ r', cs.foldlM (recoverChange env l) r = .ok r' ∧ Rp env H s (pre.length + cs.length) l r' := by
  induction cs with
  | nil => intro pre post r hH hr; exact ⟨r, rfl, hr⟩
  | cons c cs ih =>
    intro pre post r hH hr
    have hn : pre.length < H.length := by rw [hH]; simp
    have hx : H[pre.length] = (l, c) := by simp [hH]
    have hstep : ∃ r', recoverChange env l r c = .ok r' ∧ Rp env H s (pre.length + 1) l r' := by
      have hl : l = H[pre.length].1 := by rw [hx]
      cases c with
      | row cmd a b row =>
        have := rp_row (s := s) (r := r) h.hok hn (by rw [← hl]; exact hr) (cmd := cmd) (a := a) (b := b) (row := row) (by rw [hx])
        rw [← hl] at this; exact this
      | op cmd op =>
        have := rp_op (s := s) (r := r) h.hok h.img h.big h.le hn (by rw [← hl]; exact hr) (cmd := cmd) (op := op) (by rw [hx])
        rw [← hl] at this; exact this
    obtain ⟨r1, e1, e2⟩ := hstep
    rw [foldlM_ok_cons, e1]
    obtain ⟨r2, e3, e4⟩ := ih (pre ++ [(l, c)]) post r1 (by rw [hH]; simp) (by simpa using e2)
    exact ⟨r2, e3, by simpa [Nat.add_assoc, Nat.add_comm 1] using e4⟩

/-- the changes of a record that is not in the log -/
theorem rp_removed {env : Env K} {H : Hist} {s : Sys K} (h : Files env H s) (l m : Nat) (cs : List Change)
    (hc : ∀ c ∈ cs, (∀ t p, Touches env c t p → l ≤ (fileOf s t p).lsn) ∧ (IsOp c → l ≤ s.cat)) : ∀ (pre post : Hist) (r : Sys K),
    H = pre ++ cs.map (fun c => (l, c)) ++ post → Rp env H s pre.length m r → Rp env H s (pre.length + cs.length) m r := by
  induction cs with
  | nil => intro pre post r hH hr; exact hr
  | cons c cs ih =>
    intro pre post r hH hr
    have hn : pre.length < H.length := by rw [hH]; simp
    have hx : H[pre.length] = (l, c) := by simp [hH]
    have hcc := hc c (by simp)
    have hstep := rp_skip h.hok hr hn (by rw [hx]; exact hcc.1) (by rw [hx]; exact hcc.2)
    have := ih (fun c hc' => hc c (by simp [hc'])) (pre ++ [(l, c)]) post r (by rw [hH]; simp) (by simpa using hstep)
    simpa [Nat.add_assoc, Nat.add_comm 1] using this

/-- the log -/
theorem rp_log {env : Env K} {H : Hist} {s : Sys K} (h : Files env H s) (hs : s.lsn < 2 ^ 64) (kept : Nat → Bool) (T : Txs)
    (hg : ∀ x ∈ T, GoodTx env x.2) (hb : ∀ x ∈ T, x.1 ≤ s.lsn)
    (hc : ∀ x ∈ T, kept x.1 = false → ∀ c ∈ x.2.flatten, (∀ t p, Touches env c t p → x.1 ≤ (fileOf s t p).lsn) ∧ (IsOp c → x.1 ≤ s.cat)) :
    ∀ (pre : Hist) (r : Sys K), H = pre ++ hist T → Rp env H s pre.length 0 r →
    ∃ r', ((T.filter fun x => kept x.1).map recOf).foldlM (recoverRecord env) r = .ok r' ∧ Rp env H s H.length 0 r' := by
  induction T with
  | nil =>
    intro pre r hH hr
    refine ⟨r, rfl, ?_⟩
    have : H = pre := by rw [hH]; simp [hist]
    rw [this] at hr ⊢; exact hr
  | cons x T ih =>
    intro pre r hH hr
    have ih := ih (fun x hx => hg x (by simp [hx])) (fun x hx => hb x (by simp [hx])) (fun x hx => hc x (by simp [hx]))
    rw [hist_cons, ← List.append_assoc] at hH
    have hxb := hb x (by simp)
    cases hk : kept x.1 with
    | true =>
      rw [List.filter_cons_of_pos (by simpa using hk), List.map_cons, foldlM_ok_cons]
      obtain ⟨r1, e1, e2⟩ := rp_changes h x.1 x.2.flatten pre (hist T) r (by rw [hH]; rfl) (rp_le hr (Nat.zero_le _))
      have := record_flat env x.1 x.2 (by omega) (hg x (by simp)) r
      unfold recOf
      rw [this, e1]
      have e3 := rp_end e2 hxb
      exact ih (pre ++ txHist x) _ hH (by rw [List.length_append, show (txHist x).length = x.2.flatten.length from List.length_map _]; exact e3)
    | false =>
      rw [List.filter_cons_of_neg (by simp [hk])]
      have := rp_removed h x.1 0 x.2.flatten (hc x (by simp) hk) pre (hist T) r (by rw [hH]; rfl) hr
      exact ih (pre ++ txHist x) r hH (by rw [List.length_append, show (txHist x).length = x.2.flatten.length from List.length_map _]; exact this)

/-- after the replay the system runs as before -/
theorem rp_live {env : Env K} {H : Hist} {s r : Sys K} (h : Live env H s.lsn s.lsn s) (hr : Rp env H s H.length 0 r) : Live env H r.lsn r.lsn r := by
  have hm : ∀ m, max H.length (idx H m) = H.length := fun m => by have := idx_le H m; omega
  have ht : r.tabs = (W env H H.length).tabs := by rw [hr.tabs, hm]
  have ht' : r.tabs = s.tabs := by rw [ht, h.tabs]
  refine ⟨h.hok, ht, hr.coh, ?_, ?_, ?_, ?_, ?_, ?_, ?_, ?_, ?_, ?_, ?_, hr.catp, ?_, ?_, ?_, ?_, ?_⟩
  · intro t htt p k hs
    rw [hr.rows t htt p k hs, hm]
  · intro t htt p; rw [hr.file, hr.plsn t htt p]; exact Nat.le_refl _
  · intro t htt p; rw [hr.plsn t htt p]; exact hr.lsnt t htt p
  · intro t htt p; rw [hr.plsn t htt p]; exact hr.lsnr t htt p
  · intro t htt p; have := hr.trk t htt p; omega
  · intro x hx t p htt
    obtain ⟨i, hi, rfl⟩ := List.mem_iff_getElem.mp hx
    exact hr.touch i hi hi t p htt
  · intro t htt p
    refine ⟨?_, hr.busy t p⟩
    rw [hr.noimg t htt p]
    exact (h.noimg t (by rw [← ht']; exact htt) p).1
  · intro t p; rw [hr.file]; exact h.img t p
  · intro t p hp; rw [hr.file]; exact ⟨(h.big t p hp).1, hr.busy t p⟩
  · intro t p i hi; rw [hr.busy] at hi; cases hi
  · intro t htt p _; rw [hr.file, hr.plsn t htt p]
  · rw [hr.cat]; exact hr.catl
  · have := hr.pend; omega
  · intro x hx ho
    obtain ⟨i, hi, rfl⟩ := List.mem_iff_getElem.mp hx
    exact hr.ops i hi hi ho
  · rw [hr.catt, hr.cat]; exact h.catt
  · intro x hx
    obtain ⟨i, hi, rfl⟩ := List.mem_iff_getElem.mp hx
    have := hr.all i hi hi
    omega

theorem inv_restart {env : Env K} {T : Txs} {kept : Nat → Bool} {s : Sys K} (h : Inv env T kept s) (hs : s.lsn < 2 ^ 64) :
    ∃ r, restart env s = .ok r ∧ Inv env T kept r ∧ r.lsn ≤ s.lsn ∧ ∀ t p, r.busy t p = none := by
  obtain ⟨r, e, hr⟩ := rp_log h.live.files hs kept T h.good h.bnd h.cov [] (restoreCatalog env s) (by simp) (rp_init h.live.files)
  have hl := rp_live h.live hr
  refine ⟨r, by unfold restart; rw [h.log]; exact e, ⟨hl, h.good, ?_, by rw [hr.log]; exact h.log, ?_⟩, hr.lsn, hr.busy⟩
  · intro x hx
    have hne := (h.good x hx).ne
    obtain ⟨c, hc⟩ := List.exists_mem_of_ne_nil _ hne
    have : (x.1, c) ∈ hist T := List.mem_flatMap.mpr ⟨x, hx, List.mem_map.mpr ⟨c, hc, rfl⟩⟩
    exact hl.all _ this
  · intro x hx hk c hc
    rw [hr.cat]
    refine ⟨fun t p ht => ?_, (h.cov x hx hk c hc).2⟩
    rw [hr.file]; exact (h.cov x hx hk c hc).1 t p ht

/-! ## The other operations -/

theorem world_fold (env : Env K) (H : Hist) : W env H H.length = (H.map Prod.snd).foldl (app env) World.init := by
  unfold W; rw [List.take_length]

theorem inv_tx {env : Env K} {T : Txs} {kept : Nat → Bool} {s : Sys K} (h : Inv env T kept s) (css : List (List Change)) (hg : GoodTx env css)
    (hk : KeepsTables env css) :
    ∃ T' kept' s', step env s (.tx css) = .ok s' ∧ Inv env T' kept' s' ∧ s'.lsn ≤ s.lsn + 1 ∧ s'.busy = s.busy ∧
      W env (hist T') (hist T').length = (W env (hist T) (hist T).length).tx env css ∧
      (∀ T1 T2, T' = T1 ++ T2 → T1 = T' ∨ ∃ T3, T = T1 ++ T3) := by
  have hkk : ∀ c ∈ css.flatten, Keep env c := by
    intro c hc cmd op e t
    obtain ⟨cs, h1, h2⟩ := List.mem_flatten.mp hc
    exact hk cs h1 c h2 cmd op e t
  have hL := h.live.weaken (Nat.le_refl _) (Nat.le_succ s.lsn)
  obtain ⟨a1, a2⟩ := live_tx (Nat.lt_succ_self s.lsn) css.flatten hkk hL
  unfold step World.tx
  cases e : css.flatten.foldlM (World.change env) (W env (hist T) (hist T).length) with
  | none =>
    obtain ⟨er, he⟩ := a1 e
    simp only [Nat.succ_eq_add_one] at he
    simp only [he]
    exact ⟨T, kept, s, rfl, h, Nat.le_succ _, rfl, rfl, fun T1 T2 e => Or.inr ⟨T2, e⟩⟩
  | some w' =>
    obtain ⟨b1, s1, b2, b3, b4, b5, b6, b7⟩ := a2 w' e
    simp only [Nat.succ_eq_add_one] at b2 b3 b1
    simp only [b2]
    refine ⟨T ++ [(s.lsn + 1, css)], fun l => if l ≤ s.lsn then kept l else true, _, rfl, ⟨?_, ?_, ?_, ?_, ?_⟩, Nat.le_refl _, b6, ?_, ?_⟩
    · rw [hist_snoc]
      exact (b3.weaken (Nat.le_succ _) (Nat.le_refl _)).congr _ _
    · intro x hx
      rcases List.mem_append.mp hx with hx | hx
      · exact h.good x hx
      · simp at hx; subst hx; exact hg
    · intro x hx
      show _ ≤ s.lsn + 1
      rcases List.mem_append.mp hx with hx | hx
      · have := h.bnd x hx; omega
      · simp at hx; subst hx; exact Nat.le_refl _
    · show s1.log ++ _ = _
      rw [b4, h.log, List.filter_append, List.map_append]
      congr 1
      · congr 1
        refine List.filter_congr ?_
        intro x hx
        rw [if_pos (h.bnd x hx)]
      · have : ¬ (s.lsn + 1 ≤ s.lsn) := by omega
        simp [this, recOf]
    · intro x hx hkf c hc
      rcases List.mem_append.mp hx with hx | hx
      · have hkf : kept x.1 = false := by
          have := h.bnd x hx
          simpa [this] using hkf
        obtain ⟨c1, c2⟩ := h.cov x hx hkf c hc
        refine ⟨fun t p ht => ?_, fun ho => ?_⟩
        · have := c1 t p ht
          show _ ≤ (fileOf s1 t p).lsn
          rw [b7]; exact this
        · show _ ≤ s1.cat
          rw [b5]; exact c2 ho
      · simp at hx; subst hx
        have : ¬ (s.lsn + 1 ≤ s.lsn) := by omega
        simp [this] at hkf
    · rw [hist_snoc]; exact b1
    · intro T1 T2 e
      rcases List.eq_nil_or_concat T2 with rfl | ⟨T3, y, rfl⟩
      · left; rw [e, List.append_nil]
      · right
        rw [List.concat_eq_append, ← List.append_assoc] at e
        exact ⟨T3, (List.append_inj' e rfl).1⟩

theorem inv_refreshStart {env : Env K} {T : Txs} {kept : Nat → Bool} {s : Sys K} (h : Inv env T kept s) (t : Tid) (p : Nat) :
    ∃ s', step env s (.refreshStart t p) = .ok s' ∧ Inv env T kept s' ∧ s'.lsn = s.lsn ∧
      (∀ t' p', s'.busy t' p' ≠ none → s.busy t' p' ≠ none ∨ (t' = t ∧ p' = p)) := by
  unfold step
  by_cases hc : t ∈ s.tabs ∧ p < env.nparts
  · simp only [hc, and_self, if_true]
    have hl := h.live
    have hp : ∀ t' q, (setPart s.parts t p { s.parts t p with lsn := (s.parts t p).track } t' q = { s.parts t p with lsn := (s.parts t p).track } ∧ t' = t ∧ q = p) ∨
        (setPart s.parts t p { s.parts t p with lsn := (s.parts t p).track } t' q = s.parts t' q ∧ ¬ (t' = t ∧ q = p)) := by
      intro t' q
      unfold setPart
      by_cases e : t' = t ∧ q = p
      · left; simp [e]
      · right; simp [e]
    have hpt : ∀ t' q, (setPart s.parts t p { s.parts t p with lsn := (s.parts t p).track } t' q).track = (s.parts t' q).track := by
      intro t' q
      rcases hp t' q with ⟨e, rfl, rfl⟩ | ⟨e, _⟩ <;> rw [e]
    have hbz : ∀ t' q, (setPart s.busy t p (some ⟨(s.parts t p).track, (s.parts t p).heap⟩) t' q = some ⟨(s.parts t p).track, (s.parts t p).heap⟩ ∧ t' = t ∧ q = p) ∨
        (setPart s.busy t p (some ⟨(s.parts t p).track, (s.parts t p).heap⟩) t' q = s.busy t' q ∧ ¬ (t' = t ∧ q = p)) := by
      intro t' q
      unfold setPart
      by_cases e : t' = t ∧ q = p
      · left; simp [e]
      · right; simp [e]
    refine ⟨_, rfl, ⟨⟨hl.hok, hl.tabs, ?_, ?_, ?_, ?_, ?_, ?_, ?_, ?_, hl.img, ?_, ?_, ?_, hl.catp, hl.catb, hl.pend, hl.ops, hl.catt, hl.all⟩,
      h.good, h.bnd, h.log, h.cov⟩, rfl, ?_⟩
    · intro t' ht' q
      rcases hp t' q with ⟨e, rfl, rfl⟩ | ⟨e, _⟩
      · show Coh env t' (setPart _ _ _ _ _ _)
        rw [e]; exact ⟨(hl.coh _ ht' q).rows, (hl.coh _ ht' q).nodup⟩
      · show Coh env t' (setPart _ _ _ _ _ _)
        rw [e]; exact hl.coh t' ht' q
    · intro t' ht' q k hs
      rcases hp t' q with ⟨e, rfl, rfl⟩ | ⟨e, _⟩
      · show Mem.rows (setPart _ _ _ _ _ _) k = _
        rw [e]; exact hl.rows _ ht' q k hs
      · show Mem.rows (setPart _ _ _ _ _ _) k = _
        rw [e]; exact hl.rows t' ht' q k hs
    · intro t' ht' q
      show (fileOf s t' q).lsn ≤ Mem.lsn (setPart _ _ _ _ _ _)
      have h1 := hl.lsnl t' ht' q
      rcases hp t' q with ⟨e, rfl, rfl⟩ | ⟨e, _⟩
      · rw [e]
        have := hl.lsnt _ ht' q
        show _ ≤ (s.parts t' q).track
        omega
      · rw [e]; exact h1
    · intro t' ht' q
      show Mem.lsn (setPart _ _ _ _ _ _) ≤ Mem.track (setPart _ _ _ _ _ _)
      rcases hp t' q with ⟨e, rfl, rfl⟩ | ⟨e, _⟩
      · rw [e]; exact Nat.le_refl _
      · rw [e]; exact hl.lsnt t' ht' q
    · intro t' ht' q
      show Mem.lsn (setPart _ _ _ _ _ _) ≤ _
      rcases hp t' q with ⟨e, rfl, rfl⟩ | ⟨e, _⟩
      · rw [e]; exact hl.trk _ ht' q
      · rw [e]; exact hl.lsnb t' ht' q
    · intro t' ht' q
      show Mem.track (setPart _ _ _ _ _ _) ≤ _
      rw [hpt]; exact hl.trk t' ht' q
    · intro x hx t' q ht'
      show _ ≤ Mem.track (setPart _ _ _ _ _ _)
      rw [hpt]; exact hl.touch x hx t' q ht'
    · intro t' ht' q
      refine ⟨(hl.noimg t' ht' q).1, ?_⟩
      rcases hbz t' q with ⟨e, rfl, rfl⟩ | ⟨e, _⟩
      · exact absurd hc.1 ht'
      · show setPart _ _ _ _ _ _ = none
        rw [e]; exact (hl.noimg t' ht' q).2
    · intro t' q hq
      refine ⟨(hl.big t' q hq).1, ?_⟩
      rcases hbz t' q with ⟨e, rfl, rfl⟩ | ⟨e, _⟩
      · exact absurd hc.2 (by omega)
      · show setPart _ _ _ _ _ _ = none
        rw [e]; exact (hl.big t' q hq).2
    · intro t' q i hi
      have hi : setPart s.busy t p (some ⟨(s.parts t p).track, (s.parts t p).heap⟩) t' q = some i := hi
      show _ ∧ _ = Mem.lsn (setPart _ _ _ _ _ _)
      rcases hbz t' q with ⟨e, rfl, rfl⟩ | ⟨e, hne⟩
      · rw [e] at hi
        simp only [Option.some.injEq] at hi
        subst hi
        rcases hp t' q with ⟨e, _, _⟩ | ⟨e, hne⟩
        · rw [e]
          refine ⟨⟨(hl.coh _ hc.1 q).nodup, ?_⟩, rfl⟩
          intro k hs
          show loadRows _ (s.parts t' q).heap k = (W env (hist T) (idx (hist T) (s.parts t' q).track)).rows t' k
          rw [← (hl.coh _ hc.1 q).rows, hl.rows _ hc.1 q k hs]
          refine W_rows_frame hl.hok hs _ _ (idx_le _ _) (Nat.le_refl _) ?_
          intro i hi h1 h2 ht
          have h3 := hl.touch _ (List.getElem_mem hi) _ _ ht
          rw [idx_iff _ _ hl.hok.sorted i hi] at h3
          omega
        · exact absurd ⟨rfl, rfl⟩ hne
      · rw [e] at hi
        rcases hp t' q with ⟨_, e1, e2⟩ | ⟨e, _⟩
        · exact absurd ⟨e1, e2⟩ hne
        · rw [e]; exact hl.busy t' q i hi
    · intro t' ht' q hq
      have hq : setPart s.busy t p (some ⟨(s.parts t p).track, (s.parts t p).heap⟩) t' q = none := hq
      show (fileOf s t' q).lsn = Mem.lsn (setPart _ _ _ _ _ _)
      rcases hbz t' q with ⟨e, rfl, rfl⟩ | ⟨e, hne⟩
      · rw [e] at hq; cases hq
      · rw [e] at hq
        rcases hp t' q with ⟨_, e1, e2⟩ | ⟨e, _⟩
        · exact absurd ⟨e1, e2⟩ hne
        · rw [e]; exact hl.free t' ht' q hq
    · intro t' q hq
      rcases hbz t' q with ⟨_, e1, e2⟩ | ⟨e, hne⟩
      · exact Or.inr ⟨e1, e2⟩
      · have hq : setPart s.busy t p (some ⟨(s.parts t p).track, (s.parts t p).heap⟩) t' q ≠ none := hq
        rw [e] at hq; exact Or.inl hq
  · simp only [hc, if_false]
    exact ⟨s, rfl, h, rfl, fun _ _ h => Or.inl h⟩

theorem inv_refreshEnd {env : Env K} {T : Txs} {kept : Nat → Bool} {s : Sys K} (h : Inv env T kept s) (t : Tid) (p : Nat) :
    ∃ s', step env s (.refreshEnd t p) = .ok s' ∧ Inv env T kept s' ∧ s'.lsn = s.lsn ∧
      (∀ t' p', s'.busy t' p' ≠ none → s.busy t' p' ≠ none ∧ ¬ (t' = t ∧ p' = p)) := by
  unfold step
  have hl := h.live
  cases hb : s.busy t p with
  | none =>
    simp only [hb]
    refine ⟨s, rfl, h, rfl, fun t' p' h => ⟨h, ?_⟩⟩
    rintro ⟨rfl, rfl⟩; exact h hb
  | some i =>
    simp only [hb]
    obtain ⟨b1, b2⟩ := hl.busy t p i hb
    have htab : t ∈ s.tabs := by
      by_cases ht : t ∈ s.tabs
      · exact ht
      · have := (hl.noimg t ht p).2
        rw [hb] at this; cases this
    have hpn : p < env.nparts := by
      by_cases hp : p < env.nparts
      · exact hp
      · have := (hl.big t p (by omega)).2
        rw [hb] at this; cases this
    have hbz : ∀ t' q, (setPart s.busy t p none t' q = none ∧ t' = t ∧ q = p) ∨
        (setPart s.busy t p none t' q = s.busy t' q ∧ ¬ (t' = t ∧ q = p)) := by
      intro t' q
      unfold setPart
      by_cases e : t' = t ∧ q = p
      · left; simp [e]
      · right; simp [e]
    generalize hs' : ({ s with img := setPart s.img t p (some i), busy := setPart s.busy t p none } : Sys K) = s'
    have hf : ∀ t' q, (fileOf s' t' q = i ∧ t' = t ∧ q = p) ∨ (fileOf s' t' q = fileOf s t' q ∧ ¬ (t' = t ∧ q = p)) := by
      intro t' q
      subst hs'
      unfold fileOf setPart
      by_cases e : t' = t ∧ q = p
      · left; simp [e]
      · right; simp [e]
    have hmono : ∀ t' q, (fileOf s t' q).lsn ≤ (fileOf s' t' q).lsn := by
      intro t' q
      rcases hf t' q with ⟨e, rfl, rfl⟩ | ⟨e, _⟩
      · rw [e, b2]; exact hl.lsnl _ htab q
      · rw [e]; exact Nat.le_refl _
    refine ⟨s', rfl, ⟨⟨hl.hok, ?_, ?_, ?_, ?_, ?_, ?_, ?_, ?_, ?_, ?_, ?_, ?_, ?_, ?_, ?_, ?_, ?_, ?_, ?_⟩,
      h.good, ?_, ?_, ?_⟩, ?_, ?_⟩
    · subst hs'; exact hl.tabs
    · subst hs'; exact hl.coh
    · subst hs'; exact hl.rows
    · intro t' ht' q
      have ht'' : t' ∈ s.tabs := by subst hs'; exact ht'
      have e0 : s'.parts = s.parts := by subst hs'; rfl
      rw [e0]
      rcases hf t' q with ⟨e, rfl, rfl⟩ | ⟨e, _⟩
      · rw [e, b2]; exact Nat.le_refl _
      · rw [e]; exact hl.lsnl t' ht'' q
    · subst hs'; exact hl.lsnt
    · subst hs'; exact hl.lsnb
    · subst hs'; exact hl.trk
    · subst hs'; exact hl.touch
    · intro t' ht' q
      have ht'' : t' ∉ s.tabs := by subst hs'; exact ht'
      have hne : t' ≠ t := by rintro rfl; exact ht'' htab
      subst hs'
      show setPart _ _ _ _ _ _ = none ∧ setPart _ _ _ _ _ _ = none
      simp only [setPart, hne, false_and, if_false]
      exact hl.noimg t' ht'' q
    · intro t' q
      rcases hf t' q with ⟨e, rfl, rfl⟩ | ⟨e, _⟩
      · rw [e]; exact b1
      · rw [e]; exact hl.img t' q
    · intro t' q hq
      rcases hf t' q with ⟨e, rfl, rfl⟩ | ⟨e, hne⟩
      · omega
      · rw [e]
        refine ⟨(hl.big t' q hq).1, ?_⟩
        subst hs'
        show setPart _ _ _ _ _ _ = none
        simp only [setPart, hne, if_false]
        exact (hl.big t' q hq).2
    · intro t' q j hj
      have hj' : setPart s.busy t p none t' q = some j := by subst hs'; exact hj
      have e0 : s'.parts = s.parts := by subst hs'; rfl
      rw [e0]
      rcases hbz t' q with ⟨e, _⟩ | ⟨e, _⟩
      · rw [e] at hj'; cases hj'
      · rw [e] at hj'; exact hl.busy t' q j hj'
    · intro t' ht' q hq
      have ht'' : t' ∈ s.tabs := by subst hs'; exact ht'
      have e0 : s'.parts = s.parts := by subst hs'; rfl
      rw [e0]
      have hq' : setPart s.busy t p none t' q = none := by subst hs'; exact hq
      rcases hf t' q with ⟨e, rfl, rfl⟩ | ⟨e, hne⟩
      · rw [e, b2]
      · rw [e]
        refine hl.free t' ht'' q ?_
        rcases hbz t' q with ⟨_, e1, e2⟩ | ⟨e, _⟩
        · exact absurd ⟨e1, e2⟩ hne
        · rw [← e]; exact hq'
    · subst hs'; exact hl.catp
    · subst hs'; exact hl.catb
    · subst hs'; exact hl.pend
    · subst hs'; exact hl.ops
    · subst hs'; exact hl.catt
    · subst hs'; exact hl.all
    · subst hs'; exact h.bnd
    · subst hs'; exact h.log
    · intro x hx hk c hc
      obtain ⟨c1, c2⟩ := h.cov x hx hk c hc
      refine ⟨fun t' q ht => Nat.le_trans (c1 t' q ht) (hmono t' q), ?_⟩
      subst hs'; exact c2
    · subst hs'; rfl
    · intro t' q hq
      have hq' : setPart s.busy t p none t' q ≠ none := by subst hs'; exact hq
      rcases hbz t' q with ⟨e, _⟩ | ⟨e, hne⟩
      · exact absurd e hq'
      · rw [e] at hq'; exact ⟨hq', hne⟩

theorem inv_catalog {env : Env K} {T : Txs} {kept : Nat → Bool} {s : Sys K} (h : Inv env T kept s) :
    ∃ s', step env s .catalog = .ok s' ∧ Inv env T kept s' ∧ s'.lsn = s.lsn ∧ s'.busy = s.busy := by
  unfold step
  have hl := h.live
  by_cases hc : s.cat < s.pending
  · simp only [hc, if_true]
    refine ⟨_, rfl, ⟨⟨hl.hok, hl.tabs, hl.coh, hl.rows, hl.lsnl, hl.lsnt, hl.lsnb, hl.trk, hl.touch, hl.noimg, hl.img, hl.big, hl.busy, hl.free,
      Nat.le_refl _, hl.pend, hl.pend, hl.ops, ?_, hl.all⟩, h.good, h.bnd, h.log, ?_⟩, rfl, rfl⟩
    · show s.tabs = (W env (hist T) (idx (hist T) s.pending)).tabs
      rw [hl.tabs]
      refine W_tabs_frame hl.hok _ _ (idx_le _ _) (Nat.le_refl _) ?_
      intro i hi h1 h2 ho
      have h3 := hl.ops _ (List.getElem_mem hi) ho
      rw [idx_iff _ _ hl.hok.sorted i hi] at h3
      omega
    · intro x hx hk c hc'
      obtain ⟨c1, c2⟩ := h.cov x hx hk c hc'
      refine ⟨c1, fun ho => ?_⟩
      have := c2 ho
      show _ ≤ s.pending
      omega
  · simp only [hc, if_false]
    exact ⟨s, rfl, h, rfl, rfl⟩

theorem below_min (l : Nat) (a : Option Nat) (b : Nat) : below l (minOpt a b) = (below l a && decide (l < b)) := by
  cases a with
  | none => simp [below, minOpt]
  | some a => simp only [below, minOpt]; by_cases h : l < a <;> by_cases h' : l < b <;> simp [h, h'] <;> omega

theorem gc_parts (s : Sys K) (l : Nat) (t : Tid) (ps : List Nat) : ∀ a : Option Nat,
    below l (ps.foldl (fun a p => if (s.parts t p).track > (s.parts t p).lsn then minOpt a (s.parts t p).lsn else a) a) = true →
    below l a = true ∧ ∀ p ∈ ps, (s.parts t p).track > (s.parts t p).lsn → l < (s.parts t p).lsn := by
  induction ps with
  | nil => intro a h; exact ⟨h, by simp⟩
  | cons p ps ih =>
    intro a h
    rw [List.foldl_cons] at h
    obtain ⟨h1, h2⟩ := ih _ h
    by_cases hc : (s.parts t p).track > (s.parts t p).lsn
    · rw [if_pos hc, below_min, Bool.and_eq_true, decide_eq_true_eq] at h1
      refine ⟨h1.1, ?_⟩
      intro q hq hq'
      rcases List.mem_cons.mp hq with rfl | hq
      · exact h1.2
      · exact h2 q hq hq'
    · rw [if_neg hc] at h1
      refine ⟨h1, ?_⟩
      intro q hq hq'
      rcases List.mem_cons.mp hq with rfl | hq
      · exact absurd hq' hc
      · exact h2 q hq hq'

theorem gc_tabs (env : Env K) (s : Sys K) (l : Nat) (ts : List Tid) : ∀ a : Option Nat,
    below l (ts.foldl (fun a t => (List.range env.nparts).foldl (fun a p =>
      if (s.parts t p).track > (s.parts t p).lsn then minOpt a (s.parts t p).lsn else a) a) a) = true →
    below l a = true ∧ ∀ t ∈ ts, ∀ p, p < env.nparts → (s.parts t p).track > (s.parts t p).lsn → l < (s.parts t p).lsn := by
  induction ts with
  | nil => intro a h; exact ⟨h, by simp⟩
  | cons t ts ih =>
    intro a h
    rw [List.foldl_cons] at h
    obtain ⟨h1, h2⟩ := ih _ h
    obtain ⟨h3, h4⟩ := gc_parts s l t _ _ h1
    refine ⟨h3, ?_⟩
    intro t' ht' p hp
    rcases List.mem_cons.mp ht' with rfl | ht'
    · exact h4 p (List.mem_range.mpr hp)
    · exact h2 t' ht' p hp

theorem inv_gc {env : Env K} {T : Txs} {kept : Nat → Bool} {s : Sys K} (hslot : ∀ t k p, env.slot t k = some p → p < env.nparts)
    (h : Inv env T kept s) (hs : s.lsn < 2 ^ 64) (hb : ∀ t p, s.busy t p = none) (m : Nat) :
    ∃ kept' s', step env s (.gc m) = .ok s' ∧ Inv env T kept' s' ∧ s'.lsn = s.lsn ∧ s'.busy = s.busy := by
  have hl := h.live
  have hhdr : ∀ x ∈ T, (Hdr.read (recOf x)).lsn = x.1 := by
    intro x hx
    have hsz : (record x.1 (x.2.map WLog.ofChanges)).length < 2 ^ 32 := Nat.lt_trans ((h.good x hx).size x.1) (by decide)
    have := (record_read x.1 (x.2.map WLog.ofChanges) (by have := h.bnd x hx; omega) hsz []).1
    rw [List.append_nil] at this
    unfold recOf
    rw [this]
  refine ⟨fun l => kept l && ! decide (l ≤ m ∧ below l (gcMin env s)), _, rfl, ⟨hl.congr _ _, h.good, h.bnd, ?_, ?_⟩, rfl, rfl⟩
  · show s.log.filter _ = _
    rw [h.log, List.filter_map, List.filter_filter]
    refine congrArg (List.map recOf) (List.filter_congr ?_)
    intro x hx
    simp only [Function.comp_apply, hhdr x hx]
    cases kept x.1 <;> simp
  · intro x hx hk c hc
    by_cases hk' : kept x.1 = false
    · exact h.cov x hx hk' c hc
    · simp only [Bool.not_eq_false] at hk'
      simp only [hk', Bool.true_and, Bool.not_eq_false', decide_eq_true_eq] at hk
      obtain ⟨_, hbl⟩ := hk
      unfold gcMin at hbl
      obtain ⟨g1, g2⟩ := gc_tabs env s x.1 s.tabs _ hbl
      have hmem : (x.1, c) ∈ hist T := List.mem_flatMap.mpr ⟨x, hx, List.mem_map.mpr ⟨c, hc, rfl⟩⟩
      refine ⟨fun t p ht => ?_, fun ho => ?_⟩
      · have htab := touch_tabs hl.hok hmem ht
        rw [← hl.tabs] at htab
        have h1 := hl.touch _ hmem t p ht
        have h2 := hl.free t htab p (hb t p)
        have hp : p < env.nparts := by obtain ⟨_, _, _, hp⟩ := ht; exact hslot _ _ _ hp
        show _ ≤ (fileOf s t p).lsn
        rw [h2]
        by_cases hc : (s.parts t p).track > (s.parts t p).lsn
        · exact Nat.le_of_lt (g2 t htab p hp hc)
        · simp only at h1; omega
      · have h1 := hl.ops _ hmem ho
        show _ ≤ s.cat
        by_cases hc : s.pending > s.cat
        · simp only [hc, if_true, below, decide_eq_true_eq] at g1
          omega
        · simp only at h1; omega

theorem inv_init (env : Env K) : Inv env [] (fun _ => true) (Sys.init : Sys K) := by
  refine ⟨⟨⟨?_, ?_, ?_, ?_⟩, rfl, ?_, ?_, ?_, ?_, ?_, ?_, ?_, ?_, ?_, ?_, ?_, ?_, Nat.le_refl _, Nat.le_refl _, Nat.le_refl _, ?_, rfl, ?_⟩, ?_, ?_, rfl, ?_⟩
  · exact List.Pairwise.nil
  · intro x hx; cases hx
  · intro x hx; cases hx
  · intro n hn; exact absurd hn (Nat.not_lt_zero _)
  · intro t ht; cases ht
  · intro t ht; cases ht
  · intro t ht; cases ht
  · intro t ht; cases ht
  · intro t ht; cases ht
  · intro t ht; cases ht
  · intro x hx; cases hx
  · intro t _ p; exact ⟨rfl, rfl⟩
  · intro t p; exact ⟨by simp [fileOf, Sys.init], fun k _ => rfl⟩
  · intro t p _; exact ⟨rfl, rfl⟩
  · intro t p i hi; cases hi
  · intro t ht; cases ht
  · intro x hx; cases hx
  · intro x hx; cases hx
  · intro x hx; cases hx
  · intro x hx; cases hx
  · intro x hx; cases hx

theorem view_inv {env : Env K} {T : Txs} {kept : Nat → Bool} {s : Sys K} (h : Inv env T kept s) : view env s = W env (hist T) (hist T).length := by
  have hl := h.live
  have hcl := W_clean hl.hok _ (Nat.le_refl _)
  have : (fun t k => if t ∈ (W env (hist T) (hist T).length).tabs then
      (match env.slot t k with | some p => (s.parts t p).rows k | none => none) else none) = (W env (hist T) (hist T).length).rows := by
    funext t k
    by_cases ht : t ∈ (W env (hist T) (hist T).length).tabs
    · rw [if_pos ht]
      cases e : env.slot t k with
      | none => exact (hcl t k (Or.inr e)).symm
      | some p => exact hl.rows t (by rw [hl.tabs]; exact ht) p k e
    · rw [if_neg ht]; exact (hcl t k (Or.inl ht)).symm
  show (⟨s.tabs, fun t k => if t ∈ s.tabs then (match env.slot t k with | some p => (s.parts t p).rows k | none => none) else none⟩ : World K) = _
  rw [hl.tabs]
  exact congrArg (World.mk (W env (hist T) (hist T).length).tabs) this

/-- the transactions so far are those of a part of the operations -/
def Pref (env : Env K) (done : List Op) (T : Txs) : Prop :=
  ∀ T1 T2, T = T1 ++ T2 → ∃ m, World.run env (done.take m) = W env (hist T1) (hist T1).length ∧
    ∃ sm, run env (Sys.init : Sys K) (done.take m) = .ok sm ∧ ∀ x ∈ T1, x.1 ≤ sm.lsn

theorem run_snoc (env : Env K) (s : Sys K) (ops : List Op) (o : Op) :
    run env s (ops ++ [o]) = (match run env s ops with | .error e => .error e | .ok s => step env s o) := by
  unfold run
  rw [foldlM_append_ok]
  cases ops.foldlM (step env) s with
  | error e => rfl
  | ok s => 
    show [o].foldlM (step env) s = step env s o
    rw [foldlM_ok_cons]
    cases step env s o <;> rfl

theorem Pref.next {env : Env K} {done : List Op} {T : Txs} (h : Pref env done T) (o : Op) : Pref env (done ++ [o]) T := by
  intro T1 T2 e
  obtain ⟨m, h1, sm, h2, h3⟩ := h T1 T2 e
  refine ⟨min m done.length, ?_, sm, ?_, h3⟩
  · rw [List.take_append_of_le_length (by omega), ← h1]
    by_cases hm : m ≤ done.length
    · rw [show min m done.length = m by omega]
    · rw [show min m done.length = done.length by omega, List.take_length, List.take_of_length_le (by omega)]
  · rw [List.take_append_of_le_length (by omega), ← h2]
    by_cases hm : m ≤ done.length
    · rw [show min m done.length = m by omega]
    · rw [show min m done.length = done.length by omega, List.take_length, List.take_of_length_le (by omega)]

theorem run_inv {env : Env K} (hslot : ∀ t k p, env.slot t k = some p → p < env.nparts) (ops : List Op) : ∀ (done : List Op) (T : Txs)
    (kept : Nat → Bool) (s : Sys K) (l : List (Tid × Nat)), run env Sys.init done = .ok s → Inv env T kept s → Pref env done T →
    view env s = World.run env done → (∀ t p, s.busy t p ≠ none → (t, p) ∈ l) → (∀ o ∈ ops, Regular env o) → gcApart l ops →
    s.lsn + ops.length < 2 ^ 64 →
    ∃ T' kept' s', run env Sys.init (done ++ ops) = .ok s' ∧ Inv env T' kept' s' ∧ Pref env (done ++ ops) T' ∧ view env s' = World.run env (done ++ ops) ∧
      s'.lsn ≤ s.lsn + ops.length := by
  induction ops with
  | nil =>
    intro done T kept s l hr h hp hv _ _ _ _
    rw [List.append_nil]
    exact ⟨T, kept, s, hr, h, hp, hv, Nat.le_add_right _ _⟩
  | cons o ops ih =>
    intro done T kept s l hr h hp hv hb ho hgc hs
    have hoo := ho o (by simp)
    have ho' := fun o' h' => ho o' (List.mem_cons_of_mem _ h')
    rw [List.length_cons] at hs
    have goal : ∀ T' kept' s1 l', step env s o = .ok s1 → Inv env T' kept' s1 → (∀ t p, s1.busy t p ≠ none → (t, p) ∈ l') → gcApart l' ops →
        s1.lsn ≤ s.lsn + 1 → view env s1 = World.step env (view env s) o →
        (∀ T1 T2, T' = T1 ++ T2 → T1 = T' ∨ ∃ T3, T = T1 ++ T3) →
        ∃ T' kept' s', run env Sys.init (done ++ o :: ops) = .ok s' ∧ Inv env T' kept' s' ∧ Pref env (done ++ o :: ops) T' ∧
          view env s' = World.run env (done ++ o :: ops) ∧ s'.lsn ≤ s.lsn + (o :: ops).length := by
      intro T' kept' s1 l' e1 e2 e3 e4 e5 e6 e7
      have hrun : run env Sys.init (done ++ [o]) = .ok s1 := by rw [run_snoc, hr]; exact e1
      have hv' : view env s1 = World.run env (done ++ [o]) := by
        rw [e6, hv]; unfold World.run; rw [List.foldl_append]; rfl
      have hp' : Pref env (done ++ [o]) T' := by
        intro T1 T2 e
        rcases e7 T1 T2 e with rfl | ⟨T3, e'⟩
        · refine ⟨(done ++ [o]).length, ?_, s1, ?_, fun x hx => e2.bnd x hx⟩
          · rw [List.take_length, ← hv', view_inv e2]
          · rw [List.take_length]; exact hrun
        · exact hp.next o T1 T3 e'
      obtain ⟨T2, k2, s2, f1, f2, f3, f4, f5⟩ := ih (done ++ [o]) T' kept' s1 l' hrun e2 hp' hv' e3 ho' e4 (by omega)
      rw [List.append_assoc] at f1 f3 f4
      exact ⟨T2, k2, s2, f1, f2, f3, f4, by rw [List.length_cons]; omega⟩
    have same : ∀ T1 T2, T = T1 ++ T2 → T1 = T ∨ ∃ T3, T = T1 ++ T3 := fun T1 T2 e => Or.inr ⟨T2, e⟩
    cases o with
    | tx css =>
      obtain ⟨T', kept', s1, e1, e2, e3, e4, e5, e6⟩ := inv_tx h css hoo.1 hoo.2
      refine goal T' kept' s1 l e1 e2 (by rw [e4]; exact hb) hgc e3 ?_ e6
      rw [view_inv e2, view_inv h, e5]; rfl
    | refreshStart t p =>
      obtain ⟨s1, e1, e2, e3, e4⟩ := inv_refreshStart h t p
      refine goal T kept s1 _ e1 e2 ?_ hgc (by omega) ?_ same
      · intro t' p' hb'
        rcases e4 t' p' hb' with h1 | ⟨rfl, rfl⟩
        · exact List.mem_cons_of_mem _ (hb t' p' h1)
        · simp
      · rw [view_inv e2, view_inv h]; rfl
    | refreshEnd t p =>
      obtain ⟨s1, e1, e2, e3, e4⟩ := inv_refreshEnd h t p
      refine goal T kept s1 _ e1 e2 ?_ hgc (by omega) ?_ same
      · intro t' p' hb'
        obtain ⟨h1, h2⟩ := e4 t' p' hb'
        rw [List.mem_filter]
        refine ⟨hb t' p' h1, ?_⟩
        simp only [ne_eq, Prod.mk.injEq, decide_not, Bool.not_eq_true', decide_eq_false_iff_not]
        exact h2
      · rw [view_inv e2, view_inv h]; rfl
    | catalog =>
      obtain ⟨s1, e1, e2, e3, e4⟩ := inv_catalog h
      refine goal T kept s1 l e1 e2 (by rw [e4]; exact hb) hgc (by omega) ?_ same
      rw [view_inv e2, view_inv h]; rfl
    | gc m =>
      obtain ⟨hl, hgc⟩ := hgc
      subst hl
      have hb0 : ∀ t p, s.busy t p = none := by
        intro t p
        cases e : s.busy t p with
        | none => rfl
        | some i => exact absurd (hb t p (by rw [e]; simp)) (by simp)
      obtain ⟨kept', s1, e1, e2, e3, e4⟩ := inv_gc hslot h (by omega) hb0 m
      refine goal T kept' s1 [] e1 e2 (by rw [e4]; exact hb) hgc (by omega) ?_ same
      rw [view_inv e2, view_inv h]; rfl
    | restart =>
      obtain ⟨s1, e1, e2, e3, e4⟩ := inv_restart h (by omega)
      refine goal T kept s1 [] e1 e2 (fun t p hn => absurd (e4 t p) hn) hgc (by omega) ?_ same
      rw [view_inv e2, view_inv h]; rfl
    | unlogged c => exact absurd hoo (by simp [Regular])

/-- the end of the log is lost -/
theorem lost_ok {env : Env K} {T : Txs} {kept : Nat → Bool} {s : Sys K} (h : Inv env T kept s) (hs : s.lsn < 2 ^ 64) (n : Nat)
    (hn : ∀ r ∈ s.log.drop n, s.cat < (Hdr.read r).lsn ∧ ∀ t p, (fileOf s t p).lsn < (Hdr.read r).lsn) :
    ∃ T1 T2 r, T = T1 ++ T2 ∧ restart env { s with log := s.log.take n } = .ok r ∧ view env r = W env (hist T1) (hist T1).length ∧
      (∀ q ∈ s.log.take n, ∃ x ∈ T1, (Hdr.read q).lsn = x.1) := by
  have hhdr : ∀ x ∈ T, (Hdr.read (recOf x)).lsn = x.1 := by
    intro x hx
    have hsz : (record x.1 (x.2.map WLog.ofChanges)).length < 2 ^ 32 := Nat.lt_trans ((h.good x hx).size x.1) (by decide)
    have := (record_read x.1 (x.2.map WLog.ofChanges) (by have := h.bnd x hx; omega) hsz []).1
    rw [List.append_nil] at this
    unfold recOf
    rw [this]
  -- the part of the transactions that is left
  have split : ∃ T1 T2, T = T1 ++ T2 ∧ s.log.take n = (T1.filter fun x => kept x.1).map recOf ∧
      (∀ x ∈ hist T2, s.cat < x.1 ∧ ∀ t p, (fileOf s t p).lsn < x.1) := by
    have hsp : (T.filter fun x => kept x.1) = (T.filter fun x => kept x.1).take n ++ (T.filter fun x => kept x.1).drop n := (List.take_append_drop _ _).symm
    rw [List.filter_eq_append_iff] at hsp
    obtain ⟨A, B, e1, e2, e3⟩ := hsp
    have hlt : s.log.take n = (A.filter fun x => kept x.1).map recOf := by rw [h.log, ← List.map_take, e2]
    have hld : s.log.drop n = (B.filter fun x => kept x.1).map recOf := by rw [h.log, ← List.map_drop, e3]
    cases hB : (B.filter fun x => kept x.1) with
    | nil =>
      refine ⟨T, [], by simp, ?_, by simp [hist]⟩
      rw [hlt, e1, List.filter_append, hB, List.append_nil]
    | cons a l =>
      rw [List.filter_eq_cons_iff] at hB
      obtain ⟨l1, l2, f1, f2, f3, f4⟩ := hB
      refine ⟨A ++ l1, a :: l2, by rw [e1, f1, List.append_assoc], ?_, ?_⟩
      · rw [hlt, List.filter_append, List.filter_eq_nil_iff.mpr (fun x hx => f2 x hx), List.append_nil]
      · have haT : a ∈ T := by rw [e1, f1]; simp
        have ha := hn (recOf a) (by
          rw [hld]
          refine List.mem_map.mpr ⟨a, List.mem_filter.mpr ⟨by rw [f1]; simp, f3⟩, rfl⟩)
        rw [hhdr a haT] at ha
        have hge : ∀ x ∈ hist (a :: l2), a.1 ≤ x.1 := by
          have hsrt := h.live.hok.sorted
          rw [e1, f1, ← List.append_assoc] at hsrt
          have hsrt : (hist (A ++ l1) ++ hist (a :: l2)).Pairwise fun a b => a.1 ≤ b.1 := by
            simpa [hist] using hsrt
          have hsrt := (List.pairwise_append.mp hsrt).2.1
          obtain ⟨c, cs, hcs⟩ := List.exists_cons_of_ne_nil (h.good a haT).ne
          have hh : hist (a :: l2) = (a.1, c) :: (cs.map (fun c => (a.1, c)) ++ hist l2) := by
            rw [hist_cons]; unfold txHist; rw [hcs]; rfl
          rw [hh, List.pairwise_cons] at hsrt
          intro x hx
          rw [hh] at hx
          rcases List.mem_cons.mp hx with rfl | hx
          · exact Nat.le_refl _
          · exact hsrt.1 x hx
        intro x hx
        have := hge x hx
        refine ⟨by omega, fun t p => ?_⟩
        have := ha.2 t p
        omega
  obtain ⟨T1, T2, e1, e2, e3⟩ := split
  have hH : hist T = hist T1 ++ hist T2 := by rw [e1]; simp [hist]
  have hl := h.live.files
  have hmem : ∀ x ∈ T1, x ∈ T := fun x hx => by rw [e1]; simp [hx]
  have hok : HOk env (hist T1) := by
    have := hl.hok
    refine ⟨?_, ?_, ?_, ?_⟩
    · have h1 := this.sorted; rw [hH] at h1; exact (List.pairwise_append.mp h1).1
    · intro x hx; exact this.pos x (by rw [hH]; simp [hx])
    · intro x hx; exact this.keep x (by rw [hH]; simp [hx])
    · intro n hn
      have h1 := this.ok n (by rw [hH, List.length_append]; omega)
      simp only [hH] at h1
      rw [W_append _ _ _ _ (by omega), W_append _ _ _ _ (by omega), List.getElem_append_left hn] at h1
      exact h1
  have hfl : Files env (hist T1) { s with log := s.log.take n } := by
    refine ⟨hok, ?_, hl.big, hl.le, hl.catb, ?_⟩
    · intro t p
      have h1 := hl.img t p
      refine ⟨h1.nodup, fun k hk => ?_⟩
      have h2 := h1.rows k hk
      rw [hH, idx_append _ _ _ (fun x hx => by have := (e3 x hx).2 t p; omega), W_append _ _ _ _ (idx_le _ _)] at h2
      exact h2
    · have h1 := hl.catt
      rw [hH, idx_append _ _ _ (fun x hx => by have := (e3 x hx).1; omega), W_append _ _ _ _ (idx_le _ _)] at h1
      exact h1
  obtain ⟨r, g1, g2⟩ := rp_log hfl hs kept T1 (fun x hx => h.good x (hmem x hx)) (fun x hx => h.bnd x (hmem x hx)) (fun x hx => h.cov x (hmem x hx)) []
    (restoreCatalog env { s with log := s.log.take n }) (by simp) (rp_init hfl)
  refine ⟨T1, T2, r, e1, ?_, ?_, ?_⟩
  · show (s.log.take n).foldlM _ _ = _
    rw [e2]; rw [e2] at g1; exact g1
  · have hm : ∀ m, max (hist T1).length (idx (hist T1) m) = (hist T1).length := fun m => by have := idx_le (hist T1) m; omega
    have htab : r.tabs = (W env (hist T1) (hist T1).length).tabs := by rw [g2.tabs, hm]
    have hcl := W_clean hok _ (Nat.le_refl _)
    have : (fun t k => if t ∈ (W env (hist T1) (hist T1).length).tabs then
        (match env.slot t k with | some p => (r.parts t p).rows k | none => none) else none) = (W env (hist T1) (hist T1).length).rows := by
      funext t k
      by_cases ht : t ∈ (W env (hist T1) (hist T1).length).tabs
      · rw [if_pos ht]
        cases e : env.slot t k with
        | none => exact (hcl t k (Or.inr e)).symm
        | some p =>
          have := g2.rows t (by rw [htab]; exact ht) p k e
          rw [hm] at this; exact this
      · rw [if_neg ht]; exact (hcl t k (Or.inl ht)).symm
    show (⟨r.tabs, fun t k => if t ∈ r.tabs then (match env.slot t k with | some p => (r.parts t p).rows k | none => none) else none⟩ : World K) = _
    rw [htab]
    exact congrArg (World.mk (W env (hist T1) (hist T1).length).tabs) this
  · intro q hq
    rw [e2] at hq
    obtain ⟨x, hx, rfl⟩ := List.mem_map.mp hq
    have := (List.mem_filter.mp hx).1
    exact ⟨x, this, hhdr x (hmem x this)⟩

end Verif.Recover
