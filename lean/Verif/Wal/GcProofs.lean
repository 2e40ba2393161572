import Verif.Wal.CrashProofs
set_option linter.unusedSimpArgs false
set_option linter.unusedVariables false
/-! # Garbage collection of log files -/
namespace Verif.Wal
open Verif Verif.Store

def gone (w : Wal) (slots : List Nat) (min : Nat) (id : Nat) : Prop :=
  id ∈ (IdMgr.gc (ids w.files) (slotsMin slots min)).1

instance (w : Wal) (slots : List Nat) (min id : Nat) : Decidable (gone w slots min id) := by unfold gone; infer_instance

theorem ids_s {w : Wal} {A : List LEnt} (h : S w A) : ids w.files = A.map LEnt.id := by
  rw [h.files]; simp [ids, LEnt.file, Function.comp_def]

theorem gone_iff {w : Wal} {A : List LEnt} (h : S w A) (slots : List Nat) (min id : Nat) :
    gone w slots min id ↔ (∃ a ∈ A, a.id = id) ∧ ∃ b ∈ A, id < b.id ∧ b.id ≤ slotsMin slots min := by
  have hs : (ids w.files).Pairwise (· < ·) := by
    rw [ids_s h, List.pairwise_map]; exact h.sort.imp fun hab => hab.1
  unfold gone
  rw [(C32_gc (ids w.files) hs (slotsMin slots min)).2.1 id, ids_s h]
  simp only [List.mem_map]
  constructor
  · rintro ⟨h1, y, ⟨b, hb, rfl⟩, h2⟩
    exact ⟨h1, b, hb, h2⟩
  · rintro ⟨h1, b, hb, h2⟩
    exact ⟨h1, b.id, ⟨b, hb, rfl⟩, h2⟩

theorem s_gc {w : Wal} {A : List LEnt} (h : S w A) (slots : List Nat) (min : Nat) :
    S (w.gc slots min) (A.filter fun a => ¬ gone w slots min a.id) := by
  have hsub : (A.filter fun a => ¬ gone w slots min a.id).Sublist A := List.filter_sublist
  refine ⟨?_, ?_, h.sort.sublist hsub, fun a ha => h.ge a (hsub.mem ha), ?_, fun a ha => h.le a (hsub.mem ha), fun a ha => h.idle a (hsub.mem ha)⟩
  · unfold Wal.gc
    simp only [h.files, List.filter_map]
    congr 1
    apply List.filter_congr
    intro a _
    rw [Bool.eq_iff_iff]
    simp only [Function.comp, decide_eq_true_eq]
    unfold gone
    rw [h.files]
    exact Iff.rfl
  · rcases List.eq_nil_or_concat A with e | ⟨A0, a, e⟩
    · exact absurd e h.ne
    subst e
    rw [List.concat_eq_append] at h ⊢
    intro he
    rw [List.filter_eq_nil_iff] at he
    have := he a (by simp)
    simp only [decide_eq_true_eq, Decidable.not_not, gone_iff h] at this
    obtain ⟨_, b, hb, h1, _⟩ := this
    rcases List.mem_append.mp hb with hb | hb
    · have := ((List.pairwise_append.mp h.sort).2.2 b hb a (by simp)).1; omega
    · simp at hb; subst hb; omega
  · refine List.Pairwise.sublist (List.Sublist.map _ ?_) h.asc
    clear h
    induction A with
    | nil => simp
    | cons a t ih =>
      by_cases hg : gone w slots min a.id
      · rw [List.filter_cons, if_neg (by simpa using hg), List.flatMap_cons]
        exact (ih List.filter_sublist).trans (List.sublist_append_right _ _)
      · rw [List.filter_cons, if_pos (by simpa using hg), List.flatMap_cons, List.flatMap_cons]
        exact List.Sublist.append_left (ih List.filter_sublist) _

theorem gc_txs {w : Wal} {A : List LEnt} (h : S w A) (slots : List Nat) (min l : Nat) (hl : slotsMin slots min ≤ l) :
    fromLsn l ((A.filter fun a => ¬ gone w slots min a.id).flatMap LEnt.txs) = fromLsn l (A.flatMap LEnt.txs) := by
  have key : ∀ B : List LEnt, (∀ a ∈ B, a ∈ A) →
      fromLsn l ((B.filter fun a => ¬ gone w slots min a.id).flatMap LEnt.txs) = fromLsn l (B.flatMap LEnt.txs) := by
    intro B hB
    unfold fromLsn
    induction B with
    | nil => rfl
    | cons a t ih =>
      have iht := ih (fun x hx => hB x (by simp [hx]))
      by_cases hg : gone w slots min a.id
      · rw [List.filter_cons, if_neg (by simpa using hg), List.flatMap_cons, List.filter_append, iht]
        obtain ⟨_, b, hb, h1, h2⟩ := (gone_iff h slots min a.id).mp hg
        have : a.txs.filter (fun t => decide (l ≤ t.1)) = [] := by
          rw [List.filter_eq_nil_iff]
          intro u hu
          have hlt : u.1 < b.id := by
            have haA := hB a (by simp)
            obtain ⟨A1, A2, e⟩ := List.append_of_mem haA
            have hs := h.sort
            rw [e, List.pairwise_append, List.pairwise_cons] at hs
            rw [e] at hb
            rcases List.mem_append.mp hb with hb | hb
            · have := (hs.2.2 b hb a (by simp)).1; omega
            · rcases List.mem_cons.mp hb with hb | hb
              · subst hb; omega
              · exact (hs.2.1.1 b hb).2 u hu
          rw [decide_eq_true_eq]; omega
        rw [this, List.nil_append]
      · rw [List.filter_cons, if_pos (by simpa using hg), List.flatMap_cons, List.flatMap_cons, List.filter_append, List.filter_append, iht]
  exact key A (fun a ha => ha)

theorem sz_gc {w : Wal} {A : List LEnt} (hz : Sz w A) (slots : List Nat) (min : Nat) :
    Sz (w.gc slots min) (A.filter fun a => ¬ gone w slots min a.id) :=
  ⟨fun a ha => hz.file a (List.mem_filter.mp ha).1, fun a ha => hz.recs a (List.mem_filter.mp ha).1,
   fun a ha => hz.ids a (List.mem_filter.mp ha).1⟩

/-- what can be read from a position at or above the limit is not affected -/
theorem gc_read {w : Wal} {A : List LEnt} (h : S w A) (hz : Sz w A) (slots : List Nat) (min l fuel : Nat) (check : Bool)
    (hl : slotsMin slots min ≤ l) (h0 : l ≠ 0) (hin : ∃ a ∈ A, a.id ≤ l) (hf : (A.flatMap LEnt.txs).length ≤ fuel) :
    readFrom (w.gc slots min).files true check fuel l = .ok ((fromLsn l (A.flatMap LEnt.txs)).map bytesOf) := by
  rw [read_s (s_gc h slots min) (sz_gc hz slots min) check fuel l, gc_txs h slots min l hl]
  · refine Nat.le_trans ?_ hf
    have hsub : ((A.filter fun a => ¬ gone w slots min a.id).flatMap LEnt.txs).Sublist (A.flatMap LEnt.txs) := by
      clear h hz hin hf
      induction A with
      | nil => simp
      | cons a t ih =>
        by_cases hg : gone w slots min a.id
        · rw [List.filter_cons, if_neg (by simpa using hg), List.flatMap_cons]
          exact ih.trans (List.sublist_append_right _ _)
        · rw [List.filter_cons, if_pos (by simpa using hg), List.flatMap_cons, List.flatMap_cons]
          exact List.Sublist.append_left ih _
    exact hsub.length_le
  · intro _
    rcases start_mem (lok_clean h hz).toAOk l h0 with ⟨_, hall⟩ | ⟨A1, e, A2, hA, _, he, hA2⟩
    · obtain ⟨a, ha, hle⟩ := hin
      have := hall a.ent (List.mem_map_of_mem ha)
      simp only [LEnt.ent] at this
      omega
    · obtain ⟨B1, B', hB, hB1, hB'⟩ := List.map_eq_append_iff.mp hA
      obtain ⟨b, B2, hBe, hbe, hB2⟩ := List.map_eq_cons_iff.mp hB'
      subst hBe
      subst hbe
      refine ⟨b, List.mem_filter.mpr ⟨by rw [hB]; simp, ?_⟩, he⟩
      simp only [decide_eq_true_eq, gone_iff h]
      rintro ⟨_, c, hc, h1, h2⟩
      have hcl : c.id ≤ b.id := by
        rw [hB] at hc
        have hs := h.sort
        rw [hB, List.pairwise_append, List.pairwise_cons] at hs
        rcases List.mem_append.mp hc with hc | hc
        · have := (hs.2.2 c hc b (by simp)).1; omega
        · rcases List.mem_cons.mp hc with hc | hc
          · subst hc; omega
          · have := hA2 c.ent (by rw [← hB2]; exact List.mem_map_of_mem hc)
            simp only [LEnt.ent] at this
            omega
      omega

theorem slotsMin_le (slots : List Nat) : ∀ min, (∀ s ∈ slots, s ≤ min) → slotsMin slots min = min := by
  unfold slotsMin
  induction slots with
  | nil => intro min _; rfl
  | cons s t ih =>
    intro min h
    have hs := h s (by simp)
    simp only [List.foldl_cons]
    rw [if_neg (by omega)]
    exact ih min (fun x hx => h x (by simp [hx]))

end Verif.Wal
