import Verif.Query.SelectResolved
/-!
# SELECT: the groups that aggregation makes are the groups of the rows
-/
set_option linter.unusedSimpArgs false
set_option linter.unusedVariables false
set_option autoImplicit false
namespace Verif.Query.Select
open Verif.Query
variable {R : Type}

/-- rows split by their keys -/
theorem filter_cover {K : Type} [DecidableEq K] (key : R → K) : ∀ (ks : List K) (rows : List R), ks.Nodup →
    (∀ r ∈ rows, key r ∈ ks) → ((ks.map fun k => rows.filter fun r => decide (key r = k)).flatten).Perm rows := by
  intro ks
  induction ks with
  | nil =>
    intro rows _ h
    cases rows with
    | nil => exact .refl _
    | cons r rows => exact absurd (h r (by simp)) (by simp)
  | cons k ks ih =>
    intro rows hn h
    obtain ⟨h1, h2⟩ := List.nodup_cons.1 hn
    have hi := ih (rows.filter fun r => !decide (key r = k)) h2 (by
      intro r hr
      obtain ⟨a, b⟩ := List.mem_filter.1 hr
      have := h r a
      simp only [List.mem_cons] at this
      rcases this with e | e
      · simp [e] at b
      · exact e)
    have e : (ks.map fun k' => (rows.filter fun r => !decide (key r = k)).filter fun r => decide (key r = k')) =
        ks.map fun k' => rows.filter fun r => decide (key r = k') := by
      apply List.map_congr_left
      intro k' hk'
      rw [List.filter_filter]
      apply List.filter_congr
      intro r _
      by_cases hr : key r = k'
      · have : ¬ key r = k := by rw [hr]; rintro rfl; exact h1 hk'
        simp [hr, this]
        rw [← hr]; exact this
      · simp [hr]
    rw [e] at hi
    simp only [List.map_cons, List.flatten_cons]
    have hsplit := List.filter_append_perm (fun r => decide (key r = k)) rows
    exact ((List.Perm.refl _).append hi).trans hsplit

theorem valsOf_feed {s : Stmt} {q : Sel} (h : Resolved s q) (A : Accepted q) (w : World R) (k : List Val) (col : Nat) (a : Agg × Ex)
    (ha : s.aggs[col]? = some a) : ∀ (rows : List R), valsOf (rows.map (q.feed w)) k col =
    ((rows.filter fun r => decide (keyOf w s r = k)).map fun r => means (w.src r) a.2).filter fun v => decide (v ≠ .null) := by
  intro rows
  induction rows with
  | nil => rfl
  | cons r rows ih =>
    have e : valsOf ((r :: rows).map (q.feed w)) k col =
        (if (q.feed w r).1 = k then nonNull (q.feed w r).2[col]? else []) ++ valsOf (rows.map (q.feed w)) k col := by
      simp [valsOf]
    rw [e, ih, feed_key h A, feed_args h A]
    have e2 : (s.aggs.map fun a => means (w.src r) a.2)[col]? = some (means (w.src r) a.2) := by simp [ha]
    rw [e2]
    by_cases hk : keyOf w s r = k
    · simp only [hk, if_true, List.filter_cons, decide_true, List.map_cons]
      by_cases hv : means (w.src r) a.2 = .null
      · simp [nonNull, hv]
      · simp [nonNull, hv]
    · simp [hk, List.filter_cons]

/-- a group of rows with its aggregates -/
def groupAt (w : World R) (s : Stmt) (q : Sel) (rows : List R) (p : List Val × List ASt) : List R × List Val :=
  (rows.filter fun r => decide (keyOf w s r = p.1), q.finals p.2)

theorem grouping_of {s : Stmt} {q : Sel} (h : Resolved s q) (A : Accepted q) (w : World R) (rows : List R) {g : Groups}
    (F : Fed (s.aggs.map Prod.fst) q.groups.length (fun k => (∃ r ∈ rows.map (q.feed w), r.1 = k) ∨ (q.groupBy = false ∧ k = []))
      (valsOf (rows.map (q.feed w))) g) :
    Grouping w s rows (g.groups.rows.map (groupAt w s q rows)) := by
  have hks : ∀ k, k ∈ g.groups.rows.map Prod.fst ↔ (∃ r ∈ rows, keyOf w s r = k) ∨ (s.groupBy = [] ∧ k = []) := by
    intro k
    rw [F.keys k, h.groupBy]
    have e : (∃ r ∈ rows.map (q.feed w), r.1 = k) ↔ ∃ r ∈ rows, keyOf w s r = k := by
      constructor
      · rintro ⟨r', hr', rfl⟩
        obtain ⟨r, hr, rfl⟩ := List.mem_map.1 hr'
        exact ⟨r, hr, (feed_key h A w r).symm⟩
      · rintro ⟨r, hr, rfl⟩
        exact ⟨q.feed w r, List.mem_map_of_mem hr, feed_key h A w r⟩
    rw [e]
    simp
  have hin : ∀ g' ∈ g.groups.rows.map (groupAt w s q rows), ∃ p ∈ g.groups.rows, g' = groupAt w s q rows p := by
    intro g' hg'
    obtain ⟨p, hp, rfl⟩ := List.mem_map.1 hg'
    exact ⟨p, hp, rfl⟩
  refine ⟨?_, ?_, ?_, ?_, ?_, ?_, ?_⟩
  · have := filter_cover (keyOf w s) (g.groups.rows.map Prod.fst) rows F.inv.nodup (fun r hr => (hks _).2 (.inl ⟨r, hr, rfl⟩))
    simpa [groupAt, Function.comp_def] using this
  · intro g' hg' a ha b hb
    obtain ⟨p, hp, rfl⟩ := hin g' hg'
    simp only [groupAt, List.mem_filter, decide_eq_true_eq] at ha hb
    rw [ha.2, hb.2]
  · rw [List.pairwise_map]
    have := F.inv.nodup
    unfold List.Nodup at this
    rw [List.pairwise_map] at this
    refine this.imp ?_
    intro p p' hne a ha b hb
    simp only [groupAt, List.mem_filter, decide_eq_true_eq] at ha hb
    rw [ha.2, hb.2]; exact hne
  · intro hgb g' hg'
    obtain ⟨p, hp, rfl⟩ := hin g' hg'
    rcases (hks p.1).1 (List.mem_map_of_mem hp) with ⟨r, hr, e⟩ | ⟨e, _⟩
    · intro hnil
      have : r ∈ (groupAt w s q rows p).1 := List.mem_filter.2 ⟨hr, by simp [e]⟩
      rw [hnil] at this; simp at this
    · exact absurd e hgb
  · intro hgb
    rw [List.length_map]
    have hall : ∀ k, k ∈ g.groups.rows.map Prod.fst ↔ k = [] := by
      intro k
      rw [hks k]
      constructor
      · rintro (⟨r, _, rfl⟩ | ⟨_, e⟩)
        · simp [keyOf, hgb]
        · exact e
      · intro e; exact .inr ⟨hgb, e⟩
    have hn := F.inv.nodup
    have hlen : (g.groups.rows.map Prod.fst).length = 1 := by
      cases hl : g.groups.rows.map Prod.fst with
      | nil => have := (hall []).2 rfl; rw [hl] at this; simp at this
      | cons a l =>
        cases l with
        | nil => rfl
        | cons b l =>
          rw [hl] at hn hall
          have e1 := (hall a).1 (by simp)
          have e2 := (hall b).1 (by simp)
          subst e1; subst e2
          simp at hn
    simpa using hlen
  · intro g' hg'
    obtain ⟨p, hp, rfl⟩ := hin g' hg'
    have := F.len p hp
    simp only [groupAt, Sel.finals, List.length_map, List.length_zip, h.aggs] at this ⊢
    omega
  · intro g' hg' i a v ha hv
    obtain ⟨p, hp, rfl⟩ := hin g' hg'
    simp only [groupAt, Sel.finals, h.aggs, List.getElem?_map, Option.map_eq_some_iff] at hv
    obtain ⟨⟨a', st⟩, h1, rfl⟩ := hv
    rw [List.getElem?_zip_eq_some] at h1
    obtain ⟨h1, h2⟩ := h1
    rw [ha] at h1
    simp only [Option.some.injEq] at h1
    subst h1
    obtain ⟨reps, k1, k2⟩ := F.cols p hp i a.1 st (by simp [ha]) h2
    refine ⟨reps, ?_, final_sql k2⟩
    rw [valsOf_feed h A w p.1 i a ha] at k1
    exact k1

/-- the columns of a group's source are the group's keys -/
theorem group_keys {s : Stmt} {q : Sel} (h : Resolved s q) (A : Accepted q) (w : World R) (rows : List R) {g : Groups}
    (F : Fed (s.aggs.map Prod.fst) q.groups.length (fun k => (∃ r ∈ rows.map (q.feed w), r.1 = k) ∨ (q.groupBy = false ∧ k = []))
      (valsOf (rows.map (q.feed w))) g) {p : List Val × List ASt} (hp : p ∈ g.groups.rows) :
    p.1 = q.groups.map (means ⟨(groupSrc w (groupAt w s q rows p)).col, []⟩) := by
  have hk := (F.keys p.1).1 (List.mem_map_of_mem hp)
  rcases hk with ⟨r', hr', e⟩ | ⟨e, hnil⟩
  · obtain ⟨r, hr, rfl⟩ := List.mem_map.1 hr'
    rw [feed_key h A] at e
    have hmem : r ∈ (groupAt w s q rows p).1 := List.mem_filter.2 ⟨hr, by simp [e]⟩
    cases hc : (groupAt w s q rows p).1 with
    | nil => rw [hc] at hmem; simp at hmem
    | cons r0 l =>
      have h0 : r0 ∈ (groupAt w s q rows p).1 := by rw [hc]; simp
      have e0 : keyOf w s r0 = p.1 := by simpa [groupAt] using (List.mem_filter.1 h0).2
      rw [← e0, ← feed_key h A]
      unfold Sel.feed
      dsimp only
      apply List.map_congr_left
      intro x hx
      rw [rowVal_means w r0 [] x (A.groups x hx)]
      unfold groupSrc
      rw [hc]; rfl
  · rw [h.groupBy] at e
    have hgb : s.groupBy = [] := by simpa using e
    rw [hnil, h.groups, hgb]; rfl

theorem group_caseFree (w : World R) (hw : ∀ r, CaseFree (w.col r)) (g : List R × List Val) : CaseFree (groupSrc w g).col := by
  intro m n e
  unfold groupSrc
  cases g.1 with
  | nil => rfl
  | cons r l => exact hw r m n e

/-- a scan of the groups -/
theorem scan_groups {s : Stmt} {q : Sel} (P : Parsed s) (N : NoShadow s) (h : Resolved s q) (A : Accepted q) (hg : s.grouped = true)
    (w : World R) (hw : ∀ r, CaseFree (w.col r)) (rows : List R) {g : Groups}
    (F : Fed (s.aggs.map Prod.fst) q.groups.length (fun k => (∃ r ∈ rows.map (q.feed w), r.1 = k) ∨ (q.groupBy = false ∧ k = []))
      (valsOf (rows.map (q.feed w))) g) :
    (g.groups.rows.filter fun p => holds q.having (groupVal q.groups p.1 (q.finals p.2))).map
        (fun p => q.emit (groupVal q.groups p.1 (q.finals p.2))) =
      (((g.groups.rows.map (groupAt w s q rows)).map (groupSrc w)).filter fun x => decide (meets s.having x)).map
        fun x => (retOf s x, sortKeys s x) := by
  simp only [List.map_map, List.filter_map]
  have key : ∀ p ∈ g.groups.rows, groupVal q.groups p.1 (q.finals p.2) =
      groupVal q.groups (q.groups.map (means ⟨(groupSrc w (groupAt w s q rows p)).col, []⟩)) (q.finals p.2) :=
    fun p hp => by rw [← group_keys h A w rows F hp]
  have hf : (g.groups.rows.filter fun p => holds q.having (groupVal q.groups p.1 (q.finals p.2))) =
      g.groups.rows.filter ((fun x => decide (meets s.having x)) ∘ groupSrc w ∘ groupAt w s q rows) := by
    apply List.filter_congr
    intro p hp
    rw [key p hp, holds_group P h A _ (group_caseFree w hw _)]
    rfl
  rw [hf]
  apply List.map_congr_left
  intro p hp
  have hp' := (List.mem_filter.1 hp).1
  rw [key p hp', emit_group P N h A hg _ (group_caseFree w hw _)]
  rfl

theorem feed_ok {s : Stmt} {q : Sel} (h : Resolved s q) (A : Accepted q) (w : World R) {r : R} (hr : Countable w s r) :
    RowOk (s.aggs.map Prod.fst) q.groups.length (q.feed w r) := by
  refine ⟨by simp [Sel.feed], ?_, by simp [Sel.feed, h.aggs], ?_, ?_⟩
  · rw [feed_key h A]; exact hr.keys
  · rw [feed_args h A]
    intro v hv
    obtain ⟨a, ha, rfl⟩ := List.mem_map.1 hv
    exact hr.fits a ha
  · rw [feed_args h A]
    intro col a v h1 h2 h3
    simp only [List.getElem?_map, Option.map_eq_some_iff] at h1 h3
    obtain ⟨x, hx, rfl⟩ := h1
    obtain ⟨y, hy, rfl⟩ := h3
    rw [hx] at hy
    cases hy
    exact hr.dist x (List.mem_of_getElem? hx) h2

theorem no_crash {s : Stmt} {q : Sel} (h : Resolved s q) (D : DistinctSeen s) (fed : List (List Val × List Val)) :
    q.crash fed = false := by
  unfold Sel.crash
  rw [h.seen]
  cases hd : (s.aggs.take s.early).any fun a => a.1.distinct with
  | true => simp
  | false =>
    simp only [Bool.not_false, Bool.true_and]
    have hno : ∀ a ∈ s.aggs, a.1.distinct = false := by
      intro a ha
      cases hx : a.1.distinct with
      | false => rfl
      | true =>
        obtain ⟨b, hb, e⟩ := D ⟨a, ha, hx⟩
        have := List.any_eq_false.1 hd b hb
        exact absurd e this
    rw [List.any_eq_false]
    intro r _
    rw [Bool.not_eq_true, List.any_eq_false]
    intro p hp
    rw [h.aggs] at hp
    have := hno p.1 (List.of_mem_zip hp).1
    simp [this]

end Verif.Query.Select
