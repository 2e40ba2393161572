import Verif.Heap.RestartProofs
/-!
# Properties: row memory (C17), restart (C48), checkpoint (C49), index build (C50, C52), truncate (C51)
-/
set_option linter.unusedVariables false
set_option linter.unusedSectionVars false
namespace Verif.Heap
variable {D K K2 R : Type} [DecidableEq K] [DecidableEq K2]

/-! ## C17 -/

/-- C17, for requests of at most 516071 bytes and heaps of at most 2^19 pages (256 GiB): after any sequence of allocations,
releases and reopenings, each live block lies inside one page, no two share a byte, the contents of each are as written, and the
reported use is the number of live blocks and the sum of their bucket sizes. Missing: larger requests (see `C17_large_false`). -/
theorem C17_partial (ops : List (Op D)) (h : Heap D) (live : List (Block D)) (ha : Allowed 516071 (Heap.init D) [] ops h live)
    (hp : h.pages.length ≤ 2 ^ 19) :
    (∀ b ∈ live, b.inPage ∧ b.page < h.pages.length) ∧ live.Pairwise Block.disjoint ∧
    (∀ b ∈ live, ∃ c, h.chunkAt (b.page, b.start - chunkSize) = some c ∧ c.isFree = false ∧ c.data = b.data) ∧
    h.countUsed = live.length ∧
    h.sizeUsed = ((live.map fun b => bucketSize (bucketOf (chunkSize + b.len))).sum : Nat) := by
  obtain ⟨_, hi⟩ := allowed_pages ha (Nat.le_refl _) inv_init hp
  have hcs : chunkSize = 24 := rfl
  refine ⟨?_, ?_, ?_, hi.count, hi.bytes⟩
  · intro b hb
    obtain ⟨c, e1, e2, e3, e4, e5, e6⟩ := hi.liveOk.used b hb
    obtain ⟨g1, g2, g3, g4⟩ := inv_place hi e1
    unfold addrOf at g1 g2 g3
    simp only at g1 g2 g3
    refine ⟨⟨?_, ?_⟩, g1⟩ <;> omega
  · have hn := hi.liveOk.nodup
    rw [List.Nodup, List.pairwise_map] at hn
    refine List.Pairwise.imp_of_mem ?_ hn
    intro a b ha hb hab
    obtain ⟨c, e1, e2, e3, e4, e5, e6⟩ := hi.liveOk.used a ha
    obtain ⟨d, f1, f2, f3, f4, f5, f6⟩ := hi.liveOk.used b hb
    have := inv_apart hi e1 f1 hab
    unfold addrOf at this
    simp only at this
    unfold Block.disjoint
    omega
  · intro b hb
    obtain ⟨c, e1, e2, e3, _⟩ := hi.liveOk.used b hb
    unfold Heap.view addrOf at e1
    cases hc : h.chunkAt (b.page, b.start - chunkSize) with
    | none => rw [hc] at e1; simp at e1
    | some ch =>
      rw [hc] at e1
      simp only [Option.map_some, Option.some.injEq] at e1
      subst e1
      exact ⟨ch, rfl, e2, e3⟩

/-- C17: every request is met by a block at least as large as asked: the bytes up to the next chunk are at least `n` -/
theorem C17_size (n : Nat) (h : n ≤ 516071) : chunkSize + n ≤ bucketSize (bucketOf (chunkSize + n)) := by
  have hcs : chunkSize = 24 := rfl
  exact (bucket_fits (chunkSize + n) (by omega) (by omega)).1

/-- C17 fails for larger requests: the heap accepts them (heap.c has size classes up to 1 MiB) but pages have 512 KiB; the
block of a 600000-byte row does not lie inside its page. -/
theorem C17_large_false : ¬ ∀ (ops : List (Op Unit)) (h : Heap Unit) (live : List (Block Unit)),
    Allowed 1000000 (Heap.init Unit) [] ops h live → ∀ b ∈ live, b.inPage := by
  intro hall
  have := hall [.add 600000 ()] _ _ (.add 600000 () (by decide) (.nil _ _)) _ List.mem_cons_self
  revert this
  unfold Block.inPage
  decide

/-- C17 fails after a request of 516072 bytes even for small ones: the page is then considered to have room for 4 GiB, and the next
10-byte row is placed behind its end -/
theorem C17_small_false : ¬ ∀ (ops : List (Op Unit)) (h : Heap Unit) (live : List (Block Unit)),
    Allowed 516072 (Heap.init Unit) [] ops h live → ∀ b ∈ live, b.inPage := by
  intro hall
  have := hall [.add 516072 (), .add 10 ()] _ _ (.add 516072 () (by decide) (.add 10 () (by decide) (.nil _ _))) _ List.mem_cons_self
  revert this
  unfold Block.inPage
  decide

/-- the hypotheses of `C17_partial` are met by a history with a reused block -/
example : ∃ h live, Allowed 516071 (Heap.init Nat) [] [.add 100 7, .add 516071 8, .add 516071 5, .remove (0, 24), .add 90 9] h live ∧
    live.length = 3 ∧ h.pages.length = 2 :=
  ⟨_, _, .add 100 7 (by decide) (.add 516071 8 (by decide) (.add 516071 5 (by decide) (.remove (0, 24) 100 7 [_, _] [] rfl
    (.add 90 9 (by decide) (.nil _ _))))),
    rfl, by decide⟩

/-! ## C48 -/

/-- C48, for rows of at most 516071 bytes and heaps of at most 2^19 pages: the file of a partition, read after a restart, gives
the same table: a lookup by any key finds what it found when the file was written. -/
theorem C48_partial (size : R → Nat) (key : R → K) (hsz : ∀ r, size r ≤ 516071) (s : Partn K R) (live : List (Ptr × R))
    (hr : Reach size key s live) (hoff : s.mem.shadow = none) (hq : Quiet key s.idx live) :
    ∃ N, ∀ fuel ≥ N, ∃ s', s.restart key fuel = some s' ∧ ∀ k, s'.lookup k = s.lookup k := by
  rcases reach_inv hsz hr with ⟨lm, hn⟩ | ⟨lm, sh, q, hn⟩
  · have := restart_lookup hn hq s.idx s.mem.shadow s.mem.main hn.main hn.flags
    exact this
  · have := hn.on; rw [hoff] at this; simp at this

/-! ## C49 -/

/-- C49, for rows of at most 516071 bytes and heaps of at most 2^19 pages. A checkpoint that runs while statements change the
table: (1) what is written to the file, at whatever moment, is the table as it was when the checkpoint began: a restart from it
finds exactly those rows; (2) when the checkpoint is completed, the table is what the statements made it: every lookup finds
what it found before, and the partition no longer uses the shadow memory. -/
theorem C49_partial (size : R → Nat) (key : R → K) (hsz : ∀ r, size r ≤ 516071) (s : Partn K R) (live : List (Ptr × R))
    (hr : Reach size key s live) (hoff : s.mem.shadow = none) (hq : Quiet key s.idx live)
    (ops : List (POp K R)) (s1 : Partn K R) (live1 : List (Ptr × R))
    (hu : Uses size { s with mem := s.mem.begin } live ops s1 live1) (hsm : Small s1) :
    (∃ N, ∀ fuel ≥ N, ∃ s', s1.restart key fuel = some s' ∧ ∀ k, s'.lookup k = s.lookup k) ∧
    (Quiet key s1.idx live1 → s1.mem.main.pages.length + live1.length ≤ 2 ^ 19 →
      ∃ N, ∀ fuel ≥ N, ∃ s2, s1.apply size key fuel = some s2 ∧ s2.mem.shadow = none ∧ ∀ k, s2.lookup k = s1.lookup k) := by
  rcases reach_inv hsz hr with ⟨lm, hn⟩ | ⟨lm, sh, q, hn⟩
  · obtain ⟨sh', q', hs⟩ := uses_snap hsz hu (snap_begin hn) hsm
    constructor
    · have := restart_lookup hn hq s1.idx s1.mem.shadow s1.mem.main hs.main hs.flags
      exact this
    · intro hq1 hp
      obtain ⟨N, s2, live2, lm2, r1, r2, r3, r4, _⟩ := snap_apply hsz hs hq1 hp
      refine ⟨N, fun fuel hf => ⟨s2, r1 fuel hf, r2.off, fun k => ?_⟩⟩
      apply option_ext
      intro r
      rw [lookup_entry r3 (fun p r h => normal_deref r2 h), lookup_entry hq1 (fun p r h => snap_deref hs h), r4]
  · have := hn.on; rw [hoff] at this; simp at this

/-! ## Sample partition: rows are numbers, the key is the last digit, a second key the tens digit -/

def sz : Nat → Nat := fun _ => 10
def ky (r : Nat) : Nat := r % 10
def ky2 (r : Nat) : Nat := r / 10

def empty : Partn Nat Nat := ⟨⟨Heap.init _, none⟩, fun _ => none⟩
/-- INSERT -/
def Partn.put (s : Partn Nat Nat) (r : Nat) : Partn Nat Nat :=
  (s.step sz (.alloc r)).step sz (.index (ky r) (some (s.mem.add sz r).1))

/-- two rows are inserted, 11 and 22 -/
def two : Partn Nat Nat := (empty.put 11).put 22
/-- and a checkpoint or index build begins -/
def twoB : Partn Nat Nat := { two with mem := two.mem.begin }

def liveTwo : List (Ptr × Nat) := [(⟨false, (0, 72)⟩, 22), (⟨false, (0, 24)⟩, 11)]

theorem usesTwo : Uses sz empty [] [.alloc 11, .index 1 (some ⟨false, (0, 24)⟩), .alloc 22, .index 2 (some ⟨false, (0, 72)⟩)]
    two liveTwo :=
  .alloc 11 (.index 1 _ (.alloc 22 (.index 2 _ (.nil _ _))))

theorem two_reach : Reach sz ky two liveTwo :=
  .run .init usesTwo ⟨by decide, by intro sh h; exact absurd h (by simp [two, Partn.put, Partn.step, empty, Mem.add])⟩

theorem two_quiet : Quiet ky two.idx liveTwo := by
  constructor
  · intro k p h
    by_cases h2 : k = 2
    · subst h2
      refine ⟨22, ?_, rfl⟩
      have : two.idx 2 = some ⟨false, (0, 72)⟩ := by decide
      rw [this] at h; cases h; simp [liveTwo]
    · by_cases h1 : k = 1
      · subst h1
        refine ⟨11, ?_, rfl⟩
        have : two.idx 1 = some ⟨false, (0, 24)⟩ := by decide
        rw [this] at h; cases h; simp [liveTwo]
      · have : two.idx k = none := by
          simp only [two, Partn.put, Partn.step, assign, empty]
          rw [if_neg (by simpa [ky] using h2), if_neg (by simpa [ky] using h1)]
        rw [this] at h; simp at h
  · intro p r h
    simp only [liveTwo, List.mem_cons, List.not_mem_nil, or_false, Prod.mk.injEq] at h
    rcases h with ⟨rfl, rfl⟩ | ⟨rfl, rfl⟩ <;> decide

theorem twoB_uses : Uses sz twoB liveTwo [] twoB liveTwo := .nil _ _

/-- the checkpoint of the sample, with a row deleted (11), one updated (22 to 32) and one inserted (43) meanwhile -/
def busy : Partn Nat Nat :=
  let a := (twoB.step sz (.index 1 none)).step sz (.free ⟨false, (0, 24)⟩)
  let b := (a.put 32).step sz (.free ⟨false, (0, 72)⟩)
  b.put 43

/-- `C49_partial` is not vacuous: restart from the file gives the two rows; after completion the three changes are there -/
example : (busy.restart ky 10).map (fun s => [s.lookup 1, s.lookup 2, s.lookup 3]) = some [some 11, some 22, none] ∧
    (busy.apply sz ky 10).map (fun s => [s.lookup 1, s.lookup 2, s.lookup 3]) = some [none, some 32, some 43] ∧
    [busy.lookup 1, busy.lookup 2, busy.lookup 3] = [none, some 32, some 43] := by decide

example : ∃ live1, Uses sz twoB liveTwo [.index 1 none, .free ⟨false, (0, 24)⟩, .alloc 32, .index 2 (some ⟨true, (0, 72)⟩),
    .free ⟨false, (0, 72)⟩, .alloc 43, .index 3 (some ⟨true, (0, 168)⟩)] busy live1 :=
  ⟨_, .index 1 none (.free _ 11 [_] [] rfl (.alloc 32 (.index 2 _ (.free ⟨false, (0, 72)⟩ 22 [_] [] rfl (.alloc 43
    (.index 3 _ (.nil _ _)))))))⟩

/-! ## C50 -/

/-- the result of CREATE INDEX is right: the new index refers to each row of the table under its key and to nothing else -/
def IndexOk (key2 : R → K2) (s : Partn K R) (jx : K2 → Option Ptr) : Prop :=
  (∀ j p, jx j = some p → ∃ r, s.mem.deref p = some r ∧ key2 r = j) ∧
  ∀ k p r, s.idx k = some p → s.mem.deref p = some r → jx (key2 r) = some p

/-- C50, if no row of the table is deleted or updated during the build (rows may be inserted, and inserted rows changed): if the
build reports no error, the new index holds exactly the rows of the table, and the table is unchanged. Missing: deletes and
updates during the build, for which it fails (see below); rows over 516071 bytes, heaps over 2^19 pages. -/
theorem C50_partial (size : R → Nat) (key : R → K) (key2 : R → K2) (hsz : ∀ r, size r ≤ 516071) (s : Partn K R)
    (live : List (Ptr × R)) (hr : Reach size key s live) (hoff : s.mem.shadow = none) (hq : Quiet key s.idx live)
    (ops : List (POp K R)) (s1 : Partn K R) (live1 : List (Ptr × R))
    (hu : Uses size { s with mem := s.mem.begin } live ops s1 live1) (hsm : Small s1) (hq1 : Quiet key s1.idx live1)
    (hkeep : ∀ x ∈ live, x ∈ live1)
    (fuel : Nat) (rows : List (Addr × R)) (jx : K2 → Option Ptr) (hrows : rowsOf s1.mem.main fuel = some rows)
    (hjob : buildJob key2 rows (fun _ => none) = some jx) (s2 : Partn K R) (jx2 : K2 → Option Ptr)
    (hap : s1.applyIndex size key key2 jx fuel = some (s2, jx2)) :
    IndexOk key2 s2 jx2 ∧ ∀ k, s2.lookup k = s1.lookup k := by
  rcases reach_inv hsz hr with ⟨lm, hn⟩ | ⟨lm, sh, q, hn⟩
  · obtain ⟨sh', q', hs⟩ := uses_snap hsz hu (snap_begin hn) hsm
    obtain ⟨N, xs, hscan, hperm, hkinds⟩ := holds_scan hs.shadow hs.sflags
    obtain ⟨N2, rows2, hrows2, hp2⟩ := rowsOf_ok hs.main hs.flags
    -- fuel does not matter
    have hmono : ∀ {D : Type} (h : Heap D) (n : Nat) (p : Option Addr) (l : List (Addr × Chunk D)), h.walk n p = some l →
        h.walk (n + 1) p = some l := by
      intro D h n
      induction n with
      | zero =>
        intro p l hw
        cases p with
        | none => simpa [Heap.walk] using hw
        | some a => simp [Heap.walk] at hw
      | succ n ih =>
        intro p l hw
        cases p with
        | none => simpa [Heap.walk] using hw
        | some a =>
          rw [Heap.walk] at hw
          rw [Heap.walk]
          cases hc : h.chunkAt a with
          | none => rw [hc] at hw; simp at hw
          | some c =>
            rw [hc] at hw
            simp only at hw ⊢
            cases hr : h.walk n (h.nextChunk a) with
            | none => rw [hr] at hw; simp at hw
            | some rest => rw [hr] at hw; rw [ih _ _ hr]; exact hw
    have hmono2 : ∀ {D : Type} (h : Heap D) (m n : Nat) (p : Option Addr) (l : List (Addr × Chunk D)), m ≤ n → h.walk m p = some l →
        h.walk n p = some l := by
      intro D h m n p l hmn hw
      induction hmn with
      | refl => exact hw
      | step _ ih => exact hmono _ _ _ _ ih
    have hscan2 : ∀ {D : Type} (h : Heap D) (m n : Nat) l, m ≤ n → h.scan m = some l → h.scan n = some l := by
      intro D h m n l hmn hs
      unfold Heap.scan at hs ⊢
      cases hl : h.last with
      | none => rw [hl] at hs; exact hs
      | some o => rw [hl] at hs; exact hmono2 _ _ _ _ _ hmn hs
    have hr2 : rows = rows2 := by
      have h1 : rowsOf s1.mem.main (max fuel N2) = some rows := by
        unfold rowsOf at hrows ⊢
        cases hc : s1.mem.main.scan fuel with
        | none => rw [hc] at hrows; simp at hrows
        | some l => rw [hc] at hrows; rw [hscan2 _ _ _ l (Nat.le_max_left fuel N2) hc]; exact hrows
      rw [hrows2 _ (Nat.le_max_right _ _)] at h1
      simpa using h1.symm
    have hxs : ∀ l, sh'.scan fuel = some l → l = xs := by
      intro l hl
      have h1 := hscan2 _ _ _ l (Nat.le_max_left fuel N) hl
      rw [hscan _ (Nat.le_max_right _ _)] at h1
      simpa using h1.symm
    have hcm : ∀ y, y ∈ cells xs ↔ y ∈ q' := fun y => hperm.mem_iff
    have hpend : ∀ y, Pend (cells xs) y ↔ Pend q' y := fun y => by unfold Pend; simp only [hcm]
    have hmid : Mid size key s1.mem.main s1.idx live1 lm xs := by
      refine ⟨hs.main, hs.flags, ?_, hkinds, ?_, ?_, hs.nodup, hq1, ?_⟩
      · exact (hperm.map Prod.fst).nodup_iff.2 (holds_nodup hs.shadow)
      · intro a b p h1 h2; exact hs.once a b p ((hcm _).1 h1) ((hcm _).1 h2)
      · intro p h; exact hs.inMain p ((hpend p).1 h)
      · intro p r; rw [hs.live, hpend, hcm]
    have hnp : ∀ p, ¬ Pend (cells xs) p := by
      intro p hp
      obtain ⟨r, hr'⟩ := hs.inMain p ((hpend p).1 hp)
      have h1 : ((⟨false, p⟩ : Ptr), r) ∈ live1 := hkeep _ ((hn.live _ _).2 ⟨rfl, hr'⟩)
      rcases (hmid.live _ _).1 h1 with ⟨_, _, h2⟩ | ⟨h2, _⟩
      · exact h2 hp
      · simp at h2
    have hj0 : Maps key2 jx lm := by
      have := buildJob_maps rows [] (fun _ => none) jx (by intro k p; simp) hjob
      intro k p
      rw [this]
      simp only [List.nil_append, hr2, hp2.mem_iff]
    unfold Partn.applyIndex at hap
    rw [hs.on] at hap
    simp only at hap
    cases hsc : sh'.scan fuel with
    | none => rw [hsc] at hap; simp at hap
    | some l =>
      rw [hsc] at hap
      have := hxs l hsc
      subst this
      simp only at hap
      cases hb : applyBuild size key key2 l s1.mem.main s1.idx jx with
      | none => rw [hb] at hap; simp at hap
      | some w =>
        obtain ⟨h', ix', jx'⟩ := w
        rw [hb] at hap
        simp only [Option.some.injEq, Prod.mk.injEq] at hap
        obtain ⟨live2, lm2, r1, r2, r3⟩ := applyBuild_ok hsz _ _ _ _ _ _ _ _ _ hmid hnp hj0 hb
        obtain ⟨e1, e2⟩ := hap
        have hnorm : Normal size s2 live2 lm2 := by
          rw [← e1]
          refine ⟨r1.main, r1.flags, rfl, r1.nodup, ?_⟩
          intro p r
          rw [r1.live]
          have : ¬ Pend ([] : List (Addr × Cell R)) p.addr := by rintro ⟨a, h⟩; simp at h
          simp [this, cells]
        have hq2 : Quiet key s2.idx live2 := by rw [← e1]; exact r1.quiet
        refine ⟨⟨?_, ?_⟩, ?_⟩
        · intro j p hj
          rw [← e2] at hj
          obtain ⟨g1, r, g2, g3⟩ := (r2 j p).1 hj
          exact ⟨r, normal_deref hnorm ((hnorm.live _ _).2 ⟨g1, g2⟩), g3⟩
        · intro k p r hk hd
          obtain ⟨x, hx, _⟩ := hq2.1 k p hk
          have h1 := normal_deref hnorm hx
          rw [h1] at hd
          simp only [Option.some.injEq] at hd
          subst hd
          obtain ⟨g1, g2⟩ := (hnorm.live _ _).1 hx
          rw [← e2]
          exact (r2 _ p).2 ⟨g1, x, g2, rfl⟩
        · intro k
          apply option_ext
          intro r
          rw [lookup_entry hq2 (fun p r h => normal_deref hnorm h), lookup_entry hq1 (fun p r h => snap_deref hs h)]
          have : s2.idx = ix' := by rw [← e1]
          rw [this, r3]
  · have := hn.on; rw [hoff] at this; simp at this

/-- the hypotheses are met: 43 is inserted during the build over 11 and 22 -/
example : (rowsOf (twoB.put 43).mem.main 10).bind (fun rows => (buildJob ky2 rows fun _ => none).bind fun jx =>
    ((twoB.put 43).applyIndex sz ky ky2 jx 10).map fun x => [x.2 1, x.2 2, x.2 4]) =
    some [some ⟨false, (0, 24)⟩, some ⟨false, (0, 72)⟩, some ⟨false, (0, 120)⟩] := by decide

/-- one build during which 11 is deleted -/
def del11 : Partn Nat Nat := (twoB.step sz (.index 1 none)).step sz (.free ⟨false, (0, 24)⟩)

def built (s : Partn Nat Nat) : Option (Partn Nat Nat × (Nat → Option Ptr)) :=
  (rowsOf s.mem.main 10).bind fun rows => (buildJob ky2 rows fun _ => none).bind fun jx => s.applyIndex sz ky ky2 jx 10

/-- C50 fails: a row deleted while the index is built stays in the new index, which then refers to released memory -/
theorem C50_delete_false : ∃ live1, Uses sz { two with mem := two.mem.begin } liveTwo
      [.index 1 none, .free ⟨false, (0, 24)⟩] del11 live1 ∧ Quiet ky del11.idx live1 ∧
    ∃ s2 jx2, built del11 = some (s2, jx2) ∧ ¬ IndexOk ky2 s2 jx2 := by
  refine ⟨_, .index 1 none (.free ⟨false, (0, 24)⟩ 11 [_] [] rfl (.nil _ _)), ?_, ?_⟩
  · constructor
    · intro k p h
      by_cases h2 : k = 2
      · subst h2
        refine ⟨22, ?_, rfl⟩
        have : del11.idx 2 = some ⟨false, (0, 72)⟩ := by decide
        rw [this] at h; cases h; simp
      · have : del11.idx k = none := by
          simp only [del11, twoB, two, Partn.put, Partn.step, assign, empty]
          by_cases h1 : k = 1
          · rw [if_pos h1]
          · rw [if_neg h1, if_neg (by simpa [ky] using h2), if_neg (by simpa [ky] using h1)]
        rw [this] at h; simp at h
    · intro p r h
      simp only [List.append_nil, List.mem_cons, List.not_mem_nil, or_false, Prod.mk.injEq] at h
      obtain ⟨rfl, rfl⟩ := h
      decide
  · have hx : (built del11).map (fun x => (x.2 1, x.1.mem.deref ⟨false, (0, 24)⟩)) = some (some ⟨false, (0, 24)⟩, none) := by decide
    cases hb : built del11 with
    | none => rw [hb] at hx; simp at hx
    | some w =>
      obtain ⟨s2, jx2⟩ := w
      rw [hb] at hx
      simp only [Option.map_some, Option.some.injEq, Prod.mk.injEq] at hx
      refine ⟨s2, jx2, rfl, ?_⟩
      rintro ⟨h1, _⟩
      obtain ⟨r, h2, _⟩ := h1 1 _ hx.1
      rw [hx.2] at h2
      simp at h2

/-- C50 fails: an update of a row (not of its index key) while the index is built makes CREATE INDEX report a duplicate although
all keys are different: 11, 22 becomes 11, 22 again with a new copy of the row -/
theorem C50_update_false : built ((twoB.put 22).step sz (.free ⟨false, (0, 72)⟩)) = none := by decide

/-! ## C51 -/

/-- C51, without a restart: right after TRUNCATE no key is found. Missing: after a restart, see below. -/
theorem C51_partial (s : Partn K R) (k : K) : s.truncate.lookup k = none := rfl

/-- C51 fails: the row memory is not released by TRUNCATE, so the rows are in the next checkpoint and back after a restart -/
theorem C51_restart_false : ∃ s live, Reach sz ky s live ∧ Quiet ky s.idx live ∧ s.mem.shadow = none ∧
    ∃ s', s.truncate.restart ky 10 = some s' ∧ s'.lookup 1 = some 11 ∧ s'.lookup 2 = some 22 := by
  have hx : (two.truncate.restart ky 10).map (fun s' => (s'.lookup 1, s'.lookup 2)) = some (some 11, some 22) := by decide
  cases hb : two.truncate.restart ky 10 with
  | none => rw [hb] at hx; simp at hx
  | some s' =>
    rw [hb] at hx
    simp only [Option.map_some, Option.some.injEq, Prod.mk.injEq] at hx
    exact ⟨two, liveTwo, two_reach, two_quiet, rfl, s', hb, hx.1, hx.2⟩

/-! ## C52 -/

/-- the key of the unique index: both sample rows have the same -/
def same (r : Nat) : Nat := r / 100

/-- C52: an index build that fails in its first phase (the rows of the table) has not changed the table: lookups find what they found -/
theorem C52_partial (s : Partn K R) (hr : ∀ k p, s.idx k = some p → p.shadow = false) (k : K) :
    ({ s with mem := s.mem.begin } : Partn K R).lookup k = s.lookup k := by
  unfold Partn.lookup
  cases hi : s.idx k with
  | none => rfl
  | some p =>
    have := hr k p hi
    simp only [Option.bind_some, Mem.deref, this, Mem.begin, Bool.false_eq_true, if_false]

/-- C52 fails: after a CREATE UNIQUE INDEX that reported duplicates, the partition stays in snapshot mode (indexate.c:253-277
neither ends the snapshot nor applies the shadow heap). A row inserted later is found, but the next checkpoint (which begins with
the heap as it is) does not contain it, and a row deleted later is in it: after a restart the insert is lost and the delete undone. -/
theorem C52_false : (rowsOf twoB.mem.main 10).bind (fun rows => buildJob same rows fun _ => none) = none ∧
    (let s := (twoB.put 43).step sz (.index 1 none) |>.step sz (.free ⟨false, (0, 24)⟩)
     s.lookup 3 = some 43 ∧ s.lookup 1 = none ∧
     (({ s with mem := s.mem.begin } : Partn Nat Nat).restart ky 10).map (fun s' => (s'.lookup 1, s'.lookup 3)) =
       some (some 11, none)) := by decide

end Verif.Heap
