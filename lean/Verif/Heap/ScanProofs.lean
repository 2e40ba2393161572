import Verif.Heap.Proofs
set_option linter.unusedSimpArgs false
/-!
# Heap histories and scans
-/
namespace Verif.Heap
variable {D : Type}

theorem allowed_pages {ms : Nat} {h h' : Heap D} {live live' : List (Block D)} {ops : List (Op D)}
    (ha : Allowed ms h live ops h' live') (hms : ms ≤ 516071) (hi : Inv h live) (hfew : h'.pages.length ≤ 2 ^ 19) :
    h.pages.length ≤ h'.pages.length ∧ Inv h' live' := by
  induction ha with
  | nil => exact ⟨Nat.le_refl _, hi⟩
  | add n d hn _ ih =>
    obtain ⟨i1, g1, _⟩ := inv_add hi n d false false (by omega)
    obtain ⟨g2, i2⟩ := ih i1 hfew
    exact ⟨by omega, i2⟩
  | @remove h h' live live' ops a n d l1 l2 he hrest ih =>
    subst he
    -- the number of pages does not change
    have hlen : (h.remove a).pages.length = h.pages.length := by
      unfold Heap.remove
      cases h.chunkAt a with
      | none => rfl
      | some c => simp [updateAt]
    by_cases hsmall : h.pages.length ≤ 2 ^ 19
    · obtain ⟨i1, g1, _⟩ := inv_remove a n d hi hsmall
      obtain ⟨g2, i2⟩ := ih i1 hfew
      exact ⟨by omega, i2⟩
    · -- impossible: pages never disappear
      exfalso
      have mono : ∀ {h h' : Heap D} {live live' : List (Block D)} {ops : List (Op D)},
          Allowed ms h live ops h' live' → h.pages.length ≤ h'.pages.length := by
        intro h h' live live' ops hx
        induction hx with
        | nil => exact Nat.le_refl _
        | @add h h' live live' ops n d hn _ ih =>
          refine Nat.le_trans ?_ ih
          unfold Heap.add
          dsimp only
          split
          · simp [updateAt]
          · unfold Heap.bump Heap.prepare
            dsimp only
            rw [List.length_modify]
            repeat' split
            all_goals simp [updateAt]
        | @remove h h' live live' ops a n d l1 l2 he _ ih =>
          refine Nat.le_trans ?_ ih
          unfold Heap.remove
          cases h.chunkAt a with
          | none => exact Nat.le_refl _
          | some c => simp [updateAt]
        | reopen _ ih => exact ih
      have := mono hrest
      omega
  | reopen _ ih =>
    rw [inv_reopen hi] at ih
    exact ih hi hfew

/-! ## Scan -/

/-- all chunks of a page with their addresses -/
def located (p : Nat) (cs : List (Chunk D)) : List (Addr × Chunk D) := cs.map fun c => ((p, c.offset), c)

def locatedAll : Nat → List (Page D) → List (Addr × Chunk D)
  | _, [] => []
  | p, pg :: ps => located p pg.chunks ++ locatedAll (p + 1) ps

def usedOf (l : List (Addr × Chunk D)) : List (Addr × Chunk D) := l.filter fun x => !x.2.isFree

theorem walk_ok {h : Heap D} (hok : ∀ pg ∈ h.pages, PageOk pg) : ∀ (fuel : Nat) (pre post : List (Page D)) (pg : Page D)
    (done todo : List (Chunk D)) (c : Chunk D), h.pages = pre ++ pg :: post → pg.chunks = done ++ c :: todo →
    (c :: todo).length + (locatedAll 0 post).length ≤ fuel →
    h.walk fuel (some (pre.length, c.offset)) =
      some (usedOf (located pre.length (c :: todo) ++ locatedAll (pre.length + 1) post)) := by
  have hlen : ∀ (ps : List (Page D)) (i j : Nat), (locatedAll i ps).length = (locatedAll j ps).length := by
    intro ps
    induction ps with
    | nil => intro i j; rfl
    | cons pg ps ih => intro i j; simp only [locatedAll, List.length_append, located, List.length_map, ih (i + 1) (j + 1)]
  intro fuel
  induction fuel with
  | zero => intro pre post pg done todo c _ _ hf; simp at hf
  | succ fuel ih =>
    intro pre post pg done todo c hp hcs hf
    have hpg := hok pg (by rw [hp]; simp)
    have hget : h.pages[pre.length]? = some pg := by rw [hp]; simp
    have hat : h.chunkAt (pre.length, c.offset) = some c := by
      unfold Heap.chunkAt
      rw [hget]
      exact tiled_find hpg.tiled c (by rw [hcs]; simp)
    unfold Heap.walk
    rw [hat]
    simp only
    have hnext : h.walk fuel (h.nextChunk (pre.length, c.offset)) =
        some (usedOf (located pre.length todo ++ locatedAll (pre.length + 1) post)) := by
      unfold Heap.nextChunk
      rw [hat]
      simp only
      -- the mark tells whether it is the last chunk, and the next one follows without gap
      have key : ∀ (done : List (Chunk D)) (s : Nat), Tiled s (done ++ c :: todo) pg.size → Lasts (done ++ c :: todo) pg.last →
          c.isLast = todo.isEmpty ∧ ∀ x xs, todo = x :: xs → x.offset = c.offset + bucketSize c.bucket := by
        intro done
        induction done with
        | nil =>
          intro s ht hl
          cases todo with
          | nil => exact ⟨hl.1, by simp⟩
          | cons x xs =>
            refine ⟨hl.1, ?_⟩
            intro y ys he
            simp only [List.cons.injEq] at he
            obtain ⟨rfl, rfl⟩ := he
            obtain ⟨e1, _, e2, _⟩ := ht
            rw [e2, e1]
        | cons d done ihd =>
          intro s ht hl
          refine ihd _ ht.2.2 ?_
          cases hd : done ++ c :: todo with
          | nil => simp at hd
          | cons z zs =>
            rw [List.cons_append, hd] at hl
            exact hl.2
      obtain ⟨k1, k2⟩ := key done headerSize (hcs ▸ hpg.tiled) (hcs ▸ hpg.lasts)
      cases todo with
      | cons x xs =>
        simp only [List.isEmpty_cons] at k1
        rw [k1]
        simp only [Bool.not_false, if_true]
        rw [← k2 x xs rfl]
        refine ih pre post pg (done ++ [c]) xs x hp (by rw [hcs]; simp) ?_
        simp only [List.length_cons] at hf ⊢
        omega
      | nil =>
        simp only [List.isEmpty_nil] at k1
        rw [k1]
        simp only [Bool.not_true, Bool.false_eq_true, if_false, located, List.map_nil, List.nil_append]
        cases post with
        | nil =>
          rw [if_pos (by rw [hp]; simp)]
          unfold Heap.walk
          cases fuel <;> rfl
        | cons pg' post =>
          rw [if_neg (by rw [hp]; simp)]
          have hpg' := hok pg' (by rw [hp]; simp)
          cases hc' : pg'.chunks with
          | nil => exact absurd hc' (lasts_ne hpg'.lasts)
          | cons c' cs' =>
            have ho : c'.offset = headerSize := by
              have := hpg'.tiled
              rw [hc'] at this
              exact this.1
            have := ih (pre ++ [pg]) post pg' [] cs' c' (by rw [hp]; simp) (by rw [hc']; rfl) (by
              simp only [locatedAll, List.length_append, located, List.length_map, hc', List.length_cons] at hf ⊢
              rw [hlen post 0 (0 + 1)]
              simp only [List.length_nil] at hf
              omega)
            simp only [List.length_append, List.length_singleton] at this
            rw [ho] at this
            rw [this]
            simp only [locatedAll, hc']
    rw [hnext]
    simp only
    congr 1
    simp only [usedOf, located, List.map_cons, List.cons_append, List.filter_cons]
    cases c.isFree <;> simp

theorem scan_ok {h : Heap D} {live : List (Block D)} (hi : Inv h live) (fuel : Nat)
    (hf : (locatedAll 0 h.pages).length ≤ fuel) : h.scan fuel = some (usedOf (locatedAll 0 h.pages)) := by
  unfold Heap.scan
  have hl := hi.lastOk
  cases hp : h.pages with
  | nil =>
    rw [hp] at hl
    simp only [List.getLast?_nil, Option.map_none] at hl
    rw [hl]
    rfl
  | cons pg post =>
    have hne : h.last ≠ none := by
      rw [hl, hp, List.getLast?_eq_some_getLast (by simp)]
      simp
    cases hq : h.last with
    | none => exact absurd hq hne
    | some o =>
      simp only
      have hpg := hi.pagesOk pg (by rw [hp]; simp)
      cases hc : pg.chunks with
      | nil => exact absurd hc (lasts_ne hpg.lasts)
      | cons c cs =>
        have ho : c.offset = headerSize := by
          have := hpg.tiled
          rw [hc] at this
          exact this.1
        have hlen : ∀ (ps : List (Page D)) (i j : Nat), (locatedAll i ps).length = (locatedAll j ps).length := by
          intro ps
          induction ps with
          | nil => intro i j; rfl
          | cons pg ps ih => intro i j; simp only [locatedAll, List.length_append, located, List.length_map, ih (i + 1) (j + 1)]
        have := walk_ok hi.pagesOk fuel [] post pg [] cs c hp hc (by
          rw [hp] at hf
          simp only [locatedAll, List.length_append, located, List.length_map, hc, List.length_cons] at hf ⊢
          rw [hlen post 0 (0 + 1)]
          omega)
        simp only [List.length_nil, ho] at this
        rw [this]
        simp [locatedAll, hc]

theorem mem_locatedAll : ∀ (ps : List (Page D)) (p : Nat) (x : Addr × Chunk D), x ∈ locatedAll p ps ↔
    ∃ (j : Nat), ∃ pg, ps[j]? = some pg ∧ x.2 ∈ pg.chunks ∧ x.1 = (p + j, x.2.offset) := by
  intro ps
  induction ps with
  | nil => intro p x; simp [locatedAll]
  | cons pg ps ih =>
    intro p x
    simp only [locatedAll, List.mem_append, ih, located, List.mem_map]
    constructor
    · rintro (⟨c, hc, rfl⟩ | ⟨j, q, h1, h2, h3⟩)
      · exact ⟨0, pg, rfl, hc, rfl⟩
      · exact ⟨j + 1, q, h1, h2, by rw [h3]; congr 1; omega⟩
    · rintro ⟨j, q, h1, h2, h3⟩
      cases j with
      | zero =>
        simp only [List.getElem?_cons_zero, Option.some.injEq] at h1
        subst h1
        exact .inl ⟨x.2, h2, by rw [Nat.add_zero] at h3; exact Prod.ext h3.symm rfl⟩
      | succ j => exact .inr ⟨j, q, h1, h2, by rw [h3]; congr 1; omega⟩

theorem tiled_nodup : ∀ {cs : List (Chunk D)} {s e : Nat}, Tiled s cs e → (cs.map Chunk.offset).Nodup := by
  intro cs
  induction cs with
  | nil => intro s e _; exact List.nodup_nil
  | cons c cs ih =>
    intro s e h
    rw [List.map_cons]
    refine List.nodup_cons.2 ⟨?_, ih h.2.2⟩
    intro hm
    obtain ⟨x, hx, he⟩ := List.mem_map.1 hm
    have := (tiled_mem h.2.2 x hx).1
    have h2 := (bucketSize_small c.bucket h.2.1).1
    have h1 := h.1
    omega

theorem locatedAll_nodup : ∀ (ps : List (Page D)) (p : Nat), (∀ pg ∈ ps, PageOk pg) →
    ((locatedAll p ps).map Prod.fst).Nodup := by
  intro ps
  induction ps with
  | nil => intro p _; exact List.nodup_nil
  | cons pg ps ih =>
    intro p hok
    simp only [locatedAll, List.map_append]
    rw [List.nodup_append]
    refine ⟨?_, ih (p + 1) fun q hq => hok q (by simp [hq]), ?_⟩
    · have := tiled_nodup (hok pg (by simp)).tiled
      simp only [located, List.map_map]
      rw [List.Nodup, List.pairwise_map] at this ⊢
      refine this.imp ?_
      intro a b hab
      simp only [Function.comp]
      intro hh
      exact hab (Prod.mk.inj hh).2
    · intro a ha b hb hab
      subst hab
      obtain ⟨x, hx, rfl⟩ := List.mem_map.1 ha
      obtain ⟨y, hy, hye⟩ := List.mem_map.1 hb
      simp only [located, List.mem_map] at hx
      obtain ⟨c, _, rfl⟩ := hx
      obtain ⟨j, q, _, _, h3⟩ := (mem_locatedAll ps (p + 1) y).1 hy
      rw [h3] at hye
      have := (Prod.mk.inj hye).1
      omega

/-- the rows found by a scan are the live blocks -/
theorem scan_live {h : Heap D} {live : List (Block D)} (hi : Inv h live) :
    ((usedOf (locatedAll 0 h.pages)).map fun x => (x.1, x.2.data)).Perm (live.map fun b => (addrOf b, b.data)) := by
  have n1 : ((usedOf (locatedAll 0 h.pages)).map fun x => (x.1, x.2.data)).Nodup := by
    have hsub : ((usedOf (locatedAll 0 h.pages)).map Prod.fst).Nodup :=
      (locatedAll_nodup h.pages 0 hi.pagesOk).sublist (List.filter_sublist.map _)
    rw [List.Nodup, List.pairwise_map] at hsub ⊢
    exact hsub.imp fun hab hh => hab (Prod.mk.inj hh).1
  have n2 : (live.map fun b => (addrOf b, b.data)).Nodup := by
    have := hi.liveOk.nodup
    rw [List.Nodup, List.pairwise_map] at this ⊢
    exact this.imp fun hab hh => hab (Prod.mk.inj hh).1
  have hview : ∀ (a : Addr) (c : Chunk D), (a, c) ∈ locatedAll 0 h.pages ↔ h.chunkAt a = some c := by
    intro a c
    rw [mem_locatedAll]
    constructor
    · rintro ⟨j, pg, h1, h2, h3⟩
      simp only [Nat.zero_add] at h2 h3
      subst h3
      unfold Heap.chunkAt
      simp only [h1]
      exact tiled_find (hi.pagesOk pg (List.mem_of_getElem? h1)).tiled c h2
    · intro hc
      obtain ⟨pg, h1, h2, h3⟩ := chunkAt_some hc
      exact ⟨a.1, pg, h1, h2, by simp only [Nat.zero_add, h3]⟩
  rw [List.perm_ext_iff_of_nodup n1 n2]
  intro x
  simp only [List.mem_map, usedOf, List.mem_filter]
  constructor
  · rintro ⟨⟨a, c⟩, ⟨h1, h2⟩, rfl⟩
    rw [hview] at h1
    have hv : h.view a = some c.core := by unfold Heap.view; rw [h1]; rfl
    obtain ⟨b, hb, he⟩ := hi.liveOk.all a c.core hv (by simpa [Chunk.core] using h2)
    obtain ⟨c', e1, _, e3, _⟩ := hi.liveOk.used b hb
    rw [he, hv] at e1
    simp only [Option.some.injEq] at e1
    subst e1
    exact ⟨b, hb, by rw [he, ← e3]; rfl⟩
  · rintro ⟨b, hb, rfl⟩
    obtain ⟨c, e1, e2, e3, _⟩ := hi.liveOk.used b hb
    unfold Heap.view at e1
    cases hc : h.chunkAt (addrOf b) with
    | none => rw [hc] at e1; simp at e1
    | some ch =>
      rw [hc] at e1
      simp only [Option.map_some, Option.some.injEq] at e1
      subst e1
      refine ⟨(addrOf b, ch), ⟨(hview _ _).2 hc, by simpa [Chunk.core] using e2⟩, ?_⟩
      simp only [Prod.mk.injEq, true_and]
      exact e3

end Verif.Heap
