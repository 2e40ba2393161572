import Verif.Heap.Spec
set_option linter.unusedSimpArgs false
/-!
# Heap proofs
-/
namespace Verif.Heap
variable {D : Type}

/-! ## Buckets -/

theorem log2_bounds {n : Nat} (h : n ≠ 0) : 2 ^ n.log2 ≤ n ∧ n < 2 ^ (n.log2 + 1) :=
  ⟨Nat.log2_self_le h, Nat.lt_log2_self⟩

theorem bucket_fits (size : Nat) (h0 : 0 < size) (h1 : size < 516096) :
    size ≤ bucketSize (bucketOf size) ∧ bucketOf size < 351 := by
  obtain ⟨b1, b2⟩ := log2_bounds (n := size) (by omega)
  have hl : size.log2 < 19 := (Nat.log2_lt (by omega)).2 (by omega)
  unfold bucketOf
  by_cases h9 : size.log2 ≤ 9
  · have : size < 2 ^ 10 := Nat.lt_of_lt_of_le b2 (Nat.pow_le_pow_right (by omega) (by omega))
    have hs : 16 ≠ 0 := by omega
    simp only [logToBucket, h9, if_true, if_pos hs]
    unfold bucketSize
    rw [if_pos (by omega)]
    omega
  · have hk : size.log2 = 10 ∨ size.log2 = 11 ∨ size.log2 = 12 ∨ size.log2 = 13 ∨ size.log2 = 14 ∨ size.log2 = 15 ∨
        size.log2 = 16 ∨ size.log2 = 17 ∨ size.log2 = 18 := by omega
    rcases hk with hk | hk | hk | hk | hk | hk | hk | hk | hk <;>
      (rw [hk] at b1 b2
       simp [logToBucket, hk]
       simp at b1 b2
       refine ⟨?_, by omega⟩
       unfold bucketSize
       repeat (first | rw [if_pos (by omega)] | rw [if_neg (by omega)])
       omega)

theorem bucketSize_small (b : Nat) (h : b < 351) : 0 < bucketSize b ∧ bucketSize b ≤ 516096 := by
  unfold bucketSize
  repeat' split
  all_goals omega

/-! ## Pages -/

/-- chunks follow each other without gap from `s` to `e` -/
def Tiled : Nat → List (Chunk D) → Nat → Prop
  | s, [], e => s = e
  | s, c :: cs, e => c.offset = s ∧ c.bucket < 351 ∧ Tiled (s + bucketSize c.bucket) cs e

/-- only the last chunk is marked as last, and it is at offset `o` -/
def Lasts : List (Chunk D) → Nat → Prop
  | [], _ => False
  | [c], o => c.isLast = true ∧ c.offset = o
  | c :: cs, o => c.isLast = false ∧ Lasts cs o

structure PageOk (pg : Page D) : Prop where
  tiled : Tiled headerSize pg.chunks pg.size
  lasts : Lasts pg.chunks pg.last
  small : pg.size ≤ pageSize

theorem tiled_le : ∀ {cs : List (Chunk D)} {s e : Nat}, Tiled s cs e → s ≤ e := by
  intro cs
  induction cs with
  | nil => intro s e h; exact Nat.le_of_eq h
  | cons c cs ih => intro s e h; have := ih h.2.2; omega

theorem tiled_mem : ∀ {cs : List (Chunk D)} {s e : Nat}, Tiled s cs e → ∀ c ∈ cs,
    s ≤ c.offset ∧ c.offset + bucketSize c.bucket ≤ e ∧ c.bucket < 351 := by
  intro cs
  induction cs with
  | nil => intro s e _ c hc; simp at hc
  | cons x cs ih =>
    intro s e h c hc
    obtain ⟨h1, h2, h3⟩ := h
    rcases List.mem_cons.1 hc with rfl | hc
    · have := tiled_le h3
      exact ⟨by omega, by omega, h2⟩
    · obtain ⟨a, b, d⟩ := ih h3 c hc
      have := (bucketSize_small x.bucket h2).1
      exact ⟨by omega, b, d⟩

theorem tiled_find : ∀ {cs : List (Chunk D)} {s e : Nat}, Tiled s cs e → ∀ c ∈ cs,
    cs.find? (fun x => x.offset = c.offset) = some c := by
  intro cs
  induction cs with
  | nil => intro s e _ c hc; simp at hc
  | cons x cs ih =>
    intro s e h c hc
    obtain ⟨h1, h2, h3⟩ := h
    rcases List.mem_cons.1 hc with rfl | hc
    · simp
    · have := (tiled_mem h3 c hc).1
      have hp := (bucketSize_small x.bucket h2).1
      rw [List.find?_cons_of_neg (by simp; omega)]
      exact ih h3 c hc

theorem tiled_disjoint : ∀ {cs : List (Chunk D)} {s e : Nat}, Tiled s cs e → ∀ c ∈ cs, ∀ d ∈ cs, c.offset ≠ d.offset →
    c.offset + bucketSize c.bucket ≤ d.offset ∨ d.offset + bucketSize d.bucket ≤ c.offset := by
  intro cs
  induction cs with
  | nil => intro s e _ c hc; simp at hc
  | cons x cs ih =>
    intro s e h c hc d hd hne
    obtain ⟨h1, h2, h3⟩ := h
    rcases List.mem_cons.1 hc with hc' | hc' <;> rcases List.mem_cons.1 hd with hd' | hd'
    · subst hc'; subst hd'; exact absurd rfl hne
    · subst hc'; have := (tiled_mem h3 d hd').1; omega
    · subst hd'; have := (tiled_mem h3 c hc').1; omega
    · exact ih h3 c hc' d hd' hne

theorem tiled_append : ∀ {cs : List (Chunk D)} {s e : Nat}, Tiled s cs e → ∀ {c : Chunk D}, c.offset = e → c.bucket < 351 →
    Tiled s (cs ++ [c]) (e + bucketSize c.bucket) := by
  intro cs
  induction cs with
  | nil => intro s e h c h1 h2; simp only [Tiled] at h; subst h; exact ⟨h1, h2, rfl⟩
  | cons x cs ih => intro s e h c h1 h2; exact ⟨h.1, h.2.1, ih h.2.2 h1 h2⟩

theorem tiled_map : ∀ {cs : List (Chunk D)} {s e : Nat} (f : Chunk D → Chunk D),
    (∀ c, (f c).offset = c.offset ∧ (f c).bucket = c.bucket) → Tiled s cs e → Tiled s (cs.map f) e := by
  intro cs
  induction cs with
  | nil => intro s e f _ h; exact h
  | cons x cs ih =>
    intro s e f hf h
    refine ⟨(hf x).1.trans h.1, (hf x).2 ▸ h.2.1, ?_⟩
    rw [(hf x).2]
    exact ih f hf h.2.2

theorem lasts_map : ∀ {cs : List (Chunk D)} {o : Nat} (f : Chunk D → Chunk D),
    (∀ c, (f c).offset = c.offset ∧ (f c).isLast = c.isLast) → Lasts cs o → Lasts (cs.map f) o := by
  intro cs
  induction cs with
  | nil => intro o f _ h; exact h
  | cons x cs ih =>
    intro o f hf h
    cases cs with
    | nil => exact ⟨(hf x).2.trans h.1, (hf x).1.trans h.2⟩
    | cons y cs => exact ⟨(hf x).2.trans h.1, ih f hf h.2⟩

theorem lasts_ne : ∀ {cs : List (Chunk D)} {o : Nat}, Lasts cs o → cs ≠ [] := by
  intro cs o h hx; rw [hx] at h; exact h

theorem lasts_mem : ∀ {cs : List (Chunk D)} {o : Nat}, Lasts cs o → ∃ c ∈ cs, c.offset = o := by
  intro cs
  induction cs with
  | nil => intro o h; exact h.elim
  | cons x cs ih =>
    intro o h
    cases cs with
    | nil => exact ⟨x, by simp, h.2⟩
    | cons y cs => obtain ⟨c, hc, he⟩ := ih h.2; exact ⟨c, List.mem_cons_of_mem _ hc, he⟩

/-- the old last chunk loses its mark when a new one is appended -/
theorem lasts_snoc : ∀ {cs : List (Chunk D)} {s e o : Nat}, Tiled s cs e → Lasts cs o → ∀ (c : Chunk D), c.isLast = true →
    Lasts (cs.map (fun x => if x.offset = o then { x with isLast := false } else x) ++ [c]) c.offset := by
  intro cs
  induction cs with
  | nil => intro s e o _ h; exact h.elim
  | cons x cs ih =>
    intro s e o ht h c hc
    cases cs with
    | nil =>
      obtain ⟨_, h2⟩ := h
      simp only [List.map_cons, List.map_nil, h2, if_true, List.cons_append, List.nil_append]
      exact ⟨rfl, hc, rfl⟩
    | cons y cs =>
      have h3 := ih ht.2.2 h.2 c hc
      refine ⟨?_, h3⟩
      dsimp only
      split
      · rfl
      · exact h.1

/-! ## What the headers say -/

/-- the fields the free lists and the owners of blocks depend on -/
structure Core (D : Type) where
  bucket       : Nat
  isFree       : Bool
  isShadow     : Bool
  isShadowFree : Bool
  prev         : Addr
  data         : D

def Chunk.core (c : Chunk D) : Core D := ⟨c.bucket, c.isFree, c.isShadow, c.isShadowFree, c.prev, c.data⟩

def Heap.view (h : Heap D) (a : Addr) : Option (Core D) := (h.chunkAt a).map Chunk.core

def upd (v : Addr → Option (Core D)) (a : Addr) (c : Core D) : Addr → Option (Core D) := fun x => if x = a then some c else v x

theorem find_update (cs : List (Chunk D)) (o o' : Nat) (f : Chunk D → Chunk D) (hf : ∀ c, (f c).offset = c.offset) :
    (cs.map fun c => if c.offset = o then f c else c).find? (fun c => c.offset = o') =
      (cs.find? fun c => c.offset = o').map fun c => if c.offset = o then f c else c := by
  rw [List.find?_map]
  congr 1
  congr 1
  funext c
  simp only [Function.comp]
  split
  · rw [hf]
  · rfl

theorem find_offset {cs : List (Chunk D)} {o : Nat} {c : Chunk D} (h : (cs.find? fun c => c.offset = o) = some c) :
    c ∈ cs ∧ c.offset = o := by
  refine ⟨List.mem_of_find?_eq_some h, ?_⟩
  have := List.find?_some h
  simpa using this

theorem chunkAt_some {h : Heap D} {a : Addr} {c : Chunk D} (hc : h.chunkAt a = some c) :
    ∃ pg, h.pages[a.1]? = some pg ∧ c ∈ pg.chunks ∧ c.offset = a.2 := by
  unfold Heap.chunkAt at hc
  cases hp : h.pages[a.1]? with
  | none => rw [hp] at hc; simp at hc
  | some pg =>
    rw [hp] at hc
    obtain ⟨h1, h2⟩ := find_offset hc
    exact ⟨pg, rfl, h1, h2⟩

theorem view_update (h : Heap D) (a : Addr) (f : Chunk D → Chunk D) (hf : ∀ c, (f c).offset = c.offset) (c : Chunk D)
    (hc : h.chunkAt a = some c) (h' : Heap D) (hp : h'.pages = updateAt h.pages a f) :
    h'.view = upd h.view a (f c).core := by
  funext x
  unfold Heap.view upd Heap.chunkAt
  rw [hp]
  unfold updateAt
  rw [List.getElem?_modify]
  by_cases hx : a.1 = x.1
  · cases hq : h.pages[x.1]? with
    | none =>
      simp only [Option.map_eq_map, Option.map_none]
      have : x ≠ a := by
        rintro rfl
        unfold Heap.chunkAt at hc
        rw [hq] at hc
        simp at hc
      rw [if_neg this, hq]; rfl
    | some pg =>
      simp only [Option.map_eq_map, Option.map_some, hx, if_true, Page.update]
      rw [find_update _ _ _ _ hf, Option.map_map]
      by_cases hxa : x = a
      · subst hxa
        rw [if_pos rfl]
        have hc' := hc
        unfold Heap.chunkAt at hc'
        rw [hq] at hc'
        simp only at hc'
        rw [hc']
        simp [(find_offset hc').2]
      · rw [if_neg hxa]
        have hne : x.2 ≠ a.2 := fun hh => hxa (Prod.ext hx.symm hh)
        cases hfind : pg.chunks.find? fun c => c.offset = x.2 with
        | none => simp [hq, hfind]
        | some y =>
          simp only [Option.map_some, Function.comp]
          rw [if_neg (by rw [(find_offset hfind).2]; exact hne)]
          simp [hq, hfind]
  · have hxa : x ≠ a := by rintro rfl; exact hx rfl
    rw [if_neg hxa]
    cases hq : h.pages[x.1]? with
    | none => simp [hq]
    | some pg => simp [hx, hq]

/-! ## Free lists and live blocks -/

/-- the chunks of a free list, following `prev` -/
def Linked (v : Addr → Option (Core D)) (b : Nat) : Addr → List Addr → Prop
  | _, [] => True
  | head, a :: rest => head = a ∧ ∃ c, v a = some c ∧ c.isFree = true ∧ c.bucket = b ∧ Linked v b c.prev rest

def FreeOk (v : Addr → Option (Core D)) (lists : Nat → FreeList) : Prop :=
  ∃ L : Nat → List Addr, ∀ b, (L b).length = (lists b).count ∧ (L b).Nodup ∧ Linked v b (lists b).list (L b)

theorem linked_mem {v : Addr → Option (Core D)} {b : Nat} : ∀ {l : List Addr} {head : Addr}, Linked v b head l → ∀ a ∈ l,
    ∃ c, v a = some c ∧ c.isFree = true ∧ c.bucket = b := by
  intro l
  induction l with
  | nil => intro head _ a ha; simp at ha
  | cons x l ih =>
    intro head h a ha
    obtain ⟨_, c, h1, h2, h3, h4⟩ := h
    rcases List.mem_cons.1 ha with rfl | ha
    · exact ⟨c, h1, h2, h3⟩
    · exact ih h4 a ha

theorem linked_upd {v : Addr → Option (Core D)} {b : Nat} {x : Addr} {cx : Core D} : ∀ {l : List Addr} {head : Addr},
    Linked v b head l → x ∉ l → Linked (upd v x cx) b head l := by
  intro l
  induction l with
  | nil => intro head _ _; trivial
  | cons y l ih =>
    intro head h hx
    obtain ⟨h0, c, h1, h2, h3, h4⟩ := h
    simp only [List.mem_cons, not_or] at hx
    refine ⟨h0, c, ?_, h2, h3, ih h4 hx.2⟩
    unfold upd
    rw [if_neg (fun hh => hx.1 hh.symm)]
    exact h1

/-- taking the first chunk of a free list -/
theorem free_pop {v : Addr → Option (Core D)} {lists : Nat → FreeList} (h : FreeOk v lists) (b : Nat)
    (hc : (lists b).count > 0) (cx : Core D) :
    ∃ c, v (lists b).list = some c ∧ c.isFree = true ∧ c.bucket = b ∧
      FreeOk (upd v (lists b).list cx) (fun x => if x = b then ⟨c.prev, (lists b).count - 1⟩ else lists x) := by
  obtain ⟨L, hL⟩ := h
  obtain ⟨h1, h2, h3⟩ := hL b
  cases hl : L b with
  | nil => rw [hl] at h1; simp at h1; omega
  | cons a rest =>
    rw [hl] at h1 h2 h3
    obtain ⟨h0, c, h4, h5, h6, h7⟩ := h3
    rw [h0]
    refine ⟨c, h4, h5, h6, fun x => if x = b then rest else L x, ?_⟩
    intro x
    by_cases hx : x = b
    · subst hx
      simp only [if_true]
      refine ⟨by simp at h1; omega, (List.nodup_cons.1 h2).2, linked_upd h7 (List.nodup_cons.1 h2).1⟩
    · simp only [if_neg hx]
      obtain ⟨g1, g2, g3⟩ := hL x
      refine ⟨g1, g2, linked_upd g3 ?_⟩
      intro hm
      obtain ⟨c', e1, _, e3⟩ := linked_mem g3 a hm
      rw [h4] at e1
      simp only [Option.some.injEq] at e1
      subst e1
      omega

/-- putting a used chunk on the free list of its bucket -/
theorem free_push {v : Addr → Option (Core D)} {lists : Nat → FreeList} (h : FreeOk v lists) (a : Addr) (c cx : Core D)
    (ha : v a = some c) (hu : c.isFree = false) (h1 : cx.isFree = true) (h2 : cx.bucket = c.bucket)
    (h3 : cx.prev = (lists c.bucket).list) :
    FreeOk (upd v a cx) (fun x => if x = c.bucket then ⟨a, (lists c.bucket).count + 1⟩ else lists x) := by
  obtain ⟨L, hL⟩ := h
  have hno : ∀ b, a ∉ L b := by
    intro b hm
    obtain ⟨c', e1, e2, _⟩ := linked_mem (hL b).2.2 a hm
    rw [ha] at e1
    simp only [Option.some.injEq] at e1
    subst e1
    rw [hu] at e2
    simp at e2
  refine ⟨fun x => if x = c.bucket then a :: L x else L x, ?_⟩
  intro x
  obtain ⟨g1, g2, g3⟩ := hL x
  by_cases hx : x = c.bucket
  · subst hx
    simp only [if_true]
    refine ⟨by simp [g1], List.nodup_cons.2 ⟨hno _, g2⟩, rfl, cx, ?_, h1, h2, ?_⟩
    · unfold upd; rw [if_pos rfl]
    · rw [h3]; exact linked_upd g3 (hno _)
  · simp only [if_neg hx]
    exact ⟨g1, g2, linked_upd g3 (hno _)⟩

/-- a chunk that was not there -/
theorem free_new {v : Addr → Option (Core D)} {lists : Nat → FreeList} (h : FreeOk v lists) (a : Addr) (cx : Core D)
    (ha : v a = none) : FreeOk (upd v a cx) lists := by
  obtain ⟨L, hL⟩ := h
  refine ⟨L, fun b => ?_⟩
  obtain ⟨g1, g2, g3⟩ := hL b
  refine ⟨g1, g2, linked_upd g3 ?_⟩
  intro hm
  obtain ⟨c', e1, _⟩ := linked_mem g3 a hm
  rw [ha] at e1
  simp at e1

def addrOf (b : Block D) : Addr := (b.page, b.start - chunkSize)

structure LiveOk (v : Addr → Option (Core D)) (live : List (Block D)) : Prop where
  nodup : (live.map addrOf).Nodup
  used  : ∀ b ∈ live, ∃ c, v (addrOf b) = some c ∧ c.isFree = false ∧ c.data = b.data ∧
            b.len + chunkSize ≤ bucketSize c.bucket ∧ chunkSize ≤ b.start ∧ c.bucket = bucketOf (chunkSize + b.len)
  all   : ∀ a c, v a = some c → c.isFree = false → ∃ b ∈ live, addrOf b = a

theorem addrOf_blockAt (a : Addr) (n : Nat) (d : D) : addrOf (blockAt a n d) = a := by
  simp [addrOf, blockAt]

theorem live_cons {v : Addr → Option (Core D)} {live : List (Block D)} (h : LiveOk v live) (a : Addr) (n : Nat) (d : D)
    (cx : Core D) (ha : ∀ c, v a = some c → c.isFree = true) (h1 : cx.isFree = false) (h2 : cx.data = d)
    (h3 : n + chunkSize ≤ bucketSize cx.bucket) (h4 : cx.bucket = bucketOf (chunkSize + n)) : LiveOk (upd v a cx) (blockAt a n d :: live) := by
  have hno : ∀ b ∈ live, addrOf b ≠ a := by
    intro b hb he
    obtain ⟨c, e1, e2, _⟩ := h.used b hb
    rw [he] at e1
    rw [ha c e1] at e2
    simp at e2
  constructor
  · rw [List.map_cons, addrOf_blockAt]
    refine List.nodup_cons.2 ⟨?_, h.nodup⟩
    intro hm
    obtain ⟨b, hb, he⟩ := List.mem_map.1 hm
    exact hno b hb he
  · intro b hb
    rcases List.mem_cons.1 hb with rfl | hb
    · refine ⟨cx, ?_, h1, h2, h3, Nat.le_add_left _ _, h4⟩
      rw [addrOf_blockAt]; unfold upd; rw [if_pos rfl]
    · obtain ⟨c, e1, e2⟩ := h.used b hb
      refine ⟨c, ?_, e2⟩
      unfold upd
      rw [if_neg (hno b hb)]
      exact e1
  · intro x c hx hf
    unfold upd at hx
    by_cases hxa : x = a
    · exact ⟨blockAt a n d, by simp, by rw [addrOf_blockAt, hxa]⟩
    · rw [if_neg hxa] at hx
      obtain ⟨b, hb, he⟩ := h.all x c hx hf
      exact ⟨b, by simp [hb], he⟩

theorem live_erase {v : Addr → Option (Core D)} {l1 l2 : List (Block D)} {b : Block D} (h : LiveOk v (l1 ++ b :: l2))
    (cx : Core D) (h1 : cx.isFree = true) : LiveOk (upd v (addrOf b) cx) (l1 ++ l2) := by
  have hp : (l1 ++ b :: l2).Perm (b :: (l1 ++ l2)) := List.perm_middle
  have hn : ((b :: (l1 ++ l2)).map addrOf).Nodup := (hp.map addrOf).nodup_iff.1 h.nodup
  rw [List.map_cons] at hn
  obtain ⟨hn1, hn2⟩ := List.nodup_cons.1 hn
  have hno : ∀ x ∈ l1 ++ l2, addrOf x ≠ addrOf b := fun x hx he => hn1 (he ▸ List.mem_map_of_mem hx)
  constructor
  · exact hn2
  · intro x hx
    obtain ⟨c, e1, e2⟩ := h.used x (hp.mem_iff.2 (List.mem_cons_of_mem _ hx))
    refine ⟨c, ?_, e2⟩
    unfold upd
    rw [if_neg (hno x hx)]
    exact e1
  · intro a c ha hf
    unfold upd at ha
    by_cases hxa : a = addrOf b
    · rw [if_pos hxa] at ha
      simp only [Option.some.injEq] at ha
      subst ha
      rw [h1] at hf
      simp at hf
    · rw [if_neg hxa] at ha
      obtain ⟨x, hx, he⟩ := h.all a c ha hf
      rcases List.mem_cons.1 (hp.mem_iff.1 hx) with rfl | hx
      · exact absurd he.symm hxa
      · exact ⟨x, hx, he⟩

/-! ## The heap -/

structure Inv (h : Heap D) (live : List (Block D)) : Prop where
  pagesOk : ∀ pg ∈ h.pages, PageOk pg
  lastOk  : h.last = h.pages.getLast?.map Page.last
  free    : FreeOk h.view h.lists
  liveOk  : LiveOk h.view live
  count   : h.countUsed = live.length
  bytes   : h.sizeUsed = ((live.map fun b => bucketSize (bucketOf (chunkSize + b.len))).sum : Nat)

theorem inv_init : Inv (Heap.init D) [] := by
  refine ⟨by simp [Heap.init], rfl, ⟨fun _ => [], fun b => ⟨rfl, List.nodup_nil, trivial⟩⟩, ?_, rfl, rfl⟩
  exact ⟨List.nodup_nil, by simp, by intro a c h; simp [Heap.view, Heap.chunkAt, Heap.init] at h⟩

theorem inv_reopen {h : Heap D} {live : List (Block D)} (hi : Inv h live) : h.reopen = h := by
  unfold Heap.reopen
  have := hi.lastOk
  cases h
  simp only at this ⊢
  rw [this]

/-- geometry of the chunks in memory -/
theorem inv_place {h : Heap D} {live : List (Block D)} (hi : Inv h live) {a : Addr} {c : Core D} (hc : h.view a = some c) :
    a.1 < h.pages.length ∧ headerSize ≤ a.2 ∧ a.2 + bucketSize c.bucket ≤ pageSize ∧ c.bucket < 351 := by
  unfold Heap.view at hc
  cases hx : h.chunkAt a with
  | none => rw [hx] at hc; simp at hc
  | some ch =>
    rw [hx] at hc
    simp only [Option.map_some, Option.some.injEq] at hc
    subst hc
    obtain ⟨pg, hp, hm, ho⟩ := chunkAt_some hx
    have hok := hi.pagesOk pg (List.mem_of_getElem? hp)
    obtain ⟨t1, t2, t3⟩ := tiled_mem hok.tiled ch hm
    have := hok.small
    refine ⟨(List.getElem?_eq_some_iff.1 hp).1, ho ▸ t1, ?_, t3⟩
    simp only [Chunk.core]
    omega

theorem inv_apart {h : Heap D} {live : List (Block D)} (hi : Inv h live) {a b : Addr} {c d : Core D}
    (hc : h.view a = some c) (hd : h.view b = some d) (hab : a ≠ b) :
    a.1 ≠ b.1 ∨ a.2 + bucketSize c.bucket ≤ b.2 ∨ b.2 + bucketSize d.bucket ≤ a.2 := by
  by_cases hp : a.1 = b.1
  · right
    unfold Heap.view at hc hd
    cases hx : h.chunkAt a with
    | none => rw [hx] at hc; simp at hc
    | some ca =>
    cases hy : h.chunkAt b with
    | none => rw [hy] at hd; simp at hd
    | some cb =>
      rw [hx] at hc
      rw [hy] at hd
      simp only [Option.map_some, Option.some.injEq] at hc hd
      subst hc
      subst hd
      obtain ⟨pg, p1, m1, o1⟩ := chunkAt_some hx
      obtain ⟨pg', p2, m2, o2⟩ := chunkAt_some hy
      rw [← hp, p1] at p2
      simp only [Option.some.injEq] at p2
      subst p2
      have hok := hi.pagesOk pg (List.mem_of_getElem? p1)
      have := tiled_disjoint hok.tiled ca m1 cb m2 (by rw [o1, o2]; exact fun h2 => hab (Prod.ext hp h2))
      simpa [Chunk.core, o1, o2] using this
  · exact .inl hp

theorem pages_update {h : Heap D} {live : List (Block D)} (hi : Inv h live) (a : Addr) (f : Chunk D → Chunk D)
    (hf : ∀ c, (f c).offset = c.offset ∧ (f c).bucket = c.bucket ∧ (f c).isLast = c.isLast) :
    (∀ pg ∈ updateAt h.pages a f, PageOk pg) ∧
    (updateAt h.pages a f).getLast?.map Page.last = h.pages.getLast?.map Page.last := by
  have hok : ∀ pg : Page D, PageOk pg → PageOk (pg.update a.2 f) := by
    intro pg hp
    have hg : ∀ c : Chunk D, ((fun c => if c.offset = a.2 then f c else c) c).offset = c.offset ∧
        ((fun c => if c.offset = a.2 then f c else c) c).bucket = c.bucket ∧
        ((fun c => if c.offset = a.2 then f c else c) c).isLast = c.isLast := by
      intro c
      dsimp only
      split
      · exact hf c
      · exact ⟨rfl, rfl, rfl⟩
    exact ⟨tiled_map _ (fun c => ⟨(hg c).1, (hg c).2.1⟩) hp.tiled, lasts_map _ (fun c => ⟨(hg c).1, (hg c).2.2⟩) hp.lasts,
      hp.small⟩
  refine ⟨?_, ?_⟩
  · intro pg hp
    obtain ⟨i, hi'⟩ := List.mem_iff_getElem?.1 hp
    unfold updateAt at hi'
    rw [List.getElem?_modify] at hi'
    cases hq : h.pages[i]? with
    | none => rw [hq] at hi'; simp at hi'
    | some pg0 =>
      rw [hq] at hi'
      have h0 := hi.pagesOk pg0 (List.mem_of_getElem? hq)
      simp only [Option.map_eq_map, Option.map_some, Option.some.injEq] at hi'
      subst hi'
      split
      · exact hok pg0 h0
      · exact h0
  · unfold updateAt
    rw [List.getLast?_eq_getElem?, List.getLast?_eq_getElem?, List.length_modify, List.getElem?_modify]
    cases h.pages[h.pages.length - 1]? with
    | none => rfl
    | some pg =>
      simp only [Option.map_eq_map, Option.map_some, Option.some.injEq]
      split <;> rfl

theorem view_congr {h h' : Heap D} (hp : h.pages = h'.pages) : h.view = h'.view := by
  funext a
  unfold Heap.view Heap.chunkAt
  rw [hp]

theorem inv_remove {h : Heap D} {l1 l2 : List (Block D)} (a : Addr) (n : Nat) (d : D)
    (hi : Inv h (l1 ++ blockAt a n d :: l2)) (hfew : h.pages.length ≤ 2 ^ 19) :
    Inv (h.remove a) (l1 ++ l2) ∧ (h.remove a).pages.length = h.pages.length ∧
    ∃ c, (h.remove a).view = upd h.view a c ∧ c.isFree = true := by
  obtain ⟨c, e1, e2, e3⟩ := hi.liveOk.used (blockAt a n d) (by simp)
  rw [addrOf_blockAt] at e1
  have hplace := inv_place hi e1
  have hpack : packAddr a = a := by
    have hps : pageSize = 524288 := rfl
    unfold packAddr
    rw [Nat.mod_eq_of_lt (by omega), Nat.mod_eq_of_lt (by omega)]
  have hv := e1
  unfold Heap.view at hv
  cases hx : h.chunkAt a with
  | none => rw [hx] at hv; simp at hv
  | some ch =>
    rw [hx] at hv
    simp only [Option.map_some, Option.some.injEq] at hv
    have hb : ch.bucket = c.bucket := by rw [← hv]; rfl
    unfold Heap.remove
    rw [hx]
    simp only [hpack, hb]
    have hf : ∀ x : Chunk D, ({ x with prev := (h.lists c.bucket).list, isFree := true } : Chunk D).offset = x.offset ∧
        ({ x with prev := (h.lists c.bucket).list, isFree := true } : Chunk D).bucket = x.bucket ∧
        ({ x with prev := (h.lists c.bucket).list, isFree := true } : Chunk D).isLast = x.isLast := fun _ => ⟨rfl, rfl, rfl⟩
    obtain ⟨p1, p2⟩ := pages_update hi a _ hf
    have hview := fun (h' : Heap D) hp => view_update h a _ (fun x => (hf x).1) ch hx h' hp
    refine ⟨?_, by simp [updateAt], _, hview _ rfl, rfl⟩
    constructor
    · exact p1
    · simp only [p2]; exact hi.lastOk
    · rw [hview _ rfl]
      exact free_push hi.free a c _ e1 e2 rfl (by simp [Chunk.core, hb]) rfl
    · rw [hview _ rfl]
      have := live_erase hi.liveOk (cx := ({ ch with prev := (h.lists c.bucket).list, isFree := true } : Chunk D).core) rfl
      rw [addrOf_blockAt] at this
      exact this
    · have := hi.count
      simp only [List.length_append, List.length_cons] at this ⊢
      omega
    · have := hi.bytes
      have e : bucketSize (bucketOf (chunkSize + (blockAt a n d).len)) = bucketSize c.bucket := by rw [e3.2.2.2]
      simp only [List.map_append, List.map_cons, List.sum_append, List.sum_cons, e] at this ⊢
      omega

theorem modify_snoc {α : Type} (pre : List α) (x : α) (f : α → α) : (pre ++ [x]).modify pre.length f = pre ++ [f x] := by
  induction pre with
  | nil => rfl
  | cons y pre ih => simp [List.modify_succ_cons, ih]

theorem snoc_of_getLast {α : Type} {l : List α} {x : α} (h : l.getLast? = some x) : ∃ pre, l = pre ++ [x] := by
  have hne : l ≠ [] := by rintro rfl; simp at h
  rw [List.getLast?_eq_some_getLast hne] at h
  simp only [Option.some.injEq] at h
  exact ⟨l.dropLast, by rw [← h]; exact (List.dropLast_concat_getLast hne).symm⟩

def newChunk (off bucket left : Nat) (d : D) (s sf : Bool) : Chunk D := ⟨off, bucket, left, false, true, s, sf, (0, 0), d⟩

/-- what a bump does: a chunk appears at an address that had none, on a page with room -/
structure Bumped (h h' : Heap D) (a : Addr) (c : Core D) : Prop where
  pagesOk : ∀ pg ∈ h'.pages, PageOk pg
  lastOk  : h'.last = h'.pages.getLast?.map Page.last
  lists   : h'.lists = h.lists
  view    : h'.view = upd h.view a c
  fresh   : h.view a = none
  count   : h'.countUsed = h.countUsed
  bytes   : h'.sizeUsed = h.sizeUsed
  grow    : h.pages.length ≤ h'.pages.length ∧ h'.pages.length ≤ h.pages.length + 1

theorem bump_room {h : Heap D} (hok : ∀ pg ∈ h.pages, PageOk pg)
    (b : Nat) (d : D) (s sf : Bool) (hb : b < 351) (pre : List (Page D)) (pg : Page D) (hp : h.pages = pre ++ [pg])
    (hl : h.last = some pg.last) (hroom : noRoom pg.size (bucketSize b) = false) :
    ∃ c : Core D, Bumped h (h.bump b d s sf).2 (h.bump b d s sf).1 c ∧ c.isFree = false ∧ c.bucket = b ∧ c.data = d ∧
      c.isShadow = s ∧ c.isShadowFree = sf := by
  have hpg := hok pg (by rw [hp]; simp)
  have hprep : h.prepare (bucketSize b) = h := by
    unfold Heap.prepare
    rw [hl, hp]
    simp [hroom]
  have hlen : h.pages.length - 1 = pre.length := by rw [hp]; simp
  have hget : h.pages[pre.length]? = some pg := by rw [hp]; simp
  have hps : pageSize = 524288 := rfl
  have hfit : pg.size + bucketSize b ≤ pageSize := by
    have h1 := hpg.small
    have h2 := (bucketSize_small b hb).2
    unfold noRoom at hroom
    simp only [decide_eq_false_iff_not] at hroom
    have : (pageSize + 2 ^ 32 - pg.size) % 2 ^ 32 = pageSize - pg.size := by
      rw [hps] at h1 ⊢
      omega
    omega
  obtain ⟨cl, hcl, hclo⟩ := lasts_mem hpg.lasts
  have hfind := tiled_find hpg.tiled cl hcl
  rw [hclo] at hfind
  have hat : h.chunkAt (pre.length, pg.last) = some cl := by
    unfold Heap.chunkAt
    rw [hget]
    exact hfind
  have hbump : h.bump b d s sf = ((pre.length, pg.size), { h with
      pages := pre ++ [⟨pg.size + bucketSize b, pg.size,
        (pg.update pg.last fun c => { c with isLast := false }).chunks ++ [newChunk pg.size b cl.bucket d s sf]⟩]
      last := some pg.size }) := by
    unfold Heap.bump
    rw [hprep]
    simp only [hl, hlen, hget, hat]
    unfold updateAt
    simp only [hp, modify_snoc, newChunk]
    rfl
  rw [hbump]
  have hold : ∀ x ∈ pg.chunks, x.offset ≠ pg.size := by
    intro x hx
    have := (tiled_mem hpg.tiled x hx)
    have h2 := (bucketSize_small x.bucket this.2.2).1
    omega
  have hnone : pg.chunks.find? (fun c => c.offset = pg.size) = none := by
    rw [List.find?_eq_none]
    intro x hx
    simpa using hold x hx
  refine ⟨(newChunk pg.size b cl.bucket d s sf).core, ⟨?_, ?_, rfl, ?_, ?_, rfl, rfl, ?_⟩, rfl, rfl, rfl, rfl, rfl⟩
  · intro x hx
    simp only [List.mem_append, List.mem_singleton] at hx
    rcases hx with hx | rfl
    · exact hok x (by rw [hp]; simp [hx])
    · constructor
      · refine tiled_append (c := newChunk pg.size b cl.bucket d s sf) ?_ rfl hb
        refine tiled_map _ ?_ hpg.tiled
        intro c; dsimp only; split <;> exact ⟨rfl, rfl⟩
      · exact lasts_snoc hpg.tiled hpg.lasts (newChunk pg.size b cl.bucket d s sf) rfl
      · exact hfit
  · simp
  · funext x
    unfold Heap.view upd Heap.chunkAt
    simp only
    by_cases hx : x.1 = pre.length
    · have g1 : (pre ++ [⟨pg.size + bucketSize b, pg.size, (pg.update pg.last fun c => { c with isLast := false }).chunks ++
          [newChunk pg.size b cl.bucket d s sf]⟩] : List (Page D))[x.1]? = some ⟨pg.size + bucketSize b, pg.size,
          (pg.update pg.last fun c => { c with isLast := false }).chunks ++ [newChunk pg.size b cl.bucket d s sf]⟩ := by
        rw [hx]; simp
      rw [g1]
      simp only
      rw [List.find?_append]
      simp only [Page.update]
      rw [find_update _ _ _ (fun c => { c with isLast := false }) (fun _ => rfl), hx, hget]
      by_cases hxa : x = (pre.length, pg.size)
      · rw [if_pos hxa, hxa]
        simp only [hnone, Option.map_none, Option.none_or]
        rw [List.find?_cons_of_pos (by simp [newChunk])]
        rfl
      · rw [if_neg hxa]
        have hne : x.2 ≠ pg.size := fun hh => hxa (Prod.ext hx hh)
        cases hf : pg.chunks.find? fun c => c.offset = x.2 with
        | none =>
          simp only [Option.map_none, Option.none_or]
          rw [List.find?_cons_of_neg (by simp only [newChunk]; exact fun hh => hne (of_decide_eq_true hh).symm)]
          simp [hf]
        | some y =>
          simp only [Option.map_some, Option.some_or, hf]
          split <;> rfl
    · rw [if_neg (fun hh => hx (by rw [hh]))]
      have g2 : ∀ (q : Page D), (pre ++ [q])[x.1]? = pre[x.1]? := by
        intro q
        rw [List.getElem?_append]
        split
        · rfl
        · rename_i hlt
          have : x.1 - pre.length ≠ 0 := by omega
          rw [List.getElem?_eq_none (by simp; omega), List.getElem?_eq_none (by omega)]
      rw [g2, hp, g2]
  · unfold Heap.view Heap.chunkAt
    rw [hget]
    simp only [hnone, Option.map_none]
  · rw [hp]; simp

theorem bump_page {h : Heap D} (hok : ∀ pg ∈ h.pages, PageOk pg)
    (b : Nat) (d : D) (s sf : Bool) (hb : b < 351)
    (hprep : h.prepare (bucketSize b) = { h with pages := h.pages ++ [⟨headerSize, 0, []⟩], last := none }) :
    ∃ c : Core D, Bumped h (h.bump b d s sf).2 (h.bump b d s sf).1 c ∧ c.isFree = false ∧ c.bucket = b ∧ c.data = d ∧
      c.isShadow = s ∧ c.isShadowFree = sf := by
  have hps : pageSize = 524288 := rfl
  have hhs : headerSize = 24 := rfl
  have hbump : h.bump b d s sf = ((h.pages.length, headerSize), { h with
      pages := h.pages ++ [⟨headerSize + bucketSize b, headerSize, [newChunk headerSize b 0 d s sf]⟩]
      last := some headerSize }) := by
    unfold Heap.bump
    rw [hprep]
    simp only [List.length_append, List.length_singleton, Nat.add_sub_cancel, modify_snoc, newChunk, List.nil_append]
    simp
  rw [hbump]
  refine ⟨(newChunk headerSize b 0 d s sf).core, ⟨?_, ?_, rfl, ?_, ?_, rfl, rfl, ?_⟩, rfl, rfl, rfl, rfl, rfl⟩
  · intro x hx
    simp only [List.mem_append, List.mem_singleton] at hx
    rcases hx with hx | rfl
    · exact hok x hx
    · have := (bucketSize_small b hb).2
      exact ⟨⟨rfl, hb, rfl⟩, ⟨rfl, rfl⟩, by simp only; omega⟩
  · simp
  · funext x
    unfold Heap.view upd Heap.chunkAt
    simp only
    by_cases hx : x.1 = h.pages.length
    · rw [hx]
      simp only [List.getElem?_append_right (Nat.le_refl _), Nat.sub_self, List.getElem?_cons_zero, Nat.le_refl,
        List.getElem?_eq_none]
      by_cases hxa : x = (h.pages.length, headerSize)
      · rw [if_pos hxa, hxa]
        rw [List.find?_cons_of_pos (by simp [newChunk])]
        rfl
      · rw [if_neg hxa]
        have hne : x.2 ≠ headerSize := fun hh => hxa (Prod.ext hx hh)
        rw [List.find?_cons_of_neg (by simp only [newChunk]; exact fun hh => hne (of_decide_eq_true hh).symm)]
        simp
    · rw [if_neg (fun hh => hx (by rw [hh]))]
      have g2 : ∀ (q : Page D), (h.pages ++ [q])[x.1]? = h.pages[x.1]? := by
        intro q
        rw [List.getElem?_append]
        split
        · rfl
        · rw [List.getElem?_eq_none (by simp; omega), List.getElem?_eq_none (by omega)]
      rw [g2]
  · unfold Heap.view Heap.chunkAt
    rw [List.getElem?_eq_none (Nat.le_refl _)]
    rfl
  · simp

theorem bump_ok {h : Heap D} (hok : ∀ pg ∈ h.pages, PageOk pg) (hlast : h.last = h.pages.getLast?.map Page.last)
    (b : Nat) (d : D) (s sf : Bool) (hb : b < 351) :
    ∃ c : Core D, Bumped h (h.bump b d s sf).2 (h.bump b d s sf).1 c ∧ c.isFree = false ∧ c.bucket = b ∧ c.data = d ∧
      c.isShadow = s ∧ c.isShadowFree = sf := by
  cases hg : h.pages.getLast? with
  | none =>
    refine bump_page hok b d s sf hb ?_
    unfold Heap.prepare
    rw [hg] at hlast
    simp [hlast]
  | some pg =>
    obtain ⟨pre, hp⟩ := snoc_of_getLast hg
    rw [hg] at hlast
    simp only [Option.map_some] at hlast
    by_cases hroom : noRoom pg.size (bucketSize b) = false
    · exact bump_room hok b d s sf hb pre pg hp hlast hroom
    · refine bump_page hok b d s sf hb ?_
      unfold Heap.prepare
      simp only [hlast, hg]
      simp only [Bool.not_eq_false] at hroom
      simp [hroom]

theorem inv_add {h : Heap D} {live : List (Block D)} (hi : Inv h live) (n : Nat) (d : D) (s sf : Bool) (hn : n ≤ 516071) :
    Inv (h.add n d s sf).2 (blockAt (h.add n d s sf).1 n d :: live) ∧
    h.pages.length ≤ (h.add n d s sf).2.pages.length ∧
    ∃ c, (h.add n d s sf).2.view = upd h.view (h.add n d s sf).1 c ∧ c.isShadow = s ∧ c.isShadowFree = sf ∧ c.data = d := by
  have hcs : chunkSize = 24 := rfl
  obtain ⟨hfit, hb⟩ := bucket_fits (chunkSize + n) (by omega) (by omega)
  unfold Heap.add
  by_cases hc : (h.lists (bucketOf (chunkSize + n))).count > 0
  · simp only [hc, if_true]
    have hpop := fun cx => free_pop hi.free (bucketOf (chunkSize + n)) hc cx
    obtain ⟨c0, v0, f0, b0, _⟩ := hpop ⟨0, true, true, true, (0, 0), d⟩
    generalize hl : h.lists (bucketOf (chunkSize + n)) = l at *
    cases hx : h.chunkAt l.list with
    | none => rw [Heap.view, hx] at v0; simp at v0
    | some ch =>
      have hch : ch.core = c0 := by
        rw [Heap.view, hx] at v0
        simpa using v0
      simp only
      have hf : ∀ x : Chunk D, ({ x with prev := (0, 0), isFree := false, isShadow := s, isShadowFree := sf, data := d } : Chunk D).offset = x.offset ∧
          ({ x with prev := (0, 0), isFree := false, isShadow := s, isShadowFree := sf, data := d } : Chunk D).bucket = x.bucket ∧
          ({ x with prev := (0, 0), isFree := false, isShadow := s, isShadowFree := sf, data := d } : Chunk D).isLast = x.isLast := fun _ => ⟨rfl, rfl, rfl⟩
      obtain ⟨p1, p2⟩ := pages_update hi l.list _ hf
      have hview := fun (h' : Heap D) hp => view_update h l.list _ (fun x => (hf x).1) ch hx h' hp
      have hbk : ch.bucket = bucketOf (chunkSize + n) := by rw [← b0, ← hch]; rfl
      refine ⟨⟨p1, ?_, ?_, ?_, ?_, ?_⟩, by simp [updateAt], ?_⟩
      · simp only [p2]; exact hi.lastOk
      · rw [hview _ rfl]
        obtain ⟨c, v1, _, _, g⟩ := hpop ({ ch with prev := (0, 0), isFree := false, isShadow := s, isShadowFree := sf, data := d } : Chunk D).core
        rw [v0] at v1
        simp only [Option.some.injEq] at v1
        subst v1
        have : ch.prev = c0.prev := by rw [← hch]; rfl
        rw [this]
        exact g
      · rw [hview _ rfl]
        refine live_cons hi.liveOk _ n d _ ?_ rfl rfl ?_ hbk
        · intro c hc'; rw [v0] at hc'; simp only [Option.some.injEq] at hc'; rw [← hc']; exact f0
        · simp only [Chunk.core, hbk]; omega
      · have := hi.count; simp only [List.length_cons]; omega
      · have := hi.bytes; simp only [List.map_cons, List.sum_cons, blockAt]; omega
      · rw [hview _ rfl]
        exact ⟨_, rfl, rfl, rfl, rfl⟩
  · simp only [hc, if_false]
    obtain ⟨c, B, q1, q2, q3, q4, q5⟩ := bump_ok hi.pagesOk hi.lastOk (bucketOf (chunkSize + n)) d s sf hb
    generalize h.bump (bucketOf (chunkSize + n)) d s sf = r at *
    obtain ⟨a, h'⟩ := r
    simp only at *
    refine ⟨⟨B.pagesOk, B.lastOk, ?_, ?_, ?_, ?_⟩, B.grow.1, ?_⟩
    · show FreeOk h'.view h'.lists
      rw [B.view, B.lists]
      exact free_new hi.free a c B.fresh
    · show LiveOk h'.view _
      rw [B.view]
      refine live_cons hi.liveOk a n d c ?_ q1 q3 ?_ q2
      · intro c' hc'; rw [B.fresh] at hc'; simp at hc'
      · rw [q2]; omega
    · have := hi.count; have := B.count; simp only [List.length_cons]; omega
    · have := hi.bytes; have := B.bytes; simp only [List.map_cons, List.sum_cons, blockAt]; omega
    · exact ⟨c, B.view, q4, q5, q3⟩

end Verif.Heap
