import Verif.Heap.SnapSpec
import Verif.Heap.ScanProofs
/-! # Proofs: snapshots -/
set_option linter.unusedSimpArgs false
set_option linter.unusedSectionVars false
set_option linter.unusedVariables false
namespace Verif.Heap

section
variable {D : Type}

/-- the heap with other counters -/
def Heap.counters (h : Heap D) (x y : Int) : Heap D := { h with countUsed := x, sizeUsed := y }

theorem prepare_counters (h : Heap D) (x y : Int) (sz : Nat) : (h.counters x y).prepare sz = (h.prepare sz).counters x y := by
  unfold Heap.prepare Heap.counters
  simp only
  repeat' split
  all_goals rfl

theorem bump_counters (h : Heap D) (x y : Int) (b : Nat) (d : D) (s sf : Bool) :
    (h.counters x y).bump b d s sf = ((h.bump b d s sf).1, (h.bump b d s sf).2.counters x y) := by
  unfold Heap.bump
  simp only [prepare_counters]
  rfl

theorem add_counters (h : Heap D) (x y : Int) (n : Nat) (d : D) (s sf : Bool) :
    (h.counters x y).add n d s sf = ((h.add n d s sf).1,
      (h.add n d s sf).2.counters (x + 1) (y + bucketSize (bucketOf (chunkSize + n)))) := by
  unfold Heap.add
  simp only [bump_counters]
  by_cases hc : (h.lists (bucketOf (chunkSize + n))).count > 0
  · have hc' : ((h.counters x y).lists (bucketOf (chunkSize + n))).count > 0 := hc
    simp only [hc, hc', if_true]
    rfl
  · have hc' : ¬ ((h.counters x y).lists (bucketOf (chunkSize + n))).count > 0 := hc
    simp only [hc, hc', if_false]
    rfl

theorem remove_counters (h : Heap D) (x y x' y' : Int) (a : Addr) :
    ∃ u v, ((h.counters x y).remove a).counters x' y' = (h.remove a).counters u v := by
  unfold Heap.remove
  have : (h.counters x y).chunkAt a = h.chunkAt a := rfl
  rw [this]
  cases h.chunkAt a with
  | none => exact ⟨x', y', rfl⟩
  | some c => exact ⟨x', y', rfl⟩

def used (live : List (Block D)) : Int := ((live.map fun b => bucketSize (bucketOf (chunkSize + b.len))).sum : Nat)

/-- the structure of the heap is sound whatever its counters say -/
def Shape (h : Heap D) (live : List (Block D)) : Prop := Inv (h.counters live.length (used live)) live

theorem shape_of_inv {h : Heap D} {live : List (Block D)} (hi : Inv h live) : Shape h live := by
  have : h.counters live.length (used live) = h := by
    unfold Heap.counters used
    rw [← hi.bytes, ← hi.count]
  unfold Shape
  rw [this]
  exact hi

theorem shape_counters {h : Heap D} {live : List (Block D)} (hs : Shape h live) (x y : Int) : Shape (h.counters x y) live := hs

theorem shape_inv {h : Heap D} {live : List (Block D)} (hs : Shape h live) (h1 : h.countUsed = live.length)
    (h2 : h.sizeUsed = used live) : Inv h live := by
  have : h.counters live.length (used live) = h := by
    unfold Heap.counters
    rw [← h1, ← h2]
  unfold Shape at hs
  rw [this] at hs
  exact hs

theorem shape_add {h : Heap D} {live : List (Block D)} (hs : Shape h live) (n : Nat) (d : D) (s sf : Bool) (hn : n ≤ 516071) :
    Shape (h.add n d s sf).2 (blockAt (h.add n d s sf).1 n d :: live) ∧
    h.pages.length ≤ (h.add n d s sf).2.pages.length ∧
    ∃ c, (h.add n d s sf).2.view = upd h.view (h.add n d s sf).1 c ∧ c.isShadow = s ∧ c.isShadowFree = sf ∧ c.data = d := by
  have h1 := inv_add hs n d s sf hn
  rw [add_counters] at h1
  obtain ⟨i, g, c, e1, e2, e3, e4⟩ := h1
  have hc : ∀ (g : Heap D) (x y : Int) (l : List (Block D)), Shape (g.counters x y) l → Shape g l := fun _ _ _ _ hh => hh
  refine ⟨hc _ _ _ _ (shape_of_inv i), g, c, e1, e2, e3, e4⟩

theorem shape_remove {h : Heap D} {l1 l2 : List (Block D)} (a : Addr) (n : Nat) (d : D)
    (hs : Shape h (l1 ++ blockAt a n d :: l2)) (hfew : h.pages.length ≤ 2 ^ 19) :
    Shape (h.remove a) (l1 ++ l2) ∧ (h.remove a).pages.length = h.pages.length ∧
    ∃ c, (h.remove a).view = upd h.view a c ∧ c.isFree = true := by
  obtain ⟨i, g, c, e1, e2⟩ := inv_remove a n d hs hfew
  have hp : ((h.counters ((l1 ++ blockAt a n d :: l2).length : Int) (used (l1 ++ blockAt a n d :: l2))).remove a).pages =
      (h.remove a).pages := by
    unfold Heap.remove
    have : ∀ x y, (h.counters x y).chunkAt a = h.chunkAt a := fun _ _ => rfl
    rw [this]
    cases h.chunkAt a <;> rfl
  refine ⟨?_, ?_, c, ?_, e2⟩
  · have hh := shape_of_inv i
    unfold Shape at hh ⊢
    obtain ⟨u, v, he⟩ := remove_counters h (l1 ++ blockAt a n d :: l2).length (used (l1 ++ blockAt a n d :: l2))
      (l1 ++ l2).length (used (l1 ++ l2)) a
    rw [he] at hh
    have := shape_of_inv hh
    exact this
  · have : (h.counters ((l1 ++ blockAt a n d :: l2).length : Int) (used (l1 ++ blockAt a n d :: l2))).pages = h.pages := rfl
    rw [this, hp] at g
    exact g
  · rw [← view_congr hp]; exact e1

theorem grow_one (h : Heap D) (n : Nat) (d : D) (s sf : Bool) : (h.add n d s sf).2.pages.length ≤ h.pages.length + 1 := by
  unfold Heap.add
  simp only
  split
  · simp [updateAt]
  · simp only [Heap.bump, List.length_modify]
    have h1 : (h.prepare (bucketSize (bucketOf (chunkSize + n)))).pages.length ≤ h.pages.length + 1 := by
      unfold Heap.prepare
      simp only
      repeat' split
      all_goals simp
    split
    · simpa [updateAt] using h1
    · exact h1
end

section
variable {K R : Type} [DecidableEq K]

def csize (size : R → Nat) : Cell R → Nat
  | .row r => size r
  | .pending _ => 8

def cellBlock (size : R → Nat) (x : Addr × Cell R) : Block (Cell R) := blockAt x.1 (csize size x.2) x.2

/-- the heap holds exactly the given cells -/
def Holds (size : R → Nat) (h : Heap (Cell R)) (q : List (Addr × Cell R)) : Prop := Shape h (q.map (cellBlock size))

def Flags (h : Heap (Cell R)) (b : Bool) : Prop :=
  ∀ a c, h.view a = some c → c.isFree = false → c.isShadow = b ∧ (c.isShadowFree = true ↔ ∃ p, c.data = .pending p)

theorem holds_nodup {size : R → Nat} {h : Heap (Cell R)} {q : List (Addr × Cell R)} (hh : Holds size h q) :
    (q.map Prod.fst).Nodup := by
  have := hh.liveOk.nodup
  rw [List.map_map] at this
  have he : addrOf ∘ cellBlock size = Prod.fst (α := Addr) (β := Cell R) := by
    funext x; exact addrOf_blockAt _ _ _
  rw [he] at this
  exact this

theorem holds_view {size : R → Nat} {h : Heap (Cell R)} {q : List (Addr × Cell R)} (hh : Holds size h q) {a : Addr} {x : Cell R}
    (hm : (a, x) ∈ q) : ∃ c, h.view a = some c ∧ c.isFree = false ∧ c.data = x := by
  obtain ⟨c, e1, e2, e3, _⟩ := hh.liveOk.used (cellBlock size (a, x)) (List.mem_map_of_mem hm)
  have : addrOf (cellBlock size (a, x)) = a := addrOf_blockAt _ _ _
  rw [this] at e1
  exact ⟨c, e1, e2, e3⟩

theorem holds_all {size : R → Nat} {h : Heap (Cell R)} {q : List (Addr × Cell R)} (hh : Holds size h q) {a : Addr} {c : Core (Cell R)}
    (hv : h.view a = some c) (hf : c.isFree = false) : (a, c.data) ∈ q := by
  obtain ⟨b, hb, he⟩ := hh.liveOk.all a c hv hf
  obtain ⟨x, hx, hxb⟩ := List.mem_map.1 hb
  obtain ⟨a', y⟩ := x
  have h1 : a' = a := by rw [← he, ← hxb]; exact (addrOf_blockAt _ _ _).symm
  obtain ⟨c', e1, e2, e3⟩ := holds_view hh hx
  rw [h1] at e1
  have : h.view a = some c := hv
  rw [this] at e1
  simp only [Option.some.injEq] at e1
  rw [e1, e3, ← h1]
  exact hx

theorem holds_add {size : R → Nat} {h : Heap (Cell R)} {q : List (Addr × Cell R)} (hh : Holds size h q) (x : Cell R) (s : Bool)
    (hn : csize size x ≤ 516071) (hfl : Flags h s) (sf : Bool) (hsf : sf = true ↔ ∃ p, x = .pending p) :
    Holds size (h.add (csize size x) x s sf).2 (((h.add (csize size x) x s sf).1, x) :: q) ∧
    Flags (h.add (csize size x) x s sf).2 s ∧
    h.pages.length ≤ (h.add (csize size x) x s sf).2.pages.length := by
  obtain ⟨i, g, c, e1, e2, e3, e4⟩ := shape_add hh (csize size x) x s sf hn
  refine ⟨i, ?_, g⟩
  intro a c' hv hf
  rw [e1] at hv
  unfold upd at hv
  split at hv
  · simp only [Option.some.injEq] at hv
    subst hv
    exact ⟨e2, by rw [e3, e4]; exact hsf⟩
  · exact hfl a c' hv hf

theorem holds_remove {size : R → Nat} {h : Heap (Cell R)} {q1 q2 : List (Addr × Cell R)} {a : Addr} {x : Cell R}
    (hh : Holds size h (q1 ++ (a, x) :: q2)) (hfew : h.pages.length ≤ 2 ^ 19) {s : Bool} (hfl : Flags h s) :
    Holds size (h.remove a) (q1 ++ q2) ∧ Flags (h.remove a) s ∧ (h.remove a).pages.length = h.pages.length := by
  unfold Holds at hh
  rw [List.map_append, List.map_cons] at hh
  obtain ⟨i, g, c, e1, e2⟩ := shape_remove a _ _ hh hfew
  refine ⟨by unfold Holds; rw [List.map_append]; exact i, ?_, g⟩
  intro a' c' hv hf
  rw [e1] at hv
  unfold upd at hv
  split at hv
  · simp only [Option.some.injEq] at hv
    subst hv
    rw [e2] at hf
    simp at hf
  · exact hfl a' c' hv hf

theorem holds_chunk {size : R → Nat} {h : Heap (Cell R)} {q : List (Addr × Cell R)} (hh : Holds size h q) {b : Bool} (hfl : Flags h b)
    {a : Addr} {x : Cell R} (hm : (a, x) ∈ q) :
    ∃ c, h.chunkAt a = some c ∧ c.isFree = false ∧ c.data = x ∧ c.isShadow = b := by
  obtain ⟨c, e1, e2, e3⟩ := holds_view hh hm
  have hf := hfl a c e1 e2
  unfold Heap.view at e1
  cases hc : h.chunkAt a with
  | none => rw [hc] at e1; simp at e1
  | some ch =>
    rw [hc] at e1
    simp only [Option.map_some, Option.some.injEq] at e1
    subst e1
    exact ⟨ch, rfl, e2, e3, hf.1⟩

theorem holds_init (size : R → Nat) : Holds size (Heap.init (Cell R)) [] := shape_of_inv inv_init

theorem flags_init (b : Bool) : Flags (Heap.init (Cell R)) b := by
  intro a c h; simp [Heap.view, Heap.chunkAt, Heap.init] at h

theorem mem_split {α β : Type} {l1 l2 : List (α × β)} {a : α} {x : β} (hn : ((l1 ++ (a, x) :: l2).map Prod.fst).Nodup)
    (y : α × β) : y ∈ l1 ++ l2 ↔ y ∈ l1 ++ (a, x) :: l2 ∧ y.1 ≠ a := by
  have hp : (l1 ++ (a, x) :: l2).Perm ((a, x) :: (l1 ++ l2)) := List.perm_middle
  have hn' : (((a, x) :: (l1 ++ l2)).map Prod.fst).Nodup := (hp.map Prod.fst).nodup_iff.1 hn
  rw [List.map_cons] at hn'
  obtain ⟨h1, h2⟩ := List.nodup_cons.1 hn'
  rw [hp.mem_iff]
  constructor
  · intro hy
    refine ⟨List.mem_cons_of_mem _ hy, ?_⟩
    intro he
    have := List.mem_map_of_mem (f := Prod.fst) hy
    rw [he] at this
    exact h1 this
  · rintro ⟨hy, hne⟩
    rcases List.mem_cons.1 hy with he | hy
    · rw [he] at hne; exact absurd rfl hne
    · exact hy

theorem nodup_split {α β : Type} {l1 l2 : List (α × β)} {a : α} {x : β} (hn : ((l1 ++ (a, x) :: l2).map Prod.fst).Nodup) :
    ((l1 ++ l2).map Prod.fst).Nodup := by
  have hp : (l1 ++ (a, x) :: l2).Perm ((a, x) :: (l1 ++ l2)) := List.perm_middle
  have hn' : (((a, x) :: (l1 ++ l2)).map Prod.fst).Nodup := (hp.map Prod.fst).nodup_iff.1 hn
  rw [List.map_cons] at hn'
  exact (List.nodup_cons.1 hn').2

theorem nodup_unique {α β : Type} {l : List (α × β)} (hn : (l.map Prod.fst).Nodup) {a : α} {x y : β} (h1 : (a, x) ∈ l)
    (h2 : (a, y) ∈ l) : x = y := by
  induction l with
  | nil => simp at h1
  | cons z l ih =>
    rw [List.map_cons] at hn
    obtain ⟨g1, g2⟩ := List.nodup_cons.1 hn
    rcases List.mem_cons.1 h1 with e1 | e1 <;> rcases List.mem_cons.1 h2 with e2 | e2
    · rw [← e1] at e2; exact (Prod.mk.inj e2).2.symm
    · rw [← e1] at g1; exact absurd (List.mem_map_of_mem (f := Prod.fst) e2) g1
    · rw [← e2] at g1; exact absurd (List.mem_map_of_mem (f := Prod.fst) e1) g1
    · exact ih g2 e1 e2

/-! ## The state during a snapshot -/

def rowCells (lm : List (Addr × R)) : List (Addr × Cell R) := lm.map fun x => (x.1, .row x.2)

theorem mem_rowCells {lm : List (Addr × R)} {a : Addr} {x : Cell R} : (a, x) ∈ rowCells lm ↔ ∃ r, x = .row r ∧ (a, r) ∈ lm := by
  unfold rowCells
  rw [List.mem_map]
  constructor
  · rintro ⟨⟨a', r⟩, h1, h2⟩
    obtain ⟨e1, e2⟩ := Prod.mk.inj h2
    simp only at e1 e2
    exact ⟨r, e2.symm, e1 ▸ h1⟩
  · rintro ⟨r, e, h⟩
    exact ⟨(a, r), h, by rw [e]⟩

def Pend (q : List (Addr × Cell R)) (p : Addr) : Prop := ∃ a, (a, Cell.pending p) ∈ q

structure Normal (size : R → Nat) (s : Partn K R) (live : List (Ptr × R)) (lm : List (Addr × R)) : Prop where
  main  : Holds size s.mem.main (rowCells lm)
  flags : Flags s.mem.main false
  off   : s.mem.shadow = none
  nodup : (live.map Prod.fst).Nodup
  live  : ∀ p r, (p, r) ∈ live ↔ p.shadow = false ∧ (p.addr, r) ∈ lm

structure Snap (size : R → Nat) (s : Partn K R) (live : List (Ptr × R)) (lm : List (Addr × R)) (sh : Heap (Cell R))
    (q : List (Addr × Cell R)) : Prop where
  main   : Holds size s.mem.main (rowCells lm)
  flags  : Flags s.mem.main false
  on     : s.mem.shadow = some sh
  shadow : Holds size sh q
  sflags : Flags sh true
  once   : ∀ a b p, (a, Cell.pending p) ∈ q → (b, Cell.pending p) ∈ q → a = b
  inMain : ∀ p, Pend q p → ∃ r, (p, r) ∈ lm
  nodup  : (live.map Prod.fst).Nodup
  live   : ∀ p r, (p, r) ∈ live ↔
    (p.shadow = false ∧ (p.addr, r) ∈ lm ∧ ¬ Pend q p.addr) ∨ (p.shadow = true ∧ (p.addr, Cell.row r) ∈ q)

theorem rowCells_nodup {size : R → Nat} {h : Heap (Cell R)} {lm : List (Addr × R)} (hh : Holds size h (rowCells lm)) :
    (lm.map Prod.fst).Nodup := by
  have := holds_nodup hh
  unfold rowCells at this
  rw [List.map_map] at this
  exact this

theorem rowCells_split (l1 l2 : List (Addr × R)) (a : Addr) (r : R) :
    rowCells (l1 ++ (a, r) :: l2) = rowCells l1 ++ (a, Cell.row r) :: rowCells l2 := by simp [rowCells]

theorem rowCells_append (l1 l2 : List (Addr × R)) : rowCells (l1 ++ l2) = rowCells l1 ++ rowCells l2 := by simp [rowCells]

theorem row_no_pend (r : R) : (false = true) ↔ ∃ p, Cell.row r = Cell.pending p := by
  constructor
  · intro h; simp at h
  · rintro ⟨p, h⟩; simp at h

theorem normal_alloc {size : R → Nat} {s : Partn K R} {live : List (Ptr × R)} {lm : List (Addr × R)} (hn : Normal size s live lm)
    (r : R) (hs : size r ≤ 516071) :
    ∃ lm', Normal size (s.step size (.alloc r)) (((s.mem.add size r).1, r) :: live) lm' ∧
      s.mem.main.pages.length ≤ (s.step size (.alloc r)).mem.main.pages.length := by
  have he : s.mem.add size r = (⟨false, (s.mem.main.add (size r) (.row r) false false).1⟩,
      ⟨(s.mem.main.add (size r) (.row r) false false).2, none⟩) := by
    unfold Mem.add; rw [hn.off]
  obtain ⟨h1, h2, h3⟩ := holds_add hn.main (.row r) false hs hn.flags false (row_no_pend r)
  simp only [csize] at h1 h2 h3
  simp only [Partn.step]
  rw [he]
  have hfresh : ∀ x, ((s.mem.main.add (size r) (.row r) false false).1, x) ∉ lm := by
    intro x hx
    have hnd := holds_nodup h1
    rw [List.map_cons] at hnd
    refine (List.nodup_cons.1 hnd).1 ?_
    have := List.mem_map_of_mem (f := Prod.fst) (mem_rowCells.2 ⟨x, rfl, hx⟩)
    exact this
  refine ⟨((s.mem.main.add (size r) (.row r) false false).1, r) :: lm, ⟨?_, h2, rfl, ?_, ?_⟩, h3⟩
  · exact h1
  · rw [List.map_cons]
    refine List.nodup_cons.2 ⟨?_, hn.nodup⟩
    intro hm
    obtain ⟨⟨p, x⟩, hx, hp⟩ := List.mem_map.1 hm
    simp only at hp
    have := ((hn.live p x).1 hx).2
    rw [hp] at this
    exact hfresh x this
  · intro p x
    rw [List.mem_cons, List.mem_cons, hn.live]
    obtain ⟨b, a⟩ := p
    simp only [Prod.mk.injEq, Ptr.mk.injEq]
    constructor
    · rintro (⟨⟨e1, e2⟩, e3⟩ | ⟨e1, e2⟩)
      · exact ⟨e1, Or.inl ⟨e2, e3⟩⟩
      · exact ⟨e1, Or.inr e2⟩
    · rintro ⟨e1, ⟨e2, e3⟩ | e2⟩
      · exact Or.inl ⟨⟨e1, e2⟩, e3⟩
      · exact Or.inr ⟨e1, e2⟩

theorem normal_free {size : R → Nat} {s : Partn K R} {l1 l2 : List (Ptr × R)} {p : Ptr} {r : R} {lm : List (Addr × R)}
    (hn : Normal size s (l1 ++ (p, r) :: l2) lm) (hfew : s.mem.main.pages.length ≤ 2 ^ 19) :
    ∃ lm', Normal size (s.step size (.free p)) (l1 ++ l2) lm' ∧
      s.mem.main.pages.length = (s.step size (.free p)).mem.main.pages.length := by
  have he : s.mem.remove p = ⟨s.mem.main.remove p.addr, none⟩ := by
    unfold Mem.remove; rw [hn.off]
  have hin := (hn.live p r).1 (by simp)
  obtain ⟨a1, a2, hlm⟩ := List.append_of_mem hin.2
  have hm := hn.main
  rw [hlm, rowCells_split] at hm
  obtain ⟨h1, h2, h3⟩ := holds_remove hm hfew hn.flags
  simp only [Partn.step]
  rw [he]
  refine ⟨a1 ++ a2, ⟨?_, h2, rfl, nodup_split hn.nodup, ?_⟩, h3.symm⟩
  · rw [rowCells_append]; exact h1
  · intro p' x
    rw [mem_split hn.nodup, hn.live]
    have hnd := rowCells_nodup hn.main
    rw [hlm] at hnd
    rw [mem_split hnd, hlm]
    simp only
    constructor
    · rintro ⟨⟨e1, e2⟩, e3⟩
      refine ⟨e1, e2, ?_⟩
      intro he
      exact e3 (by cases p'; cases p; simp only [Ptr.mk.injEq] at *; exact ⟨by rw [e1, hin.1], he⟩)
    · rintro ⟨e1, e2, e3⟩
      exact ⟨⟨e1, e2⟩, fun he => e3 (by rw [he])⟩

theorem snap_alloc {size : R → Nat} {s : Partn K R} {live : List (Ptr × R)} {lm : List (Addr × R)} {sh : Heap (Cell R)}
    {q : List (Addr × Cell R)} (hn : Snap size s live lm sh q) (r : R) (hs : size r ≤ 516071) :
    ∃ sh' q', Snap size (s.step size (.alloc r)) (((s.mem.add size r).1, r) :: live) lm sh' q' ∧
      (s.step size (.alloc r)).mem.main.pages = s.mem.main.pages ∧
      sh.pages.length ≤ sh'.pages.length := by
  have he : s.mem.add size r = (⟨true, (sh.add (size r) (.row r) true false).1⟩,
      { main := s.mem.main.counters (s.mem.main.countUsed + 1) (s.mem.main.sizeUsed + bucketSize (bucketOf (chunkSize + size r)))
        shadow := some ((sh.add (size r) (.row r) true false).2.counters sh.countUsed sh.sizeUsed) }) := by
    unfold Mem.add; rw [hn.on]; rfl
  obtain ⟨h1, h2, h3⟩ := holds_add hn.shadow (.row r) true hs hn.sflags false (row_no_pend r)
  simp only [csize] at h1 h2 h3
  simp only [Partn.step]
  rw [he]
  have hfresh : ∀ x, ((sh.add (size r) (.row r) true false).1, x) ∉ q := by
    intro x hx
    have hnd := holds_nodup h1
    rw [List.map_cons] at hnd
    refine (List.nodup_cons.1 hnd).1 ?_
    have := List.mem_map_of_mem (f := Prod.fst) hx
    exact this
  have hpend : ∀ p, Pend (((sh.add (size r) (.row r) true false).1, Cell.row r) :: q) p ↔ Pend q p := by
    intro p
    constructor
    · rintro ⟨a, ha⟩
      rcases List.mem_cons.1 ha with e | e
      · simp at e
      · exact ⟨a, e⟩
    · rintro ⟨a, ha⟩
      exact ⟨a, List.mem_cons_of_mem _ ha⟩
  refine ⟨_, ((sh.add (size r) (.row r) true false).1, .row r) :: q, ⟨hn.main, hn.flags, rfl, h1, h2, ?_, ?_, ?_, ?_⟩, rfl, h3⟩
  · intro a b p ha hb
    rcases List.mem_cons.1 ha with e | e
    · simp at e
    rcases List.mem_cons.1 hb with e' | e'
    · simp at e'
    exact hn.once a b p e e'
  · intro p hp; exact hn.inMain p ((hpend p).1 hp)
  · rw [List.map_cons]
    refine List.nodup_cons.2 ⟨?_, hn.nodup⟩
    intro hm
    obtain ⟨⟨p, x⟩, hx, hp⟩ := List.mem_map.1 hm
    simp only at hp
    rcases (hn.live p x).1 hx with h | h
    · rw [hp] at h; simp at h
    · rw [hp] at h; exact hfresh _ h.2
  · intro p x
    rw [List.mem_cons, List.mem_cons, hn.live, hpend]
    obtain ⟨b, a⟩ := p
    simp only [Prod.mk.injEq, Ptr.mk.injEq, Cell.row.injEq]
    constructor
    · rintro (⟨⟨e1, e2⟩, e3⟩ | e | ⟨e1, e2⟩)
      · exact Or.inr ⟨e1, Or.inl ⟨e2, e3⟩⟩
      · exact Or.inl e
      · exact Or.inr ⟨e1, Or.inr e2⟩
    · rintro (e | ⟨e1, ⟨e2, e3⟩ | e2⟩)
      · exact Or.inr (Or.inl e)
      · exact Or.inl ⟨⟨e1, e2⟩, e3⟩
      · exact Or.inr (Or.inr ⟨e1, e2⟩)

theorem snap_free {size : R → Nat} {s : Partn K R} {l1 l2 : List (Ptr × R)} {p : Ptr} {r : R} {lm : List (Addr × R)}
    {sh : Heap (Cell R)} {q : List (Addr × Cell R)} (hn : Snap size s (l1 ++ (p, r) :: l2) lm sh q)
    (hfew : sh.pages.length ≤ 2 ^ 19) :
    ∃ sh' q', Snap size (s.step size (.free p)) (l1 ++ l2) lm sh' q' ∧
      (s.step size (.free p)).mem.main = s.mem.main ∧
      sh.pages.length ≤ sh'.pages.length := by
  have hin := (hn.live p r).1 (by simp)
  obtain ⟨b, a⟩ := p
  rcases hin with ⟨hb, hin, hnp⟩ | ⟨hb, hin⟩
  · -- a row of the main heap
    simp only at hb hin hnp
    subst hb
    obtain ⟨c, c1, c2, c3, c4⟩ := holds_chunk hn.main hn.flags (mem_rowCells.2 ⟨r, rfl, hin⟩)
    have he : s.mem.remove ⟨false, a⟩ = { s.mem with shadow := some (sh.add 8 (.pending a) true true).2 } := by
      unfold Mem.remove; rw [hn.on]; simp [c1, c4]
    obtain ⟨h1, h2, h3⟩ := holds_add hn.shadow (.pending a) true (by simp [csize]) hn.sflags true (by simp)
    simp only [csize] at h1 h2 h3
    simp only [Partn.step]
    rw [he]
    have hpend : ∀ x, Pend (((sh.add 8 (.pending a) true true).1, Cell.pending a) :: q) x ↔ x = a ∨ Pend q x := by
      intro x
      constructor
      · rintro ⟨y, hy⟩
        rcases List.mem_cons.1 hy with e | e
        · simp only [Prod.mk.injEq, Cell.pending.injEq] at e; exact Or.inl e.2
        · exact Or.inr ⟨y, e⟩
      · rintro (e | ⟨y, hy⟩)
        · exact ⟨_, by rw [e]; exact List.mem_cons_self⟩
        · exact ⟨y, List.mem_cons_of_mem _ hy⟩
    refine ⟨_, ((sh.add 8 (.pending a) true true).1, .pending a) :: q, ⟨hn.main, hn.flags, rfl, h1, h2, ?_, ?_, nodup_split hn.nodup, ?_⟩, rfl, h3⟩
    · intro x y z hx hy
      rcases List.mem_cons.1 hx with e | e
      · rcases List.mem_cons.1 hy with e' | e'
        · simp only [Prod.mk.injEq] at e e'; rw [e.1, e'.1]
        · simp only [Prod.mk.injEq, Cell.pending.injEq] at e
          rw [e.2] at e'
          exact absurd ⟨y, e'⟩ hnp
      · rcases List.mem_cons.1 hy with e' | e'
        · simp only [Prod.mk.injEq, Cell.pending.injEq] at e'
          rw [e'.2] at e
          exact absurd ⟨x, e⟩ hnp
        · exact hn.once x y z e e'
    · intro x hx
      rcases (hpend x).1 hx with e | e
      · exact ⟨r, by rw [e]; exact hin⟩
      · exact hn.inMain x e
    · intro p' x
      rw [mem_split hn.nodup, hn.live]
      obtain ⟨b', a'⟩ := p'
      simp only [hpend, List.mem_cons, Prod.mk.injEq]
      constructor
      · rintro ⟨⟨e1, e2, e3⟩ | ⟨e1, e2⟩, e4⟩
        · refine Or.inl ⟨e1, e2, ?_⟩
          rintro (h | h)
          · exact e4 (by rw [e1, h])
          · exact e3 h
        · exact Or.inr ⟨e1, Or.inr e2⟩
      · rintro (⟨e1, e2, e3⟩ | ⟨e1, ⟨_, h⟩ | e2⟩)
        · refine ⟨Or.inl ⟨e1, e2, fun h => e3 (Or.inr h)⟩, ?_⟩
          intro h
          simp only [Ptr.mk.injEq] at h
          exact e3 (Or.inl h.2)
        · simp at h
        · refine ⟨Or.inr ⟨e1, e2⟩, ?_⟩
          intro h
          simp only [Ptr.mk.injEq] at h
          rw [e1] at h
          simp at h
  · -- a row of the shadow heap
    simp only at hb hin
    subst hb
    obtain ⟨c, c1, c2, c3, c4⟩ := holds_chunk hn.shadow hn.sflags hin
    have he : s.mem.remove ⟨true, a⟩ = { s.mem with shadow := some (sh.remove a) } := by
      unfold Mem.remove; rw [hn.on]; simp [c1, c4]
    obtain ⟨q1, q2, hq⟩ := List.append_of_mem hin
    have hm := hn.shadow
    rw [hq] at hm
    obtain ⟨h1, h2, h3⟩ := holds_remove hm hfew hn.sflags
    have hnd := holds_nodup hn.shadow
    rw [hq] at hnd
    simp only [Partn.step]
    rw [he]
    have hsub : ∀ y, y ∈ q1 ++ q2 ↔ y ∈ q ∧ y.1 ≠ a := by intro y; rw [mem_split hnd, hq]
    have hpend : ∀ x, Pend (q1 ++ q2) x ↔ Pend q x := by
      intro x
      constructor
      · rintro ⟨y, hy⟩; exact ⟨y, ((hsub _).1 hy).1⟩
      · rintro ⟨y, hy⟩
        refine ⟨y, (hsub _).2 ⟨hy, ?_⟩⟩
        intro hya
        simp only at hya
        rw [hya] at hy
        have := nodup_unique (holds_nodup hn.shadow) hy hin
        simp at this
    refine ⟨_, q1 ++ q2, ⟨hn.main, hn.flags, rfl, h1, h2, ?_, ?_, nodup_split hn.nodup, ?_⟩, rfl, by omega⟩
    · intro x y z hx hy
      exact hn.once x y z ((hsub _).1 hx).1 ((hsub _).1 hy).1
    · intro x hx; exact hn.inMain x ((hpend x).1 hx)
    · intro p' x
      rw [mem_split hn.nodup, hn.live]
      obtain ⟨b', a'⟩ := p'
      simp only [hpend, hsub, Ptr.mk.injEq, ne_eq]
      constructor
      · rintro ⟨⟨e1, e2, e3⟩ | ⟨e1, e2⟩, e4⟩
        · exact Or.inl ⟨e1, e2, e3⟩
        · exact Or.inr ⟨e1, e2, fun h => e4 ⟨e1, h⟩⟩
      · rintro (⟨e1, e2, e3⟩ | ⟨e1, e2, e3⟩)
        · refine ⟨Or.inl ⟨e1, e2, e3⟩, ?_⟩
          rintro ⟨h, _⟩
          rw [e1] at h; simp at h
        · exact ⟨Or.inr ⟨e1, e2⟩, fun h => e3 h.2⟩

/-! ## Scan -/

theorem walk_counters {D : Type} (h : Heap D) (x y : Int) : ∀ (fuel : Nat) (p : Option Addr),
    (h.counters x y).walk fuel p = h.walk fuel p := by
  intro fuel
  induction fuel with
  | zero => intro p; cases p <;> rfl
  | succ n ih =>
    intro p
    cases p with
    | none => rfl
    | some a =>
      unfold Heap.walk
      rw [ih]
      rfl

theorem scan_counters {D : Type} (h : Heap D) (x y : Int) (fuel : Nat) : (h.counters x y).scan fuel = h.scan fuel := by
  unfold Heap.scan
  have : (h.counters x y).last = h.last := rfl
  rw [this]
  cases h.last with
  | none => rfl
  | some _ => exact walk_counters h x y fuel _

theorem located_chunk {D : Type} {h : Heap D} (hok : ∀ pg ∈ h.pages, PageOk pg) {x : Addr × Chunk D}
    (hx : x ∈ locatedAll 0 h.pages) : h.chunkAt x.1 = some x.2 := by
  obtain ⟨j, pg, h1, h2, h3⟩ := (mem_locatedAll _ _ _).1 hx
  have hpg := hok pg (List.mem_of_getElem? h1)
  unfold Heap.chunkAt
  rw [h3]
  simp only [Nat.zero_add, h1]
  exact tiled_find hpg.tiled _ h2

/-- the scan of a heap yields its cells -/
theorem holds_scan {size : R → Nat} {h : Heap (Cell R)} {q : List (Addr × Cell R)} (hh : Holds size h q) {b : Bool} (hfl : Flags h b) :
    ∃ N xs, (∀ fuel ≥ N, h.scan fuel = some xs) ∧ (xs.map fun x => (x.1, x.2.data)).Perm q ∧
      ∀ x ∈ xs, (x.2.isShadowFree = true ↔ ∃ p, x.2.data = .pending p) := by
  refine ⟨(locatedAll 0 h.pages).length, usedOf (locatedAll 0 h.pages), ?_, ?_, ?_⟩
  · intro fuel hf
    have := scan_ok hh fuel hf
    rw [scan_counters] at this
    exact this
  · have := scan_live hh
    rw [List.map_map] at this
    have he : (fun b : Block (Cell R) => (addrOf b, b.data)) ∘ cellBlock size = id := by
      funext x
      exact Prod.ext (addrOf_blockAt _ _ _) rfl
    rw [he, List.map_id] at this
    exact this
  · intro x hx
    obtain ⟨h1, h2⟩ := List.mem_filter.1 hx
    have hc := located_chunk (h := h.counters _ _) hh.pagesOk h1
    have hc' : h.chunkAt x.1 = some x.2 := hc
    have hv : h.view x.1 = some x.2.core := by unfold Heap.view; rw [hc']; rfl
    exact (hfl x.1 x.2.core hv (by simp only [Chunk.core]; simpa using h2)).2

/-! ## Applying -/

def cells (xs : List (Addr × Chunk (Cell R))) : List (Addr × Cell R) := xs.map fun x => (x.1, x.2.data)

structure Mid (size : R → Nat) (key : R → K) (h : Heap (Cell R)) (ix : K → Option Ptr) (live : List (Ptr × R))
    (lm : List (Addr × R)) (xs : List (Addr × Chunk (Cell R))) : Prop where
  main   : Holds size h (rowCells lm)
  flags  : Flags h false
  addrs  : ((cells xs).map Prod.fst).Nodup
  kinds  : ∀ x ∈ xs, (x.2.isShadowFree = true ↔ ∃ p, x.2.data = .pending p)
  once   : ∀ a b p, (a, Cell.pending p) ∈ cells xs → (b, Cell.pending p) ∈ cells xs → a = b
  inMain : ∀ p, Pend (cells xs) p → ∃ r, (p, r) ∈ lm
  nodup  : (live.map Prod.fst).Nodup
  quiet  : Quiet key ix live
  live   : ∀ p r, (p, r) ∈ live ↔
    (p.shadow = false ∧ (p.addr, r) ∈ lm ∧ ¬ Pend (cells xs) p.addr) ∨ (p.shadow = true ∧ (p.addr, Cell.row r) ∈ cells xs)

/-- what the index and the blocks in use say about a key -/
def Entry (ix : K → Option Ptr) (live : List (Ptr × R)) (k : K) (r : R) : Prop := ∃ p, ix k = some p ∧ (p, r) ∈ live

theorem mid_row {size : R → Nat} {key : R → K} (hsz : ∀ r, size r ≤ 516071) {xs : List (Addr × Chunk (Cell R))}
    {h : Heap (Cell R)} {ix : K → Option Ptr} {live : List (Ptr × R)} {lm : List (Addr × R)} {a : Addr} {c : Chunk (Cell R)} {r : R}
    (hm : Mid size key h ix live lm ((a, c) :: xs)) (hd : c.data = .row r) :
    c.isShadowFree = false ∧ ix (key r) = some ⟨true, a⟩ ∧
    (∀ x, ((h.add (size r) (.row r) false false).1, x) ∉ lm) ∧
    ∃ live1, Mid size key (h.add (size r) (.row r) false false).2
        (assign ix (key r) (some ⟨false, (h.add (size r) (.row r) false false).1⟩)) live1
        (((h.add (size r) (.row r) false false).1, r) :: lm) xs ∧
      (∀ k x, Entry (assign ix (key r) (some ⟨false, (h.add (size r) (.row r) false false).1⟩)) live1 k x ↔ Entry ix live k x) ∧
      (live1.filter fun x => x.1.shadow).length + 1 = (live.filter fun x => x.1.shadow).length ∧
      (h.add (size r) (.row r) false false).2.pages.length ≤ h.pages.length + 1 := by
  have hk := hm.kinds (a, c) (by simp)
  simp only at hk
  have hcells : cells ((a, c) :: xs) = (a, c.data) :: cells xs := rfl
  have hnd : a ∉ (cells xs).map Prod.fst ∧ ((cells xs).map Prod.fst).Nodup := by
    have := hm.addrs
    rw [hcells, List.map_cons] at this
    exact List.nodup_cons.1 this
  have hsf : c.isShadowFree = false := by
    cases hc : c.isShadowFree with
    | false => rfl
    | true => obtain ⟨p, hp⟩ := hk.1 hc; rw [hd] at hp; simp at hp
  have hhead : (a, Cell.row r) ∈ cells ((a, c) :: xs) := by rw [hcells, hd]; simp
  have hin : ((⟨true, a⟩ : Ptr), r) ∈ live := (hm.live _ _).2 (Or.inr ⟨rfl, hhead⟩)
  have hix : ix (key r) = some ⟨true, a⟩ := hm.quiet.2 _ _ hin
  obtain ⟨l1, l2, hl⟩ := List.append_of_mem hin
  have hadd := holds_add hm.main (.row r) false (hsz r) hm.flags false (row_no_pend r)
  simp only [csize] at hadd
  have hgrow := grow_one h (size r) (Cell.row r) false false
  generalize h.add (size r) (.row r) false false = w at hadd hgrow ⊢
  obtain ⟨a', h'⟩ := w
  simp only at hadd hgrow ⊢
  obtain ⟨g1, g2, g3⟩ := hadd
  have hfresh : ∀ x, (a', x) ∉ lm := by
    intro x hx
    have hnd := holds_nodup g1
    rw [List.map_cons] at hnd
    have := List.mem_map_of_mem (f := Prod.fst) (mem_rowCells.2 ⟨x, rfl, hx⟩)
    exact (List.nodup_cons.1 hnd).1 this
  refine ⟨hsf, hix, hfresh, ?_⟩
  have hpend : ∀ y, Pend (cells ((a, c) :: xs)) y ↔ Pend (cells xs) y := by
    intro y
    rw [hcells, hd]
    constructor
    · rintro ⟨z, hz⟩
      rcases List.mem_cons.1 hz with e | e
      · simp at e
      · exact ⟨z, e⟩
    · rintro ⟨z, hz⟩
      exact ⟨z, List.mem_cons_of_mem _ hz⟩
  have hnp : ¬ Pend (cells xs) a' := by
    intro hp'
    obtain ⟨x, hx⟩ := hm.inMain a' ((hpend a').2 hp')
    exact hfresh x hx
  have hlive := hm.nodup
  rw [hl] at hlive
  have hsub : ∀ y, y ∈ l1 ++ l2 ↔ y ∈ live ∧ y.1 ≠ ⟨true, a⟩ := by intro y; rw [mem_split hlive, hl]
  let live1 := ((⟨false, a'⟩ : Ptr), r) :: (l1 ++ l2)
  have hmem1 : ∀ p x, (p, x) ∈ live1 ↔ (p = ⟨false, a'⟩ ∧ x = r) ∨ ((p, x) ∈ live ∧ p ≠ ⟨true, a⟩) := by
    intro p x
    rw [List.mem_cons, hsub]
    simp only [Prod.mk.injEq]
  have hother : ∀ p x, (p, x) ∈ live → p ≠ ⟨true, a⟩ → key x ≠ key r := by
    intro p x h1 h2 h3
    have := hm.quiet.2 p x h1
    rw [h3, hix] at this
    simp only [Option.some.injEq] at this
    exact h2 this.symm
  have hm' : Mid size key h' (assign ix (key r) (some ⟨false, a'⟩)) live1 ((a', r) :: lm) xs := by
    refine ⟨g1, g2, hnd.2, fun y hy => hm.kinds y (List.mem_cons_of_mem _ hy), ?_, ?_, ?_, ⟨?_, ?_⟩, ?_⟩
    · intro y z w hy hz
      exact hm.once y z w (by rw [hcells]; exact List.mem_cons_of_mem _ hy) (by rw [hcells]; exact List.mem_cons_of_mem _ hz)
    · intro y hy
      obtain ⟨r', hr'⟩ := hm.inMain y ((hpend y).2 hy)
      exact ⟨r', List.mem_cons_of_mem _ hr'⟩
    · show (List.map Prod.fst (((⟨false, a'⟩ : Ptr), r) :: (l1 ++ l2))).Nodup
      rw [List.map_cons]
      refine List.nodup_cons.2 ⟨?_, nodup_split hlive⟩
      intro hmem
      obtain ⟨⟨p, x⟩, hx, hpe⟩ := List.mem_map.1 hmem
      simp only at hpe
      have := ((hsub _).1 hx).1
      rw [hpe] at this
      rcases (hm.live _ _).1 this with ⟨_, e, _⟩ | ⟨e, _⟩
      · exact hfresh x e
      · simp at e
    · intro k p hkp
      unfold assign at hkp
      split at hkp
      · rename_i he
        simp only [Option.some.injEq] at hkp
        exact ⟨r, (hmem1 p r).2 (Or.inl ⟨hkp.symm, rfl⟩), he.symm⟩
      · rename_i he
        obtain ⟨x, hx, hxk⟩ := hm.quiet.1 k p hkp
        refine ⟨x, (hmem1 p x).2 (Or.inr ⟨hx, ?_⟩), hxk⟩
        intro hpa
        rw [hpa] at hx
        have := nodup_unique hm.nodup hx hin
        rw [this] at hxk
        exact he hxk.symm
    · intro p x hx
      rcases (hmem1 p x).1 hx with ⟨e1, e2⟩ | ⟨e1, e2⟩
      · unfold assign; rw [e2, if_pos rfl, e1]
      · unfold assign
        rw [if_neg (hother p x e1 e2)]
        exact hm.quiet.2 p x e1
    · intro p x
      rw [hmem1, hm.live, hpend]
      obtain ⟨b, pa⟩ := p
      have hc2 : (pa, Cell.row x) ∈ cells ((a, c) :: xs) ↔ (pa = a ∧ x = r) ∨ (pa, Cell.row x) ∈ cells xs := by
        rw [hcells, hd, List.mem_cons]
        simp only [Prod.mk.injEq, Cell.row.injEq]
      simp only [hc2, Ptr.mk.injEq, List.mem_cons, Prod.mk.injEq, ne_eq]
      constructor
      · rintro (⟨⟨e1, e2⟩, e3⟩ | ⟨⟨e1, e2, e3⟩ | ⟨e1, ⟨e2, _⟩ | e2⟩, e4⟩)
        · exact Or.inl ⟨e1, Or.inl ⟨e2, e3⟩, by rw [e2]; exact hnp⟩
        · exact Or.inl ⟨e1, Or.inr e2, e3⟩
        · exact absurd ⟨e1, e2⟩ e4
        · exact Or.inr ⟨e1, e2⟩
      · rintro (⟨e1, ⟨e2, e2'⟩ | e2, e3⟩ | ⟨e1, e2⟩)
        · exact Or.inl ⟨⟨e1, e2⟩, e2'⟩
        · refine Or.inr ⟨Or.inl ⟨e1, e2, e3⟩, ?_⟩
          rintro ⟨h1, _⟩
          rw [e1] at h1; simp at h1
        · refine Or.inr ⟨Or.inr ⟨e1, Or.inr e2⟩, ?_⟩
          rintro ⟨_, h2⟩
          rw [h2] at e2
          exact hnd.1 (List.mem_map_of_mem (f := Prod.fst) e2)
  have hcount : (live1.filter fun x => x.1.shadow).length + 1 = (live.filter fun x => x.1.shadow).length := by
    rw [hl]
    simp only [live1, List.filter_cons, List.filter_append, List.length_append]
    simp
    omega
  refine ⟨live1, hm', ?_, hcount, hgrow⟩
  intro k x
  unfold Entry assign
  by_cases hk : k = key r
  · subst hk
    simp only [if_true, Option.some.injEq, hix]
    constructor
    · rintro ⟨p, e1, e2⟩
      rcases (hmem1 p x).1 e2 with ⟨f1, f2⟩ | ⟨f1, f2⟩
      · exact ⟨⟨true, a⟩, rfl, by rw [f2]; exact hin⟩
      · rw [← e1] at f1
        rcases (hm.live _ _).1 f1 with ⟨_, e, _⟩ | ⟨e, _⟩
        · exact absurd e (hfresh x)
        · simp at e
    · rintro ⟨p, e1, e2⟩
      rw [← e1] at e2
      have := nodup_unique hm.nodup e2 hin
      exact ⟨⟨false, a'⟩, rfl, (hmem1 _ _).2 (Or.inl ⟨rfl, this⟩)⟩
  · simp only [hk, if_false]
    constructor
    · rintro ⟨p, e1, e2⟩
      rcases (hmem1 p x).1 e2 with ⟨f1, f2⟩ | ⟨f1, f2⟩
      · obtain ⟨y, hy, hyk⟩ := hm.quiet.1 k p e1
        rw [f1] at hy
        rcases (hm.live _ _).1 hy with ⟨_, e, _⟩ | ⟨e, _⟩
        · exact absurd e (hfresh y)
        · simp at e
      · exact ⟨p, e1, f1⟩
    · rintro ⟨p, e1, e2⟩
      refine ⟨p, e1, (hmem1 p x).2 (Or.inr ⟨e2, ?_⟩)⟩
      intro hpa
      obtain ⟨y, hy, hyk⟩ := hm.quiet.1 k p e1
      rw [hpa] at hy
      have := nodup_unique hm.nodup hy hin
      rw [this] at hyk
      exact hk hyk.symm

theorem apply_ok {size : R → Nat} {key : R → K} (hsz : ∀ r, size r ≤ 516071) : ∀ (xs : List (Addr × Chunk (Cell R)))
    (h : Heap (Cell R)) (ix : K → Option Ptr) (live : List (Ptr × R)) (lm : List (Addr × R)), Mid size key h ix live lm xs →
    h.pages.length + (live.filter fun x => x.1.shadow).length ≤ 2 ^ 19 →
    ∃ h' ix' live' lm', applyShadow size key xs h ix = some (h', ix') ∧ Mid size key h' ix' live' lm' [] ∧
      (∀ k r, Entry ix' live' k r ↔ Entry ix live k r) ∧ h'.pages.length ≤ 2 ^ 19 := by
  intro xs
  induction xs with
  | nil =>
    intro h ix live lm hm hp
    exact ⟨h, ix, live, lm, rfl, hm, fun _ _ => Iff.rfl, by omega⟩
  | cons x xs ih =>
    intro h ix live lm hm hp
    obtain ⟨a, c⟩ := x
    have hk := hm.kinds (a, c) (by simp)
    simp only at hk
    have hcells : cells ((a, c) :: xs) = (a, c.data) :: cells xs := rfl
    have hnd : a ∉ (cells xs).map Prod.fst ∧ ((cells xs).map Prod.fst).Nodup := by
      have := hm.addrs
      rw [hcells, List.map_cons] at this
      exact List.nodup_cons.1 this
    cases hd : c.data with
    | pending p =>
      have hsf : c.isShadowFree = true := hk.2 ⟨p, hd⟩
      have hstep : applyShadow size key ((a, c) :: xs) h ix = applyShadow size key xs (h.remove p) ix := by
        rw [applyShadow]; simp [hsf, hd]
      rw [hstep]
      have hhead : (a, Cell.pending p) ∈ cells ((a, c) :: xs) := by rw [hcells, hd]; simp
      obtain ⟨r, hr⟩ := hm.inMain p ⟨a, hhead⟩
      obtain ⟨l1, l2, hl⟩ := List.append_of_mem hr
      have hmain := hm.main
      rw [hl, rowCells_split] at hmain
      obtain ⟨g1, g2, g3⟩ := holds_remove hmain (by omega) hm.flags
      have hlnd := rowCells_nodup hm.main
      rw [hl] at hlnd
      have hsub : ∀ y, y ∈ l1 ++ l2 ↔ y ∈ lm ∧ y.1 ≠ p := by intro y; rw [mem_split hlnd, hl]
      have hnp : ¬ Pend (cells xs) p := by
        rintro ⟨b, hb⟩
        have := hm.once a b p hhead (by rw [hcells]; exact List.mem_cons_of_mem _ hb)
        rw [this] at hnd
        exact hnd.1 (List.mem_map_of_mem (f := Prod.fst) hb)
      have hpend : ∀ y, Pend (cells ((a, c) :: xs)) y ↔ y = p ∨ Pend (cells xs) y := by
        intro y
        rw [hcells, hd]
        constructor
        · rintro ⟨z, hz⟩
          rcases List.mem_cons.1 hz with e | e
          · simp only [Prod.mk.injEq, Cell.pending.injEq] at e; exact Or.inl e.2
          · exact Or.inr ⟨z, e⟩
        · rintro (e | ⟨z, hz⟩)
          · exact ⟨a, by rw [e]; exact List.mem_cons_self⟩
          · exact ⟨z, List.mem_cons_of_mem _ hz⟩
      have hm' : Mid size key (h.remove p) ix live (l1 ++ l2) xs := by
        refine ⟨by rw [rowCells_append]; exact g1, g2, hnd.2, fun y hy => hm.kinds y (List.mem_cons_of_mem _ hy), ?_, ?_,
          hm.nodup, hm.quiet, ?_⟩
        · intro y z w hy hz
          exact hm.once y z w (by rw [hcells]; exact List.mem_cons_of_mem _ hy) (by rw [hcells]; exact List.mem_cons_of_mem _ hz)
        · intro y hy
          obtain ⟨r', hr'⟩ := hm.inMain y ((hpend y).2 (Or.inr hy))
          refine ⟨r', (hsub _).2 ⟨hr', ?_⟩⟩
          intro he
          simp only at he
          rw [he] at hy
          exact hnp hy
        · intro q r'
          rw [hm.live, hpend, hsub]
          have hc2 : (q.addr, Cell.row r') ∈ cells ((a, c) :: xs) ↔ (q.addr, Cell.row r') ∈ cells xs := by
            rw [hcells, hd, List.mem_cons]
            constructor
            · rintro (e | e)
              · simp at e
              · exact e
            · exact Or.inr
          rw [hc2]
          constructor
          · rintro (⟨e1, e2, e3⟩ | e)
            · exact Or.inl ⟨e1, ⟨e2, fun he => e3 (Or.inl he)⟩, fun he => e3 (Or.inr he)⟩
            · exact Or.inr e
          · rintro (⟨e1, ⟨e2, e2'⟩, e3⟩ | e)
            · refine Or.inl ⟨e1, e2, ?_⟩
              rintro (he | he)
              · exact e2' he
              · exact e3 he
            · exact Or.inr e
      exact ih (h.remove p) ix live (l1 ++ l2) hm' (by omega)
    | row r =>
      obtain ⟨hsf, hix, _, live1, hm', hent, hcount, hgrow⟩ := mid_row hsz hm hd
      have hstep : applyShadow size key ((a, c) :: xs) h ix = applyShadow size key xs (h.add (size r) (.row r) false false).2
          (assign ix (key r) (some ⟨false, (h.add (size r) (.row r) false false).1⟩)) := by
        rw [applyShadow]; simp [hsf, hd, hix]
      rw [hstep]
      obtain ⟨h2, ix2, live2, lm2, r1, r2, r3, r4⟩ := ih _ _ live1 _ hm' (by omega)
      refine ⟨h2, ix2, live2, lm2, r1, r2, ?_, r4⟩
      intro k x
      rw [r3, hent]

/-! ## Histories -/

theorem uses_normal {size : R → Nat} (hsz : ∀ r, size r ≤ 516071) {s s' : Partn K R} {live live' : List (Ptr × R)}
    {ops : List (POp K R)} (hu : Uses size s live ops s' live') : ∀ {lm}, Normal size s live lm → Small s' →
    s.mem.main.pages.length ≤ s'.mem.main.pages.length ∧ ∃ lm', Normal size s' live' lm' := by
  induction hu with
  | nil => intro lm hn _; exact ⟨Nat.le_refl _, lm, hn⟩
  | alloc r _ ih =>
    intro lm hn hs
    obtain ⟨lm', h1, h2⟩ := normal_alloc hn r (hsz r)
    obtain ⟨h3, h4⟩ := ih h1 hs
    exact ⟨by omega, h4⟩
  | @free s s' live live' ops p r l1 l2 he hu ih =>
    intro lm hn hs
    subst he
    have hlen : (s.step size (.free p)).mem.main.pages.length = s.mem.main.pages.length := by
      simp only [Partn.step, Mem.remove, hn.off]
      unfold Heap.remove
      split <;> simp [updateAt]
    have hgrow : s.mem.main.pages.length ≤ 2 ^ 19 := by
      have hmono : ∀ {s s' : Partn K R} {live live' : List (Ptr × R)} {ops : List (POp K R)},
          Uses size s live ops s' live' → s.mem.shadow = none → s.mem.main.pages.length ≤ s'.mem.main.pages.length := by
        intro s s' live live' ops hu
        induction hu with
        | nil => intro _; exact Nat.le_refl _
        | @alloc s _ _ _ _ r _ ih =>
          intro hoff
          have hg : s.mem.main.pages.length ≤ (s.step size (.alloc r)).mem.main.pages.length := by
            simp only [Partn.step, Mem.add, hoff]
            unfold Heap.add
            simp only
            split
            · simp [updateAt]
            · simp only [Heap.bump, List.length_modify]
              have h1 : s.mem.main.pages.length ≤ (s.mem.main.prepare (bucketSize (bucketOf (chunkSize + size r)))).pages.length := by
                unfold Heap.prepare
                simp only
                repeat' split
                all_goals simp
              split
              · simpa [updateAt] using h1
              · exact h1
          have := ih (by simp only [Partn.step, Mem.add, hoff])
          omega
        | @free s _ _ _ _ p _ _ _ _ _ ih =>
          intro hoff
          have := ih (by simp only [Partn.step, Mem.remove, hoff])
          have hlen : (s.step size (.free p)).mem.main.pages.length = s.mem.main.pages.length := by
            simp only [Partn.step, Mem.remove, hoff]
            unfold Heap.remove
            split <;> simp [updateAt]
          omega
        | index k p _ ih => intro hoff; exact ih hoff
      have := hmono hu (by simp only [Partn.step, Mem.remove, hn.off])
      have := hs.1
      omega
    obtain ⟨lm', h1, h2⟩ := normal_free hn hgrow
    obtain ⟨h3, h4⟩ := ih h1 hs
    exact ⟨by omega, h4⟩
  | index k p _ ih =>
    intro lm hn hs
    exact ih ⟨hn.main, hn.flags, hn.off, hn.nodup, hn.live⟩ hs

/-- a snapshot stays active, the pages of the main heap are not changed and the shadow heap only grows -/
theorem uses_mono {size : R → Nat} {s s' : Partn K R} {live live' : List (Ptr × R)}
    {ops : List (POp K R)} (hu : Uses size s live ops s' live') : ∀ {sh}, s.mem.shadow = some sh →
    s'.mem.main.pages = s.mem.main.pages ∧ s'.mem.main.lists = s.mem.main.lists ∧ s'.mem.main.last = s.mem.main.last ∧
    ∃ sh', s'.mem.shadow = some sh' ∧ sh.pages.length ≤ sh'.pages.length := by
  have hadd : ∀ (h : Heap (Cell R)) (n : Nat) (d : Cell R) (s sf : Bool), h.pages.length ≤ (h.add n d s sf).2.pages.length := by
    intro h n d s sf
    unfold Heap.add
    simp only
    split
    · simp [updateAt]
    · simp only [Heap.bump, List.length_modify]
      have h1 : h.pages.length ≤ (h.prepare (bucketSize (bucketOf (chunkSize + n)))).pages.length := by
        unfold Heap.prepare
        simp only
        repeat' split
        all_goals simp
      split
      · simpa [updateAt] using h1
      · exact h1
  induction hu with
  | nil => intro sh h; exact ⟨rfl, rfl, rfl, sh, h, Nat.le_refl _⟩
  | @alloc s _ _ _ _ r _ ih =>
    intro sh h
    obtain ⟨h1, h2, h3, sh', h4, h5⟩ := @ih ((sh.add (size r) (.row r) true false).2.counters sh.countUsed sh.sizeUsed)
      (by simp only [Partn.step, Mem.add, h]; rfl)
    refine ⟨?_, ?_, ?_, sh', h4, ?_⟩
    · rw [h1]; simp only [Partn.step, Mem.add, h]
    · rw [h2]; simp only [Partn.step, Mem.add, h]
    · rw [h3]; simp only [Partn.step, Mem.add, h]
    · have := hadd sh (size r) (.row r) true false
      have : ((sh.add (size r) (.row r) true false).2.counters sh.countUsed sh.sizeUsed).pages.length =
        (sh.add (size r) (.row r) true false).2.pages.length := rfl
      omega
  | @free s _ _ _ _ p _ _ _ _ _ ih =>
    intro sh h
    have hx : (s.step size (.free p)).mem.main = s.mem.main ∧
        ∃ sh', (s.step size (.free p)).mem.shadow = some sh' ∧ sh.pages.length ≤ sh'.pages.length := by
      simp only [Partn.step, Mem.remove, h]
      split
      · exact ⟨rfl, sh, h, Nat.le_refl _⟩
      · split
        · refine ⟨rfl, sh.remove p.addr, rfl, ?_⟩
          unfold Heap.remove
          split <;> simp [updateAt]
        · exact ⟨rfl, _, rfl, hadd _ _ _ _ _⟩
    obtain ⟨e1, sh1, e2, e3⟩ := hx
    obtain ⟨h1, h2, h3, sh', h4, h5⟩ := ih e2
    exact ⟨by rw [h1, e1], by rw [h2, e1], by rw [h3, e1], sh', h4, by omega⟩
  | index k p _ ih => intro sh h; exact ih h

theorem uses_snap {size : R → Nat} (hsz : ∀ r, size r ≤ 516071) {s s' : Partn K R} {live live' : List (Ptr × R)}
    {ops : List (POp K R)} (hu : Uses size s live ops s' live') : ∀ {lm sh q}, Snap size s live lm sh q → Small s' →
    ∃ sh' q', Snap size s' live' lm sh' q' := by
  induction hu with
  | nil => intro lm sh q hn _; exact ⟨sh, q, hn⟩
  | alloc r _ ih =>
    intro lm sh q hn hs
    obtain ⟨sh', q', h1, _⟩ := snap_alloc hn r (hsz r)
    exact ih h1 hs
  | @free s s' live live' ops p r l1 l2 he hu ih =>
    intro lm sh q hn hs
    subst he
    have hgrow : sh.pages.length ≤ 2 ^ 19 := by
      obtain ⟨_, _, _, sh1, e1, e2⟩ := uses_mono (Uses.free (size := size) p r l1 l2 rfl hu) hn.on
      have := hs.2 sh1 e1
      omega
    obtain ⟨sh', q', h1, _⟩ := snap_free hn hgrow
    exact ih h1 hs
  | index k p _ ih =>
    intro lm sh q hn hs
    exact ih ⟨hn.main, hn.flags, hn.on, hn.shadow, hn.sflags, hn.once, hn.inMain, hn.nodup, hn.live⟩ hs

theorem normal_deref {size : R → Nat} {s : Partn K R} {live : List (Ptr × R)} {lm : List (Addr × R)} (hn : Normal size s live lm)
    {p : Ptr} {r : R} (hm : (p, r) ∈ live) : s.mem.deref p = some r := by
  obtain ⟨h1, h2⟩ := (hn.live p r).1 hm
  obtain ⟨c, c1, c2, c3, _⟩ := holds_chunk hn.main hn.flags (mem_rowCells.2 ⟨r, rfl, h2⟩)
  unfold Mem.deref
  rw [h1]
  simp [c1, c2, c3]

theorem snap_deref {size : R → Nat} {s : Partn K R} {live : List (Ptr × R)} {lm : List (Addr × R)} {sh : Heap (Cell R)}
    {q : List (Addr × Cell R)} (hn : Snap size s live lm sh q)
    {p : Ptr} {r : R} (hm : (p, r) ∈ live) : s.mem.deref p = some r := by
  rcases (hn.live p r).1 hm with ⟨h1, h2, _⟩ | ⟨h1, h2⟩
  · obtain ⟨c, c1, c2, c3, _⟩ := holds_chunk hn.main hn.flags (mem_rowCells.2 ⟨r, rfl, h2⟩)
    unfold Mem.deref
    rw [h1]
    simp [c1, c2, c3]
  · obtain ⟨c, c1, c2, c3, _⟩ := holds_chunk hn.shadow hn.sflags h2
    unfold Mem.deref
    rw [h1, hn.on]
    simp [c1, c2, c3]

theorem lookup_entry {key : R → K} {s : Partn K R} {live : List (Ptr × R)} (hq : Quiet key s.idx live)
    (hd : ∀ p r, (p, r) ∈ live → s.mem.deref p = some r) (k : K) (r : R) :
    s.lookup k = some r ↔ Entry s.idx live k r := by
  unfold Partn.lookup Entry
  cases hi : s.idx k with
  | none => simp
  | some p =>
    obtain ⟨x, hx, _⟩ := hq.1 k p hi
    have := hd p x hx
    simp only [Option.bind_some, this, Option.some.injEq]
    constructor
    · rintro rfl; exact ⟨p, rfl, hx⟩
    · rintro ⟨p', e1, e2⟩
      rw [← e1] at e2
      have := hd p r e2
      simp_all

/-- everything the proofs need to know about a reachable partition -/
theorem snap_begin {size : R → Nat} {s : Partn K R} {live : List (Ptr × R)} {lm : List (Addr × R)} (hn : Normal size s live lm) :
    Snap size { s with mem := s.mem.begin } live lm (Heap.init _) [] := by
  refine ⟨hn.main, hn.flags, rfl, holds_init size, flags_init true, ?_, ?_, hn.nodup, ?_⟩
  · intro a b p h; simp at h
  · rintro p ⟨a, h⟩; simp at h
  · intro p r
    rw [hn.live]
    have : ¬ Pend ([] : List (Addr × Cell R)) p.addr := by rintro ⟨a, h⟩; simp at h
    simp [this]

theorem snap_apply {size : R → Nat} {key : R → K} (hsz : ∀ r, size r ≤ 516071) {s : Partn K R} {live : List (Ptr × R)}
    {lm : List (Addr × R)} {sh : Heap (Cell R)} {q : List (Addr × Cell R)} (hn : Snap size s live lm sh q)
    (hq : Quiet key s.idx live) (hp : s.mem.main.pages.length + live.length ≤ 2 ^ 19) :
    ∃ N s' live' lm', (∀ fuel ≥ N, s.apply size key fuel = some s') ∧ Normal size s' live' lm' ∧ Quiet key s'.idx live' ∧
      (∀ k r, Entry s'.idx live' k r ↔ Entry s.idx live k r) ∧ s'.mem.main.pages.length ≤ 2 ^ 19 := by
  obtain ⟨N, xs, hscan, hperm, hkinds⟩ := holds_scan hn.shadow hn.sflags
  have hcm : ∀ y, y ∈ cells xs ↔ y ∈ q := fun y => hperm.mem_iff
  have hpend : ∀ y, Pend (cells xs) y ↔ Pend q y := fun y => by unfold Pend; simp only [hcm]
  have hmid : Mid size key s.mem.main s.idx live lm xs := by
    refine ⟨hn.main, hn.flags, ?_, hkinds, ?_, ?_, hn.nodup, hq, ?_⟩
    · exact (hperm.map Prod.fst).nodup_iff.2 (holds_nodup hn.shadow)
    · intro a b p h1 h2; exact hn.once a b p ((hcm _).1 h1) ((hcm _).1 h2)
    · intro p h; exact hn.inMain p ((hpend p).1 h)
    · intro p r; rw [hn.live, hpend, hcm]
  have hle : (live.filter fun x => x.1.shadow).length ≤ live.length := List.length_filter_le _ _
  obtain ⟨h', ix', live', lm', r1, r2, r3, r4⟩ := apply_ok hsz xs s.mem.main s.idx live lm hmid (by omega)
  refine ⟨N, ⟨⟨h', none⟩, ix'⟩, live', lm', ?_, ?_, r2.quiet, r3, r4⟩
  · intro fuel hf
    unfold Partn.apply
    simp only [hn.on, hscan fuel hf, r1]
  · refine ⟨r2.main, r2.flags, rfl, r2.nodup, ?_⟩
    intro p r
    rw [r2.live]
    have : ¬ Pend ([] : List (Addr × Cell R)) p.addr := by rintro ⟨a, h⟩; simp at h
    simp [this, cells]

theorem apply_fuel {size : R → Nat} {key : R → K} {s s1 s2 : Partn K R} {live : List (Ptr × R)} {lm : List (Addr × R)}
    {sh : Heap (Cell R)} {q : List (Addr × Cell R)} (hn : Snap size s live lm sh q) {f1 f2 : Nat}
    (h1 : s.apply size key f1 = some s1) (h2 : s.apply size key f2 = some s2) : s1 = s2 := by
  have hmono : ∀ (h : Heap (Cell R)) (n : Nat) (p : Option Addr) (l : List (Addr × Chunk (Cell R))), h.walk n p = some l →
      h.walk (n + 1) p = some l := by
    intro h n
    induction n with
    | zero =>
      intro p l hw
      cases p with
      | none => simpa [Heap.walk] using hw
      | some a => simp [Heap.walk] at hw
    | succ n ih =>
      intro p l hw
      cases p with
      | none => simpa [Heap.walk] using hw
      | some a =>
        rw [Heap.walk] at hw
        rw [Heap.walk]
        cases hc : h.chunkAt a with
        | none => rw [hc] at hw; simp at hw
        | some c =>
          rw [hc] at hw
          simp only at hw ⊢
          cases hr : h.walk n (h.nextChunk a) with
          | none => rw [hr] at hw; simp at hw
          | some rest => rw [hr] at hw; rw [ih _ _ hr]; exact hw
  have hmono2 : ∀ (h : Heap (Cell R)) (m n : Nat) (p : Option Addr) (l : List (Addr × Chunk (Cell R))), m ≤ n → h.walk m p = some l →
      h.walk n p = some l := by
    intro h m n p l hmn hw
    induction hmn with
    | refl => exact hw
    | step _ ih => exact hmono _ _ _ _ ih
  have hscan : ∀ (m n : Nat) l, m ≤ n → sh.scan m = some l → sh.scan n = some l := by
    intro m n l hmn hs
    unfold Heap.scan at hs ⊢
    cases hl : sh.last with
    | none => rw [hl] at hs; exact hs
    | some o => rw [hl] at hs; exact hmono2 _ _ _ _ _ hmn hs
  have happ : ∀ (m n : Nat) t, m ≤ n → s.apply size key m = some t → s.apply size key n = some t := by
    intro m n t hmn ha
    unfold Partn.apply at ha ⊢
    rw [hn.on] at ha ⊢
    simp only at ha ⊢
    cases hs : sh.scan m with
    | none => rw [hs] at ha; simp at ha
    | some l => rw [hs] at ha; rw [hscan m n l hmn hs]; exact ha
  have e1 := happ f1 (max f1 f2) s1 (Nat.le_max_left _ _) h1
  have e2 := happ f2 (max f1 f2) s2 (Nat.le_max_right _ _) h2
  rw [e1] at e2
  simpa using e2

theorem reach_inv {size : R → Nat} {key : R → K} (hsz : ∀ r, size r ≤ 516071) {s : Partn K R} {live : List (Ptr × R)}
    (hr : Reach size key s live) : (∃ lm, Normal size s live lm) ∨ ∃ lm sh q, Snap size s live lm sh q := by
  induction hr with
  | init =>
    left
    refine ⟨[], holds_init size, flags_init false, rfl, List.nodup_nil, ?_⟩
    intro p r; simp
  | run _ hu hs ih =>
    rcases ih with ⟨lm, h⟩ | ⟨lm, sh, q, h⟩
    · exact Or.inl (uses_normal hsz hu h hs).2
    · obtain ⟨sh', q', h'⟩ := uses_snap hsz hu h hs
      exact Or.inr ⟨lm, sh', q', h'⟩
  | begin _ hoff _ ih =>
    rcases ih with ⟨lm, h⟩ | ⟨lm, sh, q, h⟩
    · exact Or.inr ⟨lm, _, _, snap_begin h⟩
    · have := h.on; rw [hoff] at this; simp at this
  | @apply s s' live live' fuel _ hq hp ha ho ih =>
    rcases ih with ⟨lm, h⟩ | ⟨lm, sh, q, h⟩
    · unfold Partn.apply at ha; rw [h.off] at ha; simp at ha
    · left
      obtain ⟨N, s1, live1, lm1, r1, r2, r3, _⟩ := snap_apply hsz h hq hp
      have := apply_fuel h ha (r1 N (Nat.le_refl _))
      subst this
      refine ⟨lm1, r2.main, r2.flags, r2.off, ho.1, ?_⟩
      intro p r
      rw [ho.2, ← r2.live]
      constructor
      · rintro ⟨⟨k, hk⟩, hd⟩
        obtain ⟨x, hx, _⟩ := r3.1 k p hk
        have := normal_deref r2 hx
        rw [this] at hd
        simp only [Option.some.injEq] at hd
        rw [← hd]; exact hx
      · intro hm
        exact ⟨⟨key r, r3.2 p r hm⟩, normal_deref r2 hm⟩

end
end Verif.Heap
