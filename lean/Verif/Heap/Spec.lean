import Verif.Heap.Model
/-!
# Specification: an allocator of row blocks
-/
namespace Verif.Heap
variable {D : Type}

/-- a live block: page, first byte, number of bytes asked for, contents -/
structure Block (D : Type) where
  page  : Nat
  start : Nat
  len   : Nat
  data  : D

/-- no byte in common -/
def Block.disjoint (a b : Block D) : Prop := a.page ≠ b.page ∨ a.start + a.len ≤ b.start ∨ b.start + b.len ≤ a.start

/-- the block lies on the page, after the page header -/
def Block.inPage (b : Block D) : Prop := headerSize ≤ b.start ∧ b.start + b.len ≤ pageSize

/-- the row of the chunk at `a` starts after the chunk header -/
def blockAt (a : Addr) (len : Nat) (d : D) : Block D := ⟨a.1, a.2 + chunkSize, len, d⟩

/-- how a client may use the heap: it releases only blocks it owns. `live` are the blocks handed out and not released. -/
inductive Allowed (maxSize : Nat) : Heap D → List (Block D) → List (Op D) → Heap D → List (Block D) → Prop
  | nil (h : Heap D) (live : List (Block D)) : Allowed maxSize h live [] h live
  | add {h h' : Heap D} {live live' : List (Block D)} {ops : List (Op D)} (n : Nat) (d : D) : n ≤ maxSize →
      Allowed maxSize (h.add n d false false).2 (blockAt (h.add n d false false).1 n d :: live) ops h' live' →
      Allowed maxSize h live (.add n d :: ops) h' live'
  | remove {h h' : Heap D} {live live' : List (Block D)} {ops : List (Op D)} (a : Addr) (n : Nat) (d : D)
      (l1 l2 : List (Block D)) : live = l1 ++ blockAt a n d :: l2 →
      Allowed maxSize (h.remove a) (l1 ++ l2) ops h' live' →
      Allowed maxSize h live (.remove a :: ops) h' live'
  | reopen {h h' : Heap D} {live live' : List (Block D)} {ops : List (Op D)} :
      Allowed maxSize h.reopen live ops h' live' →
      Allowed maxSize h live (.reopen :: ops) h' live'

end Verif.Heap
