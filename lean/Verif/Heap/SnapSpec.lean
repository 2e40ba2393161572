import Verif.Heap.Snapshot
/-!
# Specification: a table that is copied in the background
-/
namespace Verif.Heap
variable {K R : Type} [DecidableEq K]

/-- what a pointer points to -/
def Mem.deref (m : Mem R) (p : Ptr) : Option R :=
  match (if p.shadow then m.shadow.bind fun s => s.chunkAt p.addr else m.main.chunkAt p.addr) with
  | some c => if c.isFree then none else match c.data with | .row r => some r | .pending _ => none
  | none => none

/-- the contents of the table: what a lookup by key finds -/
def Partn.lookup (s : Partn K R) (k : K) : Option R := (s.idx k).bind s.mem.deref

/-- statements own the blocks they allocated until they release them. `live` are the blocks in use. -/
inductive Uses (size : R → Nat) : Partn K R → List (Ptr × R) → List (POp K R) → Partn K R → List (Ptr × R) → Prop
  | nil (s : Partn K R) (live : List (Ptr × R)) : Uses size s live [] s live
  | alloc {s s' : Partn K R} {live live' : List (Ptr × R)} {ops : List (POp K R)} (r : R) :
      Uses size (s.step size (.alloc r)) (((s.mem.add size r).1, r) :: live) ops s' live' →
      Uses size s live (.alloc r :: ops) s' live'
  | free {s s' : Partn K R} {live live' : List (Ptr × R)} {ops : List (POp K R)} (p : Ptr) (r : R)
      (l1 l2 : List (Ptr × R)) : live = l1 ++ (p, r) :: l2 →
      Uses size (s.step size (.free p)) (l1 ++ l2) ops s' live' →
      Uses size s live (.free p :: ops) s' live'
  | index {s s' : Partn K R} {live live' : List (Ptr × R)} {ops : List (POp K R)} (k : K) (p : Option Ptr) :
      Uses size (s.step size (.index k p)) live ops s' live' →
      Uses size s live (.index k p :: ops) s' live'

/-- no transaction is in flight: the index refers to each block in use, under its key, and to nothing else -/
def Quiet (key : R → K) (idx : K → Option Ptr) (live : List (Ptr × R)) : Prop :=
  (∀ k p, idx k = some p → ∃ r, (p, r) ∈ live ∧ key r = k) ∧ ∀ p r, (p, r) ∈ live → idx (key r) = some p


/-- at most 2^19 pages (256 GiB) per heap -/
def Small (s : Partn K R) : Prop := s.mem.main.pages.length ≤ 2 ^ 19 ∧ ∀ sh, s.mem.shadow = some sh → sh.pages.length ≤ 2 ^ 19

/-- the blocks in use are the rows the index refers to -/
def Owned (s : Partn K R) (live : List (Ptr × R)) : Prop :=
  (live.map Prod.fst).Nodup ∧ ∀ p r, (p, r) ∈ live ↔ (∃ k, s.idx k = some p) ∧ s.mem.deref p = some r

/-- histories of a partition: statements run; snapshots begin and are applied while no transaction is in flight (both take
the table's exclusive lock and decide all prepared transactions, refresh.c:45-71, 143-151) -/
inductive Reach (size : R → Nat) (key : R → K) : Partn K R → List (Ptr × R) → Prop
  | init : Reach size key ⟨⟨Heap.init _, none⟩, fun _ => none⟩ []
  | run {s s' : Partn K R} {live live' : List (Ptr × R)} {ops : List (POp K R)} : Reach size key s live →
      Uses size s live ops s' live' → Small s' → Reach size key s' live'
  | begin {s : Partn K R} {live : List (Ptr × R)} : Reach size key s live → s.mem.shadow = none → Quiet key s.idx live →
      Reach size key { s with mem := s.mem.begin } live
  | apply {s s' : Partn K R} {live live' : List (Ptr × R)} {fuel : Nat} : Reach size key s live → Quiet key s.idx live →
      s.mem.main.pages.length + live.length ≤ 2 ^ 19 → s.apply size key fuel = some s' → Owned s' live' →
      Reach size key s' live'

end Verif.Heap
