import Verif.Exec.Model
/-!
# What users expect of the order and the completion of transactions (C21, C22)
-/
namespace Verif.Exec

/-- partitions of the transaction number `i` -/
def partsOf (s : Ex) (i : Nat) : List Nat := s.subs.getD i []

/-- `i` is decided before `j` -/
def Before (log : List Nat) (i j : Nat) : Prop := ∃ a b, log = a ++ j :: b ∧ i ∈ a

/-- **C22**: transactions with a common partition are decided in the order in which they were submitted -/
def InOrder (s : Ex) : Prop :=
  ∀ i j p, i < j → p ∈ partsOf s i → p ∈ partsOf s j → j ∈ s.log → Before s.log i j

/-- **C21**: when all submitted transactions have finished (and have been handed to the committer), all are decided -/
def AllDecided (s : Ex) : Prop := (∀ i, i < s.subs.length → i ∈ s.sent) → ∀ i, i < s.subs.length → i ∈ s.log

/-- nothing is decided twice or before it has finished -/
def Sound (s : Ex) : Prop := s.log.Nodup ∧ ∀ i ∈ s.log, i ∈ s.sent ∧ i < s.subs.length

end Verif.Exec
