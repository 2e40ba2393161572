import Verif.Object.Proofs
import Verif.Index.Props
import Verif.Index.PropsText
/-!
# Stored objects: C16
-/
namespace Verif.Object
open Verif Verif.Index
variable {R : Type}

/-- **C16** (one region): for every sorted region of any size and every key (or none), opening it succeeds, the reader
then shows exactly the rows at or above the key, in stored order, and reports a match exactly when a row with the key
exists. The comparison is any total order on keys; only its sign is used, so text keys are included. -/
theorem C16_region (cmp : R → R → Int) (L : CmpLaws cmp) (rows : List R) (key : Option R)
    (hs : rows.Pairwise fun a b => cmp a b < 0) :
    ∃ it hit, regionOpen cmp rows key = .ok (it, hit) ∧
      Reads RegionIt.current RegionIt.next it (atOrAbove cmp key rows) ∧
      (hit = true ↔ ∃ k, key = some k ∧ ∃ r ∈ rows, cmp r k = 0) := by
  obtain ⟨it, m, h1, h2, h3⟩ := regionOpen_spec L key hs
  exact ⟨it, m, h1, standing_reads h2, h3⟩

/-- **C16** (object of several regions): the same for an object of any number of regions, reading on across regions. -/
theorem C16_object (cmp : R → R → Int) (L : CmpLaws cmp) (regions : List (Stored R)) (key : Option R)
    (hcount : ∀ s ∈ regions, s.count = s.rows.length) (hlast : ∀ s ∈ regions, s.rows.getLast? = some s.max)
    (hsorted : (regions.flatMap Stored.rows).Pairwise fun a b => cmp a b < 0) :
    ∃ it hit, branchOpen cmp regions key = .ok (it, hit) ∧
      Reads BranchIt.at (BranchIt.next cmp) it (atOrAbove cmp key (regions.flatMap Stored.rows)) ∧
      (hit = true ↔ ∃ k, key = some k ∧ ∃ r ∈ regions.flatMap Stored.rows, cmp r k = 0) :=
  branchOpen_spec L key ⟨hcount, hlast, hsorted⟩

/-- a region whose reference holds a wrong number of rows is reported as an error, not read -/
theorem C16_mismatch (cmp : R → R → Int) (s : Stored R) (key : Option R) (h : s.count ≠ s.rows.length) :
    openRegion cmp s key = .error .err := by
  simp [openRegion, readRegion, Ne.symm h]

/-! Non-trivial cases: three regions of text keys, key present, absent, above all, missing -/

def sampleObject : List (Stored (List Nat)) :=
  [⟨3, [97], [99], [[97], [98, 1], [99]]⟩, ⟨1, [100], [100], [[100]]⟩, ⟨2, [101], [120, 0], [[101], [120, 0]]⟩]

example : (∀ s ∈ sampleObject, s.count = s.rows.length) ∧ (∀ s ∈ sampleObject, s.rows.getLast? = some s.max) ∧
    (sampleObject.flatMap Stored.rows).Pairwise fun a b => memcmpStr a b < 0 := by decide

/-- read everything from a position -/
def drain {S : Type} (at_ : S → Option R) (next : S → Res S) : Nat → S → List R
  | 0, _ => []
  | n + 1, s => match at_ s with
    | none => []
    | some r => r :: (match next s with
      | .ok s' => drain at_ next n s'
      | .error _ => [])

def readFrom (key : Option (List Nat)) : Res (List (List Nat) × Bool) :=
  match branchOpen memcmpStr sampleObject key with
  | .ok (it, hit) => .ok (drain BranchIt.at (BranchIt.next memcmpStr) 20 it, hit)
  | .error e => .error e

example : readFrom (some [98]) = .ok ([[98, 1], [99], [100], [101], [120, 0]], false) := by decide +kernel
example : readFrom (some [100]) = .ok ([[100], [101], [120, 0]], true) := by decide +kernel
example : readFrom (some [120, 1]) = .ok ([], false) := by decide +kernel
example : readFrom none = .ok ([[97], [98, 1], [99], [100], [101], [120, 0]], false) := by decide +kernel

end Verif.Object
