import Verif.Common
/-!
# Specification vocabulary for stored objects
-/
namespace Verif.Object
open Verif
variable {S R : Type}

/-- an iterator whose step may fail shows exactly the rows `l` and then its end; no step fails on the way -/
inductive Reads (at_ : S → Option R) (next : S → Res S) : S → List R → Prop
  | done (s : S) : at_ s = none → Reads at_ next s []
  | more (s s' : S) (r : R) (l : List R) : at_ s = some r → next s = .ok s' → Reads at_ next s' l →
      Reads at_ next s (r :: l)

/-- the rows at or above a key; all rows when there is no key -/
def atOrAbove (cmp : R → R → Int) (key : Option R) (rows : List R) : List R :=
  match key with
  | none => rows
  | some k => rows.filter fun r => 0 ≤ cmp r k

end Verif.Object
