import Verif.Common
/-!
# Time zones: runtime/lib/timezone.c
-/
namespace Verif.Func
open Verif

/-- `self->transition_times[i]`, outside of the array: undefined -/
def zoneTime (T : List Nat) (i : Nat) : Res Int := if h : i < T.length then .ok (T[i] : Int) else .error .ub

/-- the loop of timezone_match, timezone.c:126-151; `fuel` bounds the number of rounds (`T.length` is enough). Result: `mid` -/
def zoneLoop (T : List Nat) (time : Int) : Nat → Nat → Nat → Res Nat
  | 0, _, _ => .error .ub
  | fuel + 1, min, max =>
    let mid := (min + max) / 2
    if ¬ mid > min then .ok mid
    else if min ≥ T.length then .ok T.length
    else do
      let t ← zoneTime T mid
      if t = time then .ok (mid + 1)
      else if t < time then zoneLoop T time fuel (mid + 1) max
      else zoneLoop T time fuel min (mid - 1)

/-- timezone_match, timezone.c:120-161: the position in transition_types (with at least one transition). The times are unsigned 32-bit
numbers. -/
def zoneMatch (T : List Nat) (time : Int) : Res Nat := do
  let mid ← zoneLoop T time (T.length + 1) 1 T.length
  let mid := if mid > T.length then T.length else mid
  let t ← zoneTime T mid
  let mid := if time > t then mid + 1 else mid
  if mid - 1 < T.length then .ok (mid - 1) else .error .ub

end Verif.Func
