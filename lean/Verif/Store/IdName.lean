import Verif.Common
set_option linter.unusedSimpArgs false
/-!
# Storage file names: db/storage/id.h

A name is the file name part of id_path (the directory prefix is a constant for the volume).
-/
namespace Verif.Store.IdName
open Verif

/-- STATE_*, id.h:16-21 -/
inductive State where
  | complete | incomplete | snapshot
deriving DecidableEq, Repr

/-- ".incomplete" -/
def sINC : Bytes := [46, 105, 110, 99, 111, 109, 112, 108, 101, 116, 101]
/-- ".snapshot" -/
def sSNAP : Bytes := [46, 115, 110, 97, 112, 115, 104, 111, 116]

/-- id_state, id.h:42-52 -/
def idState : State → Bytes
  | .complete => []
  | .incomplete => sINC
  | .snapshot => sSNAP

/-- id_state_of, id.h:30-40; `none` = -1 -/
def idStateOf (name : Bytes) : Option State :=
  if name = [] then some .complete
  else if name = sINC then some .incomplete
  else if name = sSNAP then some .snapshot
  else none

/-- isdigit -/
def isDigit (c : Nat) : Bool := 48 ≤ c ∧ c ≤ 57

/-- id_of_next, id.h:54-66: number (int64, overflow = NULL) and the rest starting at '.' or empty -/
def idOfNext : Nat → Bytes → Option (Nat × Bytes)
  | id, [] => some (id, [])
  | id, c :: t =>
    if c = 46 then some (id, c :: t)
    else if isDigit c = false then none
    else if id * 10 + (c - 48) ≥ 2 ^ 63 then none
    else idOfNext (id * 10 + (c - 48)) t

/-- id_of, id.h:68-98: (id, version, state); `none` = -1 -/
def idOf (name : Bytes) : Option (Nat × Nat × State) :=
  match idOfNext 0 name with
  | none => none
  | some (id, []) => some (id, 0, .complete)
  | some (_, [_]) => none                      -- name ends after the dot
  | some (id, _ :: c :: t) =>
    if isDigit c then
      match idOfNext 0 (c :: t) with
      | none => none
      | some (version, []) => some (id, version, .complete)
      | some (version, rest) => (idStateOf rest).map fun s => (id, version, s)
    else (idStateOf (c :: t)).map fun s => (id, 0, s)

/-- decimal digits, most significant first -/
def dec (n : Nat) : Bytes := if n < 10 then [48 + n] else dec (n / 10) ++ [48 + n % 10]
decreasing_by omega

/-- printf("%0wd") -/
def pad (w n : Nat) : Bytes := List.replicate (w - (dec n).length) 48 ++ dec n

/-- id_path (file name part), id.h:100-130 -/
def idPath (id version : Nat) (s : State) : Bytes :=
  if version > 0 then pad 5 id ++ [46] ++ pad 2 version ++ idState s
  else pad 5 id ++ idState s

/-! ## proofs -/

/-- rest of a name after a number: empty or a dot -/
def Stop : Bytes → Prop
  | [] => True
  | c :: _ => c = 46

theorem idOfNext_stop (v : Nat) (r : Bytes) (h : Stop r) : idOfNext v r = some (v, r) := by
  cases r with
  | nil => rfl
  | cons c t => simp only [Stop] at h; simp [idOfNext, h]

theorem idOfNext_dec (n : Nat) : n < 2 ^ 63 → ∀ (r : Bytes), idOfNext 0 (dec n ++ r) = idOfNext n r := by
  induction n using Nat.strongRecOn with
  | ind n ih =>
    intro h r
    rw [dec]
    split
    · rename_i hn
      simp only [List.cons_append, List.nil_append, idOfNext]
      rw [if_neg (by omega), if_neg (by simp [isDigit]; omega), if_neg (by omega)]
      congr 1; omega
    · rename_i hn
      rw [List.append_assoc, ih (n / 10) (by omega) (by omega)]
      simp only [List.cons_append, List.nil_append, idOfNext]
      rw [if_neg (by omega), if_neg (by simp [isDigit]; omega), if_neg (by omega)]
      congr 1; omega

theorem idOfNext_pad (w n : Nat) (h : n < 2 ^ 63) (r : Bytes) (hr : Stop r) :
    idOfNext 0 (pad w n ++ r) = some (n, r) := by
  unfold pad
  rw [List.append_assoc]
  generalize w - (dec n).length = k
  induction k with
  | zero => simpa [idOfNext_dec n h] using idOfNext_stop n r hr
  | succ k ih =>
    simp only [List.replicate_succ, List.cons_append, idOfNext]
    simpa [isDigit] using ih

/-- digits of a number that does not fit into 63 bits -/
theorem idOfNext_big (n : Nat) : 2 ^ 63 ≤ n → ∀ (r : Bytes), idOfNext 0 (dec n ++ r) = none := by
  induction n using Nat.strongRecOn with
  | ind n ih =>
    intro h r
    rw [dec]
    rw [if_neg (by omega), List.append_assoc]
    by_cases hb : 2 ^ 63 ≤ n / 10
    · exact ih (n / 10) (by omega) hb _
    · rw [idOfNext_dec (n / 10) (by omega)]
      simp only [List.cons_append, List.nil_append, idOfNext]
      rw [if_neg (by omega), if_neg (by simp [isDigit]; omega), if_pos (by omega)]

theorem idOfNext_overflow (n : Nat) (h : 2 ^ 63 ≤ n) (r : Bytes) (w : Nat) : idOfNext 0 (pad w n ++ r) = none := by
  unfold pad
  rw [List.append_assoc]
  generalize w - (dec n).length = k
  induction k with
  | zero => simpa using idOfNext_big n h r
  | succ k ih =>
    simp only [List.replicate_succ, List.cons_append, idOfNext]
    simpa [isDigit] using ih

theorem dec_head (n : Nat) : ∃ c t, dec n = c :: t ∧ 48 ≤ c ∧ c ≤ 57 := by
  induction n using Nat.strongRecOn with
  | ind n ih =>
    rw [dec]
    split
    · exact ⟨_, [], rfl, by omega, by omega⟩
    · obtain ⟨c, t, h, h1⟩ := ih (n / 10) (by omega)
      exact ⟨c, t ++ [48 + n % 10], by rw [h]; rfl, h1⟩

theorem pad_head (w n : Nat) : ∃ c t, pad w n = c :: t ∧ 48 ≤ c ∧ c ≤ 57 := by
  unfold pad
  cases w - (dec n).length with
  | zero => simpa using dec_head n
  | succ k => exact ⟨48, _, rfl, by omega, by omega⟩

theorem idState_stop (s : State) : Stop (idState s) := by cases s <;> simp [idState, sINC, sSNAP, Stop]

theorem idStateOf_idState (s : State) : idStateOf (idState s) = some s := by cases s <;> rfl

theorem idOf_versioned (id version : Nat) (s : State) (h1 : id < 2 ^ 63) (h2 : version < 2 ^ 63) (hv : 0 < version) :
    idOf (idPath id version s) = some (id, version, s) := by
  unfold idPath idOf
  rw [if_pos hv]
  simp only [List.append_assoc, List.cons_append, List.nil_append]
  rw [idOfNext_pad 5 id h1 _ (by simp [Stop])]
  obtain ⟨c, t, hc, hc1, hc2⟩ := pad_head 2 version
  have hp := idOfNext_pad 2 version h2 (idState s) (idState_stop s)
  rw [hc] at hp ⊢
  simp only [List.cons_append] at hp ⊢
  rw [if_pos (by simp [isDigit]; omega), hp]
  cases s <;> rfl

theorem idOf_complete (id : Nat) (h1 : id < 2 ^ 63) : idOf (idPath id 0 .complete) = some (id, 0, .complete) := by
  unfold idPath idOf
  rw [if_neg (by omega)]
  rw [idOfNext_pad 5 id h1 _ (idState_stop _)]
  rfl

theorem idOf_unversioned_state (id : Nat) (h1 : id < 2 ^ 63) (s : State) (hs : s ≠ .complete) :
    idOf (idPath id 0 s) = none := by
  unfold idPath idOf
  rw [if_neg (by omega)]
  rw [idOfNext_pad 5 id h1 _ (idState_stop _)]
  cases s
  · exact absurd rfl hs
  · rfl
  · rfl

end Verif.Store.IdName
