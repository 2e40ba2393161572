import Verif.Json.Skip
/-!
# json_skip agrees with the reader

Whatever bytes the reader accepts as a value, json_skip stops at the same place.
-/
set_option linter.unusedVariables false
namespace Verif.Json
open Verif

/-- the loop of json_skip passes over `bs` and comes to `r` -/
def SkipsTo (bs r : Bytes) : Prop :=
  ∃ n, n + r.length ≤ bs.length ∧ ∀ f level, 0 ≤ level → skipLoop (f + n) level bs = skipCont f level r

/-- the same inside of an array or object -/
def InsideTo (bs r : Bytes) : Prop :=
  ∃ n, n + r.length ≤ bs.length ∧ ∀ f level, 0 < level → skipLoop (f + n) level bs = skipCont f (level - 1) r

theorem readN_len {n : Nat} {bs a r : Bytes} (h : readN n bs = .ok (a, r)) : bs.length = n + r.length := by
  unfold readN at h
  split at h
  · cases h; simp; omega
  · cases h

theorem readRaw_len {bs s r : Bytes} (h : readRaw bs = .ok (s, r)) : r.length < bs.length := by
  cases bs with
  | nil => simp [readRaw] at h
  | cons t b =>
    have tk : ∀ (size : Int) (x : Bytes), takeRaw size x = .ok (s, r) → r.length ≤ x.length := by
      intro size x h
      unfold takeRaw at h
      split at h
      · cases h
      · have := readN_len h; omega
    have go : ∀ (n : Nat) (g : Bytes → Int), (do let (x, y) ← readN n b; takeRaw (g x) y : Res (Bytes × Bytes)) = .ok (s, r) →
        r.length ≤ b.length := by
      intro n g h
      cases hr : readN n b with
      | error e => rw [hr] at h; cases h
      | ok p =>
        obtain ⟨x, y⟩ := p
        rw [hr] at h
        have := tk _ _ h
        have := readN_len hr
        omega
    simp only [readRaw] at h
    simp only [List.length_cons]
    split at h
    · have := tk _ _ h; omega
    · split at h
      · have := go 1 (fun x => toSigned 8 (leNat x)) h; omega
      · split at h
        · have := go 2 (fun x => toSigned 16 (leNat x)) h; omega
        · split at h
          · have := go 4 (fun x => toSigned 32 (leNat x)) h; omega
          · cases h

theorem readInteger_len {bs r : Bytes} {i : Int} (h : readInteger bs = .ok (i, r)) : r.length < bs.length := by
  cases bs with
  | nil => simp [readInteger] at h
  | cons t b =>
    have go : ∀ (n : Nat) (g : Bytes → Int), (do let (x, y) ← readN n b; .ok (g x, y) : Res (Int × Bytes)) = .ok (i, r) →
        r.length ≤ b.length := by
      intro n g h
      cases hr : readN n b with
      | error e => rw [hr] at h; cases h
      | ok p =>
        obtain ⟨x, y⟩ := p
        rw [hr] at h
        have := readN_len hr
        cases h
        omega
    simp only [readInteger] at h
    simp only [List.length_cons]
    split at h
    · cases h; omega
    · split at h
      · have := go 1 (fun x => toSigned 8 (leNat x)) h; omega
      · split at h
        · have := go 2 (fun x => toSigned 16 (leNat x)) h; omega
        · split at h
          · have := go 4 (fun x => toSigned 32 (leNat x)) h; omega
          · split at h
            · have := go 8 (fun x => toSigned 64 (leNat x)) h; omega
            · cases h

theorem readReal_len {bs r : Bytes} {i : Nat} (h : readReal bs = .ok (i, r)) : r.length < bs.length := by
  cases bs with
  | nil => simp [readReal] at h
  | cons t b =>
    have go : ∀ (n : Nat) (g : Bytes → Nat), (do let (x, y) ← readN n b; .ok (g x, y) : Res (Nat × Bytes)) = .ok (i, r) →
        r.length ≤ b.length := by
      intro n g h
      cases hr : readN n b with
      | error e => rw [hr] at h; cases h
      | ok p =>
        obtain ⟨x, y⟩ := p
        rw [hr] at h
        have := readN_len hr
        cases h
        omega
    simp only [readReal] at h
    simp only [List.length_cons]
    split at h
    · have := go 4 (fun x => f64OfF32 (leNat x)) h; omega
    · split at h
      · have := go 8 (fun x => leNat x) h; omega
      · cases h

theorem readBool_len {bs r : Bytes} {i : Bool} (h : readBool bs = .ok (i, r)) : r.length < bs.length := by
  cases bs with
  | nil => simp [readBool] at h
  | cons t b =>
    simp only [readBool] at h
    split at h
    · cases h; simp
    · split at h
      · cases h; simp
      · cases h

theorem readNull_len {bs r : Bytes} (h : readNull bs = .ok r) : r.length < bs.length := by
  cases bs with
  | nil => simp [readNull] at h
  | cons t b =>
    simp only [readNull] at h
    split at h
    · cases h; simp
    · cases h

theorem skipsTo_step {bs r : Bytes} (hl : r.length < bs.length) (h : ∀ level, skipStep level bs = .ok (r, level)) : SkipsTo bs r :=
  ⟨1, by omega, fun f level _ => skipLoop_of_step f (h level)⟩

/-- one value inside, then the rest -/
theorem InsideTo.cons {bs m r : Bytes} (h1 : SkipsTo bs m) (h2 : InsideTo m r) : InsideTo bs r := by
  obtain ⟨n1, a1, b1⟩ := h1
  obtain ⟨n2, a2, b2⟩ := h2
  refine ⟨n2 + n1, by omega, ?_⟩
  intro f level hl
  rw [← Nat.add_assoc, b1 _ _ (by omega), skipCont, if_pos hl, b2 _ _ hl]

theorem SkipsTo.enclose {t : Nat} {bs r : Bytes} (hc : clsOf t = .arr ∨ clsOf t = .obj) (h : InsideTo bs r) : SkipsTo (t :: bs) r := by
  obtain ⟨n, a, b⟩ := h
  refine ⟨n + 1, by simp; omega, ?_⟩
  intro f level hl
  rw [← Nat.add_assoc, skipLoop_of_step (l' := level + 1) (r := bs)]
  · rw [skipCont, if_pos (by omega), b _ _ (by omega)]
    congr 1; omega
  · rcases hc with hc | hc <;> simp [skipStep, peek, bind, Except.bind, hc]

theorem insideTo_end {t : Nat} {r : Bytes} (hc : clsOf t = .arrEnd ∨ clsOf t = .objEnd) : InsideTo (t :: r) r := by
  refine ⟨1, by simp; omega, ?_⟩
  intro f level hl
  rw [skipLoop_of_step (l' := level - 1) (r := r)]
  rcases hc with hc | hc <;> simp [skipStep, peek, bind, Except.bind, hc]

theorem readRaw_skips {bs k r : Bytes} (h : readRaw bs = .ok (k, r)) : SkipsTo bs r := by
  refine skipsTo_step (readRaw_len h) ?_
  intro level
  cases bs with
  | nil => simp [readRaw] at h
  | cons t b =>
    have ht : 42 ≤ t ∧ t ≤ 77 := by
      simp only [readRaw] at h
      split at h
      · omega
      · split at h
        · omega
        · split at h
          · omega
          · split at h
            · omega
            · cases h
    simp only [skipStep, peek, bind, Except.bind, clsOf_str t ht, h]

theorem dec_skips_all : ∀ (fuel : Nat),
    (∀ bs v r, dec fuel bs = .ok (v, r) → SkipsTo bs r) ∧
    (∀ bs l r, decList fuel bs = .ok (l, r) → InsideTo bs r) ∧
    (∀ bs l r, decFields fuel bs = .ok (l, r) → InsideTo bs r)
  | 0 => ⟨by intro bs v r h; simp [dec] at h, by intro bs v r h; simp [decList] at h, by intro bs v r h; simp [decFields] at h⟩
  | fuel + 1 => by
    obtain ⟨ih1, ih2, ih3⟩ := dec_skips_all fuel
    refine ⟨?_, ?_, ?_⟩
    · intro bs v r h
      cases bs with
      | nil => simp [dec, peek, bind, Except.bind] at h
      | cons t b =>
        simp only [dec, peek, bind, Except.bind] at h
        cases hc : clsOf t with
        | null =>
          rw [hc] at h
          simp only at h
          cases hr : readNull (t :: b) with
          | error e => rw [hr] at h; cases h
          | ok p =>
            rw [hr] at h; cases h
            exact skipsTo_step (readNull_len hr) (fun level => by simp only [skipStep, peek, bind, Except.bind, hc, hr])
        | bool =>
          rw [hc] at h
          simp only at h
          cases hr : readBool (t :: b) with
          | error e => rw [hr] at h; cases h
          | ok p =>
            rw [hr] at h; cases h
            exact skipsTo_step (readBool_len hr) (fun level => by simp only [skipStep, peek, bind, Except.bind, hc, hr])
        | real =>
          rw [hc] at h
          simp only at h
          cases hr : readReal (t :: b) with
          | error e => rw [hr] at h; cases h
          | ok p =>
            rw [hr] at h; cases h
            exact skipsTo_step (readReal_len hr) (fun level => by simp only [skipStep, peek, bind, Except.bind, hc, hr])
        | int =>
          rw [hc] at h
          simp only at h
          cases hr : readInteger (t :: b) with
          | error e => rw [hr] at h; cases h
          | ok p =>
            rw [hr] at h; cases h
            exact skipsTo_step (readInteger_len hr) (fun level => by simp only [skipStep, peek, bind, Except.bind, hc, hr])
        | str =>
          rw [hc] at h
          simp only at h
          cases hr : readRaw (t :: b) with
          | error e => rw [hr] at h; cases h
          | ok p =>
            rw [hr] at h; cases h
            exact skipsTo_step (readRaw_len hr) (fun level => by simp only [skipStep, peek, bind, Except.bind, hc, hr])
        | arr =>
          rw [hc] at h
          simp only [readArray] at h
          split at h
          · cases h
          · rename_i heq
            split at heq
            · cases heq
              cases hr : decList fuel b with
              | error e => rw [hr] at h; cases h
              | ok p =>
                rw [hr] at h; cases h
                exact SkipsTo.enclose (.inl hc) (ih2 _ _ _ hr)
            · cases heq
        | obj =>
          rw [hc] at h
          simp only [readObj] at h
          split at h
          · cases h
          · rename_i heq
            split at heq
            · cases heq
              cases hr : decFields fuel b with
              | error e => rw [hr] at h; cases h
              | ok p =>
                rw [hr] at h; cases h
                exact SkipsTo.enclose (.inr hc) (ih3 _ _ _ hr)
            · cases heq
        | objEnd => rw [hc] at h; cases h
        | arrEnd => rw [hc] at h; cases h
        | bad => rw [hc] at h; cases h
    · intro bs l r h
      cases bs with
      | nil => simp [decList, readArrayEnd, bind, Except.bind] at h
      | cons t b =>
        simp only [decList, readArrayEnd, bind, Except.bind] at h
        by_cases ht : t = 81
        · simp only [ht, if_true] at h
          cases h
          subst ht
          exact insideTo_end (.inl (by decide))
        · simp only [ht, if_false] at h
          cases hr : dec fuel (t :: b) with
          | error e => rw [hr] at h; cases h
          | ok p =>
            rw [hr] at h
            simp only at h
            cases hr2 : decList fuel p.2 with
            | error e => rw [hr2] at h; cases h
            | ok p2 =>
              rw [hr2] at h; cases h
              exact InsideTo.cons (ih1 _ _ _ hr) (ih2 _ _ _ hr2)
    · intro bs l r h
      cases bs with
      | nil => simp [decFields, readObjEnd, bind, Except.bind] at h
      | cons t b =>
        simp only [decFields, readObjEnd, bind, Except.bind] at h
        by_cases ht : t = 79
        · simp only [ht, if_true] at h
          cases h
          subst ht
          exact insideTo_end (.inr (by decide))
        · simp only [ht, if_false] at h
          cases hk : readRaw (t :: b) with
          | error e => rw [hk] at h; cases h
          | ok k =>
            rw [hk] at h
            simp only at h
            cases hr : dec fuel k.2 with
            | error e => rw [hr] at h; cases h
            | ok p =>
              rw [hr] at h
              simp only at h
              cases hr2 : decFields fuel p.2 with
              | error e => rw [hr2] at h; cases h
              | ok p2 =>
                rw [hr2] at h; cases h
                exact InsideTo.cons (readRaw_skips hk) (InsideTo.cons (ih1 _ _ _ hr) (ih3 _ _ _ hr2))

/-- json_skip stops where the reader stops -/
theorem dec_skip {fuel : Nat} {bs r : Bytes} {v : J} (h : dec fuel bs = .ok (v, r)) : skip bs = .ok r ∧ r.length ≤ bs.length := by
  obtain ⟨n, h1, h2⟩ := (dec_skips_all fuel).1 _ _ _ h
  unfold skip
  have e : bs.length = (bs.length - n) + n := by omega
  refine ⟨?_, by omega⟩
  rw [e, h2 _ 0 (by omega)]
  simp [skipCont]

end Verif.Json
