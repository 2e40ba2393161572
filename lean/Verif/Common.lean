/-!
# Shared vocabulary of the model

* a byte is a `Nat`; encoders are proved to emit values below 256 where it matters;
* `Fail.err` is an error raised by the code (`error(...)`), `Fail.ub` is C undefined behaviour
  (a read outside of the buffer and the like), kept as a separate outcome;
* fixed width integers are stored little-endian (the code stores host integers with plain
  pointer casts, e.g. runtime/json/json.h:170-202; x86-64/aarch64 little-endian is assumed).
-/
namespace Verif

abbrev Bytes := List Nat

inductive Fail where
  | err
  | ub
deriving DecidableEq, Repr

deriving instance DecidableEq for Except

abbrev Res (α : Type) := Except Fail α

/-- all elements are bytes -/
def IsBytes (l : Bytes) : Prop := ∀ b ∈ l, b < 256

/-- little-endian representation of `n` in `w` bytes (C: storing an unsigned integer of width `w`) -/
def leBytes : Nat → Nat → Bytes
  | 0,     _ => []
  | w + 1, n => (n % 256) :: leBytes w (n / 256)

/-- value of a little-endian byte string -/
def leNat : Bytes → Nat
  | []      => 0
  | b :: bs => b + 256 * leNat bs

/-- C two's complement view of a `bits` wide unsigned number -/
def toSigned (bits : Nat) (n : Nat) : Int :=
  if n < 2 ^ (bits - 1) then (n : Int) else (n : Int) - (2 ^ bits : Nat)

/-- C conversion of a signed value to an unsigned `bits` wide number -/
def toUnsigned (bits : Nat) (i : Int) : Nat := (i % ((2 ^ bits : Nat) : Int)).toNat

/-- read `w` bytes at the head of the buffer; reading past the end is undefined behaviour -/
def readN (w : Nat) (bs : Bytes) : Res (Bytes × Bytes) :=
  if w ≤ bs.length then .ok (bs.take w, bs.drop w) else .error .ub

theorem leBytes_length (w n : Nat) : (leBytes w n).length = w := by
  induction w generalizing n with
  | zero => rfl
  | succ w ih => simp [leBytes, ih]

theorem leBytes_isBytes (w n : Nat) : IsBytes (leBytes w n) := by
  induction w generalizing n with
  | zero => intro b h; simp [leBytes] at h
  | succ w ih =>
    intro b h
    simp only [leBytes, List.mem_cons] at h
    rcases h with h | h
    · omega
    · exact ih _ b h

theorem leNat_leBytes (w n : Nat) : leNat (leBytes w n) = n % 256 ^ w := by
  induction w generalizing n with
  | zero => simp [leBytes, leNat, Nat.mod_one]
  | succ w ih =>
    simp only [leBytes, leNat, ih, Nat.pow_succ]
    rw [Nat.mul_comm (256 ^ w) 256, Nat.mod_mul]

theorem leNat_leBytes_of_lt {w n : Nat} (h : n < 256 ^ w) : leNat (leBytes w n) = n := by
  rw [leNat_leBytes, Nat.mod_eq_of_lt h]

theorem leNat_lt {bs : Bytes} (h : IsBytes bs) : leNat bs < 256 ^ bs.length := by
  induction bs with
  | nil => simp [leNat]
  | cons b bs ih =>
    have hb : b < 256 := h b (by simp)
    have := ih (fun x hx => h x (by simp [hx]))
    simp only [leNat, List.length_cons, Nat.pow_succ]
    omega

theorem leBytes_leNat {bs : Bytes} (h : IsBytes bs) : leBytes bs.length (leNat bs) = bs := by
  induction bs with
  | nil => simp [leBytes]
  | cons b bs ih =>
    have hb : b < 256 := h b (by simp)
    have := ih (fun x hx => h x (by simp [hx]))
    simp only [leNat, List.length_cons, leBytes]
    rw [show (b + 256 * leNat bs) % 256 = b by omega,
        show (b + 256 * leNat bs) / 256 = leNat bs by omega, this]

theorem readN_append (a b : Bytes) : readN a.length (a ++ b) = .ok (a, b) := by
  simp [readN]

theorem readN_le (w n : Nat) (b : Bytes) : readN w (leBytes w n ++ b) = .ok (leBytes w n, b) := by
  have := readN_append (leBytes w n) b
  rwa [leBytes_length] at this

theorem toSigned_toUnsigned_64 (i : Int) (h1 : -(2 ^ 63) ≤ i) (h2 : i < 2 ^ 63) :
    toSigned 64 (toUnsigned 64 i) = i := by
  unfold toSigned toUnsigned
  simp only [Nat.reducePow, Nat.reduceSub]
  split <;> omega

theorem toUnsigned_lt (bits : Nat) (i : Int) : toUnsigned bits i < 2 ^ bits := by
  unfold toUnsigned
  have h : (0 : Int) < ((2 ^ bits : Nat) : Int) := by exact_mod_cast Nat.two_pow_pos bits
  have h1 := Int.emod_nonneg i (Int.ne_of_gt h)
  have h2 := Int.emod_lt_of_pos i h
  omega

end Verif
