import Verif.Buf.Spec
/-!
# Buffers: proofs
-/
set_option autoImplicit false

namespace Verif.Buf

theorem int32_small {x : Int} (h : -2147483648 ≤ x) (k : x < 2147483648) : int32 x = x := by
  unfold int32; omega

theorem realloc_length (mem : List UInt8) (n : Nat) (junk : Nat → UInt8) :
    (realloc mem n junk).length = n := by
  simp [realloc]; omega

theorem realloc_take {mem : List UInt8} {n p : Nat} (junk : Nat → UInt8) (h : p ≤ mem.length)
    (k : mem.length ≤ n) : (realloc mem n junk).take p = mem.take p := by
  rw [realloc, List.take_of_length_le k, List.take_append_of_le_length h]

theorem reserve_ok (b : Buf) (n : Nat) (junk : Nat → UInt8) (h : b.pos ≤ b.mem.length)
    (k : b.mem.length < 2147483648) (s : b.pos + n < 2147483648) :
    ∃ b', b.reserve n junk = .ok b' ∧ b'.pos = b.pos ∧ b'.content = b.content ∧
      b.pos + n ≤ b'.mem.length ∧ b.mem.length ≤ b'.mem.length ∧ b'.mem.length < 2147483648 ∧
      (b'.mem.length = b.mem.length ∧ b'.copied = b.copied ∨
        b'.copied = b.copied + b.mem.length ∧ b.mem.length < b.pos + n ∧
          (b.pos + n ≤ 1073741824 → 2 * b.mem.length ≤ b'.mem.length ∧
            b'.mem.length ≤ 2 * (b.pos + n))) := by
  unfold Buf.reserve
  by_cases c : int32 ((b.mem.length : Int) - b.pos) ≥ (n : Int)
  · rw [if_pos c]
    rw [int32_small (by omega) (by omega)] at c
    exact ⟨b, rfl, rfl, rfl, by omega, Nat.le_refl _, k, Or.inl ⟨rfl, rfl⟩⟩
  · rw [if_neg c]
    rw [int32_small (by omega) (by omega)] at c
    have e1 : int32 (int32 (b.pos : Int) + n) = b.pos + n := by
      rw [int32_small (x := (b.pos : Int)) (by omega) (by omega), int32_small (by omega) (by omega)]
    have e2 : int32 (b.mem.length : Int) = b.mem.length := int32_small (by omega) (by omega)
    dsimp only
    rw [e1, e2]
    by_cases w : b.mem.length < 1073741824
    · have e3 : int32 ((b.mem.length : Int) * 2) = b.mem.length * 2 := int32_small (by omega) (by omega)
      rw [e3]
      by_cases g : (b.pos : Int) + n > (b.mem.length : Int) * 2
      · rw [if_pos g, if_neg (by omega)]
        refine ⟨_, rfl, rfl, ?_, ?_⟩
        · exact realloc_take junk h (by omega)
        · dsimp only; rw [realloc_length]; omega
      · rw [if_neg g, if_neg (by omega)]
        refine ⟨_, rfl, rfl, ?_, ?_⟩
        · exact realloc_take junk h (by omega)
        · dsimp only; rw [realloc_length]; omega
    · have e3 : int32 ((b.mem.length : Int) * 2) = b.mem.length * 2 - 4294967296 := by
        unfold int32; omega
      rw [e3, if_pos (show (b.pos : Int) + n > (b.mem.length : Int) * 2 - 4294967296 by omega),
        if_neg (by omega)]
      refine ⟨_, rfl, rfl, ?_, ?_⟩
      · exact realloc_take junk h (by omega)
      · dsimp only; rw [realloc_length]; omega

/-- What holds of a buffer with text `t` and room. -/
structure Good (b : Buf) (t : Text) (room : Nat) : Prop where
  len  : b.pos = t.length
  cap  : b.mem.length < 2147483648
  room : b.pos + room ≤ b.mem.length
  val  : ∀ (i : Nat) (x : UInt8), t[i]? = some (some x) → b.mem[i]? = some x

theorem Good.agrees {b : Buf} {t : Text} {room : Nat} (g : Good b t room) : Agrees b.content t := by
  have h := g.room
  have l := g.len
  refine ⟨by simp [Buf.content]; omega, ?_⟩
  intro i x e
  have : i < t.length := by
    rcases Nat.lt_or_ge i t.length with h | h
    · exact h
    · rw [List.getElem?_eq_none h] at e; simp at e
  rw [Buf.content, List.getElem?_take, if_pos (by omega)]
  exact g.val i x e

theorem copyTo_ok (b : Buf) (off : Nat) (d : List UInt8) (h : off + d.length ≤ b.mem.length) :
    ∃ b', b.copyTo off d = .ok b' ∧ b'.pos = b.pos ∧ b'.copied = b.copied ∧
      b'.mem.length = b.mem.length ∧
      (∀ i, i < off → b'.mem[i]? = b.mem[i]?) ∧
      (∀ i, i < d.length → b'.mem[off + i]? = d[i]?) ∧
      (∀ i, off + d.length ≤ i → b'.mem[i]? = b.mem[i]?) := by
  refine ⟨{ b with mem := b.mem.take off ++ d ++ b.mem.drop (off + d.length) },
    by rw [Buf.copyTo, if_pos h], rfl, rfl, ?_, ?_, ?_, ?_⟩
  · simp; omega
  · intro i hi
    dsimp only
    rw [List.append_assoc, List.getElem?_append_left (by simp; omega), List.getElem?_take, if_pos hi]
  · intro i hi
    dsimp only
    have e : (b.mem.take off).length = off := by simp; omega
    rw [List.append_assoc, List.getElem?_append_right (by rw [e]; omega), e,
      List.getElem?_append_left (by omega)]
    congr 1; omega
  · intro i hi
    dsimp only
    have e : (b.mem.take off ++ d).length = off + d.length := by simp; omega
    rw [List.getElem?_append_right (by rw [e]; exact hi), e, List.getElem?_drop]
    congr 1; omega

/-- Cost: nothing is lost and nothing is copied too often, up to 2^30 bytes. -/
def Cheap (m : Nat) (b : Buf) : Prop := b.mem.length ≤ 2 * m ∧ b.copied ≤ b.mem.length

/-- `reserve` on a good buffer. -/
theorem good_reserve {b : Buf} {t : Text} {room : Nat} (g : Good b t room) (n : Nat)
    (junk : Nat → UInt8) (s : t.length + n < 2147483648) :
    ∃ b', b.reserve n junk = .ok b' ∧ Good b' t (max room n) ∧
      (∀ m, t.length + n ≤ m → m ≤ 1073741824 → Cheap m b → Cheap m b') := by
  have h := g.room
  have l := g.len
  obtain ⟨b', h1, h2, h3, h4, h5, h6, h7⟩ := reserve_ok b n junk (by omega) g.cap (by omega)
  refine ⟨b', h1, ⟨by omega, h6, by omega, ?_⟩, ?_⟩
  · intro i x e
    have hi : i < t.length := by
      rcases Nat.lt_or_ge i t.length with h | h
      · exact h
      · rw [List.getElem?_eq_none h] at e; simp at e
    have a := congrArg (fun q => q[i]?) h3
    simp only [Buf.content, List.getElem?_take] at a
    rw [if_pos (by omega), if_pos (by omega)] at a
    rw [a]; exact g.val i x e
  · intro m hm hm2 ⟨c1, c2⟩
    unfold Cheap
    rcases h7 with ⟨h7, h8⟩ | ⟨h7, h8, h9⟩
    · omega
    · have := h9 (by omega)
      omega

theorem known_get {d : List UInt8} {i : Nat} {x : UInt8} (h : (known d)[i]? = some (some x)) :
    d[i]? = some x := by
  simpa [known] using h

/-- Bytes at the position of a good buffer with room, and then `advance`. -/
theorem good_put {b : Buf} {t : Text} {room : Nat} (g : Good b t room) (d e : List UInt8)
    (s : d.length + e.length ≤ room) :
    ∃ b', b.copyTo b.pos (d ++ e) = .ok b' ∧
      Good (b'.advance d.length) (t ++ known d) (room - d.length) ∧
      (∀ m, Cheap m b → Cheap m (b'.advance d.length)) := by
  have h := g.room
  have l := g.len
  obtain ⟨b', h1, h2, h3, h4, h5, h6, h7⟩ := copyTo_ok b b.pos (d ++ e) (by simp; omega)
  refine ⟨b', h1, ⟨by simp [Buf.advance, known]; omega, by simp [Buf.advance]; have := g.cap; omega,
    by simp [Buf.advance]; omega, ?_⟩, ?_⟩
  · intro i x q
    show b'.mem[i]? = some x
    rcases Nat.lt_or_ge i t.length with hi | hi
    · rw [List.getElem?_append_left hi] at q
      rw [h5 i (by omega)]
      exact g.val i x q
    · rw [List.getElem?_append_right hi] at q
      have q := known_get q
      have hd : i - t.length < d.length := by
        rcases Nat.lt_or_ge (i - t.length) d.length with h | h
        · exact h
        · rw [List.getElem?_eq_none h] at q; simp at q
      have := h6 (i - t.length) (by simp; omega)
      rw [show b.pos + (i - t.length) = i by omega, List.getElem?_append_left hd] at this
      rw [this, q]
  · intro m ⟨c1, c2⟩
    unfold Cheap Buf.advance
    dsimp only
    omega

theorem good_step {b : Buf} {t t' : Text} {room room' : Nat} (g : Good b t room) {op : Op}
    (h : Means op t room t' room') (junk : Nat → UInt8) (s : op.most t < 2147483648) :
    ∃ b', b.step junk op = .ok b' ∧ Good b' t' room' ∧
      (∀ m, op.most t ≤ m → m ≤ 1073741824 → Cheap m b → Cheap m b') := by
  have hr := g.room
  have l := g.len
  cases h with
  | reserve n => exact good_reserve g n junk s
  | append d _ _ hd =>
    obtain ⟨b', h1, h2, h3⟩ := good_put g d [] (by simpa using hd)
    simp only [List.append_nil] at h1
    exact ⟨_, by simp [Buf.step, Buf.append, h1, Out.bind], h2, fun m _ _ => h3 m⟩
  | write d =>
    obtain ⟨b1, k1, k2, k3⟩ := good_reserve g d.length junk s
    obtain ⟨b', h1, h2, h3⟩ := good_put k2 d [] (by simp; omega)
    simp only [List.append_nil] at h1
    refine ⟨_, by simp [Buf.step, Buf.write, k1, Buf.append, h1, Out.bind], ?_,
      fun m q1 q2 c => h3 m (k3 m q1 q2 c)⟩
    have : max room d.length - d.length = room - d.length := by omega
    rw [← this]; exact h2
  | emplace n =>
    obtain ⟨b1, k1, k2, k3⟩ := good_reserve g n junk s
    refine ⟨b1.advance n, by simp [Buf.step, Buf.emplace, k1, Out.bind], ?_, ?_⟩
    · have r := k2.room
      have l1 := k2.len
      refine ⟨by simp [Buf.advance, l1], k2.cap, by simp only [Buf.advance]; omega, ?_⟩
      intro i x q
      show b1.mem[i]? = some x
      rcases Nat.lt_or_ge i t.length with hi | hi
      · rw [List.getElem?_append_left hi] at q
        exact k2.val i x q
      · rw [List.getElem?_append_right hi, List.getElem?_replicate] at q
        split at q <;> simp at q
    · intro m q1 q2 c
      have := k3 m q1 q2 c
      exact this
  | patch a m c d _ e =>
    obtain ⟨b', h1, h2, h3, h4, h5, h6, h7⟩ := copyTo_ok b a.length d (by
      simp at l; omega)
    refine ⟨b', h1, ⟨?_, by have := g.cap; omega, by omega, ?_⟩, ?_⟩
    · simp [known] at l ⊢; omega
    · intro i x q
      rcases Nat.lt_or_ge i a.length with hi | hi
      · rw [List.append_assoc, List.getElem?_append_left hi] at q
        rw [h5 i hi]
        exact g.val i x (by rw [List.append_assoc, List.getElem?_append_left hi]; exact q)
      · rw [List.append_assoc, List.getElem?_append_right hi] at q
        rcases Nat.lt_or_ge (i - a.length) d.length with hj | hj
        · rw [List.getElem?_append_left (by simpa [known] using hj)] at q
          have := h6 (i - a.length) hj
          rw [show a.length + (i - a.length) = i by omega] at this
          rw [this]; exact known_get q
        · rw [List.getElem?_append_right (by simpa [known] using hj)] at q
          rw [h7 i (by omega)]
          apply g.val i x
          rw [List.append_assoc, List.getElem?_append_right hi,
            List.getElem?_append_right (by omega), e]
          simpa [known] using q
    · intro q _ _ ⟨c1, c2⟩
      unfold Cheap
      omega
  | truncate a m =>
    refine ⟨_, rfl, ⟨?_, g.cap, ?_, ?_⟩, fun m _ _ c => c⟩
    · simp [Buf.truncate] at l ⊢; omega
    · simp only [Buf.truncate]; omega
    · intro i x q
      have hi : i < t'.length := by
        rcases Nat.lt_or_ge i t'.length with h | h
        · exact h
        · rw [List.getElem?_eq_none h] at q; simp at q
      exact g.val i x (by rw [List.getElem?_append_left hi]; exact q)
  | reset =>
    refine ⟨_, rfl, ⟨rfl, g.cap, ?_, ?_⟩, fun m _ _ c => c⟩
    · simp only [Buf.reset]; omega
    · intro i x q; simp at q
  | printf d =>
    obtain ⟨b1, k1, k2, k3⟩ := good_reserve g (d.length + 1) junk s
    obtain ⟨b', h1, h2, h3⟩ := good_put k2 d [0] (by simp; omega)
    refine ⟨_, by simp [Buf.step, Buf.printf, k1, h1, Out.bind], ?_,
      fun m q1 q2 c => h3 m (k3 m q1 q2 c)⟩
    refine ⟨h2.len, h2.cap, ?_, h2.val⟩
    have := h2.room
    omega

theorem good_run {m : Nat} (hm : m < 2147483648) {ops : List Op} {t t' : Text} {r r' : Nat}
    (h : History m ops t r t' r') : ∀ (b : Buf) (junk : Nat → Nat → UInt8) (n : Nat),
    Good b t r → ∃ b', b.run junk n ops = .ok b' ∧ Good b' t' r' ∧
      (m ≤ 1073741824 → Cheap m b → Cheap m b') := by
  induction h with
  | nil t r => intro b junk n g; exact ⟨b, rfl, g, fun _ c => c⟩
  | cons op ops t t1 t2 r r1 r2 h small rest ih =>
    intro b junk n g
    obtain ⟨b1, h1, h2, h3⟩ := good_step g h (junk n) (by omega)
    obtain ⟨b2, k1, k2, k3⟩ := ih b1 junk (n + 1) h2
    refine ⟨b2, by rw [Buf.run, h1]; exact k1, k2, fun q c => k3 q (h3 m small q c)⟩

theorem good_init : Good Buf.init [] 0 := by
  constructor <;> simp [Buf.init]

end Verif.Buf
