import Verif.Buf.Proofs
/-!
# C106: buffers hold what was written into them

For all histories of operations, all bytes and all memory that the allocator gives.
-/
set_option autoImplicit false

namespace Verif.Buf

/-- A new buffer after any history of operations that never has or asks for 2^31 bytes or more: no
byte outside of the block was touched, the process did not end, and the content is the text
of the history. -/
theorem C106_content {m : Nat} (hm : m < 2147483648) {ops : List Op} {t : Text} {room : Nat}
    (h : History m ops [] 0 t room) (junk : Nat → Nat → UInt8) :
    ∃ b, Buf.init.run junk 0 ops = .ok b ∧ Agrees b.content t ∧ b.pos = t.length := by
  obtain ⟨b, h1, h2, -⟩ := good_run hm h Buf.init junk 0 good_init
  exact ⟨b, h1, h2.agrees, h2.len⟩

/-- If every place that was made has been filled, the content is known. -/
theorem C106_known {m : Nat} (hm : m < 2147483648) {ops : List Op} {d : List UInt8} {room : Nat}
    (h : History m ops [] 0 (known d) room) (junk : Nat → Nat → UInt8) :
    ∃ b, Buf.init.run junk 0 ops = .ok b ∧ b.content = d := by
  obtain ⟨b, h1, ⟨h2, h3⟩, -⟩ := C106_content hm h junk
  refine ⟨b, h1, ?_⟩
  apply List.ext_getElem?
  intro i
  rcases Nat.lt_or_ge i d.length with hi | hi
  · have e : d[i]? = some d[i] := List.getElem?_eq_getElem hi
    rw [e]
    exact h3 i d[i] (by simp [known, e])
  · rw [List.getElem?_eq_none hi, List.getElem?_eq_none (by rw [h2]; simpa [known] using hi)]

/-- Writes give their bytes one after the other. -/
theorem C106_writes (ds : List (List UInt8)) (small : ds.flatten.length < 2147483648)
    (junk : Nat → Nat → UInt8) :
    ∃ b, Buf.init.run junk 0 (ds.map .write) = .ok b ∧ b.content = ds.flatten := by
  have h : ∀ (ds : List (List UInt8)) (p : List UInt8) (m : Nat), p.length + ds.flatten.length ≤ m →
      History m (ds.map .write) (known p) 0 (known (p ++ ds.flatten)) 0 := by
    intro ds
    induction ds with
    | nil => intro p m _; simpa using .nil (known p) 0
    | cons d ds ih =>
      intro p m hm
      simp only [List.flatten_cons, List.length_append] at hm
      have r := ih (p ++ d) m (by simp only [List.length_append]; omega)
      rw [List.flatten_cons, ← List.append_assoc]
      refine .cons (.write d) _ (known p) (known (p ++ d)) _ 0 0 0 ?_ ?_ r
      · have := Means.write d (known p) 0
        simpa [known] using this
      · simp [Op.most, known]; omega
  have := h ds [] ds.flatten.length (by simp)
  exact C106_known small (by simpa [known] using this) junk

/-- Up to 2^30 bytes a buffer takes at most twice the memory that was needed, and all copies made
while it grew are together not more than that. -/
theorem C106_cost {m : Nat} (hm : m ≤ 1073741824) {ops : List Op} {t : Text} {room : Nat}
    (h : History m ops [] 0 t room) (junk : Nat → Nat → UInt8) :
    ∃ b, Buf.init.run junk 0 ops = .ok b ∧ b.mem.length ≤ 2 * m ∧ b.copied ≤ b.mem.length := by
  obtain ⟨b, h1, -, h3⟩ := good_run (m := m) (by omega) h Buf.init junk 0 good_init
  obtain ⟨c1, c2⟩ := h3 hm (by simp [Cheap, Buf.init])
  exact ⟨b, h1, c1, c2⟩

theorem emplace_init (n : Nat) (junk : Nat → UInt8) (h0 : 0 < n) (h : n < 2147483648) :
    Buf.init.emplace n junk = .ok ⟨realloc [] n junk, n, 0⟩ := by
  have a : ¬ int32 (((([] : List UInt8).length : Nat) : Int) - ((0 : Nat) : Int)) ≥ (n : Int) := by
    simp [int32]; omega
  have b : int32 (int32 ((0 : Nat) : Int) + (n : Int)) = n := by
    unfold int32; omega
  have c : int32 (int32 ((([] : List UInt8).length : Nat) : Int) * 2) = 0 := by
    simp [int32]
  simp only [Buf.emplace, Buf.reserve, Buf.init, b, c]
  rw [if_neg a, if_pos (show (n : Int) > 0 by omega), if_neg (by omega)]
  simp [Out.bind, Buf.advance]

theorem write_wild (b : Buf) (d : List UInt8) (junk : Nat → UInt8) (hp : b.pos = 536870912)
    (hl : b.mem.length = 536870912) (h : d.length = 1610612736) : b.write d junk = .wild := by
  have c : ¬ int32 ((b.mem.length : Int) - b.pos) ≥ (d.length : Int) := by
    unfold int32; omega
  have e1 : int32 (int32 (b.pos : Int) + (d.length : Int)) = -2147483648 := by
    unfold int32; omega
  have e2 : int32 (int32 (b.mem.length : Int) * 2) = 1073741824 := by
    unfold int32; omega
  have w : ∀ mem : List UInt8, mem.length = 1073741824 → ∀ k,
      (Buf.mk mem b.pos k).append d = .wild := by
    intro mem hm k
    simp only [Buf.append, Buf.copyTo]
    rw [if_neg (by omega)]
    rfl
  simp only [Buf.write, Buf.reserve, e1, e2]
  rw [if_neg c, if_neg (by omega), if_neg (by omega)]
  exact w _ (realloc_length _ _ _) _

theorem run_two (junk : Nat → Nat → UInt8) (n : Nat) (d : List UInt8) (b : Buf)
    (h1 : Buf.init.step (junk 0) (.emplace n) = .ok b) (h2 : b.write d (junk 1) = .wild) :
    Buf.init.run junk 0 [.emplace n, .write d] = .wild := by
  simp only [Buf.run, h1, Out.bind]
  show (match b.write d (junk 1) with | .ok b => _ | .oom => _ | .wild => _) = _
  rw [h2]

/-- Against the claim for writes of any size: a buffer with 2^29 bytes to which 2^31 - 2^29 bytes are
written at once.  The sum is negative as an `int`, the block grows to 2^30 bytes only, and
bytes behind it are overwritten. -/
theorem C106_wraps_false (junk : Nat → Nat → UInt8) (d : List UInt8) (h : d.length = 1610612736) :
    Buf.init.run junk 0 [.emplace 536870912, .write d] = .wild := by
  have h1 : Buf.init.step (junk 0) (.emplace 536870912) =
      .ok ⟨realloc [] 536870912 (junk 0), 536870912, 0⟩ :=
    emplace_init _ _ (by omega) (by omega)
  have h2 := write_wild ⟨realloc [] 536870912 (junk 0), 536870912, 0⟩ d (junk 1) rfl
    (realloc_length _ _ _) h
  exact run_two junk _ _ _ h1 h2

/-- The two arguments of the theorem above exist. -/
theorem C106_wraps_data : ∃ d : List UInt8, d.length = 1610612736 :=
  ⟨List.replicate 1610612736 0, List.length_replicate ..⟩

/-! ## The hypotheses are met -/

/-- The use that encoders make: a place for the length, the text, then the length is filled in. -/
theorem C106_sample : History 8 [.emplace 2, .write [7, 8, 9], .patch 0 [3, 0], .truncate 1] [] 0
    (known [3, 0, 7, 8]) 0 := by
  refine .cons _ _ _ [none, none] _ _ 0 _ (.emplace 2 [] 0) (by decide) ?_
  refine .cons _ _ _ [none, none, some 7, some 8, some 9] _ _ 0 _
    (.write [7, 8, 9] [none, none] 0) (by decide) ?_
  refine .cons _ _ _ (known [3, 0, 7, 8, 9]) _ _ 0 _
    (.patch [] [none, none] [some 7, some 8, some 9] [3, 0] 0 rfl) (by decide) ?_
  refine .cons _ _ _ (known [3, 0, 7, 8]) _ _ 0 _
    (.truncate (known [3, 0, 7, 8]) [some 9] 0) (by decide) ?_
  exact .nil _ _

end Verif.Buf
