import Verif.Net.HttpSpec
import Verif.Json.ParseProofs
set_option linter.unusedSimpArgs false
set_option linter.unusedVariables false
namespace Verif.Net
open Verif

/-- what is still to be read -/
def pending (c : Conn) : Bytes := c.buf.drop c.off ++ c.net.flatten

/-- the read position is inside of the buffer and no read returned zero bytes before the end -/
structure Good (c : Conn) : Prop where
  off : c.off ≤ c.buf.length
  net : ∀ ch ∈ c.net, ch ≠ []

theorem raRead_pending (size : Nat) (c : Conn) : pending c = (raRead size c).1 ++ pending (raRead size c).2 := by
  unfold raRead
  split
  · next h =>
    simp only [pending]
    have e : (c.buf.drop c.off) = (c.buf.drop c.off).take size ++ c.buf.drop (c.off + min size (c.buf.length - c.off)) := by
      rw [← List.drop_drop]
      by_cases hs : size ≤ c.buf.length - c.off
      · rw [Nat.min_eq_left hs, List.take_append_drop]
      · rw [Nat.min_eq_right (by omega), List.take_of_length_le (by simp; omega),
          List.drop_of_length_le (by simp : (c.buf.drop c.off).length ≤ c.buf.length - c.off)]
        simp
    conv => lhs; rw [e]
    simp
  · next h =>
    have e : c.buf.drop c.off = [] := List.drop_of_length_le (by omega)
    cases hn : c.net with
    | nil => simp [pending, e, hn]
    | cons ch net =>
      simp only [pending, e, hn, List.flatten_cons, List.nil_append]
      rw [← List.append_assoc]; congr 1
      by_cases hs : size ≤ ch.length
      · rw [Nat.min_eq_left hs, List.take_append_drop]
      · rw [Nat.min_eq_right (by omega), List.take_of_length_le (by omega)]; simp

theorem raRead_length (size : Nat) (c : Conn) : (raRead size c).1.length ≤ size := by
  unfold raRead
  split
  · simp; omega
  · cases c.net with
    | nil => simp
    | cons ch net => simp only [List.length_take]; omega

theorem raRead_off (size : Nat) (c : Conn) : (raRead size c).1.length ≤ (raRead size c).2.off := by
  unfold raRead
  split
  · simp
  · cases c.net <;> simp

theorem raRead_in (size : Nat) (c : Conn) : (raRead size c).2.off ≤ (raRead size c).2.buf.length := by
  unfold raRead
  split
  · simp; omega
  · cases c.net with
    | nil => simp
    | cons ch net => simp only; omega

theorem raRead_good (size : Nat) (c : Conn) (h : Good c) : Good (raRead size c).2 := by
  refine ⟨raRead_in size c, ?_⟩
  unfold raRead
  split
  · exact h.net
  · cases hn : c.net with
    | nil => simp
    | cons ch net => intro x hx; exact h.net x (by rw [hn]; exact List.mem_cons_of_mem _ hx)

theorem raRead_nil (size : Nat) (c : Conn) (h : Good c) (hs : 0 < size) (hd : (raRead size c).1 = []) :
    pending c = [] := by
  revert hd
  unfold raRead
  split
  · next hl =>
    intro hd
    have := congrArg List.length hd
    simp at this; omega
  · next hl =>
    have e : c.buf.drop c.off = [] := List.drop_of_length_le (by omega)
    cases hn : c.net with
    | nil => intro _; simp [pending, e, hn]
    | cons ch net =>
      intro hd
      have := congrArg List.length hd
      have hc : ch ≠ [] := h.net ch (by rw [hn]; exact List.mem_cons_self)
      have : 0 < ch.length := List.length_pos_iff.2 hc
      simp only [List.length_take, List.length_nil] at *; omega

/-- the bytes just read sit right before the read position -/
theorem raRead_back (size : Nat) (c : Conn) (k : Nat) (hk : k ≤ (raRead size c).1.length) :
    (raRead size c).2.buf.drop ((raRead size c).2.off - k) =
      (raRead size c).1.drop ((raRead size c).1.length - k) ++ (raRead size c).2.buf.drop (raRead size c).2.off := by
  have key : ∀ (b : Bytes) (s n k : Nat), s + n ≤ b.length → k ≤ n →
      b.drop (s + n - k) = ((b.drop s).take n).drop (n - k) ++ b.drop (s + n) := by
    intro b s n k hsn hk
    have e : b.drop (s + n - k) = (b.drop s).drop (n - k) := by
      rw [List.drop_drop]; congr 1; omega
    rw [e, show b.drop (s + n) = (b.drop s).drop n by rw [List.drop_drop]]
    generalize b.drop s = x
    conv => lhs; rw [← List.take_append_drop n x]
    rw [List.drop_append]
    by_cases hx : n ≤ x.length
    · rw [List.length_take, Nat.min_eq_left hx]
      rw [show n - k - n = 0 by omega]; simp
    · rw [List.drop_of_length_le (show x.length ≤ n by omega)]; simp
  revert hk
  unfold raRead
  split
  · next h =>
    simp only
    intro hk
    have hk' : k ≤ min size (c.buf.length - c.off) := by simpa using hk
    have := key c.buf c.off (min size (c.buf.length - c.off)) k (by omega) hk'
    rw [this]; congr 1
    have e : ((c.buf.drop c.off).take size).length = min size (c.buf.length - c.off) := by simp
    rw [e]
    congr 1
    by_cases hs : size ≤ c.buf.length - c.off
    · rw [Nat.min_eq_left hs]
    · rw [Nat.min_eq_right (by omega), List.take_of_length_le (by simp), List.take_of_length_le (by simp; omega)]
  · cases hn : c.net with
    | nil => simp
    | cons ch net =>
      simp only
      intro hk
      have hk' : k ≤ min size ch.length := by simpa using hk
      have := key ch 0 (min size ch.length) k (by omega) hk'
      rw [show 0 + min size ch.length = min size ch.length by omega] at this
      rw [this]; congr 1
      rw [List.length_take]
      congr 1
      rw [List.drop_zero]
      by_cases hs : size ≤ ch.length
      · rw [Nat.min_eq_left hs]
      · rw [Nat.min_eq_right (by omega), List.take_of_length_le (by omega), List.take_of_length_le (by omega)]

theorem pushback_ok (size : Nat) (c : Conn) (k : Nat) (hk : k ≤ (raRead size c).1.length) (h : Good c) :
    ∃ c', pushback k (raRead size c).2 = .ok c' ∧ Good c' ∧
      pending c' = (raRead size c).1.drop ((raRead size c).1.length - k) ++ pending (raRead size c).2 := by
  have ho := raRead_off size c
  have hi := raRead_in size c
  refine ⟨_, if_pos (by omega), ⟨?_, (raRead_good size c h).net⟩, ?_⟩
  · simp only; omega
  · simp only [pending]
    rw [raRead_back size c k hk, List.append_assoc]

/-! memmem -/

abbrev Mark : Bytes := [13, 10, 13, 10]

theorem findEnd_le : ∀ (s : Bytes) (e : Nat), findEnd s = some e → e ≤ s.length ∧ ∃ x, s.take e = x ++ Mark
  | [], e, h => by simp [findEnd] at h
  | x :: t, e, h => by
    unfold findEnd at h
    split at h
    · next hp =>
      obtain ⟨y, hy⟩ := hp
      cases h
      rw [← hy]
      exact ⟨by simp, [], rfl⟩
    · next hp =>
      cases hf : findEnd t with
      | none => rw [hf] at h; cases h
      | some e' =>
        rw [hf] at h; cases h
        obtain ⟨h1, x', h2⟩ := findEnd_le t e' hf
        exact ⟨by simp; omega, x :: x', by simp [h2]⟩

theorem findEnd_append : ∀ (s t : Bytes) (e : Nat), findEnd s = some e → findEnd (s ++ t) = some e
  | [], _, e, h => by simp [findEnd] at h
  | x :: s, t, e, h => by
    unfold findEnd at h
    rw [List.cons_append, findEnd]
    split at h
    · next hp =>
      rw [if_pos (by rw [← List.cons_append]; exact hp.trans (List.prefix_append _ _))]; exact h
    · next hp =>
      cases hf : findEnd s with
      | none => rw [hf] at h; cases h
      | some e' =>
        rw [hf] at h
        have hnp : ¬ [13, 10, 13, 10] <+: x :: (s ++ t) := by
          intro hq
          have hl : 4 ≤ (x :: s).length := by
            obtain ⟨h1, y, h2⟩ := findEnd_le s e' hf
            have := congrArg List.length h2
            simp at this ⊢; omega
          apply hp
          rw [← List.cons_append] at hq
          exact List.prefix_of_prefix_length_le hq (List.prefix_append _ _) (by simpa using hl)
        rw [if_neg hnp, findEnd_append s t e' hf]; exact h

theorem findEnd_take (s : Bytes) (e n : Nat) (h : findEnd s = some e) (hn : e ≤ n) : findEnd (s.take n) = some e := by
  induction s generalizing e n with
  | nil => simp [findEnd] at h
  | cons x t ih =>
    cases n with
    | zero =>
      obtain ⟨h1, y, h2⟩ := findEnd_le _ _ h
      have := congrArg List.length h2
      simp at this; omega
    | succ n =>
      unfold findEnd at h
      rw [List.take_succ_cons, findEnd]
      split at h
      · next hp =>
        cases h
        rw [if_pos]
        rw [← List.take_succ_cons]
        obtain ⟨y, hy⟩ := hp
        rw [← hy, show n + 1 = [13, 10, 13, 10].length + (n - 3) by simp; omega, List.take_length_add_append]
        exact List.prefix_append _ _
      · next hp =>
        cases hf : findEnd t with
        | none => rw [hf] at h; cases h
        | some e' =>
          rw [hf] at h; cases h
          have hnp : ¬ [13, 10, 13, 10] <+: x :: t.take n := by
            intro hq; exact hp (hq.trans (by rw [← List.take_succ_cons]; exact List.take_prefix _ _))
          rw [if_neg hnp, ih e' n hf (by have : e' + 1 ≤ n + 1 := hn; omega)]; rfl

theorem findEnd_grow (raw d : Bytes) (e : Nat) (h0 : findEnd raw = none) (h : findEnd (raw ++ d) = some e) :
    raw.length < e := by
  apply Nat.lt_of_not_le
  intro hle
  have := findEnd_take _ _ raw.length h hle
  simp at this
  rw [h0] at this; cases this

/-- a complete head: the marker is at its end and not before -/
def Complete (hd : Bytes) : Prop := findEnd hd = some hd.length

theorem Complete.prefix {hd p t : Bytes} (h : Complete hd) (he : hd = p ++ t) (ht : t ≠ []) : findEnd p = none := by
  cases hf : findEnd p with
  | none => rfl
  | some e =>
    have := findEnd_append p t e hf
    rw [← he, h] at this
    cases this
    have := (findEnd_le _ _ hf).1
    have hl := congrArg List.length he
    have : 0 < t.length := List.length_pos_iff.2 ht
    simp at hl; omega

theorem headerLoop_ok (hd rest : Bytes) (hc : Complete hd) (hlen : hd.length ≤ 512) :
    ∀ (fuel : Nat) (raw : Bytes) (c : Conn), Good c → raw ++ pending c = hd ++ rest → raw.length < hd.length →
      hd.length - raw.length < fuel →
      ∃ c', headerLoop fuel raw c = .ok (some hd, c') ∧ Good c' ∧ pending c' = rest
  | 0, _, _, _, _, _, h => by omega
  | fuel + 1, raw, c, hg, he, hr, hf => by
    have hp := raRead_pending 256 c
    have hne : (raRead 256 c).1 ≠ [] := by
      intro h0
      have h1 := raRead_nil 256 c hg (by decide) h0
      rw [h1] at he
      have := congrArg List.length he
      simp at this; omega
    have hpos : 0 < (raRead 256 c).1.length := List.length_pos_iff.2 hne
    rw [headerLoop, if_neg hne]
    have he2 : raw ++ (raRead 256 c).1 ++ pending (raRead 256 c).2 = hd ++ rest := by
      rw [List.append_assoc, ← hp]; exact he
    by_cases hlong : hd.length ≤ (raw ++ (raRead 256 c).1).length
    · -- the whole head is there
      have hpre : hd <+: raw ++ (raRead 256 c).1 :=
        List.prefix_of_prefix_length_le (l₃ := hd ++ rest) (List.prefix_append _ _) ⟨_, he2⟩ hlong
      obtain ⟨t, ht⟩ := hpre
      have hfe : findEnd (raw ++ (raRead 256 c).1) = some hd.length := by
        rw [← ht]; exact findEnd_append _ _ _ hc
      rw [hfe]
      simp only [Option.elim]
      have hk : (raw ++ (raRead 256 c).1).length - hd.length ≤ (raRead 256 c).1.length := by simp; omega
      obtain ⟨c', h1, h2, h3⟩ := pushback_ok 256 c _ hk hg
      rw [h1]
      refine ⟨c', ?_, h2, ?_⟩
      · simp only [Except.map]
        rw [← ht]; simp
      · rw [h3]
        have e1 : (raRead 256 c).1.drop ((raRead 256 c).1.length - ((raw ++ (raRead 256 c).1).length - hd.length)) = t := by
          have := congrArg (List.drop hd.length) ht
          rw [List.drop_left] at this
          rw [this, List.drop_append]
          rw [List.drop_of_length_le (show raw.length ≤ hd.length by omega)]
          simp; congr 1; omega
        rw [e1]
        rw [← ht, List.append_assoc] at he2
        exact List.append_cancel_left he2
    · have hpre : raw ++ (raRead 256 c).1 <+: hd :=
        List.prefix_of_prefix_length_le (l₃ := hd ++ rest) ⟨_, he2⟩ (List.prefix_append _ _) (by omega)
      obtain ⟨t, ht⟩ := hpre
      have htne : t ≠ [] := by intro h0; rw [h0] at ht; rw [← ht] at hlong; simp at hlong
      have hfe : findEnd (raw ++ (raRead 256 c).1) = none := hc.prefix ht.symm htne
      rw [hfe]
      simp only [Option.elim]
      rw [if_neg (by omega)]
      exact headerLoop_ok hd rest hc hlen fuel _ _ (raRead_good 256 c hg) he2 (by omega)
        (by simp at hlong ⊢; omega)

/-! parsing of one head -/

theorem cut_app (x : Nat) : ∀ (a r : Bytes), x ∉ a → cut x (a ++ x :: r) = some (a, r)
  | [], r, _ => by simp [cut]
  | y :: a, r, h => by
    have h1 : y ≠ x := fun e => h (by simp [e])
    rw [List.cons_append, cut, if_neg h1, cut_app x a r (fun hm => h (List.mem_cons_of_mem _ hm))]; rfl

theorem cut_some {x : Nat} : ∀ {s a r : Bytes}, cut x s = some (a, r) → s = a ++ x :: r ∧ x ∉ a
  | [], a, r, h => by simp [cut] at h
  | y :: s, a, r, h => by
    unfold cut at h
    split at h
    · next e => cases h; subst e; exact ⟨rfl, by simp⟩
    · next e =>
      cases hc : cut x s with
      | none => rw [hc] at h; cases h
      | some p =>
        obtain ⟨a', r'⟩ := p
        rw [hc] at h; cases h
        obtain ⟨h1, h2⟩ := cut_some hc
        refine ⟨by rw [h1]; rfl, ?_⟩
        intro hm
        rcases List.mem_cons.1 hm with h3 | h3
        · exact e h3.symm
        · exact h2 h3

theorem cut_none {x : Nat} : ∀ {s : Bytes}, cut x s = none → x ∉ s
  | [], _ => by simp
  | y :: s, h => by
    unfold cut at h
    split at h
    · cases h
    · next e =>
      cases hc : cut x s with
      | some p => rw [hc] at h; cases h
      | none =>
        have := cut_none hc
        intro hm
        rcases List.mem_cons.1 hm with h3 | h3
        · exact e h3.symm
        · exact this h3

theorem field_app (a r : Bytes) (h : 32 ∉ a) (h0 : a ≠ []) : field (a ++ 32 :: r) = .ok (a, r) := by
  unfold field; rw [cut_app 32 a r h]; simp [Option.elim, h0]

theorem line_app (a r : Bytes) (h : 13 ∉ a) : line (a ++ 13 :: 10 :: r) = .ok (a, r) := by
  unfold line; rw [cut_app 13 a _ h]; simp [Option.elim, expect, Except.map]

theorem headers_app : ∀ (hs : List (Bytes × Bytes)) (fuel : Nat), hs.length < fuel →
    (∀ h ∈ hs, 58 ∉ h.1 ∧ 13 ∉ h.1 ∧ 13 ∉ h.2) → headers fuel (hs.flatMap hline ++ [13, 10]) = .ok hs
  | [], 0, h, _ => by simp at h
  | [], fuel + 1, _, _ => by simp [headers, expect, Except.map]
  | _ :: _, 0, h, _ => by simp at h
  | (n, v) :: hs, fuel + 1, hf, hw => by
    obtain ⟨h1, h2, h3⟩ := hw (n, v) List.mem_cons_self
    have ih := headers_app hs fuel (by simpa using hf) (fun h hm => hw h (List.mem_cons_of_mem _ hm))
    have e : (((n, v) :: hs).flatMap hline ++ [13, 10]) = n ++ 58 :: 32 :: (v ++ 13 :: 10 :: (hs.flatMap hline ++ [13, 10])) := by
      simp [hline]
    have h1' : (58 : Nat) ∉ n := h1
    have h2' : (13 : Nat) ∉ n := h2
    have h3' : (13 : Nat) ∉ v := h3
    have step : ∀ x t, n ++ 58 :: 32 :: (v ++ 13 :: 10 :: (hs.flatMap hline ++ [13, 10])) = x :: t → x ≠ 13 →
        headers (fuel + 1) (x :: t) = .ok ((n, v) :: hs) := by
      intro x t hx hne
      rw [headers, if_neg hne, ← hx, cut_app 58 n _ h1']
      simp only [Option.elim, expect, if_true, Except.bind]
      rw [line_app v _ h3']
      simp only [Except.bind]
      rw [ih]; rfl
    rw [e]
    cases n with
    | nil => exact step _ _ rfl (by decide)
    | cons y n => exact step _ _ rfl (fun h => h2' (by simp [h]))

theorem hs_len : ∀ hs : List (Bytes × Bytes), hs.length ≤ (hs.flatMap hline).length
  | [] => by simp
  | h :: hs => by
    have := hs_len hs
    rw [List.flatMap_cons, List.length_append, List.length_cons]
    have : 1 ≤ (hline h).length := by simp [hline]; omega
    omega

theorem parse_wire (h : Head) (w : HeadOk h) : parseHead (wire h) = .ok h := by
  have e : wire h = h.a ++ 32 :: (h.b ++ 32 :: (h.c ++ 13 :: 10 :: (h.headers.flatMap hline ++ [13, 10]))) := by simp [wire]
  rw [e]; unfold parseHead
  rw [field_app _ _ w.a.1 w.a0]; simp only [Except.bind]
  rw [field_app _ _ w.b.1 w.b0]; simp only [Except.bind]
  rw [line_app _ _ w.c]; simp only [Except.bind]
  rw [if_neg w.c0, headers_app h.headers _ (by have := hs_len h.headers; rw [List.length_append]; omega) w.hs]; rfl

theorem findEnd_skip : ∀ (x y : Bytes), 13 ∉ x → findEnd (x ++ y) = (findEnd y).map (· + x.length)
  | [], y, _ => by simp
  | c :: x, y, h => by
    have hc : c ≠ 13 := fun e => h (by simp [e])
    rw [List.cons_append, findEnd, if_neg, findEnd_skip x y (fun hm => h (List.mem_cons_of_mem _ hm))]
    · cases findEnd y <;> simp; omega
    · intro hp
      have := List.cons_prefix_cons.1 hp
      exact hc this.1.symm

theorem findEnd_crlf (y : Bytes) (c : Nat) (hc : c ≠ 13) : findEnd (13 :: 10 :: c :: y) = (findEnd (c :: y)).map (· + 2) := by
  rw [findEnd, if_neg, findEnd, if_neg]
  · cases findEnd (c :: y) <;> simp
  · intro hp; have := (List.cons_prefix_cons.1 hp).1; simp at this
  · intro hp
    have h1 := (List.cons_prefix_cons.1 hp).2
    have h2 := (List.cons_prefix_cons.1 h1).2
    exact hc (List.cons_prefix_cons.1 h2).1.symm

/-- lines without CR -/
theorem complete_lines : ∀ (ls : List Bytes) (l : Bytes), 13 ∉ l → (∀ x ∈ ls, 13 ∉ x ∧ x ≠ []) →
    Complete (l ++ [13, 10] ++ ls.flatMap (· ++ [13, 10]) ++ [13, 10])
  | [], l, hl, _ => by
    unfold Complete
    rw [show l ++ [13, 10] ++ [].flatMap (· ++ [13, 10]) ++ [13, 10] = l ++ [13, 10, 13, 10] by simp,
      findEnd_skip l _ hl]
    simp [findEnd]; omega
  | m :: ls, l, hl, hx => by
    obtain ⟨h1, h2⟩ := hx m List.mem_cons_self
    have ih := complete_lines ls m h1 (fun x hm => hx x (List.mem_cons_of_mem _ hm))
    unfold Complete at ih ⊢
    have e : l ++ [13, 10] ++ (m :: ls).flatMap (· ++ [13, 10]) ++ [13, 10]
        = l ++ (13 :: 10 :: (m ++ [13, 10] ++ ls.flatMap (· ++ [13, 10]) ++ [13, 10])) := by simp
    rw [e, findEnd_skip l _ hl]
    revert ih
    generalize hy : m ++ [13, 10] ++ ls.flatMap (· ++ [13, 10]) ++ [13, 10] = y
    intro ih
    cases y with
    | nil => have := congrArg List.length hy; simp at this
    | cons c y =>
      have hc : c ≠ 13 := by
        cases m with
        | nil => exact absurd rfl h2
        | cons c' m => simp at hy; intro h; apply h1; simp [hy.1, h]
      rw [findEnd_crlf y c hc, ih]; simp; omega

theorem complete_wire (h : Head) (w : HeadOk h) : Complete (wire h) := by
  have := complete_lines (h.headers.map fun x => x.1 ++ [58, 32] ++ x.2) (h.a ++ [32] ++ h.b ++ [32] ++ h.c)
    (by have := w.a.2; have := w.b.2; have := w.c; simp [*])
    (by
      intro x hx
      obtain ⟨y, hy, rfl⟩ := List.mem_map.1 hx
      obtain ⟨_, h2, h3⟩ := w.hs y hy
      simp [h2, h3])
  have e : wire h = h.a ++ [32] ++ h.b ++ [32] ++ h.c ++ [13, 10] ++
      (h.headers.map fun x => x.1 ++ [58, 32] ++ x.2).flatMap (· ++ [13, 10]) ++ [13, 10] := by
    unfold wire
    rw [List.flatMap_map]; rfl
  rw [e]; exact this

theorem wire_pos (h : Head) : 0 < (wire h).length := by simp [wire]; omega

theorem httpRead_wire (h : Head) (w : HeadOk h) (hl : (wire h).length ≤ 512) (c : Conn) (hg : Good c) (rest : Bytes)
    (hp : pending c = wire h ++ rest) : ∃ c', httpRead c = .ok (some h, c') ∧ Good c' ∧ pending c' = rest := by
  obtain ⟨c', h1, h2, h3⟩ := headerLoop_ok (wire h) rest (complete_wire h w) hl 513 [] c hg (by simpa using hp)
    (by simpa using wire_pos h) (by simp; omega)
  refine ⟨c', ?_, h2, h3⟩
  unfold httpRead readHeader
  rw [h1]
  simp only [Except.bind, Option.elim]
  rw [parse_wire h w]; rfl

theorem httpRead_eof (c : Conn) (hg : Good c) (hp : pending c = []) : ∃ c', httpRead c = .ok (none, c') ∧ Good c' ∧ pending c' = [] := by
  have h := raRead_pending 256 c
  rw [hp] at h
  have h1 : (raRead 256 c).1 = [] := by
    have := congrArg List.length h; simp at this; exact List.length_eq_zero_iff.1 (by omega)
  refine ⟨(raRead 256 c).2, ?_, raRead_good 256 c hg, ?_⟩
  · unfold httpRead readHeader; rw [headerLoop, if_pos h1]; simp [Except.bind, Option.elim]
  · rw [h1] at h; simpa using h.symm

/-! content -/

theorem toint_digits (n : Nat) (h : n < 2 ^ 63) (rest : Bytes) : toint 0 (dec n ++ rest) = toint n rest := by
  have e' : (2 : Nat) ^ 63 = 9223372036854775808 := by decide
  unfold dec
  induction n using Nat.strongRecOn generalizing rest with
  | ind n ih =>
    unfold Json.Text.decDigits
    split
    · next hn =>
      simp only [List.cons_append, List.nil_append]
      rw [toint, if_pos (by simp [Json.Text.isDigit]; omega), if_pos (by omega)]
      congr 1; omega
    · next hn =>
      rw [List.append_assoc, ih (n / 10) (by omega) (by omega)]
      simp only [List.cons_append, List.nil_append]
      rw [toint, if_pos (by simp [Json.Text.isDigit]; omega), if_pos (by omega)]
      congr 1; omega

theorem toint_dec (n : Nat) (h : n < 2 ^ 63) : toint 0 (dec n) = some n := by
  have := toint_digits n h []
  rw [List.append_nil] at this; rw [this]; rfl

theorem contentLoop_ok (ra : Nat) (hra : 0 < ra) (body rest : Bytes) (hb : body.length < 2 ^ 31) :
    ∀ (fuel : Nat) (got : Bytes) (c : Conn), Good c → got ++ pending c = body ++ rest → got.length ≤ body.length →
      body.length - got.length < fuel →
      ∃ c', contentLoop ra body.length fuel got c = .ok (body, c') ∧ Good c' ∧ pending c' = rest
  | 0, _, _, _, _, _, h => by omega
  | fuel + 1, got, c, hg, he, hl, hf => by
    have e32 : (2 : Nat) ^ 32 = 4294967296 := by decide
    have e31 : (2 : Nat) ^ 31 = 2147483648 := by decide
    have hm : (body.length - got.length) % 2 ^ 32 = body.length - got.length := Nat.mod_eq_of_lt (by omega)
    unfold contentLoop
    rw [hm]
    by_cases hz : body.length - got.length = 0
    · rw [if_pos hz]
      have h1 : got = body := by
        have := congrArg (List.take body.length) he
        rw [List.take_append_of_le_length (by omega), List.take_left, List.take_of_length_le (by omega)] at this
        exact this
      subst h1
      exact ⟨c, rfl, hg, List.append_cancel_left he⟩
    · rw [if_neg hz, if_neg (by omega)]
      have hs : 0 < min ra (body.length - got.length) := by omega
      generalize hsz : min ra (body.length - got.length) = size at hs
      have hp := raRead_pending size c
      have hne : (raRead size c).1 ≠ [] := by
        intro h0
        have h1 := raRead_nil size c hg hs h0
        rw [h1] at he
        have := congrArg List.length he
        simp at this; omega
      have hpos : 0 < (raRead size c).1.length := List.length_pos_iff.2 hne
      have hle := raRead_length size c
      rw [if_neg hne]
      exact contentLoop_ok ra hra body rest hb fuel _ _ (raRead_good size c hg)
        (by rw [List.append_assoc, ← hp]; exact he) (by simp; omega) (by simp; omega)

end Verif.Net
