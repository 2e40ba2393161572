import Verif.Net.HttpProofs
set_option linter.unusedSimpArgs false
set_option linter.unusedVariables false
/-!
# C82: HTTP messages on a connection
-/
namespace Verif.Net
open Verif

theorem isCase_iff (a b : Bytes) (hb : b.map lowerC = lengthName.map lowerC) : isCase a b = true ↔ SameName a lengthName := by
  unfold isCase SameName
  rw [hb]; simp only [decide_eq_true_eq]; rfl

theorem sLength_lower : sLength.map lowerC = lengthName.map lowerC := by decide

theorem find_announced : ∀ (hs : List (Bytes × Bytes)) (n : Nat), Announces hs n →
    httpFind hs sLength = some (dec n) ∨ (httpFind hs sLength = none ∧ n = 0) := by
  intro hs n h
  cases h with
  | absent _ hn =>
    right
    refine ⟨?_, rfl⟩
    unfold httpFind
    rw [List.find?_eq_none.2]
    · rfl
    · intro x hx hc
      exact hn x hx ((isCase_iff _ _ sLength_lower).1 hc)
  | present pre name n post hn hs =>
    left
    unfold httpFind
    rw [List.find?_append, List.find?_eq_none.2]
    · simp [(isCase_iff _ _ sLength_lower).2 hs, dec]
    · intro x hx hc
      exact hn x hx ((isCase_iff _ _ sLength_lower).1 hc)

theorem readContent_ok (limit : Nat) (hs : List (Bytes × Bytes)) (body : Bytes)
    (ha : Announces hs body.length) (hb : body.length < limit) (hlim : body.length < 2 ^ 31) (c : Conn) (hg : Good c) (rest : Bytes)
    (hp : pending c = body ++ rest) :
    ∃ c', readContent limit hs c = .ok (some body, c') ∧ Good c' ∧ pending c' = rest := by
  have e31 : (2 : Nat) ^ 31 = 2147483648 := by decide
  have e63 : (2 : Nat) ^ 63 = 9223372036854775808 := by decide
  rcases find_announced hs _ ha with h | ⟨h, h0⟩
  · unfold readContent
    rw [h]; simp only [Option.elim]
    rw [toint_dec _ (by omega)]; simp only [Option.elim]
    rw [if_neg (by omega)]
    obtain ⟨c', h1, h2, h3⟩ := contentLoop_ok 16384 (by decide) body rest (by omega) (body.length + 1) [] c hg
      (by simpa using hp) (by simp) (by simp)
    exact ⟨c', by rw [h1]; rfl, h2, h3⟩
  · unfold readContent
    rw [h]; simp only [Option.elim]
    have : body = [] := List.length_eq_zero_iff.1 h0
    subst this
    exact ⟨c, rfl, hg, by simpa using hp⟩

theorem readRequest_ok (limit : Nat) (m : Head × Bytes) (hm : MessageOk limit m) (hlim : m.2.length < 2 ^ 31) (c : Conn)
    (hg : Good c) (rest : Bytes) (hp : pending c = sent m ++ rest) :
    ∃ c', readRequest limit c = .ok (.request m.1 m.2, c') ∧ Good c' ∧ pending c' = rest := by
  obtain ⟨c1, h1, h2, h3⟩ := httpRead_wire m.1 hm.head hm.size c hg (m.2 ++ rest) (by rw [hp]; simp [sent])
  obtain ⟨c2, h4, h5, h6⟩ := readContent_ok limit m.1.headers m.2 hm.body hm.below hlim c1 h2 rest h3
  refine ⟨c2, ?_, h5, h6⟩
  unfold readRequest
  rw [h1]; simp only [Except.bind, Option.elim]
  rw [h4]; rfl

theorem serve_app (limit : Nat) (hlim : limit ≤ 2 ^ 31) (fuel : Nat) (rest : Bytes) : ∀ (ms : List (Head × Bytes)),
    (∀ m ∈ ms, MessageOk limit m) → ∀ c, Good c → pending c = ms.flatMap sent ++ rest →
    ∃ c', serve limit (ms.length + fuel) c = (ms ++ (serve limit fuel c').1, (serve limit fuel c').2) ∧
      Good c' ∧ pending c' = rest
  | [], _, c, hg, hp => ⟨c, by simp, hg, by simpa using hp⟩
  | m :: ms, hm, c, hg, hp => by
    obtain ⟨c1, h1, h2, h3⟩ := readRequest_ok limit m (hm m List.mem_cons_self)
      (Nat.lt_of_lt_of_le (hm m List.mem_cons_self).below hlim) c hg (ms.flatMap sent ++ rest)
      (by rw [hp]; simp)
    obtain ⟨c2, h4, h5, h6⟩ := serve_app limit hlim fuel rest ms (fun x hx => hm x (List.mem_cons_of_mem _ hx)) c1 h2 h3
    refine ⟨c2, ?_, h5, h6⟩
    rw [show (m :: ms).length + fuel = (ms.length + fuel) + 1 by simp; omega, serve, h1]
    simp only [h4]; rfl

theorem conn_good {chunks : List Bytes} {s : Bytes} (h : Cuts chunks s) : Good (conn chunks) ∧ pending (conn chunks) = s :=
  ⟨⟨Nat.le_refl _, h.2⟩, by simp [conn, pending, h.1]⟩

/-- C82: however the network cuts the stream, the server reads exactly the messages that were sent, in order, and
then the end of the stream. -/
theorem C82_messages (limit : Nat) (hlim : limit ≤ 2 ^ 31) (ms : List (Head × Bytes)) (hm : ∀ m ∈ ms, MessageOk limit m)
    (chunks : List Bytes) (hc : Cuts chunks (ms.flatMap sent)) (fuel : Nat) (hf : ms.length < fuel) :
    serve limit fuel (conn chunks) = (ms, .eof) := by
  obtain ⟨hg, hp⟩ := conn_good hc
  obtain ⟨k, rfl⟩ : ∃ k, fuel = ms.length + (k + 1) := ⟨fuel - ms.length - 1, by omega⟩
  obtain ⟨c', h1, h2, h3⟩ := serve_app limit hlim (k + 1) [] ms hm _ hg (by simpa using hp)
  obtain ⟨c'', h4, _⟩ := httpRead_eof c' h2 h3
  rw [h1, serve]
  have : readRequest limit c' = .ok (.eof, c'') := by
    unfold readRequest; rw [h4]; rfl
  simp [this]

/-! the stream ends inside of a message -/

theorem headerLoop_trunc (p : Bytes) (hn : findEnd p = none) (hp0 : p ≠ []) :
    ∀ (fuel : Nat) (raw : Bytes) (c : Conn), Good c → raw ++ pending c = p → (p.length - raw.length) < fuel →
      headerLoop fuel raw c = .error .err
  | 0, _, _, _, _, h => by omega
  | fuel + 1, raw, c, hg, he, hf => by
    have hp := raRead_pending 256 c
    rw [headerLoop]
    by_cases h0 : (raRead 256 c).1 = []
    · have h1 := raRead_nil 256 c hg (by decide) h0
      rw [h1, List.append_nil] at he
      rw [if_pos h0, if_pos (by rw [he]; exact hp0)]
    · have hpos : 0 < (raRead 256 c).1.length := List.length_pos_iff.2 h0
      have he2 : raw ++ (raRead 256 c).1 ++ pending (raRead 256 c).2 = p := by rw [List.append_assoc, ← hp]; exact he
      have hfe : findEnd (raw ++ (raRead 256 c).1) = none := by
        cases hx : findEnd (raw ++ (raRead 256 c).1) with
        | none => rfl
        | some e =>
          have := findEnd_append _ (pending (raRead 256 c).2) _ hx
          rw [he2, hn] at this; cases this
      have hl := congrArg List.length he2
      simp at hl
      rw [if_neg h0, hfe]
      simp only [Option.elim]
      split
      · rfl
      · exact headerLoop_trunc p hn hp0 fuel _ _ (raRead_good 256 c hg) he2 (by simp; omega)

theorem contentLoop_trunc (ra len : Nat) (hra : 0 < ra) (hlen : len < 2 ^ 31) (p : Bytes) (hp0 : p.length < len) :
    ∀ (fuel : Nat) (got : Bytes) (c : Conn), Good c → got ++ pending c = p → len - got.length < fuel →
      contentLoop ra len fuel got c = .error .err
  | 0, _, _, _, _, h => by omega
  | fuel + 1, got, c, hg, he, hf => by
    have e32 : (2 : Nat) ^ 32 = 4294967296 := by decide
    have e31 : (2 : Nat) ^ 31 = 2147483648 := by decide
    have hl := congrArg List.length he
    simp at hl
    have hm : (len - got.length) % 2 ^ 32 = len - got.length := Nat.mod_eq_of_lt (by omega)
    unfold contentLoop
    rw [hm, if_neg (by omega), if_neg (by omega)]
    have hs : 0 < min ra (len - got.length) := by omega
    generalize min ra (len - got.length) = size at hs
    have hp := raRead_pending size c
    by_cases h0 : (raRead size c).1 = []
    · rw [if_pos h0]
    · have hpos : 0 < (raRead size c).1.length := List.length_pos_iff.2 h0
      rw [if_neg h0]
      exact contentLoop_trunc ra len hra hlen p hp0 fuel _ _ (raRead_good size c hg)
        (by rw [List.append_assoc, ← hp]; exact he) (by simp; omega)

/-- C82: a message of which only a part arrived is never taken: the complete ones before it are read, then the
connection fails. -/
theorem C82_truncated (limit : Nat) (hlim : limit ≤ 2 ^ 31) (ms : List (Head × Bytes)) (hm : ∀ m ∈ ms, MessageOk limit m)
    (m : Head × Bytes) (hmo : MessageOk limit m) (p t : Bytes) (hpt : sent m = p ++ t) (hp : p ≠ []) (ht : t ≠ [])
    (chunks : List Bytes) (hc : Cuts chunks (ms.flatMap sent ++ p)) (fuel : Nat) (hf : ms.length < fuel) :
    serve limit fuel (conn chunks) = (ms, .error .err) := by
  obtain ⟨hg, hpd⟩ := conn_good hc
  obtain ⟨k, rfl⟩ : ∃ k, fuel = ms.length + (k + 1) := ⟨fuel - ms.length - 1, by omega⟩
  obtain ⟨c', h1, h2, h3⟩ := serve_app limit hlim (k + 1) p ms hm _ hg hpd
  rw [h1, serve]
  have htl : 0 < t.length := List.length_pos_iff.2 ht
  have key : readRequest limit c' = .error .err := by
    by_cases hcase : p.length < (wire m.1).length
    · have hpre : p <+: wire m.1 := List.prefix_of_prefix_length_le (l₃ := sent m) ⟨t, hpt.symm⟩ ⟨m.2, rfl⟩ (by omega)
      obtain ⟨u, hu⟩ := hpre
      have hu0 : u ≠ [] := by intro h; rw [h, List.append_nil] at hu; rw [hu] at hcase; omega
      have hfn := (complete_wire m.1 hmo.head).prefix hu.symm hu0
      have := headerLoop_trunc p hfn hp 513 [] c' h2 (by simpa using h3) (by have := hmo.size; simp; omega)
      unfold readRequest httpRead readHeader
      rw [this]; rfl
    · have hpre : wire m.1 <+: p := List.prefix_of_prefix_length_le (l₃ := sent m) ⟨m.2, rfl⟩ ⟨t, hpt.symm⟩ (by omega)
      obtain ⟨u, hu⟩ := hpre
      obtain ⟨c1, h4, h5, h6⟩ := httpRead_wire m.1 hmo.head hmo.size c' h2 u (by rw [h3, hu])
      unfold readRequest
      rw [h4]; simp only [Except.bind, Option.elim]
      have hul : u.length < m.2.length := by
        have := congrArg List.length hpt
        have := congrArg List.length hu
        simp [sent] at *; omega
      rcases find_announced _ _ hmo.body with h | ⟨h, h0⟩
      · unfold readContent
        rw [h]; simp only [Option.elim]
        have e31 : (2 : Nat) ^ 31 = 2147483648 := by decide
        have e63 : (2 : Nat) ^ 63 = 9223372036854775808 := by decide
        have hb := hmo.below
        rw [toint_dec _ (by omega)]; simp only [Option.elim]
        rw [if_neg (by omega),
          contentLoop_trunc 16384 m.2.length (by decide) (by omega) u hul _ [] c1 h5 (by simpa using h6) (by simp)]
        rfl
      · omega
  simp [key]

/-- C82: a body that is announced as too large is not read: the connection is closed with 413 after the messages
before it. -/
theorem C82_limit (limit : Nat) (hlim : limit ≤ 2 ^ 31) (ms : List (Head × Bytes)) (hm : ∀ m ∈ ms, MessageOk limit m)
    (h : Head) (ho : HeadOk h) (hs : (wire h).length ≤ 512) (n : Nat) (ha : Announces h.headers n) (hn : limit ≤ n)
    (hn63 : n < 2 ^ 63) (rest : Bytes) (chunks : List Bytes) (hc : Cuts chunks (ms.flatMap sent ++ (wire h ++ rest)))
    (hn0 : 0 < n) (fuel : Nat) (hf : ms.length < fuel) :
    serve limit fuel (conn chunks) = (ms, .tooLarge) := by
  obtain ⟨hg, hpd⟩ := conn_good hc
  obtain ⟨k, rfl⟩ : ∃ k, fuel = ms.length + (k + 1) := ⟨fuel - ms.length - 1, by omega⟩
  obtain ⟨c', h1, h2, h3⟩ := serve_app limit hlim (k + 1) _ ms hm _ hg hpd
  obtain ⟨c1, h4, h5, h6⟩ := httpRead_wire h ho hs c' h2 rest h3
  have key : readRequest limit c' = .ok (.tooLarge, c1) := by
    unfold readRequest
    rw [h4]; simp only [Except.bind, Option.elim]
    unfold readContent
    rcases find_announced _ _ ha with h | ⟨h, h0⟩
    · rw [h]; simp only [Option.elim]
      rw [toint_dec _ hn63]; simp only [Option.elim]
      rw [if_pos hn]; rfl
    · omega
  rw [h1, serve]; simp [key]

/-! any bytes at all -/

theorem pushback_pending (size : Nat) (c : Conn) (k : Nat) (hk : k ≤ (raRead size c).1.length) :
    ∃ c', pushback k (raRead size c).2 = .ok c' ∧
      pending c' = (raRead size c).1.drop ((raRead size c).1.length - k) ++ pending (raRead size c).2 := by
  have ho := raRead_off size c
  refine ⟨_, if_pos (by omega), ?_⟩
  simp only [pending]
  rw [raRead_back size c k hk, List.append_assoc]

/-- what http_read_header returns on any input: an error, the end of the stream, or the bytes up to the marker, at most
767 of them, with the rest of the stream left in place -/
theorem headerLoop_any : ∀ (fuel : Nat) (raw : Bytes) (c : Conn), findEnd raw = none → raw.length < 512 →
    512 - raw.length < fuel →
    headerLoop fuel raw c = .error .err ∨
    (∃ c', headerLoop fuel raw c = .ok (none, c')) ∨
    (∃ c' x, headerLoop fuel raw c = .ok (some (x ++ Mark), c') ∧ raw ++ pending c = x ++ Mark ++ pending c' ∧
      (x ++ Mark).length ≤ 767 ∧ Complete (x ++ Mark))
  | 0, _, _, _, _, h => by omega
  | fuel + 1, raw, c, hn, hr, hf => by
    have hp := raRead_pending 256 c
    rw [headerLoop]
    by_cases h0 : (raRead 256 c).1 = []
    · rw [if_pos h0]
      split
      · exact .inl rfl
      · exact .inr (.inl ⟨_, rfl⟩)
    · have hpos : 0 < (raRead 256 c).1.length := List.length_pos_iff.2 h0
      rw [if_neg h0]
      cases hx : findEnd (raw ++ (raRead 256 c).1) with
      | some e =>
        simp only [Option.elim]
        have he := findEnd_grow _ _ _ hn hx
        obtain ⟨h1, x, h2⟩ := findEnd_le _ _ hx
        have hk : (raw ++ (raRead 256 c).1).length - e ≤ (raRead 256 c).1.length := by simp; omega
        obtain ⟨c', h3, h4⟩ := pushback_pending 256 c _ hk
        have hle := raRead_length 256 c
        rw [h3, h2]
        have hlen : (x ++ Mark).length = e := by rw [← h2, List.length_take]; omega
        refine .inr (.inr ⟨c', x, rfl, ?_, ?_, ?_⟩)
        · rw [h4, hp, ← List.append_assoc, ← List.append_assoc]
          congr 1
          have : (raRead 256 c).1.drop ((raRead 256 c).1.length - ((raw ++ (raRead 256 c).1).length - e))
              = (raw ++ (raRead 256 c).1).drop e := by
            rw [List.drop_append, List.drop_of_length_le (show raw.length ≤ e by omega), List.nil_append]
            congr 1
            simp at h1 ⊢; omega
          rw [this, ← h2, List.take_append_drop]
        · rw [hlen]; simp at h1; omega
        · unfold Complete
          rw [hlen, ← h2]
          exact findEnd_take _ _ _ hx (Nat.le_refl _)
      | none =>
        simp only [Option.elim]
        split
        · exact .inl rfl
        · next hlt =>
          have ih := headerLoop_any fuel (raw ++ (raRead 256 c).1) (raRead 256 c).2 hx (by omega) (by simp at hlt ⊢; omega)
          rcases ih with h | h | ⟨c', x, h1, h2, h3⟩
          · exact .inl h
          · exact .inr (.inl h)
          · exact .inr (.inr ⟨c', x, h1, by rw [hp, ← List.append_assoc]; exact h2, h3⟩)

/-- what is left of a head in the middle of parsing -/
def Tail (r : Bytes) : Prop := (∃ x, r = x ++ Mark) ∨ r = [13, 10]

theorem cut_tail {x : Nat} (hx : x ∉ Mark) {s a r : Bytes} (h : cut x (s ++ Mark) = some (a, r)) : ∃ y, r = y ++ Mark ∧ y.length < s.length := by
  obtain ⟨h1, h2⟩ := cut_some h
  by_cases hl : s.length ≤ a.length
  · exfalso
    have : s <+: a := List.prefix_of_prefix_length_le (l₃ := s ++ Mark) ⟨_, rfl⟩ ⟨x :: r, h1.symm⟩ hl
    obtain ⟨t, ht⟩ := this
    rw [← ht, List.append_assoc] at h1
    have := List.append_cancel_left h1
    exact hx (by rw [this]; simp)
  · have : a ++ [x] <+: s := List.prefix_of_prefix_length_le (l₃ := s ++ Mark) ⟨r, by rw [h1]; simp⟩ ⟨_, rfl⟩ (by simp; omega)
    obtain ⟨t, ht⟩ := this
    rw [← ht, List.append_assoc, List.append_assoc] at h1
    have := List.append_cancel_left h1
    simp at this
    exact ⟨t, this.symm, by rw [← ht]; simp; omega⟩

theorem line_tail (s : Bytes) : line (s ++ Mark) = .error .err ∨
    ∃ a r, line (s ++ Mark) = .ok (a, r) ∧ Tail r ∧ r.length < (s ++ Mark).length := by
  unfold line
  cases hc : cut 13 (s ++ Mark) with
  | none => exact absurd (cut_none hc) (by simp)
  | some p =>
    obtain ⟨a, r⟩ := p
    simp only [Option.elim]
    obtain ⟨h1, h2⟩ := cut_some hc
    have hl := congrArg List.length h1
    by_cases hle : s.length ≤ a.length
    · -- the carriage return is the one of the marker
      have : s <+: a := List.prefix_of_prefix_length_le (l₃ := s ++ Mark) ⟨_, rfl⟩ ⟨13 :: r, h1.symm⟩ hle
      obtain ⟨t, ht⟩ := this
      rw [← ht, List.append_assoc] at h1
      have h3 := List.append_cancel_left h1
      have : t = [] := by
        cases t with
        | nil => rfl
        | cons y t => simp at h3; exfalso; apply h2; rw [← ht, ← h3.1]; simp
      subst this
      simp at h3
      right
      refine ⟨a, [13, 10], ?_, .inr rfl, by simp⟩
      rw [← h3]; rfl
    · have : a ++ [13] <+: s := List.prefix_of_prefix_length_le (l₃ := s ++ Mark) ⟨r, by rw [h1]; simp⟩ ⟨_, rfl⟩ (by simp; omega)
      obtain ⟨t, ht⟩ := this
      rw [← ht, List.append_assoc, List.append_assoc] at h1
      have h3 := List.append_cancel_left h1
      simp at h3
      rw [← h3]
      cases t with
      | nil => left; rfl
      | cons y t =>
        simp only [List.cons_append, expect]
        by_cases hy : y = 10
        · right
          refine ⟨a, t ++ Mark, by rw [if_pos hy]; rfl, .inl ⟨t, rfl⟩, ?_⟩
          rw [← ht]; simp only [List.length_append, List.length_cons]; omega
        · left; rw [if_neg hy]; rfl

theorem headers_safe : ∀ (fuel : Nat) (r : Bytes), Tail r → r.length < fuel → headers fuel r ≠ .error .ub
  | 0, _, _, h => by omega
  | fuel + 1, r, ht, hf => by
    rcases ht with ⟨s, rfl⟩ | rfl
    · cases s with
      | nil => simp [headers, expect, Except.map]
      | cons x t =>
        rw [List.cons_append, headers]
        split
        · cases t with
          | nil => simp [expect, Except.map]
          | cons y t => simp only [List.cons_append, expect]; split <;> simp [Except.map]
        · cases hc : cut 58 (x :: (t ++ Mark)) with
          | none => simp [Option.elim]
          | some p =>
            obtain ⟨name, r⟩ := p
            simp only [Option.elim]
            rw [← List.cons_append] at hc
            obtain ⟨y, rfl, hy⟩ := cut_tail (by decide) hc
            cases y with
            | nil => simp [expect, Except.bind]
            | cons z y =>
              simp only [List.cons_append, expect]
              split
              · simp only [Except.bind]
                rcases line_tail y with h | ⟨a, r', h, h1, h2⟩
                · rw [h]; simp
                · rw [h]
                  have := headers_safe fuel r' h1 (by simp at *; omega)
                  cases hh : headers fuel r' with
                  | ok v => simp [hh, Except.map]
                  | error e => rw [hh] at this; simp [hh, Except.map]; intro he; exact this (by rw [he])
              · simp [Except.bind]
    · simp [headers, expect, Except.map]

theorem parseHead_safe (s : Bytes) : parseHead (s ++ Mark) ≠ .error .ub := by
  unfold parseHead field
  cases hc : cut 32 (s ++ Mark) with
  | none => simp [Option.elim, Except.bind]
  | some p =>
    obtain ⟨a, r⟩ := p
    obtain ⟨y, rfl, _⟩ := cut_tail (by decide) hc
    simp only [Option.elim]
    split
    · simp [Except.bind]
    · simp only [Except.bind]
      cases hc2 : cut 32 (y ++ Mark) with
      | none => simp [Option.elim, Except.bind]
      | some p =>
        obtain ⟨b, r⟩ := p
        obtain ⟨z, rfl, _⟩ := cut_tail (by decide) hc2
        simp only [Option.elim]
        by_cases hb : b = []
        · rw [if_pos hb]; simp
        · rw [if_neg hb]; simp only []
          rcases line_tail z with h | ⟨c, r', h, h1, h2⟩
          · rw [h]; simp
          · rw [h]; simp only []
            by_cases hc0 : c = []
            · rw [if_pos hc0]; simp
            · rw [if_neg hc0]
              have := headers_safe (r'.length + 1) r' h1 (by omega)
              cases hh : headers (r'.length + 1) r' with
              | ok v => simp [Except.map]
              | error e => rw [hh] at this; simp [Except.map]; intro he; exact this (by rw [he])

theorem contentLoop_safe (ra len : Nat) (hlen : len < 2 ^ 31) :
    ∀ (fuel : Nat) (got : Bytes) (c : Conn), len - got.length < fuel →
      contentLoop ra len fuel got c ≠ .error .ub ∧
      ∀ b c', contentLoop ra len fuel got c = .ok (b, c') → got ++ pending c = b ++ pending c'
  | 0, _, _, h => by omega
  | fuel + 1, got, c, hf => by
    have e32 : (2 : Nat) ^ 32 = 4294967296 := by decide
    have e31 : (2 : Nat) ^ 31 = 2147483648 := by decide
    have hm : (len - got.length) % 2 ^ 32 = len - got.length := Nat.mod_eq_of_lt (by omega)
    unfold contentLoop
    rw [hm]
    split
    · exact ⟨by simp, by intro b c' h; cases h; rfl⟩
    · rw [if_neg (by omega)]
      generalize min ra (len - got.length) = size
      have hp := raRead_pending size c
      split
      · exact ⟨by simp, by simp⟩
      · next h0 =>
        have hpos : 0 < (raRead size c).1.length := List.length_pos_iff.2 h0
        have ih := contentLoop_safe ra len hlen fuel (got ++ (raRead size c).1) (raRead size c).2 (by simp; omega)
        rw [hp, ← List.append_assoc]
        exact ih

theorem readRequest_any (limit : Nat) (hlim : limit ≤ 2 ^ 31) (c : Conn) :
    readRequest limit c ≠ .error .ub ∧
    ∀ h b c', readRequest limit c = .ok (.request h b, c') → (pending c').length < (pending c).length := by
  have hh := headerLoop_any 513 [] c rfl (by decide) (by decide)
  unfold readRequest httpRead readHeader
  rcases hh with h | ⟨c', h⟩ | ⟨c', x, h, h1, _⟩
  · rw [h]; simp [Except.bind]
  · rw [h]; simp [Except.bind, Option.elim]
  · rw [h]; simp only [Except.bind, Option.elim]
    have hs := parseHead_safe x
    cases hp : parseHead (x ++ Mark) with
    | error e => rw [hp] at hs; simp [Except.map]; intro he; exact hs (by rw [he])
    | ok hd =>
      simp only [Except.map]
      have hl := congrArg List.length h1
      simp at hl
      unfold readContent
      cases hf : httpFind hd.headers sLength with
      | none =>
        simp only [Option.elim]
        refine ⟨by simp, ?_⟩
        intro h b c'' he
        cases he; omega
      | some v =>
        simp only [Option.elim]
        cases ht : toint 0 v with
        | none => simp
        | some len =>
          simp only []
          by_cases hlt : len ≥ limit
          · rw [if_pos hlt]; simp
          · rw [if_neg hlt]
            obtain ⟨h2, h3⟩ := contentLoop_safe 16384 len (by omega) (len + 1) [] c' (by simp)
            cases hcl : contentLoop 16384 len (len + 1) [] c' with
            | error e => rw [hcl] at h2; simp only [Except.map]; exact ⟨fun he => h2 (by cases he; rfl), by simp⟩
            | ok p =>
              obtain ⟨b, c2⟩ := p
              have := congrArg List.length (h3 b c2 hcl)
              simp at this
              simp only [Except.map]
              refine ⟨by simp, ?_⟩
              intro h b' c'' he
              cases he; omega

/-- C82: no input, however it is cut, makes the server read outside of its buffers, and the loop over a connection
ends: after at most one turn for each byte. -/
theorem C82_memory_safe (limit : Nat) (hlim : limit ≤ 2 ^ 31) (chunks : List Bytes) (fuel : Nat)
    (hf : chunks.flatten.length < fuel) : (serve limit fuel (conn chunks)).2 ≠ .error .ub := by
  have key : ∀ (fuel : Nat) (c : Conn), (pending c).length < fuel → (serve limit fuel c).2 ≠ .error .ub := by
    intro fuel
    induction fuel with
    | zero => intro c h; omega
    | succ fuel ih =>
      intro c h
      obtain ⟨h1, h2⟩ := readRequest_any limit hlim c
      rw [serve]
      cases hr : readRequest limit c with
      | error e => rw [hr] at h1; simp; intro he; exact h1 (by rw [he])
      | ok p =>
        obtain ⟨t, c'⟩ := p
        cases t with
        | eof => simp
        | tooLarge => simp
        | request hd b =>
          have := h2 hd b c' hr
          exact ih c' (by omega)
  exact key fuel (conn chunks) (by simpa [conn, pending] using hf)

/-- C82: a head of more than 767 bytes is refused, however it is cut. -/
theorem C82_long_head (limit : Nat) (h : Head) (ho : HeadOk h) (hl : 767 < (wire h).length) (rest : Bytes)
    (chunks : List Bytes) (hc : Cuts chunks (wire h ++ rest)) (fuel : Nat) :
    serve limit (fuel + 1) (conn chunks) = ([], .error .err) := by
  obtain ⟨hg, hp⟩ := conn_good hc
  have hh := headerLoop_any 513 [] (conn chunks) rfl (by decide) (by decide)
  have key : readRequest limit (conn chunks) = .error .err := by
    unfold readRequest httpRead readHeader
    rcases hh with h1 | ⟨c', h1⟩ | ⟨c', x, h1, h2, h3, h4⟩
    · rw [h1]; rfl
    · -- not the end of the stream
      exfalso
      rw [headerLoop] at h1
      by_cases h0 : (raRead 256 (conn chunks)).1 = []
      · have := raRead_nil 256 _ hg (by decide) h0
        rw [hp] at this
        have := congrArg List.length this
        rw [List.length_append, List.length_nil] at this; omega
      · rw [if_neg h0] at h1
        have gen : ∀ (fuel : Nat) (raw : Bytes) (c c' : Conn), raw ≠ [] → headerLoop fuel raw c ≠ .ok (none, c') := by
          intro fuel
          induction fuel with
          | zero => intro raw c c' _; simp [headerLoop]
          | succ fuel ih =>
            intro raw c c' hr
            rw [headerLoop]
            split
            · simp
            · cases findEnd (raw ++ (raRead 256 c).1) with
              | none =>
                simp only [Option.elim]
                split
                · simp
                · exact ih _ _ _ (by simp [hr])
              | some e =>
                simp only [Option.elim]
                cases pushback ((raw ++ (raRead 256 c).1).length - e) (raRead 256 c).2 <;> simp [Except.map]
        cases hfe : findEnd ([] ++ (raRead 256 (conn chunks)).1) with
        | none =>
          rw [hfe] at h1
          simp only [Option.elim] at h1
          split at h1
          · cases h1
          · exact gen _ _ _ _ (by simpa using h0) h1
        | some e =>
          rw [hfe] at h1
          simp only [Option.elim] at h1
          revert h1
          cases pushback (([] ++ (raRead 256 (conn chunks)).1).length - e) (raRead 256 (conn chunks)).2 <;> simp [Except.map]
    · exfalso
      rw [List.nil_append, hp] at h2
      have hx : x ++ Mark <+: wire h := by
        refine List.prefix_of_prefix_length_le (l₃ := wire h ++ rest) ⟨_, h2.symm⟩ ⟨_, rfl⟩ (by omega)
      obtain ⟨t, ht⟩ := hx
      have ht0 : t ≠ [] := by
        intro e; rw [e, List.append_nil] at ht; rw [ht] at h3; omega
      have := (complete_wire h ho).prefix ht.symm ht0
      unfold Complete at h4
      rw [this] at h4; cases h4
  rw [serve, key]

/-! examples -/

def str' (s : String) : Bytes := s.toList.map (·.toNat)

/-- a request with a body and one without -/
def sampleMs : List (Head × Bytes) :=
  [(⟨str' "POST", str' "/v1/db/main", str' "HTTP/1.1", [(str' "Content-Type", str' "application/sql"),
      (str' "CONTENT-length", str' "13")]⟩, str' "select 1 + 1;"),
   (⟨str' "POST", str' "/v1/backup", str' "HTTP/1.1", []⟩, [])]

theorem sample_ok : ∀ m ∈ sampleMs, MessageOk 1048576 m := by
  intro m hm
  simp only [sampleMs, List.mem_cons, List.not_mem_nil, or_false] at hm
  rcases hm with rfl | rfl
  · refine ⟨⟨by decide, by decide, by decide, by decide, by decide, by decide, by decide⟩, by decide, ?_, by decide⟩
    have h := Announces.present [(str' "Content-Type", str' "application/sql")] (str' "CONTENT-length") 13 []
      (by decide) (by decide)
    rw [show Json.Text.decDigits 13 = str' "13" by decide +kernel] at h
    exact h
  · exact ⟨⟨by decide, by decide, by decide, by decide, by decide, by decide, by decide⟩, by decide,
      .absent _ (by decide), by decide⟩

example : serve 1048576 3 (conn (((sampleMs.flatMap sent).map fun c => [c]))) = (sampleMs, .eof) :=
  C82_messages 1048576 (by decide) sampleMs sample_ok _ ⟨by decide +kernel, by decide +kernel⟩ 3 (by decide)

example : serve 1048576 3 (conn [sent (sampleMs.getD 0 default) ++ (sent (sampleMs.getD 1 default)).take 25]) =
    (sampleMs.take 1, .error .err) :=
  C82_truncated 1048576 (by decide) (sampleMs.take 1) (fun m hm => sample_ok m (List.mem_of_mem_take hm))
    (sampleMs.getD 1 default) (sample_ok _ (by simp [sampleMs])) ((sent (sampleMs.getD 1 default)).take 25)
    ((sent (sampleMs.getD 1 default)).drop 25) (by decide) (by decide)
    (by decide) _ ⟨by decide, by decide⟩ 3 (by decide)

/-! counterexamples -/

/-- a head of 612 bytes -/
def longHead : Head := ⟨str' "POST", 47 :: List.replicate 592 97, str' "HTTP/1.1", []⟩

theorem longHead_ok : HeadOk longHead := by
  refine ⟨by decide, by decide, by decide, by decide, ?_, by decide, by decide⟩
  exact ⟨by decide +kernel, by decide +kernel⟩

/-- C82, false in general: whether a head of 513 to 767 bytes is accepted depends on how the network cuts the stream. -/
theorem C82_head_limit_false : ∃ (h : Head) (chunks chunks' : List Bytes), HeadOk h ∧ Announces h.headers 0 ∧
    Cuts chunks (sent (h, [])) ∧ Cuts chunks' (sent (h, [])) ∧
    serve 1048576 2 (conn chunks) = ([], .error .err) ∧
    serve 1048576 2 (conn chunks') = ([(h, [])], .eof) := by
  refine ⟨longHead, [wire longHead], [(wire longHead).take 511, (wire longHead).drop 511], longHead_ok,
    .absent _ (by decide), ⟨by simp [sent], by decide +kernel⟩, ⟨by simp [sent], by decide +kernel⟩, ?_, ?_⟩
  · decide +kernel
  · decide +kernel

/-- C82, false for a limit above 4 GB: of a body of 2^32 bytes the server reads none, and takes the body for the next
requests. -/
theorem C82_huge_body_false (limit : Nat) (hl : 2 ^ 32 < limit) (h : Head) (ho : HeadOk h) (hs : (wire h).length ≤ 512)
    (body : Bytes) (hb : body.length = 2 ^ 32) (ha : Announces h.headers body.length)
    (m : Head × Bytes) (hm : MessageOk limit m) (hm2 : m.2.length < 2 ^ 31) (t : Bytes) (hbody : body = sent m ++ t)
    (chunks : List Bytes) (hc : Cuts chunks (sent (h, body))) (fuel : Nat) :
    ∃ tail, (serve limit (fuel + 2) (conn chunks)).1 = (h, []) :: m :: tail := by
  obtain ⟨hg, hp⟩ := conn_good hc
  obtain ⟨c1, h1, h2, h3⟩ := httpRead_wire h ho hs _ hg body hp
  have r1 : readRequest limit (conn chunks) = .ok (.request h [], c1) := by
    unfold readRequest
    rw [h1]; simp only [Except.bind, Option.elim]
    unfold readContent
    rcases find_announced _ _ ha with h | ⟨h, h0⟩
    · rw [h]; simp only [Option.elim]
      rw [hb, toint_dec _ (by decide)]; simp only [Option.elim]
      rw [if_neg (by omega), contentLoop]
      simp [Except.map]
    · rw [hb] at h0; exact absurd h0 (by decide)
  obtain ⟨c2, h4, h5, h6⟩ := readRequest_ok limit m hm hm2 c1 h2 t (by rw [h3, hbody])
  refine ⟨(serve limit fuel c2).1, ?_⟩
  rw [serve, r1]
  simp only []
  rw [serve, h4]

/-- the hypotheses of the last theorem can be met -/
theorem huge_body_exists : ∃ (h : Head) (body : Bytes) (m : Head × Bytes) (t : Bytes), HeadOk h ∧ (wire h).length ≤ 512 ∧
    body.length = 2 ^ 32 ∧ Announces h.headers body.length ∧ MessageOk (2 ^ 33) m ∧ m.2.length < 2 ^ 31 ∧ body = sent m ++ t := by
  have hd : Json.Text.decDigits (2 ^ 32) = str' "4294967296" := by decide +kernel
  refine ⟨⟨str' "POST", str' "/v1/db/main", str' "HTTP/1.1", [(lengthName, str' "4294967296")]⟩,
    sent (sampleMs.getD 1 default) ++ List.replicate (2 ^ 32 - (sent (sampleMs.getD 1 default)).length) 0,
    sampleMs.getD 1 default, _, ⟨by decide, by decide, by decide, by decide, by decide, by decide, by decide⟩,
    by decide, ?_, ?_, ?_, by decide, rfl⟩
  · rw [List.length_append, List.length_replicate]
    have : (sent (sampleMs.getD 1 default)).length = 28 := by decide
    omega
  · have e : (sent (sampleMs.getD 1 default) ++ List.replicate (2 ^ 32 - (sent (sampleMs.getD 1 default)).length) 0).length = 2 ^ 32 := by
      rw [List.length_append, List.length_replicate]
      have : (sent (sampleMs.getD 1 default)).length = 28 := by decide
      omega
    rw [e, ← hd]
    exact .present [] _ _ [] (by simp) rfl
  · have := sample_ok (sampleMs.getD 1 default) (by simp [sampleMs])
    exact ⟨this.head, this.size, this.body, by decide⟩

/-! what the server and the client of the code send to each other -/

theorem announces_prefix (pre : List (Bytes × Bytes)) (hp : ∀ x ∈ pre, ¬ SameName x.1 lengthName) (n : Nat)
    (post : List (Bytes × Bytes)) (hq : ∀ x ∈ post, ¬ SameName x.1 lengthName) :
    Announces (pre ++ (if n > 0 then [(lengthName, Json.Text.decDigits n)] else []) ++ post) n := by
  by_cases h : n > 0
  · rw [if_pos h, List.append_assoc]
    exact .present pre lengthName n post hp rfl
  · have : n = 0 := by omega
    subst this
    refine .absent _ ?_
    intro x hx
    simp at hx
    rcases hx with hx | hx
    · exact hp x hx
    · exact hq x hx

theorem dec_nocr (n : Nat) : 13 ∉ Json.Text.decDigits n ∧ 58 ∉ Json.Text.decDigits n := by
  induction n using Nat.strongRecOn with
  | ind n ih =>
    unfold Json.Text.decDigits
    split
    · simp; omega
    · have := ih (n / 10) (by omega)
      simp [this]; omega

/-- the headers of a reply -/
def replyHead (accept code text : Bytes) (n : Nat) : Head :=
  ⟨str' "HTTP/1.1", code, text, (if accept ≠ [] then [(str' "Content-Type", accept)] else []) ++
    (if n > 0 then [(lengthName, Json.Text.decDigits n)] else [])⟩

theorem beginReply_wire (accept code text : Bytes) (n : Nat) :
    beginReply accept (code ++ 32 :: text) n = wire (replyHead accept code text n) := by
  have e1 : str "HTTP/1.1 " = str' "HTTP/1.1" ++ [32] := by decide
  have e2 : str "\r\n" = [13, 10] := by decide
  have e3 : str "Content-Type: " = str' "Content-Type" ++ [58, 32] := by decide
  have e4 : str "Content-Length: " = lengthName ++ [58, 32] := by decide
  unfold beginReply wire replyHead
  rw [e1, e2, e3, e4]
  by_cases ha : accept = [] <;> by_cases hn : n > 0 <;> simp [ha, hn, hline, dec]

/-- C82: the client reads a reply of the server back: the status code, the text and the whole content, and nothing of
what follows, however the network cuts the stream. -/
theorem C82_reply (accept code text content rest : Bytes) (hc0 : code ≠ []) (hc : 32 ∉ code ∧ 13 ∉ code)
    (ht0 : text ≠ []) (ht : 13 ∉ text) (ha : 13 ∉ accept) (hlen : content.length < 2 ^ 31)
    (hsize : (beginReply accept (code ++ 32 :: text) content.length).length ≤ 512) (chunks : List Bytes)
    (hcut : Cuts chunks (beginReply accept (code ++ 32 :: text) content.length ++ content ++ rest)) :
    ∃ h c c', httpRead (conn chunks) = .ok (some h, c) ∧ h.b = code ∧ h.c = text ∧
      readContent (2 ^ 64 - 1) h.headers c = .ok (some content, c') ∧ pending c' = rest := by
  obtain ⟨hg, hp⟩ := conn_good hcut
  rw [beginReply_wire] at hsize hp
  have hok : HeadOk (replyHead accept code text content.length) := by
    refine ⟨by simp [replyHead]; decide, hc0, ht0, by simp only [replyHead]; decide, hc, ht, ?_⟩
    intro x hx
    simp only [replyHead, List.mem_append] at hx
    rcases hx with hx | hx
    · split at hx
      · simp at hx; subst hx; exact ⟨by dsimp only; decide, by dsimp only; decide, ha⟩
      · simp at hx
    · split at hx
      · simp at hx; subst hx; exact ⟨by dsimp only; decide, by dsimp only; decide, (dec_nocr _).1⟩
      · simp at hx
  obtain ⟨c, h1, h2, h3⟩ := httpRead_wire _ hok hsize _ hg (content ++ rest) (by rw [hp, List.append_assoc])
  have han : Announces (replyHead accept code text content.length).headers content.length := by
    have := announces_prefix (if accept ≠ [] then [(str' "Content-Type", accept)] else []) (by
      intro x hx
      split at hx
      · simp at hx; subst hx; dsimp only; decide
      · simp at hx) content.length [] (by simp)
    rw [List.append_nil] at this
    exact this
  have e31 : (2 : Nat) ^ 31 = 2147483648 := by decide
  have e64 : (2 : Nat) ^ 64 - 1 = 18446744073709551615 := by decide
  obtain ⟨c', h4, _, h6⟩ := readContent_ok (2 ^ 64 - 1) _ content han (by omega) hlen c h2 rest h3
  exact ⟨_, c, c', h1, rfl, rfl, h4, h6⟩

example : ∃ h c c', httpRead (conn [beginReply (str' "application/json") (str' "200 OK") 3 ++ str' "[1]"]) = .ok (some h, c) ∧
    h.b = str' "200" ∧ h.c = str' "OK" ∧ readContent (2 ^ 64 - 1) h.headers c = .ok (some (str' "[1]"), c') ∧ pending c' = [] :=
  C82_reply (str' "application/json") (str' "200") (str' "OK") (str' "[1]") [] (by decide) (by decide) (by decide) (by decide)
    (by decide) (by decide) (by decide +kernel) _ ⟨by decide +kernel, by decide +kernel⟩

/-- the head that http_begin_request writes -/
def ownHead (o : Out) (n : Nat) : Head :=
  ⟨str' "POST", target o, str' "HTTP/1.1",
    (if o.token ≠ [] then [(str' "Authorization", str' "Bearer" ++ o.token)] else []) ++
    (if o.contentType ≠ [] then [(str' "Content-Type", o.contentType)] else []) ++
    (if n > 0 then [(lengthName, Json.Text.decDigits n)] else []) ++
    (if o.accept ≠ [] then [(str' "Accept", o.accept)] else [])⟩

theorem beginRequest_wire (o : Out) (n : Nat) : beginRequest o n = wire (ownHead o n) := by
  have e1 : str "POST " = str' "POST" ++ [32] := by decide
  have e2 : str "\r\n" = [13, 10] := by decide
  have e3 : str "Content-Type: " = str' "Content-Type" ++ [58, 32] := by decide
  have e4 : str "Content-Length: " = lengthName ++ [58, 32] := by decide
  have e5 : str "Accept: " = str' "Accept" ++ [58, 32] := by decide
  have e6 : (str "Authorization: Bearer ").take 21 = str' "Authorization" ++ [58, 32] ++ str' "Bearer" := by decide
  have e7 : str " HTTP/1.1\r\n" = [32] ++ str' "HTTP/1.1" ++ [13, 10] := by decide
  unfold beginRequest wire ownHead
  rw [e1, e2, e3, e4, e5, e6, e7]
  by_cases h1 : o.token = [] <;> by_cases h2 : o.contentType = [] <;> by_cases h3 : n > 0 <;> by_cases h4 : o.accept = [] <;>
    simp [h1, h2, h3, h4, hline, dec]

/-- what the client may put into a request: no carriage returns, and no blanks in the target -/
structure OutOk (o : Out) : Prop where
  target : 32 ∉ target o ∧ 13 ∉ target o
  token : 13 ∉ o.token
  contentType : 13 ∉ o.contentType
  accept : 13 ∉ o.accept

theorem ownHead_ok (o : Out) (h : OutOk o) (n : Nat) : HeadOk (ownHead o n) := by
  refine ⟨by simp only [ownHead]; decide, by simp [ownHead, target], by simp only [ownHead]; decide,
    by simp only [ownHead]; decide, h.target, by simp only [ownHead]; decide, ?_⟩
  intro x hx
  simp only [ownHead, List.mem_append] at hx
  rcases hx with ((hx | hx) | hx) | hx
  · split at hx
    · simp at hx; subst hx
      refine ⟨by dsimp only; decide, by dsimp only; decide, ?_⟩
      simp only [List.mem_append, not_or]
      exact ⟨by decide, h.token⟩
    · simp at hx
  · split at hx
    · simp at hx; subst hx; exact ⟨by dsimp only; decide, by dsimp only; decide, h.contentType⟩
    · simp at hx
  · split at hx
    · simp at hx; subst hx; exact ⟨by dsimp only; decide, by dsimp only; decide, (dec_nocr _).1⟩
    · simp at hx
  · split at hx
    · simp at hx; subst hx; exact ⟨by dsimp only; decide, by dsimp only; decide, h.accept⟩
    · simp at hx

theorem ownHead_announces (o : Out) (n : Nat) : Announces (ownHead o n).headers n := by
  refine announces_prefix _ ?_ n _ ?_
  · intro x hx
    simp only [List.mem_append] at hx
    rcases hx with hx | hx <;> split at hx
    · simp at hx; subst hx; dsimp only; decide
    · simp at hx
    · simp at hx; subst hx; dsimp only; decide
    · simp at hx
  · intro x hx
    split at hx
    · simp at hx; subst hx; dsimp only; decide
    · simp at hx

/-- C82: a sequence of requests that the client of the code sends is read by the server as sent: method, target and
content. -/
theorem C82_own_requests (limit : Nat) (hlim : limit ≤ 2 ^ 31) (rs : List (Out × Bytes))
    (hr : ∀ r ∈ rs, OutOk r.1 ∧ r.2.length < limit ∧ (beginRequest r.1 r.2.length).length ≤ 512)
    (chunks : List Bytes) (hc : Cuts chunks (rs.flatMap fun r => beginRequest r.1 r.2.length ++ r.2)) (fuel : Nat)
    (hf : rs.length < fuel) :
    serve limit fuel (conn chunks) = (rs.map fun r => (ownHead r.1 r.2.length, r.2), .eof) := by
  refine C82_messages limit hlim _ ?_ chunks ?_ fuel (by simpa using hf)
  · intro m hm
    obtain ⟨r, hr1, rfl⟩ := List.mem_map.1 hm
    obtain ⟨h1, h2, h3⟩ := hr r hr1
    exact ⟨ownHead_ok _ h1 _, by rw [← beginRequest_wire]; exact h3, ownHead_announces _ _, h2⟩
  · rw [List.flatMap_map]
    refine ⟨?_, hc.2⟩
    rw [hc.1]
    congr 1
    funext r
    simp [sent, beginRequest_wire]

end Verif.Net
