import Verif.Wal.RunProofs
set_option linter.unusedSimpArgs false
set_option linter.unusedVariables false
/-! # Torn tails, truncation and garbage collection -/
namespace Verif.Wal
open Verif Verif.Store

/-! ## complete records -/

theorem complete_split (recs : List Bytes) : ∀ n, ∃ rest torn, recs = complete n recs ++ rest ∧
    recs.flatten.take n = (complete n recs).flatten ++ torn ∧
    ((rest = [] ∧ torn = []) ∨ ∃ r rest' k, rest = r :: rest' ∧ torn = r.take k ∧ k < r.length) := by
  induction recs with
  | nil => intro n; exact ⟨[], [], rfl, by simp [complete], Or.inl ⟨rfl, rfl⟩⟩
  | cons r t ih =>
    intro n
    by_cases h : r.length ≤ n
    · obtain ⟨rest, torn, h1, h2, h3⟩ := ih (n - r.length)
      have hc : complete n (r :: t) = r :: complete (n - r.length) t := by simp [complete, h]
      refine ⟨rest, torn, by rw [hc, List.cons_append, ← h1], ?_, h3⟩
      rw [hc, List.flatten_cons, List.take_append, List.flatten_cons, List.append_assoc, ← h2, List.take_of_length_le h]
    · have hc : complete n (r :: t) = [] := by simp [complete, h]
      refine ⟨r :: t, r.take n, by rw [hc]; rfl, ?_, Or.inr ⟨r, t, n, rfl, rfl, by omega⟩⟩
      rw [hc, List.flatten_cons, List.take_append]
      simp; omega

theorem complete_append (x y : List Bytes) : ∀ n, complete (x.flatten.length + n) (x ++ y) = x ++ complete n y := by
  induction x with
  | nil => intro n; simp
  | cons r t ih =>
    intro n
    simp only [List.cons_append, complete, List.flatten_cons, List.length_append]
    rw [if_pos (by omega)]
    have : r.length + t.flatten.length + n - r.length = t.flatten.length + n := by omega
    rw [this, ih n]

theorem complete_min (y : List Bytes) : ∀ n, complete (min n y.flatten.length) y = complete n y := by
  induction y with
  | nil => intro n; rfl
  | cons r t ih =>
    intro n
    simp only [complete, List.flatten_cons, List.length_append]
    by_cases h : r.length ≤ n
    · rw [if_pos (by omega), if_pos h]
      have : min n (r.length + t.flatten.length) - r.length = min (n - r.length) t.flatten.length := by omega
      rw [this, ih]
    · rw [if_neg (by omega), if_neg h]

theorem complete_prefix (y : List Bytes) : ∀ n, complete n y <+: y := by
  intro n
  obtain ⟨rest, _, h, _⟩ := complete_split y n
  exact ⟨rest, h.symm⟩

/-! ## shortening the last file -/

theorem s_take {w : Wal} {A0 : List LEnt} {a : LEnt} (h : S w (A0 ++ [a])) (k : Nat) :
    S ⟨(A0 ++ [(⟨a.id, a.txs.take k⟩ : LEnt)]).map LEnt.file, w.lsn⟩ (A0 ++ [⟨a.id, a.txs.take k⟩]) := by
  refine ⟨rfl, by simp, ?_, ?_, ?_, ?_, ?_⟩
  · have hs := h.sort
    rw [List.pairwise_append] at hs ⊢
    refine ⟨hs.1, by simp, ?_⟩
    intro x hx y hy
    simp at hy; subst hy
    exact hs.2.2 x hx a (by simp)
  · intro x hx t ht
    rcases List.mem_append.mp hx with hx | hx
    · exact h.ge x (by simp [hx]) t ht
    · simp at hx; subst hx
      exact h.ge a (by simp) t (List.mem_of_mem_take ht)
  · have ha := h.asc
    simp only [List.flatMap_append, List.flatMap_cons, List.flatMap_nil, List.append_nil] at ha ⊢
    exact ha.sublist ((List.Sublist.append_left (List.take_sublist _ _) _).map _)
  · intro x hx t ht
    rcases List.mem_append.mp hx with hx | hx
    · exact h.le x (by simp [hx]) t ht
    · simp at hx; subst hx
      exact h.le a (by simp) t (List.mem_of_mem_take ht)
  · intro x hx
    rcases List.mem_append.mp hx with hx | hx
    · exact h.idle x (by simp [hx])
    · simp at hx; subst hx; exact h.idle a (by simp)

/-- after a cut of the last file the log is a log with fewer transactions and a torn tail -/
theorem cut_split {w : Wal} {A : List LEnt} (h : S w A) (hz : Sz w A) (n : Nat) : ∃ (B : List LEnt) (tail : LEnt → Bytes),
    (∃ w', S w' B ∧ Sz w' B ∧ w'.lsn = w.lsn) ∧
    truncateLast w.files n = Files (B.map fun a => (⟨a.id, a.txs.map bytesOf, tail a⟩ : Ent)) ∧
    (∀ a ∈ B, ((a.txs.map bytesOf).flatten ++ tail a).length + 24 < 2 ^ 32 ∧ Torn (a.txs.map bytesOf).flatten (tail a)) ∧
    (B.flatMap LEnt.txs).map bytesOf = complete (totalBytes (truncateLast w.files n)) ((A.flatMap LEnt.txs).map bytesOf) ∧
    B.flatMap LEnt.txs <+: A.flatMap LEnt.txs ∧ (∀ x ∈ B, ∀ y ∈ B, x.id < y.id → tail x = []) ∧
    B.head?.map LEnt.id = A.head?.map LEnt.id := by
  rcases List.eq_nil_or_concat A with e | ⟨A0, a, e⟩
  · exact absurd e h.ne
  subst e
  rw [List.concat_eq_append] at h hz ⊢
  obtain ⟨rest, torn, h1, h2, h3⟩ := complete_split (a.txs.map bytesOf) n
  generalize hk : (complete n (a.txs.map bytesOf)).length = k
  have hc : complete n (a.txs.map bytesOf) = (a.txs.take k).map bytesOf := by
    have : ((a.txs.map bytesOf).take k) = complete n (a.txs.map bytesOf) := by
      conv => lhs; rw [h1]
      rw [← hk]; simp
    rw [← this, List.map_take]
  have hSz : Sz ⟨(A0 ++ [(⟨a.id, a.txs.take k⟩ : LEnt)]).map LEnt.file, w.lsn⟩ (A0 ++ [⟨a.id, a.txs.take k⟩]) := by
    refine ⟨?_, ?_, ?_⟩
    · intro x hx
      rcases List.mem_append.mp hx with hx | hx
      · exact hz.file x (by simp [hx])
      · simp at hx; subst hx
        have := hz.file a (by simp)
        have hle : (((a.txs.take k).map bytesOf).flatten).length ≤ ((a.txs.map bytesOf).flatten).length := by
          rw [← hc]; conv => rhs; rw [h1]
          simp
        simp only; omega
    · intro x hx t ht
      rcases List.mem_append.mp hx with hx | hx
      · exact hz.recs x (by simp [hx]) t ht
      · simp at hx; subst hx
        exact hz.recs a (by simp) t (List.mem_of_mem_take ht)
    · intro x hx
      rcases List.mem_append.mp hx with hx | hx
      · exact hz.ids x (by simp [hx])
      · simp at hx; subst hx; exact hz.ids a (by simp)
  have hlt : ∀ x ∈ A0, x.id ≠ a.id := fun x hx => by
    have := (List.pairwise_append.mp h.sort).2.2 x hx a (by simp)
    omega
  refine ⟨A0 ++ [⟨a.id, a.txs.take k⟩], fun x => if x.id = a.id then torn else [],
    ⟨⟨(A0 ++ [(⟨a.id, a.txs.take k⟩ : LEnt)]).map LEnt.file, w.lsn⟩, s_take h k, hSz, rfl⟩, ?_, ?_, ?_, ?_, ?_, ?_⟩
  · rw [h.files, List.map_append, List.map_cons, List.map_nil, truncateLast_concat]
    simp only [Files, List.map_append, List.map_cons, List.map_nil, List.map_map]
    congr 1
    · apply List.map_congr_left
      intro x hx
      simp [LEnt.file, Ent.file, hlt x hx]
    · simp only [LEnt.file, Ent.file, if_true]
      rw [h2, hc]
  · intro x hx
    rcases List.mem_append.mp hx with hx | hx
    · simp only [if_neg (hlt x hx), List.append_nil]
      exact ⟨hz.file x (by simp [hx]), torn_nil _⟩
    · simp at hx; subst hx
      simp only [if_true]
      have hfile := hz.file a (by simp)
      refine ⟨?_, ?_⟩
      · rw [← hc, ← h2, List.length_take]
        omega
      · rcases h3 with ⟨_, h3⟩ | ⟨r, rest', j, h4, h5, h6⟩
        · rw [h3]; exact torn_nil _
        · have hr : r ∈ a.txs.map bytesOf := by rw [h1, h4]; simp
          obtain ⟨t, ht, rfl⟩ := List.mem_map.mp hr
          obtain ⟨q1, q2, q3⟩ := hz.recs a (by simp) t ht
          refine Or.inr ⟨bytesOf t, goodRec_bytesOf t q1 q2 q3, ?_, ?_, ?_⟩
          · rw [h5, List.length_take]
            congr 1
            omega
          · rw [h5, List.length_take]; omega
          · have hlen : ((a.txs.map bytesOf).flatten).length = (complete n (a.txs.map bytesOf)).flatten.length + ((bytesOf t).length + rest'.flatten.length) := by
              conv => lhs; rw [h1, h4]
              simp
            rw [← hc]
            omega
  · rw [h.files, List.map_append, List.map_cons, List.map_nil, truncateLast_concat]
    simp only [totalBytes, List.map_append, List.sum_append, List.map_cons, List.map_nil, List.sum_cons, List.sum_nil, Nat.add_zero,
      List.flatMap_append, List.flatMap_cons, List.flatMap_nil, List.append_nil, List.map_map]
    have hsum : ((A0.map ((fun f => f.bytes.length) ∘ LEnt.file)).sum) = ((A0.flatMap LEnt.txs).map bytesOf).flatten.length := by
      clear hlt hSz h hz
      induction A0 with
      | nil => rfl
      | cons x t ih => simp [LEnt.file, ih]
    have hmin : (LEnt.file a).bytes.take n = (a.txs.map bytesOf).flatten.take n := rfl
    rw [hsum, complete_append, hmin, List.length_take, complete_min, hc]
  · simp only [List.flatMap_append, List.flatMap_cons, List.flatMap_nil, List.append_nil]
    exact ⟨a.txs.drop k, by rw [List.append_assoc, List.take_append_drop]⟩
  · intro x hx y hy hxy
    have hya : y.id ≤ a.id := by
      rcases List.mem_append.mp hy with hy | hy
      · have := (List.pairwise_append.mp h.sort).2.2 y hy a (by simp); omega
      · simp at hy; subst hy; simp
    exact if_neg (by omega)
  · cases A0 <;> simp

/-! ## truncation -/

theorem cutAt_ok (file torn : Bytes) (l : Nat) (hs : file.length + 24 < 2 ^ 32) (r2 : List Bytes) : ∀ (r1 : List Bytes) (fuel : Nat),
    file = (r1 ++ r2).flatten ++ torn → (∀ r ∈ r2, GoodRec r) → Torn (r1 ++ r2).flatten torn → (r2.map lsnOf).Pairwise (· < ·) → r2.length < fuel →
    cutAt file l fuel r1.flatten.length = .ok (r1 ++ r2.takeWhile (fun r => lsnOf r ≤ l)).flatten.length := by
  induction r2 with
  | nil =>
    intro r1 fuel hf _ ht _ hlt
    cases fuel with
    | zero => simp at hlt
    | succ n =>
      simp only [List.append_nil] at hf ht
      simp only [cutAt, pread_torn file r1.flatten torn hf ht hs, bind, Except.bind, List.takeWhile_nil, List.append_nil]
  | cons r t ih =>
    intro r1 fuel hf hg ht ha hlt
    cases fuel with
    | zero => simp at hlt
    | succ n =>
      have hgr := hg r (by simp)
      have hp := pread_rec file r1.flatten r (t.flatten ++ torn) (by rw [hf]; simp) hgr hs
      simp only [List.map_cons, List.pairwise_cons] at ha
      simp only [cutAt, hp, bind, Except.bind, hgr.val, Bool.not_true, Bool.false_eq_true, if_false, hgr.size]
      by_cases h1 : lsnOf r > l
      · have e : (r :: t).takeWhile (fun r => decide (lsnOf r ≤ l)) = [] := by
          rw [List.takeWhile_cons, if_neg (by simpa using h1)]
        rw [if_pos (show (Hdr.read r).lsn > l from h1), e]
        simp
      · have e : (r :: t).takeWhile (fun r => decide (lsnOf r ≤ l)) = r :: t.takeWhile (fun r => decide (lsnOf r ≤ l)) := by
          rw [List.takeWhile_cons, if_pos (by simpa using h1)]
        rw [if_neg (show ¬ (Hdr.read r).lsn > l from h1), e]
        by_cases h2 : lsnOf r = l
        · rw [if_pos (show (Hdr.read r).lsn = l from h2)]
          have : t.takeWhile (fun r => decide (lsnOf r ≤ l)) = [] := by
            cases t with
            | nil => rfl
            | cons x t =>
              have := ha.1 (lsnOf x) (by simp)
              rw [List.takeWhile_cons, if_neg (by simp; omega)]
          rw [this]; simp
        · rw [if_neg (show ¬ (Hdr.read r).lsn = l from h2)]
          have := ih (r1 ++ [r]) n (by rw [hf]; simp) (fun x hx => hg x (by simp [hx])) (by simpa using ht) ha.2 (by simp at hlt; omega)
          have e1 : (r1 ++ [r]).flatten.length = r1.flatten.length + r.length := by simp
          rw [e1] at this
          rw [this]
          simp

theorem truncate_ok {A1 A2 : List Ent} {e : Ent} (h : LOk (A1 ++ e :: A2)) (l fuel : Nat) (hl : l ≠ 0)
    (hs : startFile (Files (A1 ++ e :: A2)) l = e.id) (hf : e.recs.length < fuel) :
    truncate (Files (A1 ++ e :: A2)) l fuel = .ok (Files (A1 ++ [(⟨e.id, e.recs.takeWhile (fun r => lsnOf r ≤ l), []⟩ : Ent)])) := by
  have hne : e.id ≠ IdMgr.NONE := by have := h.top e (by simp); omega
  have hfind : IdMgr.find (ids (Files (A1 ++ e :: A2))) l = e.id := by
    unfold startFile at hs; rw [if_neg hl] at hs; exact hs
  have hok := h.ok e (by simp)
  have hasc : (e.recs.map lsnOf).Pairwise (· < ·) := by
    have := asc_split h
    rw [List.map_append] at this
    exact (List.pairwise_append.mp this).1
  have hcut := cutAt_ok (e.recs.flatten ++ e.torn) e.torn l hok.size e.recs [] fuel rfl hok.recs hok.torn hasc hf
  unfold truncate
  simp only [hfind, if_neg hne, openFile_ok h.toAOk (show e ∈ A1 ++ e :: A2 by simp), bind, Except.bind]
  have hcut' : cutAt e.file.bytes l fuel 0 = .ok (e.recs.takeWhile fun r => decide (lsnOf r ≤ l)).flatten.length := by
    exact hcut
  rw [hcut']
  simp only
  congr 1
  have hs1 := h.sort
  rw [List.pairwise_append, List.pairwise_cons] at hs1
  have hfil : (Files (A1 ++ e :: A2)).filter (fun f => decide (f.id ≤ e.id)) = Files (A1 ++ [e]) := by
    simp only [Files, List.map_append, List.map_cons, List.map_nil, List.filter_append, List.filter_cons]
    have f1 : (A1.map Ent.file).filter (fun f => decide (f.id ≤ e.id)) = A1.map Ent.file := by
      rw [List.filter_eq_self]
      intro x hx
      obtain ⟨y, hy, rfl⟩ := List.mem_map.mp hx
      have := hs1.2.2 y hy e (by simp)
      exact decide_eq_true (show y.id ≤ e.id by omega)
    have f2 : (A2.map Ent.file).filter (fun f => decide (f.id ≤ e.id)) = [] := by
      rw [List.filter_eq_nil_iff]
      intro x hx
      obtain ⟨y, hy, rfl⟩ := List.mem_map.mp hx
      have := hs1.2.1.1 y hy
      rw [decide_eq_true_eq]
      show ¬ y.id ≤ e.id
      omega
    rw [f1, f2, if_pos (by simp [Ent.file])]
  rw [hfil]
  simp only [Files, List.map_append, List.map_cons, List.map_nil]
  congr 1
  · rw [List.map_map]
    apply List.map_congr_left
    intro x hx
    have := hs1.2.2 x hx e (by simp)
    simp only [Function.comp]
    rw [if_neg (show ¬ x.file.id = e.id by simp [Ent.file]; omega)]
  · have htw : e.recs.takeWhile (fun r => decide (lsnOf r ≤ l)) <+: e.recs := List.takeWhile_prefix _
    obtain ⟨rest, hr⟩ := htw
    rw [if_pos (show e.file.id = e.id from rfl)]
    simp only [Ent.file, List.append_nil]
    generalize e.recs.takeWhile (fun r => decide (lsnOf r ≤ l)) = tw at hr
    rw [← hr]
    simp

/-- the log after a cut, once truncated at its last complete transaction, is a log again -/
theorem truncate_s {w : Wal} {B : List LEnt} (h : S w B) (hz : Sz w B) (tail : LEnt → Bytes)
    (htail : ∀ a ∈ B, ((a.txs.map bytesOf).flatten ++ tail a).length + 24 < 2 ^ 32 ∧ Torn (a.txs.map bytesOf).flatten (tail a))
    (hlast : ∀ x ∈ B, ∀ y ∈ B, x.id < y.id → tail x = [])
    (t : Nat × List WLog) (ht : (B.flatMap LEnt.txs).getLast? = some t) (fuel : Nat) (hf : (B.flatMap LEnt.txs).length < fuel) (ht1 : 1 ≤ t.1) :
    ∃ (C : List LEnt) (w' : Wal), truncate (Files (B.map fun a => (⟨a.id, a.txs.map bytesOf, tail a⟩ : Ent))) t.1 fuel = .ok w'.files ∧
      S w' C ∧ w'.lsn = t.1 ∧ C.flatMap LEnt.txs = B.flatMap LEnt.txs ∧ C.head?.map LEnt.id = B.head?.map LEnt.id := by
  have hl := lok_of h hz tail htail
  have htm : t ∈ B.flatMap LEnt.txs := List.mem_of_getLast? ht
  have hmax : ∀ u ∈ B.flatMap LEnt.txs, u.1 ≤ t.1 := by
    intro u hu
    obtain ⟨pre, hpre⟩ : ∃ pre, B.flatMap LEnt.txs = pre ++ [t] := List.getLast?_eq_some_iff.mp ht
    have ha := h.asc
    rw [hpre] at hu ha
    rw [List.map_append, List.pairwise_append] at ha
    rcases List.mem_append.mp hu with hu | hu
    · have := ha.2.2 u.1 (List.mem_map_of_mem hu) t.1 (by simp); omega
    · simp at hu; subst hu; omega
  have hl0 : t.1 ≠ 0 := by omega
  rcases start_mem hl.toAOk t.1 hl0 with ⟨_, hall⟩ | ⟨A1, e, A2, hA, hs, he, hA2⟩
  · obtain ⟨b, hb, htb⟩ := List.mem_flatMap.mp htm
    have h1 := hall _ (List.mem_map_of_mem hb)
    have h2 := h.ge b hb t htb
    simp only at h1
    omega
  · obtain ⟨B1, B', hB, hB1, hB'⟩ := List.map_eq_append_iff.mp hA
    obtain ⟨b, B2, hBe, hbe, hB2⟩ := List.map_eq_cons_iff.mp hB'
    subst hBe
    subst hB
    have hb2 : ∀ x ∈ B2, x.txs = [] := by
      intro x hx
      have h1 := hA2 ⟨x.id, x.txs.map bytesOf, tail x⟩ (by rw [← hB2]; exact List.mem_map_of_mem hx)
      rw [List.eq_nil_iff_forall_not_mem]
      intro u hu
      have h2 := h.ge x (by simp [hx]) u hu
      have h3 := hmax u (List.mem_flatMap.mpr ⟨x, by simp [hx], hu⟩)
      simp only at h1
      omega
    have hb2' : B2.flatMap LEnt.txs = [] := by
      rw [List.flatMap_eq_nil_iff]; exact hb2
    refine ⟨B1 ++ [b], ⟨(B1 ++ [b]).map LEnt.file, t.1⟩, ?_, ?_, rfl, ?_, ?_⟩
    · rw [hA] at hl ⊢
      rw [hA] at hs
      rw [truncate_ok hl t.1 fuel hl0 hs (by
        subst hbe
        simp at hf ⊢; omega)]
      subst hbe
      simp only [Files, List.map_append, List.map_cons, List.map_nil, ← hB1, List.map_map, Ent.file, LEnt.file]
      have htw : (b.txs.map bytesOf).takeWhile (fun r => decide (lsnOf r ≤ t.1)) = b.txs.map bytesOf := by
        have self : ∀ (p : Bytes → Bool) (xs : List Bytes), (∀ x ∈ xs, p x = true) → xs.takeWhile p = xs := by
          intro p xs hx
          induction xs with
          | nil => rfl
          | cons x xs ih => rw [List.takeWhile_cons, if_pos (hx x (by simp)), ih (fun y hy => hx y (by simp [hy]))]
        apply self
        intro r hr
        obtain ⟨u, hu, rfl⟩ := List.mem_map.mp hr
        obtain ⟨q1, q2, q3⟩ := hz.recs b (by simp) u hu
        have hm := hmax u (List.mem_flatMap.mpr ⟨b, by simp, hu⟩)
        rw [lsnOf_bytesOf u q1 (by omega)]
        simpa using hm
      rw [htw, List.append_nil]
      congr 2
      apply List.map_congr_left
      intro x hx
      have hxb : x.id < b.id := ((List.pairwise_append.mp h.sort).2.2 x hx b (by simp)).1
      simp [LEnt.file, Ent.file, hlast x (by simp [hx]) b (by simp) hxb]
    · have hsub : ∀ x ∈ B1 ++ [b], x ∈ B1 ++ b :: B2 := fun x hx => by
        rcases List.mem_append.mp hx with hx | hx
        · simp [hx]
        · simp at hx; simp [hx]
      have hsl : (B1 ++ [b]).Sublist (B1 ++ b :: B2) := List.Sublist.append_left (by simp) _
      have hbid : b.id ≤ t.1 := by subst hbe; exact he
      refine ⟨rfl, by simp, h.sort.sublist hsl, fun x hx => h.ge x (hsub x hx), ?_, ?_, ?_⟩
      · have := h.asc
        simpa [hb2'] using this
      · intro x hx u hu
        exact hmax u (List.mem_flatMap.mpr ⟨x, hsub x hx, hu⟩)
      · intro x hx
        show x.id ≤ t.1 + 1
        rcases List.mem_append.mp hx with hx | hx
        · have := ((List.pairwise_append.mp h.sort).2.2 x hx b (by simp)).1; omega
        · simp at hx; subst hx; omega
    · simp [hb2']
    · cases B1 <;> simp

end Verif.Wal
