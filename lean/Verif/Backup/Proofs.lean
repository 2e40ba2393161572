import Verif.Backup.Model
import Verif.Output.Proofs
/-!
# Invariants of backups (C99)
-/
set_option autoImplicit false
set_option linter.unusedSimpArgs false
set_option linter.unusedVariables false
namespace Verif.Backup
open Verif.Json.Text (decDigits)

theorem upd_self {α β : Type} [DecidableEq α] (f : α → β) (a : α) (b : β) : upd f a b a = b := by simp [upd]
theorem upd_ne {α β : Type} [DecidableEq α] (f : α → β) {a x : α} (b : β) (h : x ≠ a) : upd f a b x = f x := by simp [upd, h]

/-! ## names -/

theorem walPath_inj {n m : Nat} (h : walPath n = walPath m) : n = m := by
  have h1 : decDigits n = decDigits m := List.append_cancel_left h
  have := congrArg Output.digitsVal h1
  rwa [Output.decDigits_val, Output.decDigits_val] at this

theorem wal_ne_part {n : Nat} {p r : Path} (h : IsPart p) : walPath n ≠ p ++ r := by
  obtain ⟨q, d, rfl, -⟩ := h
  intro e
  have := congrArg (fun l => l.head?) e
  simp [walPath] at this

theorem wal_ne_part' {n : Nat} {p : Path} (h : IsPart p) : walPath n ≠ p := by
  have := wal_ne_part (n := n) (r := []) h
  rwa [List.append_nil] at this

theorem snap_last (q : Path) : (q ++ snap).getLast? = some 116 := by
  have : q ++ snap = (q ++ [46, 115, 110, 97, 112, 115, 104, 111]) ++ [116] := by simp [snap]
  rw [this, List.getLast?_concat]

theorem part_ne_snap {p q : Path} (h : IsPart p) : p ≠ q ++ snap := by
  obtain ⟨a, d, rfl, h1, h2⟩ := h
  intro e
  have := congrArg (fun l => l.getLast?) e
  rw [snap_last, List.getLast?_concat] at this
  injection this with this
  omega

theorem part_ne_nil {p : Path} (h : IsPart p) : p ≠ [] := by
  obtain ⟨a, d, rfl, -⟩ := h
  simp

theorem cut_snap {p : Path} (h : p ≠ []) : cut (p ++ snap) = p := by
  have hl : (p ++ snap).length - 9 = p.length := by simp [snap]
  unfold cut
  rw [hl, List.drop_left, List.take_left]
  have : p.length ≠ 0 := fun e => h (List.length_eq_zero_iff.1 e)
  rw [if_pos]
  refine ⟨?_, rfl⟩
  simp [snap]; omega

theorem walPath_last (n : Nat) : ∃ d, (walPath n).getLast? = some d ∧ 48 ≤ d ∧ d ≤ 57 := by
  unfold walPath
  have : ∃ l d, decDigits n = l ++ [d] ∧ 48 ≤ d ∧ d ≤ 57 := by
    unfold decDigits
    split
    · exact ⟨[], 48 + n, rfl, by omega, by omega⟩
    · exact ⟨_, _, rfl, by omega, by omega⟩
  obtain ⟨l, d, e, h1, h2⟩ := this
  exact ⟨d, by rw [e, ← List.append_assoc, List.getLast?_concat], h1, h2⟩

theorem cut_wal (n : Nat) : cut (walPath n) = walPath n := by
  unfold cut
  rw [if_neg]
  rintro ⟨h1, h2⟩
  obtain ⟨d, hd, h3, h4⟩ := walPath_last n
  have e : (walPath n).take ((walPath n).length - 9) ++ snap = walPath n := by rw [← h2, List.take_append_drop]
  rw [← e] at hd
  rw [snap_last] at hd
  injection hd with hd
  omega

/-! ## the invariant -/

structure Inv (s : St) : Prop where
  fresh : ∀ p i, s.dir p = some i → i < s.next
  sorted : s.wals.Pairwise (· < ·)
  hi : ∀ n ∈ s.wals, n ≤ s.hi
  wal : ∀ n, n ∈ s.wals ↔ s.dir (walPath n) ≠ none
  alone : ∀ n i p, s.dir (walPath n) = some i → s.dir p = some i → p = walPath n
  parts : ∀ p ∈ s.parts, IsPart p ∧ s.dir p ≠ none
  nodup : s.parts.Nodup
  files : ∀ b ∈ s.active, ∀ x ∈ b.files, (∃ q, IsPart q ∧ x.1 = q ++ snap) ∧ s.read x.1 = some x.2
  wfiles : ∀ b ∈ s.active, ∀ x ∈ b.wal, (∃ n, n ≤ s.hi ∧ x.1 = walPath n) ∧ ∀ c, s.read x.1 = some c → x.2 <+: c

theorem read_eq {s : St} {p : Path} {i : Nat} (h : s.dir p = some i) : s.read p = some (s.data i) := by simp [St.read, h]

theorem read_some {s : St} {p : Path} {c : Bytes} (h : s.read p = some c) : ∃ i, s.dir p = some i ∧ s.data i = c := by
  unfold St.read at h
  cases e : s.dir p with
  | none => rw [e] at h; cases h
  | some i => rw [e] at h; exact ⟨i, rfl, by injection h⟩

theorem inv_init : Inv init where
  fresh := by
    intro p i h
    unfold init upd at h
    simp only at h
    split at h
    · injection h with h; subst h; decide
    · cases h
  sorted := by simp [init]
  hi := by simp [init]
  wal := by
    intro n
    by_cases e : n = 0
    · subst e; simp [init, upd]
    · have : walPath n ≠ walPath 0 := fun h => e (walPath_inj h)
      simp [init, upd, e, this]
  alone := by
    intro n i p h1 h2
    simp only [init, upd] at h1 h2
    split at h1
    · rename_i e1
      split at h2
      · rename_i e2; rw [e1, e2]
      · cases h2
    · cases h1
  parts := by intro p h; cases h
  nodup := List.nodup_nil
  files := by intro b h; cases h
  wfiles := by intro b h; cases h

theorem inv_append {s : St} (h : Inv s) {n i : Nat} (b : Bytes) (hi : s.dir (walPath n) = some i) : Inv { s with data := upd s.data i (s.data i ++ b) } where
  fresh := h.fresh
  sorted := h.sorted
  hi := h.hi
  wal := h.wal
  alone := h.alone
  parts := h.parts
  nodup := h.nodup
  files := by
    intro k hk x hx
    obtain ⟨⟨q, hq, e⟩, hr⟩ := h.files k hk x hx
    refine ⟨⟨q, hq, e⟩, ?_⟩
    obtain ⟨j, hj, hd⟩ := read_some hr
    have hne : j ≠ i := by
      rintro rfl
      have := h.alone n j x.1 hi hj
      rw [e] at this
      exact wal_ne_part hq this.symm
    show (s.dir x.1).map (upd s.data i _) = _
    rw [hj]
    show some (upd s.data i _ j) = _
    rw [upd_ne _ _ hne, hd]
  wfiles := by
    intro k hk x hx
    obtain ⟨e, hr⟩ := h.wfiles k hk x hx
    refine ⟨e, ?_⟩
    intro c hc
    obtain ⟨j, hj, hd⟩ := read_some hc
    have h1 := hr _ (read_eq (s := s) hj)
    have hd : upd s.data i (s.data i ++ b) j = c := hd
    by_cases e : j = i
    · subst e; rw [upd_self] at hd; rw [← hd]; exact h1.trans (List.prefix_append _ _)
    · rw [upd_ne _ _ e] at hd; rw [← hd]; exact h1

/-- unlinking names that no backup listed keeps what backups listed -/
theorem inv_unlink {s : St} (h : Inv s) {ps : List Path} {parts : List Path} {wals : List Nat} (h1 : ∀ p ∈ ps, ∀ q, p ≠ q ++ snap)
    (hp : ∀ p ∈ parts, p ∈ s.parts ∧ p ∉ ps) (hn : parts.Nodup) (hw : ∀ n, n ∈ wals ↔ n ∈ s.wals ∧ walPath n ∉ ps) (hs : wals.Pairwise (· < ·)) :
    Inv { s with dir := unlinkAll s.dir ps, parts := parts, wals := wals } := by
  have sub : ∀ p i, unlinkAll s.dir ps p = some i → s.dir p = some i := by
    intro p i e
    unfold unlinkAll at e
    split at e
    · cases e
    · exact e
  have keep : ∀ p, p ∉ ps → unlinkAll s.dir ps p = s.dir p := by intro p e; unfold unlinkAll; rw [if_neg e]
  refine ⟨fun p i e => h.fresh p i (sub p i e), hs, fun n hn => h.hi n ((hw n).1 hn).1, ?_, fun n i p e1 e2 => h.alone n i p (sub _ _ e1) (sub _ _ e2), ?_, hn, ?_, ?_⟩
  · intro n
    rw [hw n, h.wal n]
    show _ ↔ unlinkAll s.dir ps (walPath n) ≠ none
    by_cases e : walPath n ∈ ps
    · unfold unlinkAll; simp [e]
    · rw [keep _ e]; simp [e]
  · intro p hp'
    obtain ⟨a, b⟩ := hp p hp'
    refine ⟨(h.parts p a).1, ?_⟩
    show unlinkAll s.dir ps p ≠ none
    rw [keep p b]; exact (h.parts p a).2
  · intro b hb x hx
    obtain ⟨⟨q, hq, e⟩, hr⟩ := h.files b hb x hx
    refine ⟨⟨q, hq, e⟩, ?_⟩
    show (unlinkAll s.dir ps x.1).map s.data = _
    rw [keep x.1 (fun hx' => h1 x.1 hx' q e)]
    exact hr
  · intro b hb x hx
    obtain ⟨e, hr⟩ := h.wfiles b hb x hx
    refine ⟨e, fun c hc => ?_⟩
    obtain ⟨j, hj, hd⟩ := read_some hc
    exact hr c (by rw [read_eq (sub _ _ hj)]; exact congrArg some hd)

theorem inv_create {s : St} (h : Inv s) {p : Path} (b : Bytes) (hnone : s.dir p = none) (hp : ∀ q, p ≠ q ++ snap) (hw : ∀ n, p ≠ walPath n) : Inv (create s p b) := by
  have other : ∀ q i, s.dir q = some i → upd s.dir p (some s.next) q = some i := by
    intro q i e
    rw [upd_ne]
    · exact e
    · rintro rfl; rw [hnone] at e; cases e
  have old : ∀ q, q ≠ p → upd s.dir p (some s.next) q = s.dir q := fun q e => upd_ne _ _ e
  have rd : ∀ q i, s.dir q = some i → upd s.data s.next b i = s.data i := by
    intro q i e
    have := h.fresh q i e
    exact upd_ne _ _ (by omega)
  refine ⟨?_, h.sorted, h.hi, ?_, ?_, ?_, h.nodup, ?_, ?_⟩
  · intro q i e
    have e : upd s.dir p (some s.next) q = some i := e
    by_cases e' : q = p
    · subst e'; rw [upd_self] at e; injection e with e; subst e; exact Nat.lt_succ_self _
    · rw [old q e'] at e; exact Nat.lt_succ_of_lt (h.fresh q i e)
  · intro n
    show _ ↔ upd s.dir p (some s.next) (walPath n) ≠ none
    rw [old _ (Ne.symm (hw n))]
    exact h.wal n
  · intro n i q e1 e2
    have f1 : s.dir (walPath n) = some i := (old _ (Ne.symm (hw n))).symm.trans e1
    have f2 : upd s.dir p (some s.next) q = some i := e2
    by_cases e' : q = p
    · subst e'; rw [upd_self] at f2; injection f2 with f2
      have := h.fresh _ _ f1
      omega
    · rw [old q e'] at f2; exact h.alone n i q f1 f2
  · intro q hq
    refine ⟨(h.parts q hq).1, ?_⟩
    show upd s.dir p (some s.next) q ≠ none
    obtain ⟨i, hi⟩ := Option.ne_none_iff_exists'.1 (h.parts q hq).2
    rw [other q i hi]; simp
  · intro k hk x hx
    obtain ⟨e, hr⟩ := h.files k hk x hx
    refine ⟨e, ?_⟩
    obtain ⟨j, hj, hd⟩ := read_some hr
    show (upd s.dir p (some s.next) x.1).map (upd s.data s.next b) = _
    rw [other _ _ hj]
    show some _ = _
    rw [rd _ _ hj, hd]
  · intro k hk x hx
    obtain ⟨⟨n, hn, e⟩, hr⟩ := h.wfiles k hk x hx
    refine ⟨⟨n, hn, e⟩, fun c hc => ?_⟩
    obtain ⟨j, hj, hd⟩ := read_some hc
    have hj : upd s.dir p (some s.next) x.1 = some j := hj
    have hd : upd s.data s.next b j = c := hd
    rw [old _ (by rw [e]; exact Ne.symm (hw n))] at hj
    rw [rd _ _ hj] at hd
    exact hr c (by rw [read_eq hj, hd])

theorem inv_walCreate {s : St} (h : Inv s) {n : Nat} (hn : s.hi < n) : Inv { create s (walPath n) [] with wals := s.wals ++ [n], hi := n } := by
  have hnone : s.dir (walPath n) = none := by
    cases e : s.dir (walPath n) with
    | none => rfl
    | some i =>
      have := h.hi n ((h.wal n).2 (by rw [e]; simp))
      omega
  have hsnap : ∀ q, walPath n ≠ q ++ snap := by
    intro q e
    obtain ⟨d, hd, h3, h4⟩ := walPath_last n
    rw [e] at hd
    rw [snap_last] at hd
    injection hd with hd
    omega
  have old : ∀ q, q ≠ walPath n → upd s.dir (walPath n) (some s.next) q = s.dir q := fun q e => upd_ne _ _ e
  have rd : ∀ q i, s.dir q = some i → upd s.data s.next [] i = s.data i := by
    intro q i e
    have := h.fresh q i e
    exact upd_ne _ _ (by omega)
  refine ⟨?_, ?_, ?_, ?_, ?_, ?_, h.nodup, ?_, ?_⟩
  · intro q i e
    have e : upd s.dir (walPath n) (some s.next) q = some i := e
    by_cases e' : q = walPath n
    · subst e'; rw [upd_self] at e; injection e with e; subst e; exact Nat.lt_succ_self _
    · rw [old q e'] at e; exact Nat.lt_succ_of_lt (h.fresh q i e)
  · show (s.wals ++ [n]).Pairwise _
    rw [List.pairwise_append]
    refine ⟨h.sorted, by simp, ?_⟩
    intro a ha b hb
    simp only [List.mem_singleton] at hb
    subst hb
    exact Nat.lt_of_le_of_lt (h.hi a ha) hn
  · intro m hm
    rcases List.mem_append.1 (show m ∈ s.wals ++ [n] from hm) with e | e
    · exact Nat.le_trans (h.hi m e) (Nat.le_of_lt hn)
    · simp only [List.mem_singleton] at e; rw [e]; exact Nat.le_refl _
  · intro m
    show m ∈ s.wals ++ [n] ↔ upd s.dir (walPath n) (some s.next) (walPath m) ≠ none
    by_cases e : m = n
    · subst e; rw [upd_self]; simp
    · rw [old _ (fun e' => e (walPath_inj e')), ← h.wal m]; simp [e]
  · intro m i q e1 e2
    have e1 : upd s.dir (walPath n) (some s.next) (walPath m) = some i := e1
    have e2 : upd s.dir (walPath n) (some s.next) q = some i := e2
    by_cases em : walPath m = walPath n
    · rw [em] at e1 ⊢
      rw [upd_self] at e1; injection e1 with e1; subst e1
      by_cases e' : q = walPath n
      · exact e'
      · rw [old q e'] at e2; exact absurd (h.fresh _ _ e2) (Nat.lt_irrefl _)
    · rw [old _ em] at e1
      by_cases e' : q = walPath n
      · subst e'; rw [upd_self] at e2; injection e2 with e2; subst e2; exact absurd (h.fresh _ _ e1) (Nat.lt_irrefl _)
      · rw [old q e'] at e2; exact h.alone m i q e1 e2
  · intro q hq
    refine ⟨(h.parts q hq).1, ?_⟩
    show upd s.dir (walPath n) (some s.next) q ≠ none
    rw [old q (Ne.symm (wal_ne_part' (h.parts q hq).1))]; exact (h.parts q hq).2
  · intro k hk x hx
    obtain ⟨⟨q, hq, e⟩, hr⟩ := h.files k hk x hx
    refine ⟨⟨q, hq, e⟩, ?_⟩
    obtain ⟨j, hj, hd⟩ := read_some hr
    show (upd s.dir (walPath n) (some s.next) x.1).map (upd s.data s.next []) = _
    rw [old _ (by rw [e]; exact Ne.symm (hsnap q)), hj]
    show some _ = _
    rw [rd _ _ hj, hd]
  · intro k hk x hx
    obtain ⟨⟨m, hm, e⟩, hr⟩ := h.wfiles k hk x hx
    refine ⟨⟨m, by show m ≤ n; omega, e⟩, fun c hc => ?_⟩
    obtain ⟨j, hj, hd⟩ := read_some hc
    have hj : upd s.dir (walPath n) (some s.next) x.1 = some j := hj
    have hd : upd s.data s.next [] j = c := hd
    rw [old _ (by rw [e]; intro e'; have := walPath_inj e'; omega)] at hj
    rw [rd _ _ hj] at hd
    exact hr c (by rw [read_eq hj, hd])

theorem inv_createAll {s : St} (h : Inv s) (new : List (Path × Bytes)) (h1 : ∀ x ∈ new, IsPart x.1 ∧ s.dir x.1 = none) (h2 : (new.map Prod.fst).Nodup) :
    Inv (createAll s new) ∧ (createAll s new).parts = s.parts ∧ (∀ x ∈ new, (createAll s new).dir x.1 ≠ none) ∧ (∀ p, s.dir p ≠ none → (createAll s new).dir p ≠ none) := by
  induction new generalizing s with
  | nil => exact ⟨h, rfl, fun x hx => (by cases hx), fun p hp => hp⟩
  | cons x l ih =>
    obtain ⟨p, b⟩ := x
    obtain ⟨hp, hn⟩ := h1 (p, b) (by simp)
    have hc := inv_create h b hn (fun q => part_ne_snap hp) (fun n => Ne.symm (wal_ne_part' hp))
    rw [List.map_cons, List.nodup_cons] at h2
    obtain ⟨i1, i2, i3, i4⟩ := ih hc (by
      intro y hy
      refine ⟨(h1 y (List.mem_cons_of_mem _ hy)).1, ?_⟩
      show upd s.dir p (some s.next) y.1 = none
      rw [upd_ne]
      · exact (h1 y (List.mem_cons_of_mem _ hy)).2
      · intro e
        exact h2.1 (List.mem_map.2 ⟨y, hy, e⟩)) h2.2
    have hmono : ∀ q, s.dir q ≠ none → (create s p b).dir q ≠ none := by
      intro q hq
      show upd s.dir p (some s.next) q ≠ none
      by_cases e : q = p
      · subst e; rw [upd_self]; simp
      · rw [upd_ne _ _ e]; exact hq
    refine ⟨i1, i2, ?_, fun q hq => i4 q (hmono q hq)⟩
    intro y hy
    rcases List.mem_cons.1 hy with e | e
    · subst e
      refine i4 p ?_
      show upd s.dir p (some s.next) p ≠ none
      rw [upd_self]; simp
    · exact i3 y e

theorem inv_parts {s : St} (h : Inv s) {parts : List Path} (hp : ∀ p ∈ parts, IsPart p ∧ s.dir p ≠ none) (hn : parts.Nodup) : Inv { s with parts := parts } :=
  ⟨h.fresh, h.sorted, h.hi, h.wal, h.alone, hp, hn, h.files, h.wfiles⟩

theorem inv_replace {s : St} (h : Inv s) {old : List Path} {new : List (Path × Bytes)} {parts : List Path} (ho : ∀ p ∈ old, p ∈ s.parts) (h1 : ∀ x ∈ new, IsPart x.1 ∧ s.dir x.1 = none)
    (h2 : (new.map Prod.fst).Nodup) (h3 : ∀ p ∈ parts, (p ∈ s.parts ∧ p ∉ old) ∨ p ∈ new.map Prod.fst) (h4 : parts.Nodup) :
    Inv { createAll { s with dir := unlinkAll s.dir old } new with parts := parts } := by
  have hi0 : Inv { s with dir := unlinkAll s.dir old, parts := s.parts.filter (fun p => p ∉ old), wals := s.wals } := by
    refine inv_unlink h (fun p hp q => part_ne_snap (h.parts p (ho p hp)).1) ?_ (h.nodup.sublist List.filter_sublist) ?_ h.sorted
    · intro p hp
      obtain ⟨a, b⟩ := List.mem_filter.1 hp
      exact ⟨a, by simpa using b⟩
    · intro n
      refine ⟨fun a => ⟨a, fun b => ?_⟩, fun a => a.1⟩
      exact wal_ne_part' (h.parts _ (ho _ b)).1 rfl
  have hsame : createAll { s with dir := unlinkAll s.dir old } new = { createAll { s with dir := unlinkAll s.dir old, parts := s.parts.filter (fun p => p ∉ old), wals := s.wals } new with parts := s.parts } := by
    have : ∀ (l : List (Path × Bytes)) (u : St) (ps : List Path), createAll u l = { createAll { u with parts := ps } l with parts := u.parts } := by
      intro l
      induction l with
      | nil => intro u ps; rfl
      | cons x l ih => intro u ps; exact ih (create u x.1 x.2) ps
    exact this new { s with dir := unlinkAll s.dir old } _
  rw [hsame]
  obtain ⟨i1, i2, i3, i4⟩ := inv_createAll hi0 new (by
    intro x hx
    refine ⟨(h1 x hx).1, ?_⟩
    show unlinkAll s.dir old x.1 = none
    unfold unlinkAll
    split
    · rfl
    · exact (h1 x hx).2) h2
  refine inv_parts i1 ?_ h4
  intro p hp
  rcases h3 p hp with ⟨a, b⟩ | a
  · refine ⟨(h.parts p a).1, i4 p ?_⟩
    show unlinkAll s.dir old p ≠ none
    unfold unlinkAll
    rw [if_neg b]; exact (h.parts p a).2
  · obtain ⟨x, hx, rfl⟩ := List.mem_map.1 a
    exact ⟨(h1 x hx).1, i3 x hx⟩

theorem inv_walGc {s : St} (h : Inv s) (reps : List Nat) (min : Nat) : Inv (walGc s reps min) := by
  have happ := Store.IdMgr.gc_append s.wals (Wal.slotsMin (reps ++ s.active.map (fun _ => 0)) min)
  unfold walGc
  dsimp only
  generalize Store.IdMgr.gc s.wals (Wal.slotsMin (reps ++ s.active.map (fun _ => 0)) min) = r at happ ⊢
  have hs := h.sorted
  rw [← happ] at hs
  obtain ⟨s1, s2, s3⟩ := List.pairwise_append.1 hs
  refine inv_unlink h ?_ ?_ h.nodup ?_ s2
  · intro p hp q e
    obtain ⟨n, hn, rfl⟩ := List.mem_map.1 hp
    obtain ⟨d, hd, h3, h4⟩ := walPath_last n
    rw [e] at hd
    rw [snap_last] at hd
    injection hd with hd
    omega
  · intro p hp
    refine ⟨hp, fun e => ?_⟩
    obtain ⟨n, hn, e⟩ := List.mem_map.1 e
    exact wal_ne_part' (h.parts p hp).1 e
  · intro n
    rw [← happ]
    constructor
    · intro hn
      refine ⟨List.mem_append_right _ hn, fun e => ?_⟩
      obtain ⟨m, hm, e⟩ := List.mem_map.1 e
      have := walPath_inj e
      subst this
      exact absurd (s3 m hm m hn) (Nat.lt_irrefl _)
    · rintro ⟨a, b⟩
      rcases List.mem_append.1 a with e | e
      · exact absurd (List.mem_map.2 ⟨n, e, rfl⟩) b
      · exact e

/-! ## snapshots -/

theorem linkAll_spec (l : List Path) (dir : Path → Option Nat) (hl : ∀ p ∈ l, IsPart p) :
    (∀ p i, dir p = some i → (linkAll dir l).1 p = some i) ∧
    (∀ p, (linkAll dir l).1 p ≠ dir p → ∃ q ∈ l, p = q ++ snap) ∧
    (∀ p ∈ l, ∀ i, (linkAll dir l).1 (p ++ snap) = some i → dir (p ++ snap) = none → dir p = some i) ∧
    ((linkAll dir l).2 = true → ∀ p ∈ l, dir p ≠ none → (linkAll dir l).1 (p ++ snap) = dir p ∧ dir (p ++ snap) = none) := by
  induction l generalizing dir with
  | nil => exact ⟨fun p i h => h, fun p h => absurd rfl h, fun p hp => (by cases hp), fun _ p hp => (by cases hp)⟩
  | cons q l ih =>
    have hq := hl q (by simp)
    unfold linkAll
    split
    · rename_i i0 hd hn
      obtain ⟨h1, h2, h3, h4⟩ := ih (upd dir (q ++ snap) (some i0)) (fun p hp => hl p (List.mem_cons_of_mem _ hp))
      have same : ∀ p, IsPart p → upd dir (q ++ snap) (some i0) p = dir p := fun p hp => upd_ne _ _ (part_ne_snap hp)
      refine ⟨?_, ?_, ?_, ?_⟩
      · intro p i e
        refine h1 p i ?_
        rw [upd_ne]
        · exact e
        · rintro rfl; rw [hn] at e; cases e
      · intro p hp
        by_cases e : (linkAll (upd dir (q ++ snap) (some i0)) l).1 p = upd dir (q ++ snap) (some i0) p
        · rw [e] at hp
          by_cases e' : p = q ++ snap
          · exact ⟨q, by simp, e'⟩
          · exact absurd (upd_ne _ _ e') hp
        · obtain ⟨r, hr, e⟩ := h2 p e
          exact ⟨r, List.mem_cons_of_mem _ hr, e⟩
      · intro p hp i e hnone
        by_cases epq : p = q
        · subst epq
          have := h1 (p ++ snap) i0 (upd_self _ _ _)
          rw [this] at e
          rw [hd]; exact e
        · rcases List.mem_cons.1 hp with e' | e'
          · exact absurd e' epq
          · have hne : p ++ snap ≠ q ++ snap := fun x => epq (List.append_cancel_right x)
            have := h3 p e' i e (by rw [upd_ne _ _ hne]; exact hnone)
            rwa [same p (hl p hp)] at this
      · intro hok p hp hsome
        by_cases epq : p = q
        · subst epq
          exact ⟨by rw [h1 _ i0 (upd_self _ _ _), hd], hn⟩
        · rcases List.mem_cons.1 hp with e' | e'
          · exact absurd e' epq
          · have hne : p ++ snap ≠ q ++ snap := fun x => epq (List.append_cancel_right x)
            have := h4 hok p e' (by rw [same p (hl p hp)]; exact hsome)
            rw [same p (hl p hp), upd_ne _ _ hne] at this
            exact this
    · refine ⟨fun p i h => h, fun p h => absurd rfl h, ?_, fun h => (by cases h)⟩
      intro p hp i e hnone
      have e : dir (p ++ snap) = some i := e
      rw [hnone] at e; cases e

/-- the state with the links -/
theorem inv_link {s : St} (h : Inv s) : Inv { s with dir := (linkAll s.dir s.parts).1 } := by
  obtain ⟨h1, h2, h3, h4⟩ := linkAll_spec s.parts s.dir (fun p hp => (h.parts p hp).1)
  have new : ∀ p i, (linkAll s.dir s.parts).1 p = some i → s.dir p = some i ∨ ∃ q ∈ s.parts, p = q ++ snap ∧ s.dir q = some i := by
    intro p i e
    by_cases e' : (linkAll s.dir s.parts).1 p = s.dir p
    · left; rw [← e']; exact e
    · obtain ⟨q, hq, rfl⟩ := h2 p e'
      cases hd : s.dir (q ++ snap) with
      | none => exact .inr ⟨q, hq, rfl, h3 q hq i e hd⟩
      | some j =>
        have := h1 _ _ hd
        rw [this, hd] at e'; exact absurd rfl e'
  have wl : ∀ n, (linkAll s.dir s.parts).1 (walPath n) = s.dir (walPath n) := by
    intro n
    by_cases e : (linkAll s.dir s.parts).1 (walPath n) = s.dir (walPath n)
    · exact e
    · obtain ⟨q, hq, e⟩ := h2 _ e
      exact absurd e (wal_ne_part (h.parts q hq).1)
  refine ⟨?_, h.sorted, h.hi, ?_, ?_, ?_, h.nodup, ?_, ?_⟩
  · intro p i e
    rcases new p i e with e | ⟨q, _, _, e⟩
    · exact h.fresh p i e
    · exact h.fresh q i e
  · intro n
    show _ ↔ (linkAll s.dir s.parts).1 (walPath n) ≠ none
    rw [wl n]; exact h.wal n
  · intro n i p e1 e2
    have e1 : (linkAll s.dir s.parts).1 (walPath n) = some i := e1
    rw [wl n] at e1
    rcases new p i e2 with e | ⟨q, hq, _, e⟩
    · exact h.alone n i p e1 e
    · have := h.alone n i q e1 e
      exact absurd this.symm (wal_ne_part' (h.parts q hq).1)
  · intro p hp
    refine ⟨(h.parts p hp).1, ?_⟩
    obtain ⟨i, hi⟩ := Option.ne_none_iff_exists'.1 (h.parts p hp).2
    show (linkAll s.dir s.parts).1 p ≠ none
    rw [h1 p i hi]; simp
  · intro b hb x hx
    obtain ⟨e, hr⟩ := h.files b hb x hx
    refine ⟨e, ?_⟩
    obtain ⟨j, hj, hd⟩ := read_some hr
    show ((linkAll s.dir s.parts).1 x.1).map s.data = _
    rw [h1 _ _ hj]
    show some _ = _
    rw [hd]
  · intro b hb x hx
    obtain ⟨⟨n, hn, e⟩, hr⟩ := h.wfiles b hb x hx
    refine ⟨⟨n, hn, e⟩, fun c hc => hr c ?_⟩
    have : ((linkAll s.dir s.parts).1 x.1).map s.data = some c := hc
    rw [e, wl n] at this
    rw [e]; exact this

theorem inv_active {s : St} (h : Inv s) {l gc : List Bk} (hl : ∀ b ∈ l, b ∈ s.active) : Inv { s with active := l, gc := gc } :=
  ⟨h.fresh, h.sorted, h.hi, h.wal, h.alone, h.parts, h.nodup, fun b hb => h.files b (hl b hb), fun b hb => h.wfiles b (hl b hb)⟩

/-- the link names of backups that wait to be cleaned up -/
def Links (l : List Bk) : Prop := ∀ b ∈ l, ∀ x ∈ b.files, ∃ q, IsPart q ∧ x.1 = q ++ snap

theorem links_active {s : St} (h : Inv s) : Links s.active := fun b hb x hx => (h.files b hb x hx).1

/-- unlinking links when there is no backup -/
theorem inv_unlink_snap {s : St} (h : Inv s) (ha : s.active = []) {ps : List Path} (h1 : ∀ p ∈ ps, ∃ q, IsPart q ∧ p = q ++ snap) : Inv { s with dir := unlinkAll s.dir ps } := by
  have sub : ∀ p i, unlinkAll s.dir ps p = some i → s.dir p = some i := by
    intro p i e
    unfold unlinkAll at e
    split at e
    · cases e
    · exact e
  have keep : ∀ p, p ∉ ps → unlinkAll s.dir ps p = s.dir p := by intro p e; unfold unlinkAll; rw [if_neg e]
  refine ⟨fun p i e => h.fresh p i (sub p i e), h.sorted, h.hi, ?_, fun n i p e1 e2 => h.alone n i p (sub _ _ e1) (sub _ _ e2), ?_, h.nodup, ?_, ?_⟩
  · intro n
    show _ ↔ unlinkAll s.dir ps (walPath n) ≠ none
    rw [keep]
    · exact h.wal n
    · intro e
      obtain ⟨q, hq, e⟩ := h1 _ e
      exact wal_ne_part hq e
  · intro p hp
    refine ⟨(h.parts p hp).1, ?_⟩
    show unlinkAll s.dir ps p ≠ none
    rw [keep]
    · exact (h.parts p hp).2
    · intro e
      obtain ⟨q, hq, e⟩ := h1 _ e
      exact part_ne_snap (h.parts p hp).1 e
  · intro b hb
    have hb : b ∈ s.active := hb
    rw [ha] at hb; cases hb
  · intro b hb
    have hb : b ∈ s.active := hb
    rw [ha] at hb; cases hb

theorem inv_cleanup (l : List Bk) {s : St} (h : Inv s) (ha : s.active = []) (hl : Links l) : Inv { s with dir := l.foldl cleanup s.dir } := by
  induction l generalizing s with
  | nil => exact h
  | cons b l ih =>
    have h1 : Inv { s with dir := cleanup s.dir b } := by
      unfold cleanup
      split
      · refine inv_unlink_snap h ha ?_
        intro p hp
        obtain ⟨x, hx, rfl⟩ := List.mem_map.1 hp
        exact hl b (by simp) x hx
      · exact h
    exact ih h1 ha (fun c hc => hl c (List.mem_cons_of_mem _ hc))

theorem filter_sub {α : Type} (p : α → Bool) (l : List α) : ∀ b ∈ l.filter p, b ∈ l := fun b hb => (List.mem_filter.1 hb).1

theorem inv_drop {s : St} (h : Inv s) (hg : Links s.gc) (id : Nat) : Inv (drop s id) ∧ Links (drop s id).gc := by
  have hl : Links (s.gc ++ s.active.filter (fun b => b.id = id)) := by
    intro b hb
    rcases List.mem_append.1 hb with e | e
    · exact hg b e
    · exact links_active h b (filter_sub _ _ b e)
  unfold drop
  dsimp only
  split
  · refine ⟨?_, fun b hb => (by cases hb)⟩
    exact inv_cleanup _ (s := { s with active := [], gc := [] }) (inv_active h (fun b hb => (by cases hb))) rfl hl
  · exact ⟨inv_active h (filter_sub _ _), hl⟩

theorem register_whole {s : St} (id : Nat) (hw : (register s id).2.whole = true) : (linkAll s.dir s.parts).2 = true := by
  unfold register at hw
  exact hw

/-- what a backup lists -/
theorem register_files {s : St} (h : Inv s) (id : Nat) (hw : (register s id).2.whole = true) :
    (register s id).2.files = s.parts.map (fun p => (p ++ snap, (s.read p).getD [])) ∧ (register s id).2.wal = s.wals.map (fun n => (walPath n, (s.read (walPath n)).getD [])) := by
  have ho := register_whole id hw
  obtain ⟨h1, h2, h3, h4⟩ := linkAll_spec s.parts s.dir (fun p hp => (h.parts p hp).1)
  have e1 : (register s id).2.files = if (linkAll s.dir s.parts).2 then s.parts.map (fun p => entry { s with dir := (linkAll s.dir s.parts).1 } (p ++ snap)) else [] := rfl
  have e2 : (register s id).2.wal = if (linkAll s.dir s.parts).2 then s.wals.map (fun n => entry { s with dir := (linkAll s.dir s.parts).1 } (walPath n)) else [] := rfl
  rw [e1, e2, ho]
  refine ⟨?_, ?_⟩
  · refine List.map_congr_left (fun p hp => ?_)
    unfold entry St.read
    show (p ++ snap, (((linkAll s.dir s.parts).1 (p ++ snap)).map s.data).getD []) = _
    rw [(h4 ho p hp (h.parts p hp).2).1]
  · refine List.map_congr_left (fun n hn => ?_)
    unfold entry St.read
    show (walPath n, (((linkAll s.dir s.parts).1 (walPath n)).map s.data).getD []) = _
    obtain ⟨i, hi⟩ := Option.ne_none_iff_exists'.1 ((h.wal n).1 hn)
    rw [h1 _ i hi, hi]

theorem inv_register {s : St} (h : Inv s) (id : Nat) : Inv (register s id).1 := by
  have hL := inv_link h
  obtain ⟨h1, h2, h3, h4⟩ := linkAll_spec s.parts s.dir (fun p hp => (h.parts p hp).1)
  have ea : (register s id).1 = { s with dir := (linkAll s.dir s.parts).1, active := s.active ++ [(register s id).2] } := rfl
  have hfw : (register s id).2.whole = false → (register s id).2.files = [] ∧ (register s id).2.wal = [] := by
    intro hw
    have ho : (linkAll s.dir s.parts).2 = false := hw
    have e1 : (register s id).2.files = if (linkAll s.dir s.parts).2 then s.parts.map (fun p => entry { s with dir := (linkAll s.dir s.parts).1 } (p ++ snap)) else [] := rfl
    have e2 : (register s id).2.wal = if (linkAll s.dir s.parts).2 then s.wals.map (fun n => entry { s with dir := (linkAll s.dir s.parts).1 } (walPath n)) else [] := rfl
    rw [e1, e2, ho]; exact ⟨rfl, rfl⟩
  rw [ea]
  refine ⟨hL.fresh, hL.sorted, hL.hi, hL.wal, hL.alone, hL.parts, hL.nodup, ?_, ?_⟩
  · intro b hb x hx
    rcases List.mem_append.1 (show b ∈ s.active ++ [(register s id).2] from hb) with e | e
    · exact hL.files b e x hx
    · rw [List.mem_singleton] at e
      subst e
      cases hw : (register s id).2.whole with
      | false => rw [(hfw hw).1] at hx; cases hx
      | true =>
        rw [(register_files h id hw).1] at hx
        obtain ⟨p, hp, rfl⟩ := List.mem_map.1 hx
        refine ⟨⟨p, (h.parts p hp).1, rfl⟩, ?_⟩
        show ((linkAll s.dir s.parts).1 (p ++ snap)).map s.data = some ((s.read p).getD [])
        rw [(h4 (register_whole id hw) p hp (h.parts p hp).2).1]
        obtain ⟨i, hi⟩ := Option.ne_none_iff_exists'.1 (h.parts p hp).2
        rw [read_eq hi, hi]; rfl
  · intro b hb x hx
    rcases List.mem_append.1 (show b ∈ s.active ++ [(register s id).2] from hb) with e | e
    · exact hL.wfiles b e x hx
    · rw [List.mem_singleton] at e
      subst e
      cases hw : (register s id).2.whole with
      | false => rw [(hfw hw).2] at hx; cases hx
      | true =>
        rw [(register_files h id hw).2] at hx
        obtain ⟨n, hn, rfl⟩ := List.mem_map.1 hx
        refine ⟨⟨n, h.hi n hn, rfl⟩, ?_⟩
        intro c hc
        have hc : ((linkAll s.dir s.parts).1 (walPath n)).map s.data = some c := hc
        obtain ⟨i, hi⟩ := Option.ne_none_iff_exists'.1 ((h.wal n).1 hn)
        rw [h1 _ i hi] at hc
        injection hc with hc
        show (s.read (walPath n)).getD [] <+: c
        rw [read_eq hi, ← hc]
        exact List.prefix_refl _

theorem snapshot_eq (s : St) (id : Nat) : snapshot s id = if (register s id).2.whole then ((register s id).1, some (register s id).2) else (drop (register s id).1 id, none) := rfl

theorem inv_snapshot {s : St} (h : Inv s) (hg : Links s.gc) (id : Nat) : Inv (snapshot s id).1 ∧ Links (snapshot s id).1.gc := by
  have hr := inv_register h id
  have hg' : Links (register s id).1.gc := hg
  rw [snapshot_eq]
  split
  · exact ⟨hr, hg'⟩
  · exact inv_drop hr hg' id

theorem createAll_gc (new : List (Path × Bytes)) (s : St) : (createAll s new).gc = s.gc ∧ (createAll s new).active = s.active := by
  induction new generalizing s with
  | nil => exact ⟨rfl, rfl⟩
  | cons x l ih => exact ih (create s x.1 x.2)

theorem work_gc {s s' : St} (w : Work s s') : s'.gc = s.gc ∧ s'.active = s.active := by
  cases w with
  | append => exact ⟨rfl, rfl⟩
  | walCreate => exact ⟨rfl, rfl⟩
  | replace old new parts => exact createAll_gc new _
  | walGc => exact ⟨rfl, rfl⟩

theorem inv_work {s s' : St} (h : Inv s) (w : Work s s') : Inv s' := by
  cases w with
  | append n i b _ hi => exact inv_append h b hi
  | walCreate n hn => exact inv_walCreate h hn
  | replace old new parts h1 h2 h3 h4 h5 => exact inv_replace h h1 h2 h3 h4 h5
  | walGc reps min => exact inv_walGc h reps min

theorem inv_step {k : Nat} {s s' : St} (h : Inv s ∧ Links s.gc) (w : Step k s s') : Inv s' ∧ Links s'.gc := by
  cases w with
  | work w => exact ⟨inv_work h.1 w, by rw [(work_gc w).1]; exact h.2⟩
  | snapshot id _ _ => exact inv_snapshot h.1 h.2 id
  | drop id _ => exact inv_drop h.1 h.2 id

theorem inv_steps {k : Nat} {s s' : St} (h : Inv s ∧ Links s.gc) (w : Steps k s s') : Inv s' ∧ Links s'.gc := by
  induction w with
  | refl => exact h
  | step _ w ih => exact inv_step ih w

theorem inv_reach {s : St} (h : Reach s) : Inv s ∧ Links s.gc := by
  induction h with
  | init => exact ⟨inv_init, fun b hb => (by cases hb)⟩
  | step k _ w ih => exact inv_step ih w

/-! ## a backup stays while others come and go -/

theorem drop_active (s : St) (id : Nat) : (drop s id).active = s.active.filter (fun b => b.id ≠ id) := by
  unfold drop
  dsimp only
  split
  · rename_i e; exact e.symm
  · rfl

theorem active_step {k : Nat} {s s' : St} {b : Bk} (hb : b ∈ s.active) (hk : b.id = k) (w : Step k s s') : b ∈ s'.active := by
  cases w with
  | work w => rw [(work_gc w).2]; exact hb
  | snapshot id hid _ =>
    have h1 : b ∈ (register s id).1.active := List.mem_append_left _ hb
    rw [snapshot_eq]
    split
    · exact h1
    · rw [drop_active]
      exact List.mem_filter.2 ⟨h1, by simpa [hk] using Ne.symm hid⟩
  | drop id hid =>
    rw [drop_active]
    exact List.mem_filter.2 ⟨hb, by simpa [hk] using Ne.symm hid⟩

theorem active_steps {k : Nat} {s s' : St} {b : Bk} (hb : b ∈ s.active) (hk : b.id = k) (w : Steps k s s') : b ∈ s'.active := by
  induction w with
  | refl => exact hb
  | step _ w ih => exact active_step ih hk w

theorem snapshot_some {s s1 : St} {k : Nat} {b : Bk} (h : snapshot s k = (s1, some b)) : (register s k).2.whole = true ∧ s1 = (register s k).1 ∧ b = (register s k).2 := by
  rw [snapshot_eq] at h
  split at h
  · rename_i e
    injection h with h1 h2
    injection h2 with h2
    exact ⟨e, h1.symm, h2.symm⟩
  · injection h with h1 h2; cases h2

/-- a file of a backup at work is sent as it was -/
theorem send_file {s : St} (h : Inv s) {b : Bk} (hb : b ∈ s.active) {x : Path × Bytes} (hx : x ∈ b.files) : send s x.1 x.2.length = some x.2 := by
  unfold send
  rw [(h.files b hb x hx).2]
  simp

theorem send_wal {s : St} (h : Inv s) {b : Bk} (hb : b ∈ s.active) {x : Path × Bytes} (hx : x ∈ b.wal) {c : Bytes} (hc : s.read x.1 = some c) : send s x.1 x.2.length = some x.2 := by
  obtain ⟨e, hr⟩ := h.wfiles b hb x hx
  obtain ⟨t, rfl⟩ := hr c hc
  unfold send
  rw [hc]
  simp

theorem send_read {s : St} {p : Path} {n : Nat} {b : Bytes} (h : send s p n = some b) : ∃ c, s.read p = some c := by
  unfold send at h
  split at h
  · rename_i c hc; exact ⟨c, hc⟩
  · cases h

theorem fetch_all {k : Nat} {b : Bk} (hk : b.id = k) (xs : List (Path × Bytes)) {s : St} (h : Inv s ∧ Links s.gc) (hb : b ∈ s.active) (hx : ∀ x ∈ xs, x ∈ b.files ∨ x ∈ b.wal)
    {out : List (Path × Bytes)} (f : Fetch k s (xs.map (fun x => (x.1, x.2.length))) out) : out = xs.map (fun x => (cut x.1, x.2)) := by
  induction xs generalizing s out with
  | nil => cases f; rfl
  | cons x xs ih =>
    rw [List.map_cons] at f
    cases f with
    | @cons _ s' _ _ c _ out' w e f =>
      have h' := inv_steps h w
      have hb' := active_steps hb hk w
      have hc : c = x.2 := by
        rcases hx x (by simp) with hf | hw
        · have := send_file h'.1 hb' hf
          rw [this] at e; injection e with e; exact e.symm
        · obtain ⟨d, hd⟩ := send_read e
          have := send_wal h'.1 hb' hw hd
          rw [this] at e; injection e with e; exact e.symm
      rw [hc, ih h' hb' (fun y hy => hx y (List.mem_cons_of_mem _ hy)) f]
      rfl

/-! ## one backup at a time -/

/-- every link belongs to a backup that will remove it -/
def Owned (s : St) : Prop := ∀ q, IsPart q → s.dir (q ++ snap) ≠ none → ∃ b ∈ s.active ++ s.gc, b.whole = true ∧ q ++ snap ∈ b.files.map Prod.fst

theorem owned_sub {s s' : St} (h : Owned s) (hd : ∀ q, IsPart q → s'.dir (q ++ snap) ≠ none → s.dir (q ++ snap) ≠ none) (ha : s'.active = s.active) (hg : s'.gc = s.gc) : Owned s' := by
  intro q hq e
  rw [ha, hg]
  exact h q hq (hd q hq e)

theorem unlinkAll_some {dir : Path → Option Nat} {ps : List Path} {p : Path} (h : unlinkAll dir ps p ≠ none) : dir p ≠ none ∧ p ∉ ps := by
  unfold unlinkAll at h
  split at h
  · exact absurd rfl h
  · rename_i e; exact ⟨h, e⟩

theorem createAll_dir (new : List (Path × Bytes)) (s : St) (hn : ∀ x ∈ new, IsPart x.1) (q : Path) : (createAll s new).dir (q ++ snap) = s.dir (q ++ snap) := by
  induction new generalizing s with
  | nil => rfl
  | cons x l ih =>
    refine (ih (create s x.1 x.2) (fun y hy => hn y (List.mem_cons_of_mem _ hy))).trans ?_
    exact upd_ne _ _ (Ne.symm (part_ne_snap (hn x (by simp))))

theorem owned_work {s s' : St} (h : Owned s) (w : Work s s') : Owned s' := by
  refine owned_sub h ?_ (work_gc w).2 (work_gc w).1
  intro q hq e
  cases w with
  | append => exact e
  | walCreate n hn =>
    have e : upd s.dir (walPath n) (some s.next) (q ++ snap) ≠ none := e
    rw [upd_ne _ _ (Ne.symm (wal_ne_part hq))] at e
    exact e
  | replace old new parts h1 h2 h3 h4 h5 =>
    have e : (createAll { s with dir := unlinkAll s.dir old } new).dir (q ++ snap) ≠ none := e
    rw [createAll_dir _ _ (fun x hx => (h2 x hx).1)] at e
    exact (unlinkAll_some e).1
  | walGc reps min => exact (unlinkAll_some e).1

theorem cleanup_some (l : List Bk) {dir : Path → Option Nat} {p : Path} (h : l.foldl cleanup dir p ≠ none) : dir p ≠ none ∧ ∀ b ∈ l, b.whole = true → p ∉ b.files.map Prod.fst := by
  induction l generalizing dir with
  | nil => exact ⟨h, fun b hb => (by cases hb)⟩
  | cons b l ih =>
    obtain ⟨h1, h2⟩ := ih (dir := cleanup dir b) h
    unfold cleanup at h1
    split at h1
    · obtain ⟨h3, h4⟩ := unlinkAll_some h1
      refine ⟨h3, fun c hc => ?_⟩
      rcases List.mem_cons.1 hc with e | e
      · subst e; exact fun _ => h4
      · exact h2 c e
    · rename_i hw
      refine ⟨h1, fun c hc => ?_⟩
      rcases List.mem_cons.1 hc with e | e
      · subst e; exact fun hw' => absurd hw' hw
      · exact h2 c e

theorem owned_drop {s : St} (h : Owned s) (id : Nat) : Owned (drop s id) := by
  have cover : ∀ b ∈ s.active ++ s.gc, b ∈ s.active.filter (fun b => b.id ≠ id) ∨ b ∈ s.gc ++ s.active.filter (fun b => b.id = id) := by
    intro b hb
    rcases List.mem_append.1 hb with e | e
    · by_cases hid : b.id = id
      · exact .inr (List.mem_append_right _ (List.mem_filter.2 ⟨e, by simpa using hid⟩))
      · exact .inl (List.mem_filter.2 ⟨e, by simpa using hid⟩)
    · exact .inr (List.mem_append_left _ e)
  unfold drop
  dsimp only
  split
  · rename_i hl
    intro q hq e
    exfalso
    obtain ⟨h1, h2⟩ := cleanup_some _ e
    obtain ⟨b, hb, hw, hm⟩ := h q hq h1
    rcases cover b hb with e | e
    · rw [hl] at e; cases e
    · exact h2 b e hw hm
  · intro q hq e
    obtain ⟨b, hb, hw, hm⟩ := h q hq e
    refine ⟨b, ?_, hw, hm⟩
    show b ∈ s.active.filter _ ++ _
    rcases cover b hb with e | e
    · exact List.mem_append_left _ e
    · exact List.mem_append_right _ e

theorem linkAll_ok (l : List Path) (dir : Path → Option Nat) (h1 : ∀ p ∈ l, IsPart p ∧ dir p ≠ none ∧ dir (p ++ snap) = none) (h2 : l.Nodup) : (linkAll dir l).2 = true := by
  induction l generalizing dir with
  | nil => rfl
  | cons p l ih =>
    obtain ⟨hp, hs, hn⟩ := h1 p (by simp)
    obtain ⟨i, hi⟩ := Option.ne_none_iff_exists'.1 hs
    rw [List.nodup_cons] at h2
    unfold linkAll
    rw [hi, hn]
    refine ih _ ?_ h2.2
    intro q hq
    obtain ⟨a, b, c⟩ := h1 q (List.mem_cons_of_mem _ hq)
    refine ⟨a, ?_, ?_⟩
    · rw [upd_ne _ _ (part_ne_snap a)]; exact b
    · rw [upd_ne]
      · exact c
      · intro e
        have := List.append_cancel_right e
        subst this
        exact h2.1 hq

/-- what holds when a backup begins only without another -/
structure OneInv (s : St) : Prop where
  inv : Inv s
  links : Links s.gc
  owned : Owned s
  gc : s.active = [] → s.gc = []

theorem one_ok {s : St} (h : OneInv s) (ha : s.active = []) (id : Nat) : (register s id).2.whole = true := by
  refine linkAll_ok s.parts s.dir (fun p hp => ⟨(h.inv.parts p hp).1, (h.inv.parts p hp).2, ?_⟩) h.inv.nodup
  cases e : s.dir (p ++ snap) with
  | none => rfl
  | some i =>
    obtain ⟨b, hb, _⟩ := h.owned p (h.inv.parts p hp).1 (by rw [e]; simp)
    rw [ha, h.gc ha] at hb; cases hb

theorem one_inv {s : St} (h : One s) : OneInv s := by
  induction h with
  | init =>
    refine ⟨inv_init, fun b hb => (by cases hb), ?_, fun _ => rfl⟩
    intro q hq e
    exfalso
    refine e ?_
    show upd (fun _ => none) (walPath 0) (some 0) (q ++ snap) = none
    rw [upd_ne _ _ (Ne.symm (wal_ne_part hq))]
  | work _ w ih =>
    exact ⟨inv_work ih.inv w, by rw [(work_gc w).1]; exact ih.links, owned_work ih.owned w, by rw [(work_gc w).1, (work_gc w).2]; exact ih.gc⟩
  | @snapshot s id _ ha ih =>
    have hw := one_ok ih ha id
    have e : (snapshot s id).1 = (register s id).1 := by rw [snapshot_eq, if_pos hw]
    rw [e]
    refine ⟨inv_register ih.inv id, ih.links, ?_, ?_⟩
    · intro q hq hd
      have hd : (linkAll s.dir s.parts).1 (q ++ snap) ≠ none := hd
      obtain ⟨h1, h2, h3, h4⟩ := linkAll_spec s.parts s.dir (fun p hp => (ih.inv.parts p hp).1)
      by_cases e : (linkAll s.dir s.parts).1 (q ++ snap) = s.dir (q ++ snap)
      · rw [e] at hd
        obtain ⟨b, hb, _⟩ := ih.owned q hq hd
        rw [ha, ih.gc ha] at hb; cases hb
      · obtain ⟨r, hr, e⟩ := h2 _ e
        have := List.append_cancel_right e
        subst this
        refine ⟨(register s id).2, List.mem_append_left _ (List.mem_append_right _ (List.mem_singleton.2 rfl)), hw, ?_⟩
        rw [(register_files ih.inv id hw).1, List.map_map]
        exact List.mem_map.2 ⟨q, hr, rfl⟩
    · intro e
      have e : s.active ++ [(register s id).2] = [] := e
      simp at e
  | drop id _ ih =>
    obtain ⟨a, b⟩ := inv_drop ih.inv ih.links id
    refine ⟨a, b, owned_drop ih.owned id, ?_⟩
    unfold drop
    dsimp only
    split
    · intro _; rfl
    · rename_i hne; intro e; exact absurd e hne

end Verif.Backup
