import Verif.Wal.RecProofs
import Verif.Wal.Spec
import Verif.Store.Props
set_option linter.unusedSimpArgs false
set_option linter.unusedVariables false
/-! # Reading log files -/
namespace Verif.Wal
open Verif Verif.Store

theorem slice_append (a b : Bytes) (off n : Nat) (h : off + n ≤ a.length) : slice (a ++ b) off n = slice a off n := by
  unfold slice
  rw [List.drop_append_of_le_length (by omega), List.take_append_of_le_length (by simp; omega)]

theorem read_append (a b : Bytes) (h : 24 ≤ a.length) : Hdr.read (a ++ b) = Hdr.read a := by
  unfold Hdr.read
  rw [slice_append _ _ _ _ (by omega), slice_append _ _ _ _ (by omega), slice_append _ _ _ _ (by omega), slice_append _ _ _ _ (by omega),
    slice_append _ _ _ _ (by omega)]

theorem read_take (a : Bytes) (n : Nat) (hn : 24 ≤ n) (h : 24 ≤ a.length) : Hdr.read (a.take n) = Hdr.read a := by
  have := read_append (a.take n) (a.drop n) (by simp; omega)
  rw [List.take_append_drop] at this
  exact this.symm

structure GoodRec (r : Bytes) : Prop where
  lo   : 24 < r.length
  hi   : r.length < 2 ^ 31
  size : (Hdr.read r).size = r.length
  val  : validate r = true

theorem pread_rec (file pre r post : Bytes) (h : file = pre ++ (r ++ post)) (hg : GoodRec r) (hs : file.length + 24 < 2 ^ 32) :
    pread file pre.length = .ok (some r) := by
  have hlen : file.length = pre.length + (r.length + post.length) := by rw [h]; simp
  obtain ⟨g1, g2, g3, g4⟩ := hg
  have e1 : eof pre.length 24 file.length = false := by
    unfold eof; simp only [decide_eq_false_iff_not]; omega
  have e2 : eof pre.length r.length file.length = false := by
    unfold eof; simp only [decide_eq_false_iff_not]; omega
  have s1 : slice file pre.length 24 = r.take 24 :=
    slice_at (a := pre) (b := r.take 24) (c := r.drop 24 ++ post) (by rw [h, ← List.append_assoc (r.take 24), List.take_append_drop]) rfl
      (by rw [List.length_take]; omega)
  have s2 : slice file (pre.length + 24) (r.length - 24) = r.drop 24 :=
    slice_at (a := pre ++ r.take 24) (b := r.drop 24) (c := post)
      (by rw [h]; simp only [List.append_assoc]; rw [← List.append_assoc (r.take 24), List.take_append_drop])
      (by rw [List.length_append, List.length_take]; omega) (by rw [List.length_drop])
  have p1 : preadBuf file pre.length 24 = .ok (r.take 24) := by
    unfold preadBuf; rw [if_neg (by omega), if_neg (by omega), s1]
  have p2 : preadBuf file (pre.length + 24) (r.length - 24) = .ok (r.drop 24) := by
    unfold preadBuf; rw [if_neg (by omega), if_neg (by omega), s2]
  unfold pread
  rw [e1]
  simp only [Bool.false_eq_true, if_false, p1, bind, Except.bind]
  rw [read_take r 24 (by omega) (by omega), g3, e2]
  simp only [Bool.false_eq_true, if_false]
  rw [if_neg (by omega), p2]
  simp

/-- a tail of a file that is the beginning of a record -/
def Torn (pre torn : Bytes) : Prop :=
  torn.length < 24 ∨ ∃ r, GoodRec r ∧ torn = r.take torn.length ∧ torn.length < r.length ∧ pre.length + r.length < 2 ^ 32

theorem pread_torn (file pre torn : Bytes) (h : file = pre ++ torn) (ht : Torn pre torn) (hs : file.length + 24 < 2 ^ 32) :
    pread file pre.length = .ok none := by
  have hlen : file.length = pre.length + torn.length := by rw [h]; simp
  unfold pread
  by_cases hlt : torn.length < 24
  · have e1 : eof pre.length 24 file.length = true := by
      unfold eof; simp only [decide_eq_true_eq]; omega
    rw [e1]; rfl
  · rcases ht with ht | ⟨r, hg, he, h1, h2⟩
    · exact absurd ht hlt
    obtain ⟨g1, g2, g3, g4⟩ := hg
    have e1 : eof pre.length 24 file.length = false := by
      unfold eof; simp only [decide_eq_false_iff_not]; omega
    have e2 : eof pre.length r.length file.length = true := by
      unfold eof; simp only [decide_eq_true_eq]; omega
    have s1 : slice file pre.length 24 = torn.take 24 :=
      slice_at (a := pre) (b := torn.take 24) (c := torn.drop 24) (by rw [h, List.take_append_drop]) rfl
        (by rw [List.length_take]; omega)
    have hr : Hdr.read (torn.take 24) = Hdr.read r := by
      rw [read_take torn 24 (by omega) (by omega), he, read_take r torn.length (by omega) (by omega)]
    have p1 : preadBuf file pre.length 24 = .ok (torn.take 24) := by
      unfold preadBuf; rw [if_neg (by omega), if_neg (by omega), s1]
    rw [e1]
    simp only [Bool.false_eq_true, if_false, p1, bind, Except.bind, hr, g3, e2, if_true]

/-! ## files with records -/

structure Ent where
  id   : Nat
  recs : List Bytes
  torn : Bytes

def Ent.file (e : Ent) : File := ⟨e.id, e.recs.flatten ++ e.torn⟩

structure Ent.Ok (e : Ent) : Prop where
  size : (e.recs.flatten ++ e.torn).length + 24 < 2 ^ 32
  recs : ∀ r ∈ e.recs, GoodRec r
  torn : Torn e.recs.flatten e.torn

def lsnOf (r : Bytes) : Nat := (Hdr.read r).lsn

def Files (A : List Ent) : List File := A.map Ent.file

structure AOk (A : List Ent) : Prop where
  ok   : ∀ e ∈ A, e.Ok
  sort : A.Pairwise fun e f => e.id < f.id
  top  : ∀ e ∈ A, e.id < IdMgr.NONE

theorem ids_files (A : List Ent) : ids (Files A) = A.map Ent.id := by
  simp [ids, Files, Ent.file]

theorem ids_sorted {A : List Ent} (h : AOk A) : (ids (Files A)).Pairwise (· < ·) := by
  rw [ids_files, List.pairwise_map]
  exact h.sort

theorem ids_top {A : List Ent} (h : AOk A) : ∀ x ∈ ids (Files A), x < IdMgr.NONE := by
  rw [ids_files]
  intro x hx
  obtain ⟨e, he, rfl⟩ := List.mem_map.mp hx
  exact h.top e he

theorem openFile_ok {A : List Ent} (h : AOk A) {e : Ent} (he : e ∈ A) : openFile (Files A) e.id = .ok e.file := by
  have key : (Files A).find? (fun f => f.id = e.id) = some e.file := by
    have hs := h.sort
    clear h
    unfold Files
    induction A with
    | nil => simp at he
    | cons x t ih =>
      simp only [List.map_cons, List.find?_cons]
      by_cases hx : x.id = e.id
      · have : x = e := by
          rcases List.mem_cons.mp he with h | h
          · exact h.symm
          · have := (List.pairwise_cons.mp hs).1 e h; omega
        subst this
        simp [Ent.file]
      · have hne : decide (x.file.id = e.id) = false := decide_eq_false hx
        rw [hne]
        have hm : e ∈ t := by
          rcases List.mem_cons.mp he with h | h
          · subst h; exact absurd rfl hx
          · exact h
        exact ih hm (List.pairwise_cons.mp hs).2
  unfold openFile
  rw [key]

theorem next_split {A1 A2 : List Ent} {e : Ent} (h : AOk (A1 ++ e :: A2)) :
    IdMgr.next (ids (Files (A1 ++ e :: A2))) e.id = match A2 with | [] => IdMgr.NONE | f :: _ => f.id := by
  obtain ⟨n1, n2⟩ := C32_next _ (ids_sorted h) (ids_top h) e.id
  have hs := h.sort
  rw [List.pairwise_append, List.pairwise_cons] at hs
  obtain ⟨s1, ⟨s2, s3⟩, s4⟩ := hs
  have mem : ∀ x, x ∈ ids (Files (A1 ++ e :: A2)) ↔ ∃ f ∈ A1 ++ e :: A2, f.id = x := by
    intro x; rw [ids_files, List.mem_map]
  have low : ∀ f ∈ A1 ++ e :: A2, e.id < f.id → f ∈ A2 := by
    intro f hf hlt
    rcases List.mem_append.mp hf with hf | hf
    · have := s4 f hf e (by simp); omega
    · rcases List.mem_cons.mp hf with hf | hf
      · subst hf; omega
      · exact hf
  cases A2 with
  | nil =>
    apply n1.mpr
    intro x hx
    obtain ⟨f, hf, rfl⟩ := (mem x).mp hx
    have : ¬ e.id < f.id := fun hlt => by have := low f hf hlt; simp at this
    omega
  | cons f t =>
    have hf : f.id ∈ ids (Files (A1 ++ e :: f :: t)) := (mem _).mpr ⟨f, by simp, rfl⟩
    have hef : e.id < f.id := s2 f (by simp)
    have hne : IdMgr.next (ids (Files (A1 ++ e :: f :: t))) e.id ≠ IdMgr.NONE := by
      intro hn
      have := n1.mp hn _ hf
      omega
    obtain ⟨m1, m2, m3⟩ := n2 hne
    have l1 := m3 _ hf hef
    obtain ⟨g, hg, eg⟩ := (mem _).mp m1
    have hg2 := low g hg (by omega)
    show _ = f.id
    rcases List.mem_cons.mp hg2 with hh | hh
    · subst hh; exact eg.symm
    · have := (List.pairwise_cons.mp s3).1 g hh; omega

/-- a position in the files and the records that follow -/
def Pos (A : List Ent) (fileNext : Bool) (id off : Nat) (rem : List Bytes) : Prop :=
  ∃ (A1 : List Ent) (e : Ent) (A2 : List Ent) (r1 r2 : List Bytes), A = A1 ++ e :: A2 ∧ e.id = id ∧ e.recs = r1 ++ r2 ∧
    off = r1.flatten.length ∧ rem = r2 ++ (if fileNext then A2.flatMap Ent.recs else [])

theorem pos_start {A1 A2 : List Ent} {e : Ent} (fileNext : Bool) :
    Pos (A1 ++ e :: A2) fileNext e.id 0 (e.recs ++ (if fileNext then A2.flatMap Ent.recs else [])) :=
  ⟨A1, e, A2, [], e.recs, rfl, rfl, rfl, rfl, rfl⟩

theorem cursorRead_spec {A : List Ent} (h : AOk A) (fileNext check : Bool) : ∀ (A2 A1 : List Ent) (e : Ent) (r1 r2 : List Bytes) (fuel : Nat),
    A = A1 ++ e :: A2 → e.recs = r1 ++ r2 → A2.length + 1 ≤ fuel →
    let rem := r2 ++ (if fileNext then A2.flatMap Ent.recs else [])
    (rem = [] → cursorRead (Files A) fileNext check fuel e.id r1.flatten.length = .ok none) ∧
    (∀ r rest, rem = r :: rest → ∃ id' off', cursorRead (Files A) fileNext check fuel e.id r1.flatten.length = .ok (some (r, id', off')) ∧
      Pos A fileNext id' off' rest ∧ Pos A fileNext id' (off' - r.length) (r :: rest) ∧ GoodRec r) := by
  intro A2
  induction A2 with
  | nil =>
    intro A1 e r1 r2 fuel hA hr hf
    have heA : e ∈ A := by rw [hA]; simp
    have hok := h.ok e heA
    cases fuel with
    | zero => omega
    | succ n =>
      cases r2 with
      | nil =>
        have hp : pread (e.file.bytes) r1.flatten.length = .ok none := by
          have ht := hok.torn
          have hsz := hok.size
          rw [hr] at ht hsz
          simp only [List.append_nil] at ht hsz
          exact pread_torn _ r1.flatten e.torn (by simp [Ent.file, hr]) ht (by simpa [Ent.file, hr] using hsz)
        have hnext := next_split (A1 := A1) (A2 := []) (e := e) (by rw [← hA]; exact h)
        refine ⟨fun _ => ?_, fun r rest hrem => ?_⟩
        · simp only [cursorRead, openFile_ok h heA, bind, Except.bind, hp]
          rw [hA, hnext]
          simp
        · cases fileNext <;> simp at hrem
      | cons r t =>
        have hp : pread (e.file.bytes) r1.flatten.length = .ok (some r) := by
          exact pread_rec _ r1.flatten r (t.flatten ++ e.torn) (by simp [Ent.file, hr]) (hok.recs r (by rw [hr]; simp))
            (by simpa [Ent.file] using hok.size)
        have hg := hok.recs r (by rw [hr]; simp)
        refine ⟨fun hrem => by simp at hrem, fun r' rest hrem => ?_⟩
        have hb : (if fileNext then ([] : List Ent).flatMap Ent.recs else []) = [] := by cases fileNext <;> rfl
        rw [hb, List.append_nil] at hrem
        obtain ⟨rfl, rfl⟩ := List.cons.inj hrem
        refine ⟨e.id, r1.flatten.length + r.length, ?_, ?_, ?_, hg⟩
        · simp only [cursorRead, openFile_ok h heA, bind, Except.bind, hp, hg.val, hg.size]
          simp
        · exact ⟨A1, e, [], r1 ++ [r], t, hA, rfl, by rw [hr]; simp, by simp, by rw [hb]; simp⟩
        · exact ⟨A1, e, [], r1, r :: t, hA, rfl, hr, by simp, by rw [hb]; simp⟩
  | cons f A2 ih =>
    intro A1 e r1 r2 fuel hA hr hf
    have heA : e ∈ A := by rw [hA]; simp
    have hok := h.ok e heA
    cases fuel with
    | zero => omega
    | succ n =>
      cases r2 with
      | nil =>
        have hp : pread (e.file.bytes) r1.flatten.length = .ok none := by
          have ht := hok.torn
          have hsz := hok.size
          rw [hr] at ht hsz
          simp only [List.append_nil] at ht hsz
          exact pread_torn _ r1.flatten e.torn (by simp [Ent.file, hr]) ht (by simpa [Ent.file, hr] using hsz)
        have hnext := next_split (A1 := A1) (A2 := f :: A2) (e := e) (by rw [← hA]; exact h)
        have hfn : f.id ≠ IdMgr.NONE := by
          have := h.top f (by rw [hA]; simp); omega
        have hstep : cursorRead (Files A) fileNext check (n + 1) e.id r1.flatten.length =
            if !fileNext then .ok none else cursorRead (Files A) fileNext check n f.id 0 := by
          simp only [cursorRead, openFile_ok h heA, bind, Except.bind, hp]
          have : IdMgr.next (ids (Files A)) e.id = f.id := by rw [hA, hnext]
          rw [this, if_neg hfn]
        rw [hstep]
        cases fileNext with
        | false => exact ⟨fun _ => rfl, fun r rest hrem => by simp at hrem⟩
        | true =>
          have := ih (A1 ++ [e]) f [] f.recs n (by rw [hA]; simp) rfl (by simp at hf; omega)
          simp only [Bool.not_true, if_false, Bool.false_eq_true, if_true, List.flatMap_cons, List.nil_append] at this ⊢
          simpa using this
      | cons r t =>
        have hp : pread (e.file.bytes) r1.flatten.length = .ok (some r) := by
          exact pread_rec _ r1.flatten r (t.flatten ++ e.torn) (by simp [Ent.file, hr]) (hok.recs r (by rw [hr]; simp))
            (by simpa [Ent.file] using hok.size)
        have hg := hok.recs r (by rw [hr]; simp)
        refine ⟨fun hrem => by simp at hrem, fun r' rest hrem => ?_⟩
        rw [List.cons_append] at hrem
        obtain ⟨rfl, rfl⟩ := List.cons.inj hrem
        refine ⟨e.id, r1.flatten.length + r.length, ?_, ?_, ?_, hg⟩
        · simp only [cursorRead, openFile_ok h heA, bind, Except.bind, hp, hg.val, hg.size]
          simp
        · exact ⟨A1, e, f :: A2, r1 ++ [r], t, hA, rfl, by rw [hr]; simp, by simp, rfl⟩
        · exact ⟨A1, e, f :: A2, r1, r :: t, hA, rfl, hr, by simp, by simp⟩

theorem cursorRead_pos {A : List Ent} (h : AOk A) {fileNext : Bool} (check : Bool) {id off : Nat} {rem : List Bytes} (hp : Pos A fileNext id off rem) :
    (rem = [] → cursorRead (Files A) fileNext check ((Files A).length + 1) id off = .ok none) ∧
    (∀ r rest, rem = r :: rest → ∃ id' off', cursorRead (Files A) fileNext check ((Files A).length + 1) id off = .ok (some (r, id', off')) ∧
      Pos A fileNext id' off' rest ∧ Pos A fileNext id' (off' - r.length) (r :: rest) ∧ GoodRec r) := by
  obtain ⟨A1, e, A2, r1, r2, h1, h2, h3, h4, h5⟩ := hp
  have := cursorRead_spec h fileNext check A2 A1 e r1 r2 ((Files A).length + 1) h1 h3 (by rw [h1]; simp [Files]; omega)
  subst h2 h4 h5
  exact this

theorem cursorAll_pos {A : List Ent} (h : AOk A) {fileNext : Bool} (check : Bool) (rem : List Bytes) : ∀ (fuel id off : Nat),
    Pos A fileNext id off rem → rem.length ≤ fuel → cursorAll (Files A) fileNext check fuel id off = .ok rem := by
  induction rem with
  | nil =>
    intro fuel id off hp hf
    cases fuel with
    | zero => rfl
    | succ n =>
      have := (cursorRead_pos h check hp).1 rfl
      simp only [cursorAll, this, bind, Except.bind]
  | cons r rest ih =>
    intro fuel id off hp hf
    cases fuel with
    | zero => simp at hf
    | succ n =>
      obtain ⟨id', off', h1, h2, _⟩ := (cursorRead_pos h check hp).2 r rest rfl
      simp only [cursorAll, h1, bind, Except.bind, ih n id' off' h2 (by simp at hf; omega)]

theorem rewind_pos {A : List Ent} (h : AOk A) {fileNext : Bool} (check : Bool) (l : Nat) (rem : List Bytes) : ∀ (fuel id off : Nat),
    Pos A fileNext id off rem → rem.length ≤ fuel →
    (rem.dropWhile (fun r => lsnOf r < l) = [] → rewind (Files A) fileNext check l fuel id off = .ok none) ∧
    (rem.dropWhile (fun r => lsnOf r < l) ≠ [] → ∃ id' off', rewind (Files A) fileNext check l fuel id off = .ok (some (id', off')) ∧
      Pos A fileNext id' off' (rem.dropWhile (fun r => lsnOf r < l))) := by
  induction rem with
  | nil =>
    intro fuel id off hp hf
    refine ⟨fun _ => ?_, fun hh => by simp at hh⟩
    cases fuel with
    | zero => rfl
    | succ n =>
      have := (cursorRead_pos h check hp).1 rfl
      simp only [rewind, this, bind, Except.bind]
  | cons r rest ih =>
    intro fuel id off hp hf
    cases fuel with
    | zero => simp at hf
    | succ n =>
      obtain ⟨id', off', h1, h2, h3, h4⟩ := (cursorRead_pos h check hp).2 r rest rfl
      by_cases hl : lsnOf r < l
      · have e : (r :: rest).dropWhile (fun r => decide (lsnOf r < l)) = rest.dropWhile (fun r => decide (lsnOf r < l)) := by
          simp [List.dropWhile_cons, hl]
        have e2 : rewind (Files A) fileNext check l (n + 1) id off = rewind (Files A) fileNext check l n id' off' := by
          have : ¬ (Hdr.read r).lsn ≥ l := by unfold lsnOf at hl; omega
          simp only [rewind, h1, bind, Except.bind, if_neg this]
        rw [e, e2]
        exact ih n id' off' h2 (by simp at hf; omega)
      · have e : (r :: rest).dropWhile (fun r => decide (lsnOf r < l)) = r :: rest := by
          simp [List.dropWhile_cons, hl]
        have hge : (Hdr.read r).lsn ≥ l := by unfold lsnOf at hl; omega
        rw [e]
        refine ⟨fun hh => by simp at hh, fun _ => ⟨id', off' - r.length, ?_, h3⟩⟩
        simp only [rewind, h1, bind, Except.bind, if_pos hge, h4.size]

theorem read_at {A1 A2 : List Ent} {e : Ent} (h : AOk (A1 ++ e :: A2)) (fileNext check : Bool) (fuel l : Nat)
    (hf : (e.recs ++ (if fileNext then A2.flatMap Ent.recs else [])).length ≤ fuel) (hs : startFile (Files (A1 ++ e :: A2)) l = e.id) :
    readFrom (Files (A1 ++ e :: A2)) fileNext check fuel l =
      .ok ((e.recs ++ (if fileNext then A2.flatMap Ent.recs else [])).dropWhile (fun r => lsnOf r < l)) := by
  have hne : e.id ≠ IdMgr.NONE := by have := h.top e (by simp); omega
  unfold readFrom
  simp only [hs, if_neg hne]
  obtain ⟨r1, r2⟩ := rewind_pos h check l _ fuel e.id 0 (pos_start (A1 := A1) (A2 := A2) (e := e) fileNext) hf
  by_cases hd : (e.recs ++ (if fileNext then A2.flatMap Ent.recs else [])).dropWhile (fun r => decide (lsnOf r < l)) = []
  · rw [hd]
    simp only [r1 hd, bind, Except.bind]
  · obtain ⟨id', off', q1, q2⟩ := r2 hd
    simp only [q1, bind, Except.bind]
    apply cursorAll_pos h check _ fuel id' off' q2
    have := (List.dropWhile_sublist (fun r => decide (lsnOf r < l)) (l := e.recs ++ (if fileNext then A2.flatMap Ent.recs else []))).length_le
    omega

end Verif.Wal
