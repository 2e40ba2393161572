import Verif.Backup.Proofs
/-!
# C99: a backup holds the database as it was when the backup began

A backup is a listing (names and sizes) made in one step, and then a request for each file while the server goes on: it writes records, makes and removes wal files, replaces partition files
by checkpoints, flushes, CREATE and DROP, and serves other backups.
-/
set_option autoImplicit false
namespace Verif.Backup
open Verif.Json.Text (decDigits)

/-- **C99.** A restore that gets an answer to each of its requests writes exactly the files of the database as they were when the backup began, partition and object files first, then the
wal files, each with the name and the bytes it had - whatever the server did in between. -/
theorem C99_restore {s0 s1 : St} {k : Nat} {b : Bk} {out : List (Path × Bytes)} (hr : Reach s0) (hs : snapshot s0 k = (s1, some b)) (hf : Fetch k s1 b.list out) :
    out.map (fun x => (x.1, some x.2)) = (s0.parts ++ s0.wals.map walPath).map (fun p => (p, s0.read p)) := by
  obtain ⟨hw, rfl, rfl⟩ := snapshot_some hs
  obtain ⟨hi, hg⟩ := inv_reach hr
  obtain ⟨e1, e2⟩ := register_files hi k hw
  have ho := fetch_all (k := k) (b := (register s0 k).2) rfl ((register s0 k).2.files ++ (register s0 k).2.wal) (s := (register s0 k).1) ⟨inv_register hi k, hg⟩
    (List.mem_append_right _ (List.mem_singleton.2 rfl)) (fun x hx => List.mem_append.1 hx) hf
  rw [ho, e1, e2, List.map_append, List.map_append, List.map_append, List.map_map, List.map_map, List.map_map, List.map_map, List.map_map]
  congr 1
  · refine List.map_congr_left (fun p hp => ?_)
    obtain ⟨i, hd⟩ := Option.ne_none_iff_exists'.1 (hi.parts p hp).2
    show (cut (p ++ snap), some ((s0.read p).getD [])) = (p, s0.read p)
    rw [cut_snap (part_ne_nil (hi.parts p hp).1), read_eq hd]; rfl
  · refine List.map_congr_left (fun n hn => ?_)
    obtain ⟨i, hd⟩ := Option.ne_none_iff_exists'.1 ((hi.wal n).1 hn)
    show (cut (walPath n), some ((s0.read (walPath n)).getD [])) = (walPath n, s0.read (walPath n))
    rw [cut_wal, read_eq hd]; rfl

/-- **C99.** The listing names the files of the database, partitions under their link, with the sizes they have. -/
theorem C99_listing {s0 s1 : St} {k : Nat} {b : Bk} (hr : Reach s0) (hs : snapshot s0 k = (s1, some b)) :
    b.list.map (fun x => (x.1, some x.2)) = s0.parts.map (fun p => (p ++ snap, (s0.read p).map List.length)) ++ s0.wals.map (fun n => (walPath n, (s0.read (walPath n)).map List.length)) := by
  obtain ⟨hw, rfl, rfl⟩ := snapshot_some hs
  obtain ⟨hi, hg⟩ := inv_reach hr
  obtain ⟨e1, e2⟩ := register_files hi k hw
  unfold Bk.list
  rw [e1, e2, List.map_append, List.map_append, List.map_map, List.map_map, List.map_map, List.map_map]
  congr 1
  · refine List.map_congr_left (fun p hp => ?_)
    obtain ⟨i, hd⟩ := Option.ne_none_iff_exists'.1 (hi.parts p hp).2
    show (p ++ snap, some ((s0.read p).getD []).length) = _
    rw [read_eq hd]; rfl
  · refine List.map_congr_left (fun n hn => ?_)
    obtain ⟨i, hd⟩ := Option.ne_none_iff_exists'.1 ((hi.wal n).1 hn)
    show (walPath n, some ((s0.read (walPath n)).getD []).length) = _
    rw [read_eq hd]; rfl

/-- **C99.** While the backup is at work, a request for a partition or object file of its listing is always answered, with the bytes the file had when the backup began - even if a
checkpoint has replaced the file or its table is gone. -/
theorem C99_files {s0 s1 s' : St} {k : Nat} {b : Bk} (hr : Reach s0) (hs : snapshot s0 k = (s1, some b)) (hw : Steps k s1 s') {p : Path} (hp : p ∈ s0.parts) :
    ∃ c, s0.read p = some c ∧ send s' (p ++ snap) c.length = some c := by
  obtain ⟨hwh, rfl, rfl⟩ := snapshot_some hs
  obtain ⟨hi, hg⟩ := inv_reach hr
  obtain ⟨e1, e2⟩ := register_files hi k hwh
  have h' := inv_steps (k := k) (s := (register s0 k).1) ⟨inv_register hi k, hg⟩ hw
  have hb' := active_steps (b := (register s0 k).2) (List.mem_append_right _ (List.mem_singleton.2 rfl)) rfl hw
  obtain ⟨i, hd⟩ := Option.ne_none_iff_exists'.1 (hi.parts p hp).2
  refine ⟨s0.data i, read_eq hd, ?_⟩
  have := send_file h'.1 hb' (x := (p ++ snap, (s0.read p).getD [])) (by rw [e1]; exact List.mem_map.2 ⟨p, hp, rfl⟩)
  rw [read_eq hd] at this
  exact this

/-- **C99, partial.** A request for a wal file of the listing is answered with the bytes it had when the backup began, as long as the file has not been removed. What is missing: that the
server keeps it (`C99_gc_false`). -/
theorem C99_wal_partial {s0 s1 s' : St} {k : Nat} {b : Bk} (hr : Reach s0) (hs : snapshot s0 k = (s1, some b)) (hw : Steps k s1 s') {n : Nat} (hn : n ∈ s0.wals) (hn' : n ∈ s'.wals) :
    ∃ c, s0.read (walPath n) = some c ∧ send s' (walPath n) c.length = some c := by
  obtain ⟨hwh, rfl, rfl⟩ := snapshot_some hs
  obtain ⟨hi, hg⟩ := inv_reach hr
  obtain ⟨e1, e2⟩ := register_files hi k hwh
  have h' := inv_steps (k := k) (s := (register s0 k).1) ⟨inv_register hi k, hg⟩ hw
  have hb' := active_steps (b := (register s0 k).2) (List.mem_append_right _ (List.mem_singleton.2 rfl)) rfl hw
  obtain ⟨i, hd⟩ := Option.ne_none_iff_exists'.1 ((hi.wal n).1 hn)
  obtain ⟨j, hj⟩ := Option.ne_none_iff_exists'.1 ((h'.1.wal n).1 hn')
  refine ⟨s0.data i, read_eq hd, ?_⟩
  have := send_wal h'.1 hb' (x := (walPath n, (s0.read (walPath n)).getD [])) (by rw [e2]; exact List.mem_map.2 ⟨n, hn, rfl⟩) (read_eq hj)
  rw [read_eq hd] at this
  exact this

/-- **C99, partial.** On a server where a backup begins only when there is no other, a backup always gets its listing. What is missing: backups side by side (`C99_two_false`) and after a
failed one (`C99_leak_false`). -/
theorem C99_begins_partial {s : St} (h : One s) (ha : s.active = []) (k : Nat) : ∃ b, (snapshot s k).2 = some b := by
  have hw := one_ok (one_inv h) ha k
  exact ⟨(register s k).2, by rw [snapshot_eq, if_pos hw]⟩

/-- **C99, partial.** On such a server no link is left over when no backup is at work. -/
theorem C99_no_links_partial {s : St} (h : One s) (ha : s.active = []) {p : Path} (hp : IsPart p) : s.dir (p ++ snap) = none := by
  have hi := one_inv h
  cases e : s.dir (p ++ snap) with
  | none => rfl
  | some i =>
    obtain ⟨b, hb, _⟩ := hi.owned p hp (by rw [e]; simp)
    rw [ha, hi.gc ha] at hb; cases hb

/-- **C99.** The end of a backup does not touch the files of the database. -/
theorem C99_drop_keeps {s : St} (h : Reach s) (k : Nat) : (∀ p ∈ s.parts, (drop s k).read p = s.read p) ∧ (∀ n, (drop s k).read (walPath n) = s.read (walPath n)) ∧ (drop s k).parts = s.parts ∧ (drop s k).wals = s.wals := by
  obtain ⟨hi, hg⟩ := inv_reach h
  have hl : Links (s.gc ++ s.active.filter (fun b => b.id = k)) := by
    intro b hb
    rcases List.mem_append.1 hb with e | e
    · exact hg b e
    · exact links_active hi b (filter_sub _ _ b e)
  have key : ∀ (l : List Bk) (dir : Path → Option Nat), Links l → ∀ p, (∀ q, IsPart q → p ≠ q ++ snap) → l.foldl cleanup dir p = dir p := by
    intro l
    induction l with
    | nil => intro dir _ p _; rfl
    | cons b l ih =>
      intro dir hl p hp
      rw [List.foldl_cons, ih _ (fun c hc => hl c (List.mem_cons_of_mem _ hc)) p hp]
      unfold cleanup
      split
      · unfold unlinkAll
        rw [if_neg]
        intro e
        obtain ⟨x, hx, e⟩ := List.mem_map.1 e
        obtain ⟨q, hq, e'⟩ := hl b (by simp) x hx
        exact hp q hq (e.symm.trans e')
      · rfl
  have rd : ∀ p, (∀ q, IsPart q → p ≠ q ++ snap) → (drop s k).read p = s.read p := by
    intro p hp
    unfold drop
    dsimp only
    split
    · show ((s.gc ++ _).foldl cleanup s.dir p).map s.data = (s.dir p).map s.data
      rw [key _ _ hl p hp]
    · rfl
  refine ⟨fun p hp => rd p (fun q hq => part_ne_snap (hi.parts p hp).1), fun n => rd _ (fun q hq => wal_ne_part hq), ?_, ?_⟩ <;>
    · unfold drop; dsimp only; split <;> rfl

/-! ## false -/

/-- "storage/0" and a digit -/
def path (d : Nat) : Path := [115, 116, 111, 114, 97, 103, 101, 47, 48] ++ [d]

theorem path_part (d : Nat) (h1 : 48 ≤ d) (h2 : d ≤ 57) : IsPart (path d) := ⟨[48], d, rfl, h1, h2⟩

theorem init_path (d : Nat) (h1 : 48 ≤ d) (h2 : d ≤ 57) : init.dir (path d) = none :=
  upd_ne (fun _ => none) (some 0) (Ne.symm (wal_ne_part' (n := 0) (path_part d h1 h2)))

/-- a database with a table of one partition, and a second wal file -/
def small : St := { createAll init [(path 49, [7, 8, 9])] with parts := [path 49] }
def small2 : St := { create small (walPath 5) [] with wals := small.wals ++ [5], hi := 5 }

theorem small_work : Work init small := by
  have h := Work.replace (s := init) [] [(path 49, [7, 8, 9])] [path 49] (fun p hp => (by cases hp)) (by
    intro x hx
    rw [List.mem_singleton] at hx
    subst hx
    exact ⟨path_part 49 (by decide) (by decide), init_path 49 (by decide) (by decide)⟩) (by simp) (by intro p hp; exact .inr hp) (by simp)
  have e : ({ init with dir := unlinkAll init.dir [] } : St) = init := by
    have : unlinkAll init.dir [] = init.dir := by funext p; simp [unlinkAll]
    rw [this]
  rw [e] at h
  exact h

theorem small_reach : Reach small := .step 0 .init (.work small_work)
theorem small2_reach : Reach small2 := .step 0 small_reach (.work (.walCreate 5 (by decide)))

/-- **C99, false.** The wal files of a listing are kept while the backup is at work. Garbage collection takes the largest of the positions that should hold it back, so the 0 of the backup
holds nothing back: after a checkpoint in the middle of a backup the request for a listed wal file fails. -/
theorem C99_gc_false : ¬ ∀ (s0 s1 s' : St) (k : Nat) (b : Bk) (x : Path × Bytes), Reach s0 → snapshot s0 k = (s1, some b) → Steps k s1 s' → x ∈ b.wal → (send s' x.1 x.2.length).isSome := by
  intro H
  have hs : snapshot small2 1 = ((snapshot small2 1).1, some (register small2 1).2) := by
    have hw : (register small2 1).2.whole = true := by decide +kernel
    rw [snapshot_eq, if_pos hw]
  have := H small2 (snapshot small2 1).1 (walGc (snapshot small2 1).1 [] 6) 1 (register small2 1).2 (walPath 0, []) small2_reach hs (.step .refl (.work (.walGc [] 6))) (by decide +kernel)
  revert this
  decide +kernel

/-- **C99, false.** Two backups can be made at the same time: the second fails on the link of the first. -/
theorem C99_two_false : ¬ ∀ (s : St) (k : Nat), Reach s → (∀ b ∈ s.active, b.id ≠ k) → (snapshot s k).2.isSome := by
  intro H
  have hr : Reach (snapshot small 1).1 := .step 2 small_reach (.snapshot 1 (by decide) (by intro b hb; cases hb))
  have := H _ 2 hr (by
    intro b hb
    have e : (snapshot small 1).1.active.map Bk.id = [1] := by decide +kernel
    have : b.id ∈ (snapshot small 1).1.active.map Bk.id := List.mem_map.2 ⟨b, hb, rfl⟩
    rw [e, List.mem_singleton] at this
    rw [this]; decide)
  revert this
  decide +kernel

/-- a server where two backups overlapped, after a second table was made in between; both have ended -/
def leaked : St :=
  let a := (snapshot small 1).1
  let c : St := { createAll { a with dir := unlinkAll a.dir [] } [(path 50, [4])] with parts := [path 50, path 49] }
  drop (snapshot c 2).1 1

theorem leaked_reach : Reach leaked := by
  have h1 : Reach (snapshot small 1).1 := .step 2 small_reach (.snapshot 1 (by decide) (by intro b hb; cases hb))
  have h2 : Reach { createAll { (snapshot small 1).1 with dir := unlinkAll (snapshot small 1).1.dir [] } [(path 50, [4])] with parts := [path 50, path 49] } := by
    refine .step 0 h1 (.work (.replace [] [(path 50, [4])] [path 50, path 49] (fun p hp => (by cases hp)) ?_ (by simp) ?_ (by decide)))
    · intro x hx
      rw [List.mem_singleton] at hx
      subst hx
      exact ⟨path_part 50 (by decide) (by decide), by decide +kernel⟩
    · intro p hp
      rcases List.mem_cons.1 hp with e | e
      · right; rw [e]; exact List.mem_singleton.2 rfl
      · left; exact ⟨e, fun h => (by cases h)⟩
  refine .step 0 (.step 0 h2 (.snapshot 2 (by decide) ?_)) (.drop 1 (by decide))
  intro b hb
  have e : (createAll { (snapshot small 1).1 with dir := unlinkAll (snapshot small 1).1.dir [] } [(path 50, [4])]).active.map Bk.id = [1] := by decide +kernel
  have : b.id ∈ (createAll { (snapshot small 1).1 with dir := unlinkAll (snapshot small 1).1.dir [] } [(path 50, [4])]).active.map Bk.id := List.mem_map.2 ⟨b, hb, rfl⟩
  rw [e, List.mem_singleton] at this
  rw [this]; decide

/-- **C99, false.** When no backup is at work, a new one can begin: a backup that failed leaves the links it made, they are never removed, and every backup after it fails on them. -/
theorem C99_leak_false : ¬ ∀ (s : St) (k : Nat), Reach s → s.active = [] → s.gc = [] → (snapshot s k).2.isSome := by
  intro H
  have e : leaked.active.map Bk.id = [] ∧ leaked.gc.map Bk.id = [] := by decide +kernel
  have := H leaked 3 leaked_reach (List.map_eq_nil_iff.1 e.1) (List.map_eq_nil_iff.1 e.2)
  revert this
  decide +kernel

/-- **C99, false.** A client of a backup gets only the files of its listing: the path of a request is not looked up in it, any file that is there is sent. -/
theorem C99_path_false : ¬ ∀ (s0 s1 : St) (k : Nat) (b : Bk) (p : Path) (c : Bytes), Reach s0 → snapshot s0 k = (s1, some b) → send s1 p c.length = some c → p ∈ b.list.map Prod.fst := by
  intro H
  have hs : snapshot small 1 = ((snapshot small 1).1, some (register small 1).2) := by
    have hw : (register small 1).2.whole = true := by decide +kernel
    rw [snapshot_eq, if_pos hw]
  have := H small _ 1 (register small 1).2 (path 49) [7, 8, 9] small_reach hs (by decide +kernel)
  revert this
  decide +kernel

/-! ## the hypotheses are met -/

/-- a backup of a database with a table; before its files are fetched, a checkpoint replaces the file of the table and records are written -/
example : ∃ s1 b out, snapshot small 1 = (s1, some b) ∧ Fetch 1 s1 b.list out ∧ out = [(path 49, [7, 8, 9]), (walPath 0, [])] := by
  have hw : (register small 1).2.whole = true := by decide +kernel
  have hs : snapshot small 1 = ((register small 1).1, some (register small 1).2) := by rw [snapshot_eq, if_pos hw]
  have hl : (register small 1).2.list = [(path 49 ++ snap, 3), (walPath 0, 0)] := by decide +kernel
  refine ⟨_, _, _, hs, ?_, rfl⟩
  rw [hl]
  have st : Steps 1 (register small 1).1 { createAll { (register small 1).1 with dir := unlinkAll (register small 1).1.dir [path 49] } [(path 50, [4])] with parts := [path 50] } := by
    refine .step .refl (.work (.replace [path 49] [(path 50, [4])] [path 50] ?_ ?_ (by simp) ?_ (by simp)))
    · intro p hp; exact hp
    · intro x hx
      rw [List.mem_singleton] at hx
      subst hx
      exact ⟨path_part 50 (by decide) (by decide), by decide +kernel⟩
    · intro p hp; exact .inr hp
  have c1 : cut (path 49 ++ snap) = path 49 := cut_snap (part_ne_nil (path_part 49 (by decide) (by decide)))
  have c2 : cut (walPath 0) = walPath 0 := cut_wal 0
  have f := Fetch.cons (p := path 49 ++ snap) (n := 3) (b := [7, 8, 9]) st (by decide +kernel)
    (.cons (p := walPath 0) (n := 0) (b := []) (.step .refl (.work (.append 0 0 [1, 2] (by decide +kernel) (by decide +kernel)))) (by decide +kernel) .nil)
  rw [c1, c2] at f
  exact f

/-- a backup that ends, and a second after it -/
example : One (drop (snapshot small 1).1 1) ∧ (drop (snapshot small 1).1 1).active = [] ∧ (snapshot (drop (snapshot small 1).1 1) 2).2.isSome := by
  refine ⟨.drop 1 (.snapshot 1 (.work .init small_work) rfl), ?_, by decide +kernel⟩
  have : (drop (snapshot small 1).1 1).active.map Bk.id = [] := by decide +kernel
  exact List.map_eq_nil_iff.1 this

end Verif.Backup
