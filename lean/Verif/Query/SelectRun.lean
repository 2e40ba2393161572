import Verif.Query.SelectGroup
/-!
# SELECT: running the plan
-/
set_option linter.unusedSimpArgs false
set_option linter.unusedVariables false
set_option autoImplicit false
namespace Verif.Query.Select
open Verif.Query
variable {R : Type}

/-- the first table is scanned through a tree index: a partition returns its rows in the order of the keys, and no two rows
have the same keys (keys of an index that is not unique end with the primary key, parse_index.c:84-86) -/
structure Indexed (w : World R) (f : From) (parts : List (List R)) : Prop where
  sorted : f.join = false → f.tree = true → ∀ l ∈ parts, l.Pairwise fun a b =>
    keysCompare (f.keys.map fun _ => true) (f.keys.map (w.col a)) (f.keys.map (w.col b)) < 0
  unique : f.join = false → f.tree = true → parts.flatten.Pairwise fun a b =>
    keysCompare (f.keys.map fun _ => true) (f.keys.map (w.col a)) (f.keys.map (w.col b)) ≠ 0

theorem scanRows_any {X : Type} (limit offset : Option Nat) (l : List X) :
    scanRows (limit.map fun (n : Nat) => (n : Int)) (offset.map fun (n : Nat) => (n : Int)) l = page limit (offset.getD 0) l := by
  cases offset with
  | some k => simp only [Option.map_some, Option.getD_some, scanRows_page]
  | none =>
    cases limit with
    | none => simp [scanRows_none, page]
    | some n =>
      have := scanRows_limit l n
      simp only [Option.map_some, Option.map_none, Option.getD_none, page, List.drop_zero, this]

theorem scanOver_page {X : Type} (q : Sel) (limit offset : Option Nat) (cond : Option Ex) (val : X → Ex → Val) (xs : List X) :
    scanOver q limit offset cond val xs =
      page limit (offset.getD 0) ((xs.filter fun x => holds cond (val x)).map fun x => q.emit (val x)) := by
  unfold scanOver
  rw [scanRows_any, page_map]

/-- the rows with the select list and the keys -/
def shown (w : World R) (s : Stmt) (rows : List R) : List Row :=
  (rows.filter fun r => decide (meets s.cond (w.src r))).map fun r => (retOf s (w.src r), sortKeys s (w.src r))

theorem scan_rows {s : Stmt} {q : Sel} (P : Parsed s) (N : NoShadow s) (h : Resolved s q) (A : Accepted q) (hg : s.grouped = false)
    (w : World R) (limit offset : Option Nat) (rows : List R) :
    scanOver q limit offset q.cond (rowVal w) rows = page limit (offset.getD 0) (shown w s rows) := by
  rw [scanOver_page]
  congr 1
  unfold shown
  have e : (rows.filter fun r => holds q.cond (rowVal w r)) = rows.filter fun r => decide (meets s.cond (w.src r)) :=
    List.filter_congr fun r _ => holds_row h A w r
  rw [e]
  exact List.map_congr_left fun r _ => emit_row P N h A hg w r

theorem shown_flatten (w : World R) (s : Stmt) : ∀ (parts : List (List R)),
    (parts.map (shown w s)).flatten = shown w s parts.flatten := by
  intro parts
  induction parts with
  | nil => rfl
  | cons p parts ih => simp only [List.map_cons, List.flatten_cons, ih]; simp [shown]

theorem shown_length (w : World R) (s : Stmt) (rows : List R) : (shown w s rows).length ≤ rows.length := by
  unfold shown; rw [List.length_map]; exact List.length_filter_le _ _

theorem partRegs_map {w : World R} {q : Sel} {cmds : List Cmd} {reg : List R → Reg} : ∀ (parts : List (List R)),
    (∀ rows ∈ parts, execAll w q rows [] cmds ⟨.none, []⟩ = .ok ⟨reg rows, []⟩) → partRegs w q cmds parts = .ok (parts.map reg) := by
  intro parts
  induction parts with
  | nil => intro _; rfl
  | cons p parts ih =>
    intro h
    simp only [partRegs, h p (by simp), ih fun r hr => h r (List.mem_cons_of_mem _ hr)]
    rfl

theorem setsOf_map (f : List R → List Row) (parts : List (List R)) : setsOf (parts.map fun rows => .set (f rows)) = parts.map f := by
  induction parts with
  | nil => rfl
  | cons p parts ih => simp [setsOf, ih]

theorem arranged_perm {s : Stmt} {rows rows' m : List Row} (hp : rows.Perm rows') (h : Arranged s rows m) : Arranged s rows' m := by
  unfold Arranged at *
  cases hd : s.distinct with
  | true =>
    rw [hd] at h
    simp only [if_true] at h ⊢
    exact ⟨h.order, fun r hr => hp.mem_iff.1 (h.from_rows r hr), fun r hr => h.complete r (hp.mem_iff.2 hr)⟩
  | false =>
    rw [hd] at h
    simp only [Bool.false_eq_true, if_false] at h ⊢
    exact ⟨h.1.trans hp, h.2⟩

theorem keys_laws (dirs : List Bool) : CmpOn (fun r : Row => RowOrdered r.2) (byKeys dirs Prod.snd) :=
  ⟨fun a b ha hb => (keysCompare_laws dirs).anti _ _ ha hb, fun a b c ha hb hc => (keysCompare_laws dirs).trans _ _ _ ha hb hc⟩

theorem RowPlain.ordered {r : List Val} (h : RowPlain r) : RowOrdered r := fun v hv => (h v hv).ordered

theorem keys_laws_plain (dirs : List Bool) : CmpOn (fun r : Row => RowPlain r.2) (byKeys dirs Prod.snd) :=
  ⟨fun a b ha hb => (keysCompare_laws dirs).anti _ _ (RowPlain.ordered ha) (RowPlain.ordered hb),
   fun a b c ha hb hc => (keysCompare_laws dirs).trans _ _ _ (RowPlain.ordered ha) (RowPlain.ordered hb) (RowPlain.ordered hc)⟩

theorem keys_normal (dirs : List Bool) : NormalOn (fun r : Row => RowPlain r.2) (byKeys dirs Prod.snd) := by
  intro a b ha hb hp
  have := keysCompare_small dirs a.2 b.2 ha hb
  unfold byKeys at hp ⊢
  rcases this with h | h | h
  · exact h
  · rw [h] at hp; exact absurd hp (by decide)
  · rw [h] at hp; exact absurd hp (by decide)

theorem Resolved.cmp {s : Stmt} {q : Sel} (h : Resolved s q) : q.cmp = byKeys (sortDirs s) Prod.snd := by
  unfold Sel.cmp; rw [order_dirs h]

theorem order_length {s : Stmt} {q : Sel} (h : Resolved s q) : q.order.length = s.orderKeys.length := by
  have := congrArg List.length (order_dirs h)
  rw [← orderKeys_dirs] at this
  simpa using this

/-- no order keys: neither DISTINCT nor ORDER BY -/
theorem order_empty {s : Stmt} {q : Sel} (P : Parsed s) (h : Resolved s q) (he : q.order.isEmpty = true) :
    s.distinct = false ∧ s.orderBy = [] := by
  have hl := order_length h
  have h0 : q.order = [] := by simpa using he
  rw [h0] at hl
  have hk : s.orderKeys = [] := List.length_eq_zero_iff.1 hl.symm
  unfold Stmt.orderKeys at hk
  cases hd : s.distinct with
  | true =>
    rw [hd] at hk
    simp only [if_true] at hk
    cases ho : s.distinctOn with
    | nil => rw [ho] at hk; simp only [List.isEmpty_nil, if_true, List.map_eq_nil_iff] at hk; exact absurd hk P.ret_some
    | cons a l => rw [ho] at hk; simp at hk
  | false => rw [hd] at hk; exact ⟨rfl, by simpa using hk⟩

theorem arranged_plain {s : Stmt} (hd : s.distinct = false) (ho : s.orderBy = []) {rows m : List Row} (hp : m.Perm rows) :
    Arranged s rows m := by
  unfold Arranged; rw [hd]
  simp only [Bool.false_eq_true, if_false]
  exact ⟨hp, fun h => absurd ho h⟩

theorem pushed_eval {q : Sel} (hl : ∀ n k, q.limit = some n → q.offset = some k → n + k < 2 ^ 63) :
    ((q.pushed.map Lim.eval).elim (.ok Option.none) fun (n : Res Nat) => n.map some) =
      .ok (q.limit.map fun (n : Nat) => n + q.offset.getD 0) := by
  unfold Sel.pushed
  cases hn : q.limit with
  | none => rfl
  | some n =>
    cases hk : q.offset with
    | none => rfl
    | some k =>
      simp only [Option.map_some, Option.elim_some, Lim.eval, Option.getD_some]
      rw [if_pos (hl n k hn hk)]
      rfl

theorem page_cut (limit : Option Nat) (offset : Nat) (l : List Row) :
    page (limit.map fun (n : Nat) => n + offset) 0 l = cut limit offset l := by
  cases limit <;> simp [page, cut]

/-- an answer from the arranged rows -/
theorem answer_plain {w : World R} {s : Stmt} (hg : s.grouped = false) {rows : List R} {m : List Row} {out : List (List Val)}
    (hm : Arranged s (shown w s rows) m) (ho : out = (page s.limit (s.offset.getD 0) m).map Prod.fst) : Answer w s rows out := by
  refine ⟨(rows.filter fun r => decide (meets s.cond (w.src r))).map w.src, m, ?_, ?_, ho⟩
  · unfold Sources; rw [hg]; simp only [Bool.false_eq_true, if_false]
  · rw [List.map_map]; exact hm

theorem matchKeys_vals (w : World R) (hw : ∀ r, CaseFree (w.col r)) : ∀ (order : List (Ex × Bool)) (keys : List Name),
    matchKeys order keys = true → order.map Prod.snd = keys.map (fun _ => true) ∧
      ∀ r, (order.map fun o => rowVal w r o.1) = keys.map (w.col r) := by
  intro order
  induction order with
  | nil => intro keys h; cases keys <;> simp_all [matchKeys]
  | cons o order ih =>
    intro keys h
    obtain ⟨e, asc⟩ := o
    cases keys with
    | nil => cases e <;> cases asc <;> simp [matchKeys] at h
    | cons k keys =>
      cases e <;> cases asc <;> simp only [matchKeys, Bool.and_eq_true] at h <;> try cases h
      rename_i n h1 h2
      obtain ⟨i1, i2⟩ := ih keys h2
      refine ⟨by simp [i1], ?_⟩
      intro r
      simp only [List.map_cons, rowVal, i2 r, List.cons.injEq, and_true]
      exact (hw r k n h1).symm

/-- rows that come in index order are in order of the keys -/
theorem index_sorted {s : Stmt} {q : Sel} (P : Parsed s) (N : NoShadow s) (h : Resolved s q) (A : Accepted q) (hg : s.grouped = false)
    {w : World R} (hw : ∀ r, CaseFree (w.col r)) {f : From} (hm : matchKeys q.order f.keys = true) {Rel : Int → Prop} {rows : List R}
    (hr : rows.Pairwise fun a b => Rel (keysCompare (f.keys.map fun _ => true) (f.keys.map (w.col a)) (f.keys.map (w.col b)))) :
    (shown w s rows).Pairwise fun a b => Rel (byKeys (sortDirs s) Prod.snd a b) := by
  obtain ⟨m1, m2⟩ := matchKeys_vals w hw _ _ hm
  have hd : sortDirs s = f.keys.map fun _ => true := by rw [← order_dirs h, m1]
  have hv : ∀ r, sortKeys s (w.src r) = f.keys.map (w.col r) := by
    intro r
    have := congrArg Prod.snd (emit_row P N h A hg w r)
    rw [← m2 r]
    exact this.symm
  unfold shown
  rw [List.pairwise_map]
  refine (hr.sublist List.filter_sublist).imp ?_
  intro a b hab
  unfold byKeys
  rw [hd]
  dsimp only
  rw [hv, hv]
  exact hab

theorem asc_of_lt {cmp : Row → Row → Int} {l : List Row} (h : l.Pairwise fun a b => cmp a b < 0) : Ascending cmp l := by
  unfold Ascending
  refine h.imp ?_
  intro a b h; omega

/-- a pushed-down SELECT without groups -/
theorem push_plain {s : Stmt} {q : Sel} (P : Parsed s) (N : NoShadow s) (h : Resolved s q) (A : Accepted q) (hg : s.grouped = false)
    {w : World R} (hw : ∀ r, CaseFree (w.col r)) {f : From} {parts : List (List R)} (hi : Indexed w f parts)
    (hsort : Sorter (sortDirs s) w.sort) (hk : ∀ r ∈ shown w s parts.flatten, RowPlain r.2)
    (hl : ∀ n k, s.limit = some n → s.offset = some k → n + k < 2 ^ 63) (hlen : parts.flatten.length + 1 < 2 ^ 63 - 1) :
    ∃ reg m, runParts w f q parts = .ok reg ∧ Arranged s (shown w s parts.flatten) m ∧
      ∀ rows, Shows q.cmp reg rows ↔ rows = page s.limit (s.offset.getD 0) m := by
  have hgq : (q.groupBy || !q.aggs.isEmpty) = false := by rw [h.grouped]; exact hg
  have hlen' : (parts.map (shown w s)).flatten.length + 1 < 2 ^ 63 - 1 := by
    rw [shown_flatten]; have := shown_length w s parts.flatten; omega
  have hmem : ∀ l ∈ parts.map (shown w s), ∀ r ∈ l, RowPlain r.2 := by
    intro l hl r hr
    refine hk r ?_
    rw [← shown_flatten]
    exact List.mem_flatten.2 ⟨l, hl, hr⟩
  have hexec : ∀ o rows, execAll w q rows [] [.scan o q.pushed none q.cond false] ⟨.none, []⟩ =
      .ok ⟨.set (cut s.limit (s.offset.getD 0) (shown w s rows)), []⟩ := by
    intro o rows
    simp only [execAll, exec]
    rw [pushed_eval (by rw [h.limit, h.offset]; exact hl)]
    simp only [Bool.false_eq_true, if_false]
    rw [h.limit, h.offset, ← page_cut]
    have e := scan_rows P N h A hg w (s.limit.map fun (n : Nat) => n + s.offset.getD 0) none rows
    simp only [Option.getD_none] at e
    rw [← e]
    rfl
  by_cases ho : q.order.isEmpty = true
  · obtain ⟨hd, hob⟩ := order_empty P h ho
    obtain ⟨m, h1, h2⟩ := all_cut q.cmp (parts.map (shown w s)) s.limit s.offset hlen'
    refine ⟨.union .all s.limit (s.offset.getD 0) (parts.map fun rows => cut s.limit (s.offset.getD 0) (shown w s rows)), m, ?_,
      arranged_plain hd hob (by rw [← shown_flatten]; exact h1), ?_⟩
    · unfold runParts planPushdown
      simp only [hgq, ho, Bool.false_eq_true, if_false, if_true]
      rw [partRegs_map parts fun rows _ => hexec false rows]
      show (execAll w q [] (parts.map fun rows => Reg.set (cut s.limit (s.offset.getD 0) (shown w s rows))) [.recv false] ⟨.none, []⟩).map St.r = _
      simp only [execAll, exec, setsOf_map, h.limit, h.offset, Bool.false_eq_true, if_false]
      rfl
    · intro rows
      have := h2 rows
      rw [List.map_map] at this
      exact this
  · by_cases hx : (!f.join && f.tree && matchKeys q.order f.keys) = true
    · have hx' := hx
      simp only [Bool.and_eq_true, Bool.not_eq_true'] at hx'
      obtain ⟨⟨x1, x2⟩, x3⟩ := hx'
      have hs : ∀ l ∈ parts.map (shown w s), Ascending (byKeys (sortDirs s) Prod.snd) l := by
        intro l hl
        obtain ⟨rows, hr, rfl⟩ := List.mem_map.1 hl
        exact asc_of_lt (index_sorted (Rel := fun i => i < 0) P N h A hg hw x3 (hi.sorted x1 x2 rows hr))
      have hne : (parts.map (shown w s)).flatten.Pairwise fun a b => byKeys (sortDirs s) Prod.snd a b ≠ 0 := by
        rw [shown_flatten]
        exact index_sorted (Rel := fun i => i ≠ 0) P N h A hg hw x3 (hi.unique x1 x2)
      have hrun : runParts w f q parts = .ok (.union (if s.distinct then .distinct else .ordered) s.limit (s.offset.getD 0)
          (parts.map fun rows => cut s.limit (s.offset.getD 0) (shown w s rows))) := by
        unfold runParts planPushdown
        simp only [hgq, ho, hx, Bool.false_eq_true, if_false, if_true]
        rw [partRegs_map parts fun rows _ => hexec true rows]
        show (execAll w q [] (parts.map fun rows => Reg.set (cut s.limit (s.offset.getD 0) (shown w s rows))) [.recv true] ⟨.none, []⟩).map St.r = _
        simp only [execAll, exec, setsOf_map, h.limit, h.offset, h.distinct, if_true]
        rfl
      rw [h.cmp]
      cases hd : s.distinct with
      | true =>
        obtain ⟨m, h1, h2⟩ := distinct_cut (keys_laws_plain _) (keys_normal _) _ hmem hs hne s.limit s.offset hlen'
        refine ⟨_, m, hrun, ?_, ?_⟩
        · unfold Arranged; rw [hd]; simp only [if_true]; rw [← shown_flatten]; exact h1
        · intro rows
          have := h2 rows
          rw [List.map_map] at this
          rw [hd]
          exact this
      | false =>
        obtain ⟨m, h1, h2, h3⟩ := ordered_cut (keys_laws_plain _) (keys_normal _) _ hmem hs s.limit s.offset hlen'
        refine ⟨_, m, hrun, ?_, ?_⟩
        · unfold Arranged; rw [hd]; simp only [Bool.false_eq_true, if_false]; rw [← shown_flatten]; exact ⟨h1, fun _ => h2⟩
        · intro rows
          have := h3 rows
          rw [List.map_map] at this
          rw [hd]
          exact this
    · have hord : ∀ rows ∈ parts, ∀ r ∈ shown w s rows, RowPlain r.2 :=
        fun rows hr => hmem _ (List.mem_map_of_mem hr)
      have hsrt : ∀ rows ∈ parts, (w.sort (shown w s rows)).Perm (shown w s rows) ∧
          Ascending (byKeys (sortDirs s) Prod.snd) (w.sort (shown w s rows)) :=
        fun rows hr => hsort _ fun r hr' => RowPlain.ordered (hord rows hr r hr')
      have hperm : ∀ (ps : List (List R)), (∀ rows ∈ ps, rows ∈ parts) →
          (ps.map fun rows => w.sort (shown w s rows)).flatten.Perm (ps.map (shown w s)).flatten := by
        intro ps
        induction ps with
        | nil => intro _; exact .refl _
        | cons p ps ih =>
          intro hps
          simp only [List.map_cons, List.flatten_cons]
          exact (hsrt p (hps p (by simp))).1.append (ih fun r hr => hps r (List.mem_cons_of_mem _ hr))
      have hp := hperm parts fun _ h => h
      have hs : ∀ l ∈ parts.map fun rows => w.sort (shown w s rows), Ascending (byKeys (sortDirs s) Prod.snd) l := by
        intro l hl
        obtain ⟨rows, hr, rfl⟩ := List.mem_map.1 hl
        exact (hsrt rows hr).2
      have hmem2 : ∀ l ∈ parts.map fun rows => w.sort (shown w s rows), ∀ r ∈ l, RowPlain r.2 := by
        intro l hl r hr
        obtain ⟨rows, hr', rfl⟩ := List.mem_map.1 hl
        exact hord rows hr' r ((hsrt rows hr').1.mem_iff.1 hr)
      have hlen2 : (parts.map fun rows => w.sort (shown w s rows)).flatten.length + 1 < 2 ^ 63 - 1 := by
        rw [hp.length_eq]; exact hlen'
      have hrun : runParts w f q parts = .ok (.union (if s.distinct then .distinct else .ordered) s.limit (s.offset.getD 0)
          (parts.map fun rows => w.sort (shown w s rows))) := by
        unfold runParts planPushdown
        simp only [hgq, ho, hx, Bool.false_eq_true, if_false]
        rw [partRegs_map (reg := fun rows => .set (w.sort (shown w s rows))) parts (by
          intro rows _
          simp only [execAll, exec, Option.map_none, Option.elim_none]
          simp only [Bool.false_eq_true, if_false, Except.map, Except.bind]
          rw [scan_rows P N h A hg]
          simp [page])]
        show (execAll w q [] (parts.map fun rows => Reg.set (w.sort (shown w s rows))) [.recv true] ⟨.none, []⟩).map St.r = _
        simp only [execAll, exec, setsOf_map, h.limit, h.offset, h.distinct, if_true]
        rfl
      rw [h.cmp]
      cases hd : s.distinct with
      | true =>
        obtain ⟨m, h1, h2⟩ := distinct_full (keys_laws_plain _) (keys_normal _) _ hmem2 hs s.limit (s.offset.getD 0) hlen2
        refine ⟨_, m, hrun, ?_, ?_⟩
        · rw [← shown_flatten]
          refine arranged_perm hp ?_
          unfold Arranged; rw [hd]; exact h1
        · intro rows; rw [hd]; exact h2 rows
      | false =>
        obtain ⟨m, h1, h2, h3⟩ := ordered_full (keys_laws_plain _) (keys_normal _) _ hmem2 hs s.limit (s.offset.getD 0) hlen2
        refine ⟨_, m, hrun, ?_, ?_⟩
        · rw [← shown_flatten]
          refine arranged_perm hp ?_
          unfold Arranged; rw [hd]; simp only [Bool.false_eq_true, if_false]; exact ⟨h1, fun _ => h2⟩
        · intro rows; rw [hd]; exact h3 rows

end Verif.Query.Select
