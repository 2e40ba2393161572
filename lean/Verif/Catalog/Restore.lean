import Verif.Catalog.System
import Verif.Catalog.FileProofs
set_option linter.unusedSimpArgs false
set_option linter.unusedVariables false
set_option autoImplicit false
namespace Verif.Catalog
open Verif.Json (J enc skip peek clsOf readRaw readInteger readBool readObj readObjEnd readArray readArrayEnd)
open scoped Verif.Json
open Verif.Json.Text

/-! ## creating the objects of the file one by one -/

/-- the loop of `catalog_restore` over objects already read -/
def createAll {α : Type} (mk : Cat → α → R) : List α → Cat → Res Cat
  | [], c => .ok c
  | x :: l, c => (created (mk c x)).bind (createAll mk l)

theorem restoreLoop_enc {α : Type} {f : Bytes → Res (α × Bytes)} {mk : Cat → α → R} {w : α → J} {g : α → α} (rest : Bytes) : ∀ (l : List α) (c : Cat) (fuel : Nat), l.length < fuel →
    (∀ x ∈ l, ∀ r, f (encP (w x) ++ r) = .ok (g x, r)) → restoreLoop f mk fuel c (encPList (l.map w) ++ tARRAY_END :: rest) = createAll mk (l.map g) c
  | [], c, fuel, hl, _ => by
    obtain ⟨f, rfl⟩ : ∃ f, fuel = f + 1 := ⟨fuel - 1, by simp at hl; omega⟩
    rfl
  | x :: l, c, fuel, hl, hx => by
    obtain ⟨n, rfl⟩ : ∃ f, fuel = f + 1 := ⟨fuel - 1, by simp at hl; omega⟩
    have h3 : readArrayEnd (encP (w x) ++ (encPList (l.map w) ++ (tARRAY_END :: rest))) = .ok none := by
      obtain ⟨y, r, h, _, h2⟩ := encP_head (w x)
      simp [h, readArrayEnd, h2]
    simp only [List.map_cons, encPList, List.append_assoc, restoreLoop, createAll]
    rw [h3]
    simp only [Except.bind, Option.elim, hx x (by simp)]
    cases created (mk c (g x)) with
    | error e => rfl
    | ok c' => exact restoreLoop_enc rest l c' n (by simp at hl; omega) fun y hy => hx y (by simp [hy])

theorem restoreAll_enc {α : Type} {f : Bytes → Res (α × Bytes)} {mk : Cat → α → R} {w : α → J} {g : α → α} {l : List α}
    (h : ∀ x ∈ l, ∀ r, f (encP (w x) ++ r) = .ok (g x, r)) (c : Cat) (rest : Bytes) :
    restoreAll f mk c (encP (.arr (l.map w)) ++ rest) = createAll mk (l.map g) c := by
  unfold restoreAll
  simp only [encP, List.cons_append, List.append_assoc, List.nil_append, readArray, if_true, Except.bind]
  exact restoreLoop_enc rest l c _ (by have := encPList_len (l.map w); simp at this ⊢; omega) h

theorem createAll_append {α : Type} {mk : Cat → α → R} : ∀ (a b : List α) (c : Cat), createAll mk (a ++ b) c = (createAll mk a c).bind (createAll mk b)
  | [], _, _ => rfl
  | x :: a, b, c => by
    simp only [List.cons_append, createAll]
    cases created (mk c x) with
    | error e => rfl
    | ok c' => exact createAll_append a b c'

/-- a created object is a committed transaction of one statement -/
theorem reach_created {c : Cat} (h : Reach c) {e : Env} {s : Stmt} (hq : ReqOk s) {c' : Cat} (hc : created (exec e c s) = .ok c') : Reach c' := by
  unfold created at hc
  by_cases he : (exec e c s).reply = .error
  · rw [if_pos he] at hc; cases hc
  · rw [if_neg he] at hc
    cases hc
    have e1 : runTx [(e, s)] c = ⟨(exec e c s).cat, (exec e c s).log, .done⟩ := by
      show (exec e c s).next (fun c => (⟨c, [], .done⟩ : R)) = _
      unfold R.next
      rw [if_neg he]
      simp
    have := Reach.commit (l := [(e, s)]) h (fun x hx => by rw [List.mem_singleton.1 hx]; exact hq) (by rw [e1]; simp)
    rwa [e1] at this

def Stor.plain (s : Stor) : Stor := { s with oid := 0 }
def Db.plain (s : Db) : Db := { s with oid := 0 }

theorem find_none {α : Type} {l : List α} {p : α → Bool} (h : ∀ x ∈ l, p x = false) : ¬ (l.find? p).isSome = true := by
  rw [List.find?_isSome]
  rintro ⟨x, hx, e⟩
  rw [h x hx] at e; cases e

theorem stors_created : ∀ (l : List Stor) (c : Cat), Reach c → (∀ x ∈ l, x.system = false) → l.Pairwise (fun x y => same x.name y.name = false) →
    (∀ x ∈ l, ∀ y ∈ c.stors, same y.name x.name = false) →
    ∃ c', createAll (fun c s => storCreate c s false) l c = .ok c' ∧ Reach c' ∧
      c'.stors.map Stor.plain = c.stors.map Stor.plain ++ l.map Stor.plain ∧ c'.dbs = c.dbs ∧ c'.tabs = c.tabs ∧ c'.udfs = c.udfs
  | [], c, hr, _, _, _ => ⟨c, rfl, hr, by simp, rfl, rfl, rfl⟩
  | x :: l, c, hr, hs, hp, hn => by
    obtain ⟨hp1, hp2⟩ := List.pairwise_cons.1 hp
    have hno : ¬ (findStor c x.name).isSome = true := find_none fun y hy => hn x (by simp) y hy
    have e1 : storCreate c x false = ⟨{ bump c with stors := put c.stors { x with oid := c.next } }, [.newStor c.next], .done⟩ := by
      unfold storCreate; rw [if_neg hno]
    have e2 : created (storCreate c x false) = .ok { bump c with stors := put c.stors { x with oid := c.next } } := by
      unfold created; rw [e1]; rfl
    have hr' : Reach { bump c with stors := put c.stors { x with oid := c.next } } :=
      reach_created hr (e := ⟨fun _ => false, true, fun _ _ => none⟩) (s := .storCreate x false) (hs x (by simp)) e2
    obtain ⟨c', h1, h2, h3, h4, h5, h6⟩ := stors_created l _ hr' (fun y hy => hs y (by simp [hy])) hp2 (fun y hy z hz => by
      rcases List.mem_append.1 hz with hz | hz
      · exact hn y (by simp [hy]) z hz
      · rw [List.mem_singleton.1 hz]; exact hp1 y hy)
    refine ⟨c', ?_, h2, ?_, h4, h5, h6⟩
    · show (created (storCreate c x false)).bind _ = _
      rw [e2]; exact h1
    · rw [h3]
      show (put c.stors { x with oid := c.next }).map Stor.plain ++ _ = _
      simp [put, Stor.plain]

theorem dbs_created : ∀ (l : List Db) (c : Cat), Reach c → (∀ x ∈ l, x.system = false) → l.Pairwise (fun x y => same x.name y.name = false) →
    (∀ x ∈ l, ∀ y ∈ c.dbs, same y.name x.name = false) →
    ∃ c', createAll (fun c s => dbCreate c s false) l c = .ok c' ∧ Reach c' ∧
      c'.dbs.map Db.plain = c.dbs.map Db.plain ++ l.map Db.plain ∧ c'.stors = c.stors ∧ c'.tabs = c.tabs ∧ c'.udfs = c.udfs
  | [], c, hr, _, _, _ => ⟨c, rfl, hr, by simp, rfl, rfl, rfl⟩
  | x :: l, c, hr, hs, hp, hn => by
    obtain ⟨hp1, hp2⟩ := List.pairwise_cons.1 hp
    have hno : ¬ (findDb c x.name).isSome = true := find_none fun y hy => hn x (by simp) y hy
    have e1 : dbCreate c x false = ⟨{ bump c with dbs := put c.dbs { x with oid := c.next } }, [.newDb c.next], .done⟩ := by
      unfold dbCreate; rw [if_neg hno]
    have e2 : created (dbCreate c x false) = .ok { bump c with dbs := put c.dbs { x with oid := c.next } } := by
      unfold created; rw [e1]; rfl
    have hr' : Reach { bump c with dbs := put c.dbs { x with oid := c.next } } :=
      reach_created hr (e := ⟨fun _ => false, true, fun _ _ => none⟩) (s := .dbCreate x false) (hs x (by simp)) e2
    obtain ⟨c', h1, h2, h3, h4, h5, h6⟩ := dbs_created l _ hr' (fun y hy => hs y (by simp [hy])) hp2 (fun y hy z hz => by
      rcases List.mem_append.1 hz with hz | hz
      · exact hn y (by simp [hy]) z hz
      · rw [List.mem_singleton.1 hz]; exact hp1 y hy)
    refine ⟨c', ?_, h2, ?_, h4, h5, h6⟩
    · show (created (dbCreate c x false)).bind _ = _
      rw [e2]; exact h1
    · rw [h3]
      show (put c.dbs { x with oid := c.next }).map Db.plain ++ _ = _
      simp [put, Db.plain]

/-! tables -/

/-- what the file keeps of a table: no column was dropped, the sizes fit an `int` -/
structure TabKept (t : Tab) : Prop where
  cols : ∀ x ∈ t.cols, x.dropped = false
  parts : toInt t.parts = t.parts
  sizes : ∀ x ∈ t.tiers, toInt x.regionSize = x.regionSize ∧ toInt x.objectSize = x.objectSize

theorem map_renum {α β : Type} {f : Nat → α → α} {g : α → β} : ∀ {l : List α} (k : Nat), (∀ j, ∀ x ∈ l, g (f j x) = g x) →
    (renumber f k l).map g = l.map g
  | [], _, _ => rfl
  | x :: l, k, h => by
    simp only [renumber, List.map_cons, h k x (by simp)]
    rw [map_renum (k + 1) fun j y hy => h j y (by simp [hy])]

theorem volCopy_twice (l : List Vol) : (l.map volCopy).map volCopy = l.map volCopy := by
  rw [List.map_map]; exact List.map_congr_left fun x _ => rfl

theorem colPlain_copy {l : List Col} (h : ∀ x ∈ l, x.dropped = false) (k : Nat) :
    (renumber colCopy k l).map (fun x => ({ x with cid := 0 } : Col)) = l.map fun x => { x with cid := 0 } :=
  map_renum k fun j x hx => by
    have := h x hx
    unfold colCopy
    rw [← this]

theorem tabPlain_copy {t : Tab} (h : TabKept t) (o : Nat) : tabPlain (tabCopy o (tabPlain t)) = tabPlain t := by
  have e1 := colPlain_copy (l := t.cols.map fun x => { x with cid := 0 }) (fun x hx => by
    obtain ⟨y, hy, rfl⟩ := List.mem_map.1 hx; exact h.cols y hy) (o + 1)
  have e2 : (renumber idxCopy (o + 1) (t.idxs.map fun x => { x with iid := 0 })).map (fun x => ({ x with iid := 0 } : Idx)) =
      (t.idxs.map fun x => { x with iid := 0 }).map (fun x => ({ x with iid := 0 } : Idx)) := map_renum _ fun j x _ => rfl
  have e3 : (renumber tierCopy (o + 1) (t.tiers.map tierPlain)).map tierPlain = (t.tiers.map tierPlain).map tierPlain :=
    map_renum _ fun j x hx => by
      obtain ⟨y, hy, rfl⟩ := List.mem_map.1 hx
      obtain ⟨s1, s2⟩ := h.sizes y hy
      simp only [tierCopy, tierPlain, volCopy_twice, s1, s2]
  have e4 : (t.tiers.map tierPlain).map tierPlain = t.tiers.map tierPlain := by
    rw [List.map_map]
    refine List.map_congr_left fun x _ => ?_
    simp only [Function.comp, tierPlain, volCopy_twice]
  unfold tabCopy
  simp only [tabPlain, e1, e2, e3, e4, volCopy_twice, h.parts, List.map_map]
  rfl

/-- distinct names, as `tabCreate` wants them -/
def TabReq (t : Tab) : Prop := ReqOk (.tabCreate t false)

theorem tabReq_plain {t : Tab} (h : TabReq t) : TabReq (tabPlain t) := by
  obtain ⟨h1, h2, h3⟩ := h
  refine ⟨?_, ?_, ?_⟩
  · exact List.pairwise_map.2 h1
  · exact List.pairwise_map.2 h2
  · exact List.pairwise_map.2 h3

theorem tabs_created {e : Env} (ho : e.opens = true) : ∀ (l : List Tab) (c : Cat), Reach c → (∀ t ∈ l, TabReq t ∧ TabKept t) →
    l.Pairwise (fun x y => tabEq x y = false) → (∀ x ∈ l, ∀ y ∈ c.tabs, (same y.db x.db && same y.name x.name) = false) →
    ∃ c', createAll (fun c t => tabCreate e c t false) (l.map tabPlain) c = .ok c' ∧ Reach c' ∧
      c'.tabs.map tabPlain = c.tabs.map tabPlain ++ l.map tabPlain ∧ c'.stors = c.stors ∧ c'.dbs = c.dbs ∧ c'.udfs = c.udfs
  | [], c, hr, _, _, _ => ⟨c, rfl, hr, by simp, rfl, rfl, rfl⟩
  | t :: l, c, hr, hs, hp, hn => by
    obtain ⟨hp1, hp2⟩ := List.pairwise_cons.1 hp
    have hno : ¬ (findTab c t.db t.name).isSome = true := find_none fun y hy => hn t (by simp) y hy
    have e1 : tabCreate e c (tabPlain t) false = ⟨{ c with tabs := put c.tabs (tabCopy c.next (tabPlain t)), next := c.next + tabSpan (tabPlain t) },
        [.newTab c.next], .done⟩ := by
      unfold tabCreate
      rw [if_neg (show ¬ (findTab c (tabPlain t).db (tabPlain t).name).isSome = true from hno), ho]
      rfl
    have e2 : created (tabCreate e c (tabPlain t) false) = .ok { c with tabs := put c.tabs (tabCopy c.next (tabPlain t)), next := c.next + tabSpan (tabPlain t) } := by
      unfold created; rw [e1]; rfl
    have hr' := reach_created hr (e := e) (s := .tabCreate (tabPlain t) false) (tabReq_plain (hs t (by simp)).1) e2
    obtain ⟨c', h1, h2, h3, h4, h5, h6⟩ := tabs_created ho l _ hr' (fun y hy => hs y (by simp [hy])) hp2 (fun y hy z hz => by
      rcases List.mem_append.1 hz with hz | hz
      · exact hn y (by simp [hy]) z hz
      · rw [List.mem_singleton.1 hz]; exact hp1 y hy)
    refine ⟨c', ?_, h2, ?_, h4, h5, h6⟩
    · show (created (tabCreate e c (tabPlain t) false)).bind _ = _
      rw [e2]; exact h1
    · rw [h3]
      show (put c.tabs (tabCopy c.next (tabPlain t))).map tabPlain ++ _ = _
      simp [put, tabPlain_copy (hs t (by simp)).2]

/-! functions -/

theorem udfPlain_copy {u : Udf} (ha : ∀ x ∈ u.args, x.dropped = false) (hr : ∀ x ∈ u.returning, x.dropped = false) (o : Nat) :
    udfPlain (udfCopy o (udfPlain u)) = udfPlain u := by
  have e1 := colPlain_copy (l := u.args.map fun x => { x with cid := 0 }) (fun x hx => by
    obtain ⟨y, hy, rfl⟩ := List.mem_map.1 hx; exact ha y hy) (o + 1)
  have e2 := colPlain_copy (l := u.returning.map fun x => { x with cid := 0 }) (fun x hx => by
    obtain ⟨y, hy, rfl⟩ := List.mem_map.1 hx; exact hr y hy) (o + 1)
  unfold udfCopy
  simp only [udfPlain, e1, e2, List.map_map]
  rfl

theorem upd_map {α β : Type} [HasOid α] {l : List α} {o : Nat} {f : α → α} {g : α → β} (h : ∀ x, g (f x) = g x) : (upd l o f).map g = l.map g := by
  unfold upd
  rw [List.map_map]
  refine List.map_congr_left fun x _ => ?_
  simp only [Function.comp]
  split
  · exact h x
  · rfl

/-- the functions are compiled in the order of the file, each one after the tables and the functions before it -/
def Compiles (e : Env) (c : Cat) : Prop :=
  ∀ pre u post, c.udfs = pre ++ u :: post → ∀ c' u', c'.tabs.map tabPlain = c.tabs.map tabPlain → c'.udfs.map udfPlain = (pre ++ [u]).map udfPlain →
    udfPlain u' = udfPlain u → (e.compile c' u').isSome = true

theorem udfs_created {e : Env} (c0 : Cat) (hc : Compiles e c0) : ∀ (l pre : List Udf) (c : Cat), Reach c → c0.udfs = pre ++ l →
    c.tabs.map tabPlain = c0.tabs.map tabPlain → c.udfs.map udfPlain = pre.map udfPlain →
    (∀ u ∈ l, (∀ x ∈ u.args, x.dropped = false) ∧ ∀ x ∈ u.returning, x.dropped = false) →
    l.Pairwise (fun x y => udfEq x y = false) → (∀ x ∈ l, ∀ y ∈ c.udfs, (same y.db x.db && same y.name x.name) = false) →
    ∃ c', createAll (fun c u => udfCreate e c u) (l.map udfPlain) c = .ok c' ∧ Reach c' ∧
      c'.udfs.map udfPlain = c.udfs.map udfPlain ++ l.map udfPlain ∧ c'.stors = c.stors ∧ c'.dbs = c.dbs ∧ c'.tabs = c.tabs
  | [], pre, c, hr, _, _, _, _, _, _ => ⟨c, rfl, hr, by simp, rfl, rfl, rfl⟩
  | u :: l, pre, c, hr, h0, ht, hu, hs, hp, hn => by
    obtain ⟨hp1, hp2⟩ := List.pairwise_cons.1 hp
    have hno : ¬ (findUdf c u.db u.name).isSome = true := find_none fun y hy => hn u (by simp) y hy
    have hpl := udfPlain_copy (hs u (by simp)).1 (hs u (by simp)).2 c.next
    have hputs : (put c.udfs (udfCopy c.next (udfPlain u))).map udfPlain = (pre ++ [u]).map udfPlain := by
      simp [put, hpl, hu]
    obtain ⟨uses, huse⟩ := Option.isSome_iff_exists.1 (hc pre u l h0
      { c with udfs := put c.udfs (udfCopy c.next (udfPlain u)), next := c.next + udfSpan (udfPlain u) } (udfCopy c.next (udfPlain u)) ht hputs hpl)
    have e1 : udfCreate e c (udfPlain u) = ⟨{ c with udfs := upd (put c.udfs (udfCopy c.next (udfPlain u))) c.next (fun x => { x with uses := uses }), next := c.next + udfSpan (udfPlain u) },
        [.newUdf c.next], .done⟩ := by
      unfold udfCreate
      rw [if_neg (show ¬ (findUdf c (udfPlain u).db (udfPlain u).name).isSome = true from hno)]
      dsimp only
      rw [huse]
      rfl
    have e2 : created (udfCreate e c (udfPlain u)) = .ok { c with udfs := upd (put c.udfs (udfCopy c.next (udfPlain u))) c.next (fun x => { x with uses := uses }), next := c.next + udfSpan (udfPlain u) } := by
      unfold created; rw [e1]; rfl
    have hr' := reach_created hr (e := e) (s := .udfCreate (udfPlain u)) trivial e2
    have hmap : (upd (put c.udfs (udfCopy c.next (udfPlain u))) c.next (fun x => { x with uses := uses })).map udfPlain = (pre ++ [u]).map udfPlain := by
      rw [upd_map (f := fun x : Udf => { x with uses := uses }) (fun x => rfl)]; exact hputs
    obtain ⟨c', h1, h2, h3, h4, h5, h6⟩ := udfs_created c0 hc l (pre ++ [u]) _ hr' (by rw [h0]; simp) ht hmap (fun y hy => hs y (by simp [hy])) hp2 (fun y hy z hz => by
      obtain ⟨z', hz', rfl⟩ := mem_upd hz
      have key : (same z'.db y.db && same z'.name y.name) = false := by
        rcases List.mem_append.1 hz' with hz' | hz'
        · exact hn y (by simp [hy]) z' hz'
        · rw [List.mem_singleton.1 hz']; exact hp1 y hy
      split
      · exact key
      · exact key)
    refine ⟨c', ?_, h2, ?_, h4, h5, h6⟩
    · show (created (udfCreate e c (udfPlain u))).bind _ = _
      rw [e2]; exact h1
    · rw [h3]
      show (upd (put c.udfs (udfCopy c.next (udfPlain u))) c.next (fun x => { x with uses := uses })).map udfPlain ++ _ = _
      rw [hmap, hu]; simp

end Verif.Catalog
