import Verif.Index.HashResize
import Verif.Index.Props
/-!
# Hash index: C12, C13

The claims fail in general; the `_false` theorems are histories of the modelled code with the hash function of the
code (murmur3, seed 0) on 8-byte integer keys.
-/
set_option linter.unusedSimpArgs false
namespace Verif.Index.Hash
open Verif.Index (lookup others CmpLaws cmpKeyInt cmpKeyInt_laws TableRow rowCmp rowCmp_laws)
variable {R : Type}

/-! ## The hash of a row -/

/-- row_hash of a row with one int64 key column, db/row/row.h:106-124 -/
def hashKeyInt (r : Int × Nat) : Nat := Row.murmur (leBytes 8 (toUnsigned 64 r.1)) 0

theorem hashKeyInt_ok : HashOk hashKeyInt cmpKeyInt := by
  intro a b h
  have : a.1 = b.1 := by
    simp only [cmpKeyInt, Json.cmpInt] at h
    split at h <;> (try split at h) <;> omega
  simp [hashKeyInt, this]

/-- row_hash(row, keys) of a stored row (always defined, C41) -/
def rowHashOf (schema : List Row.Column) (keys : List Row.Key) (a : TableRow schema) : Nat :=
  match Row.rowHash keys a.1 0 with
  | .ok n => n
  | .error _ => 0

theorem valueHashBytes_narrow (ty : Row.Ty) (hk : Row.KeyTy ty) (v : Row.Val) :
    Row.valueHashBytes ty (Row.narrow ty v) = Row.valueHashBytes ty v := by
  rcases hk with rfl | rfl | rfl | rfl | rfl <;> cases v <;> simp only [Row.narrow]
  rename_i i
  simp only [Row.valueHashBytes, Row.Ty.size, if_true]
  congr 2
  unfold toUnsigned
  have : Int.bmod i 4294967296 % ((2 ^ 32 : Nat) : Int) = i % ((2 ^ 32 : Nat) : Int) := by
    have := Int.bmod_emod (x := i) (m := 4294967296)
    simpa using this
  rw [this]

theorem valueHashKeys_narrow (keys : List Row.Key) (hk : ∀ k ∈ keys, Row.KeyTy k.ty) :
    ∀ (xs ys : List Row.Val) (seed : Nat), xs.length = keys.length → ys.length = keys.length →
    Row.narrowKeys keys xs = Row.narrowKeys keys ys → Row.valueHashKeys keys xs seed = Row.valueHashKeys keys ys seed := by
  induction keys with
  | nil => intro xs ys seed _ _ _; rfl
  | cons k ks ih =>
    intro xs ys seed hx hy h
    cases xs with
    | nil => simp at hx
    | cons x xs =>
      cases ys with
      | nil => simp at hy
      | cons y ys =>
        simp only [Row.narrowKeys, List.zip_cons_cons, List.map_cons, List.cons.injEq] at h
        have e : Row.valueHashBytes k.ty x = Row.valueHashBytes k.ty y := by
          rw [← valueHashBytes_narrow k.ty (hk k (by simp)) x, ← valueHashBytes_narrow k.ty (hk k (by simp)) y, h.1]
        simp only [Row.valueHashKeys, e]
        cases Row.valueHashBytes k.ty y with
        | error e => rfl
        | ok b => exact ih (fun k' h' => hk k' (by simp [h'])) xs ys _ (by simpa using hx) (by simpa using hy) h.2

theorem rowHashOf_ok (schema : List Row.Column) (keys : List Row.Key) (hk : Row.KeysOf schema keys) :
    HashOk (rowHashOf schema keys) (rowCmp schema keys) := by
  intro a b h
  obtain ⟨xs, ha⟩ := a.2
  obtain ⟨ys, hb⟩ := b.2
  have ka := Row.keyRow_stored schema keys hk xs a.1 ha
  have kb := Row.keyRow_stored schema keys hk ys b.1 hb
  have hc := Row.compare_eq keys _ _ a.1 b.1 ka kb
  simp only [rowCmp, hc] at h
  have h := (Row.keyOrder_eq_iff keys _ _ a.1 b.1 ka kb).1 ((Json.ordInt_zero _).1 h)
  obtain ⟨n, h1, h2⟩ := Row.rowHash_eq keys _ _ ka 0
  obtain ⟨n', h1', h2'⟩ := Row.rowHash_eq keys _ _ kb 0
  have e := valueHashKeys_narrow keys (fun k hk' => (hk k hk').1) (Row.keyVals keys xs) (Row.keyVals keys ys) 0
    (by simp [Row.keyVals]) (by simp [Row.keyVals]) h
  rw [h2, h2'] at e
  simp only [Except.ok.injEq] at e
  simp only [rowHashOf, h1, h1', e]

/-! ## C12 -/

/-- **C12** (part): on a new hash index, any history with at most 128 inserting operations (so no resize), where a row
is stored by replace_by over an *existing* key only while nothing has been deleted yet, and where cursor updates keep
the key, never fails and shows exactly what a map from keys to rows shows. Missing, and false: replacing an existing
key after a delete (`C12_replace_after_delete_false`), resize (`C12_resize_false`), unbounded deletes
(`C12_overflow_false`). -/
theorem C12_map_partial (hash : R → Nat) (cmp : R → R → Int) (L : CmpLaws cmp)
    (H : ∀ a b, cmp a b = 0 → hash a = hash b) (ops : List (HOp R))
    (hsmall : (ops.filter HOp.inserts).length ≤ 128)
    (hrepl : ∀ a k b, ops = a ++ .replace k :: b →
      (∀ op ∈ a, op.deletes = false) ∨ ∀ outs m, SpecRun cmp [] a outs m → lookup cmp m k = none)
    (hupd : ∀ k r, .update k r ∈ ops → cmp r k = 0) :
    ∃ outs h m, run hash cmp Hash.create ops = .ok (outs, h) ∧ SpecRun cmp [] ops outs m := by
  obtain ⟨os, h, m, h1, h2, _⟩ := run_good L H ops [] [] [] Hash.create (.nil _) (good_init hash cmp)
    hsmall (by
      intro a k b hab
      rcases hrepl a k b hab with h | h
      · left
        rw [List.any_eq_false]
        intro op ho; simp [h op ho]
      · exact .inr h) hupd
  exact ⟨os, h, m, h1, h2⟩

/-- **C12** (part) for tables: rows of any schema with any key columns (integer, timestamp, uuid, text), the modelled
row hash and key comparison. -/
theorem C12_table_index_partial (schema : List Row.Column) (keys : List Row.Key) (hk : Row.KeysOf schema keys)
    (ops : List (HOp (TableRow schema))) (hsmall : (ops.filter HOp.inserts).length ≤ 128)
    (hrepl : ∀ a k b, ops = a ++ .replace k :: b →
      (∀ op ∈ a, op.deletes = false) ∨ ∀ outs m, SpecRun (rowCmp schema keys) [] a outs m →
        lookup (rowCmp schema keys) m k = none)
    (hupd : ∀ k r, .update k r ∈ ops → rowCmp schema keys r k = 0) :
    ∃ outs h m, run (rowHashOf schema keys) (rowCmp schema keys) Hash.create ops = .ok (outs, h) ∧
      SpecRun (rowCmp schema keys) [] ops outs m :=
  C12_map_partial _ _ (rowCmp_laws schema keys hk) (rowHashOf_ok schema keys hk) ops hsmall hrepl hupd

/-- rows seen by the caller -/
def outputs (o : Except HErr (List (HOut (Int × Nat)) × Hash (Int × Nat))) : List (HOut (Int × Nat)) :=
  match o with
  | .ok (os, _) => os
  | .error _ => []

/-- keys 5 and 9 have the same home slot (247): a history that meets the hypotheses of `C12_map_partial`, with a
collision, a replacement, a cursor update, a delete and a re-insert -/
def sampleOps : List (HOp (Int × Nat)) :=
  [.upsert (5, 1), .upsert (9, 2), .replace (9, 3), .upsert (9, 4), .remove (5, 0), .lookup (9, 0), .update (9, 0) (9, 7),
    .lookup (9, 0), .upsert (5, 5), .scan]

example : outputs (run hashKeyInt cmpKeyInt Hash.create sampleOps) =
    [.existed false (some (5, 1)), .existed false (some (9, 2)), .row (some (9, 2)), .existed true (some (9, 3)),
     .row (some (5, 1)), .row (some (9, 3)), .row (some (9, 3)), .row (some (9, 7)), .existed false (some (5, 5)),
     .rows [(9, 7), (5, 5)]] := by decide +kernel

example : (sampleOps.filter HOp.inserts).length ≤ 128 ∧
    (∀ a k b, sampleOps = a ++ .replace k :: b → ∀ op ∈ a, op.deletes = false) ∧
    (∀ k r, HOp.update k r ∈ sampleOps → cmpKeyInt r k = 0) := by
  refine ⟨by decide, ?_, ?_⟩
  · intro a k b h
    rcases a with _ | ⟨x1, _ | ⟨x2, _ | ⟨x3, _ | ⟨x4, _ | ⟨x5, _ | ⟨x6, _ | ⟨x7, _ | ⟨x8, _ | ⟨x9, _ | ⟨x10, a⟩⟩⟩⟩⟩⟩⟩⟩⟩⟩ <;>
      simp [sampleOps] at h
    obtain ⟨rfl, rfl, rfl, rfl⟩ := h
    intro op hop
    simp at hop
    rcases hop with rfl | rfl <;> rfl
  · intro k r h
    simp [sampleOps] at h
    obtain ⟨rfl, rfl⟩ := h
    decide

/-- the outputs of a map, computed; scans (not determined by the map) are skipped -/
def specOuts (cmp : R → R → Int) : List R → List (HOp R) → List (HOut R)
  | _, [] => []
  | m, .upsert r :: ops =>
    match lookup cmp m r with
    | none => .existed false (some r) :: specOuts cmp (r :: m) ops
    | some y => .existed true (some y) :: specOuts cmp m ops
  | m, .replace r :: ops => .row (lookup cmp m r) :: specOuts cmp (r :: others cmp m r) ops
  | m, .delete r :: ops => .row (lookup cmp m r) :: specOuts cmp (others cmp m r) ops
  | m, .lookup r :: ops => .row (lookup cmp m r) :: specOuts cmp m ops
  | m, .update k r :: ops =>
    match lookup cmp m k with
    | none => .row none :: specOuts cmp m ops
    | some y => .row (some y) :: specOuts cmp (r :: others cmp m k) ops
  | m, .remove r :: ops => .row (lookup cmp m r) :: specOuts cmp (others cmp m r) ops
  | m, .scan :: ops => .rows m :: specOuts cmp m ops

theorem specOuts_eq {cmp : R → R → Int} {m m' : List R} {ops : List (HOp R)} {os : List (HOut R)}
    (h : SpecRun cmp m ops os m') (hn : ∀ op ∈ ops, op ≠ .scan) : os = specOuts cmp m ops := by
  induction h with
  | nil => rfl
  | cons h1 _ ih =>
    have ih := ih fun op ho => hn op (by simp [ho])
    cases h1 <;> simp_all [specOuts]

/-- **C12 fails**: keys 5 and 9 share their home slot. Store 5 and 9, delete 5, store 9 again (it takes the place of 5
and the old copy of 9 stays), delete 9: the key 9 is still found, with its old row. -/
theorem C12_replace_after_delete_false :
    ∃ (ops : List (HOp (Int × Nat))) (outs : List (HOut (Int × Nat))) (h : Hash (Int × Nat)),
      run hashKeyInt cmpKeyInt Hash.create ops = .ok (outs, h) ∧ ops.getLast? = some (.lookup (9, 0)) ∧
      outs.getLast? = some (.row (some (9, 20))) ∧ ops.dropLast.getLast? = some (.delete (9, 0)) ∧
      ∀ m, ¬ SpecRun cmpKeyInt [] ops outs m := by
  let ops : List (HOp (Int × Nat)) :=
    [.replace (5, 10), .replace (9, 20), .delete (5, 0), .replace (9, 30), .delete (9, 0), .lookup (9, 0)]
  have e : outputs (run hashKeyInt cmpKeyInt Hash.create ops) =
    [.row none, .row none, .row (some (5, 10)), .row none, .row (some (9, 30)), .row (some (9, 20))] := by decide +kernel
  cases hr : run hashKeyInt cmpKeyInt Hash.create ops with
  | error x => rw [hr] at e; simp [outputs] at e
  | ok p =>
    obtain ⟨os, h⟩ := p
    rw [hr] at e
    simp only [outputs] at e
    refine ⟨ops, os, h, hr, rfl, by rw [e]; rfl, rfl, ?_⟩
    intro m hm
    have := specOuts_eq hm (by decide)
    rw [e] at this
    revert this
    decide

/-- **C12 fails** during a resize: store the keys 2, 3, .., 130 (the 129th starts the resize, which moves the first
row out of the old table and leaves a NULL in its place); the row just stored under key 130 is not found. -/
theorem C12_resize_false :
    ∃ outs h, run hashKeyInt cmpKeyInt Hash.create
        ((List.range 129).map (fun (i : Nat) => HOp.replace (((i + 2 : Nat) : Int), i)) ++ [.lookup (130, 0)]) = .ok (outs, h) ∧
      outs.getLast? = some (.row none) ∧
      ∀ m, ¬ SpecRun cmpKeyInt [] ((List.range 129).map (fun (i : Nat) => HOp.replace (((i + 2 : Nat) : Int), i)) ++
        [.lookup (130, 0)]) outs m := by
  generalize hops : (List.range 129).map (fun (i : Nat) => HOp.replace (((i + 2 : Nat) : Int), i)) ++ [.lookup (130, 0)] = ops
  have e : (outputs (run hashKeyInt cmpKeyInt Hash.create ops)).getLast? = some (.row none) := by
    subst hops; decide +kernel
  have e2 : (specOuts cmpKeyInt [] ops).getLast? = some (.row (some (130, 128))) := by subst hops; decide +kernel
  cases hr : run hashKeyInt cmpKeyInt Hash.create ops with
  | error x => rw [hr] at e; simp [outputs] at e
  | ok p =>
    obtain ⟨os, h⟩ := p
    rw [hr] at e
    simp only [outputs] at e
    refine ⟨os, h, rfl, e, ?_⟩
    intro m hm
    have := specOuts_eq hm (by subst hops; simp; rintro op (⟨a, _, rfl⟩ | rfl) <;> simp)
    rw [← this, e] at e2
    simp at e2

/-- **C12 fails** at a resize caused by an upsert: the cursor returned for the stored row points into the wrong table. -/
theorem C12_upsert_cursor_false :
    ∃ outs h, run hashKeyInt cmpKeyInt Hash.create
        ((List.range 129).map (fun (i : Nat) => HOp.upsert (((i : Nat) : Int), i))) = .ok (outs, h) ∧
      outs.getLast? = some (.existed false none) := by
  have e : (outputs (run hashKeyInt cmpKeyInt Hash.create
      ((List.range 129).map (fun (i : Nat) => HOp.upsert (((i : Nat) : Int), i))))).getLast? =
      some (.existed false none) := by decide +kernel
  cases hr : run hashKeyInt cmpKeyInt Hash.create
      ((List.range 129).map (fun (i : Nat) => HOp.upsert (((i : Nat) : Int), i))) with
  | error x => rw [hr] at e; simp [outputs] at e
  | ok p => rw [hr] at e; exact ⟨p.1, p.2, rfl, e⟩

/-! ### what holds through resizes -/

/-- a map whose lookups may miss a stored row, but never show a wrong one -/
inductive MissStep (cmp : R → R → Int) (m : List R) : HOp R → HOut R → List R → Prop
  | replace (r : R) : MissStep cmp m (.replace r) (.row (lookup cmp m r)) (r :: others cmp m r)
  | hit (r y : R) : lookup cmp m r = some y → MissStep cmp m (.lookup r) (.row (some y)) m
  | miss (r : R) : MissStep cmp m (.lookup r) (.row none) m
  | scan (l : List R) : l.Perm m → MissStep cmp m .scan (.rows l) m

inductive MissRun (cmp : R → R → Int) : List R → List (HOp R) → List (HOut R) → List R → Prop
  | nil (m : List R) : MissRun cmp m [] [] m
  | cons {m m' m'' : List R} {op : HOp R} {o : HOut R} {ops : List (HOp R)} {os : List (HOut R)} :
      MissStep cmp m op o m' → MissRun cmp m' ops os m'' → MissRun cmp m (op :: ops) (o :: os) m''

/-- the key of a replace is either not stored, or a lookup right before would find it -/
def Findable (hash : R → Nat) (cmp : R → R → Int) (h : Hash R) (op : HOp R) : Prop :=
  ∀ k, op = .replace k → (∀ r ∈ Hash.scan h, cmp r k ≠ 0) ∨ ∃ y, step hash cmp h (.lookup k) = .ok (.row (some y), h)

theorem miss_run {hash : R → Nat} {cmp : R → R → Int} (L : CmpLaws cmp) (H : HashOk hash cmp) : ∀ (ops : List (HOp R)) (m : List R) (h : Hash R),
    Roomy hash cmp m h → (∀ op ∈ ops, (∃ k, op = .replace k) ∨ (∃ k, op = .lookup k) ∨ op = .scan) →
    (∀ a op b outs h', ops = a ++ op :: b → run hash cmp h a = .ok (outs, h') → Findable hash cmp h' op) →
    ∃ outs h' m', run hash cmp h ops = .ok (outs, h') ∧ MissRun cmp m ops outs m' ∧ Roomy hash cmp m' h' := by
  intro ops
  induction ops with
  | nil => intro m h G _ _; exact ⟨[], h, m, rfl, .nil m, G⟩
  | cons op ops ih =>
    intro m h G hk hf
    have key : ∃ o h1 m1, step hash cmp h op = .ok (o, h1) ∧ MissStep cmp m op o m1 ∧ Roomy hash cmp m1 h1 := by
      rcases hk op (by simp) with ⟨k, rfl⟩ | ⟨k, rfl⟩ | rfl
      · have h0 := hf [] (.replace k) ops [] h rfl rfl k rfl
        obtain ⟨h1, a, b⟩ := replace_ok L H G k (by
          rcases h0 with h0 | h0
          · left
            intro r hr
            exact h0 r ((scan_ok L H G).mem_iff.2 (G.perm.mem_iff.2 hr))
          · exact .inr h0)
        exact ⟨_, h1, _, a, .replace k, b⟩
      · obtain ⟨o, a, b, _⟩ := lookup_ok L H G k
        cases o with
        | none => exact ⟨_, h, m, a, .miss k, G⟩
        | some y => exact ⟨_, h, m, a, .hit k y (b y rfl), G⟩
      · exact ⟨_, h, m, rfl, .scan _ (scan_ok L H G), G⟩
    obtain ⟨o, h1, m1, a, b, c⟩ := key
    obtain ⟨os, h2, m2, d, e, g⟩ := ih m1 h1 c (fun op ho => hk op (by simp [ho])) (by
      intro x op' y outs h' e1 e2
      refine hf (op :: x) op' y (o :: outs) h' (by rw [e1]; rfl) ?_
      simp only [run, a, e2])
    exact ⟨o :: os, h2, m2, by simp only [run, a, d], .cons b e, g⟩

/-- **C12** (part), through any number of resizes: for any history, of any length, that stores rows whose key is new or is found by a lookup right
before, the index never fails, every scan shows exactly the rows of the map, every replace reports the replaced row, a lookup never shows a wrong row,
and whenever no resize is going on every lookup is right. Missing, and false: lookups during a resize (`C12_resize_false`), and deletes. -/
theorem C12_resize_partial (hash : R → Nat) (cmp : R → R → Int) (L : CmpLaws cmp)
    (H : ∀ a b, cmp a b = 0 → hash a = hash b) (ops : List (HOp R))
    (hops : ∀ op ∈ ops, (∃ k, op = .replace k) ∨ (∃ k, op = .lookup k) ∨ op = .scan)
    (hfind : ∀ a op b outs h, ops = a ++ op :: b → run hash cmp Hash.create a = .ok (outs, h) → Findable hash cmp h op) :
    ∃ outs h m, run hash cmp Hash.create ops = .ok (outs, h) ∧ MissRun cmp [] ops outs m ∧ (Hash.scan h).Perm m ∧
      (h.prev = none → ∀ k, step hash cmp h (.lookup k) = .ok (.row (lookup cmp m k), h)) := by
  obtain ⟨outs, h, m, a, b, c⟩ := miss_run L H ops [] Hash.create (roomy_init L H) hops hfind
  refine ⟨outs, h, m, a, b, scan_ok L H c, fun hp k => ?_⟩
  obtain ⟨o, d, _, e⟩ := lookup_ok L H c k
  rw [d, e hp]

/-- new keys: a bulk load meets the hypotheses -/
theorem C12_load_partial (hash : R → Nat) (cmp : R → R → Int) (L : CmpLaws cmp)
    (H : ∀ a b, cmp a b = 0 → hash a = hash b) (rows : List R) (hd : rows.Pairwise fun a b => cmp a b ≠ 0) :
    ∃ outs h, run hash cmp Hash.create (rows.map .replace) = .ok (outs, h) ∧ (Hash.scan h).Perm rows ∧
      (h.prev = none → ∀ k, step hash cmp h (.lookup k) = .ok (.row (lookup cmp rows k), h)) := by
  have key : ∀ (rows : List R) (m : List R) (h : Hash R), Roomy hash cmp m h → (rows ++ m).Pairwise (fun a b => cmp a b ≠ 0) →
      ∃ outs h' m', run hash cmp h (rows.map .replace) = .ok (outs, h') ∧ Roomy hash cmp m' h' ∧ m'.Perm (rows ++ m) := by
    intro rows
    induction rows with
    | nil => intro m h G _; exact ⟨[], h, m, rfl, G, List.Perm.refl _⟩
    | cons r rows ih =>
      intro m h G hd
      rw [List.cons_append, List.pairwise_cons] at hd
      have hno : ∀ x ∈ m, cmp x r ≠ 0 := fun x hx h0 => hd.1 x (by simp [hx]) (L.symm h0)
      obtain ⟨h1, a, b⟩ := replace_ok L H G r (.inl fun x hx => hno x (G.perm.mem_iff.2 hx))
      rw [others_self L H hno] at b
      obtain ⟨outs, h', m', c, d, e⟩ := ih (r :: m) h1 b (uniq_perm L List.perm_middle.symm (by
        exact List.pairwise_cons.2 hd))
      refine ⟨.row (lookup cmp m r) :: outs, h', m', ?_, d, e.trans List.perm_middle⟩
      simp only [List.map_cons, run, a, c]
  obtain ⟨outs, h, m, a, b, c⟩ := key rows [] Hash.create (roomy_init L H) (by simpa using hd)
  rw [List.append_nil] at c
  refine ⟨outs, h, a, (scan_ok L H b).trans c, fun hp k => ?_⟩
  obtain ⟨o, d, _, e⟩ := lookup_ok L H b k
  rw [d, e hp]
  congr 3
  -- the lookup does not depend on the order
  cases hl : lookup cmp rows k with
  | none =>
    refine lookup_absent c ?_
    intro r hr
    simpa using List.find?_eq_none.1 hl r hr
  | some y =>
    have h1 := List.mem_of_find?_eq_some hl
    have h2 := List.find?_some hl
    exact lookup_unique L c hd h1 (by simpa using h2)

/-- 258 rows: a resize has been completed; the keys differ -/
example : ((List.range 258).map (fun (i : Nat) => ((i : Int), i))).Pairwise (fun a b => cmpKeyInt a b ≠ 0) ∧
    (match run hashKeyInt cmpKeyInt Hash.create (((List.range 258).map (fun (i : Nat) => ((i : Int), i))).map .replace) with
      | .ok (_, h) => h.prev.isNone && h.current.size == 512 | .error _ => false) = true := by
  refine ⟨by decide +kernel, by decide +kernel⟩

/-- during a resize: the key 77 is in the old table, a lookup finds it, and the replace reports it and leaves one row with the key -/
example : (match run hashKeyInt cmpKeyInt Hash.create ((List.range 135).map (fun (i : Nat) => HOp.replace ((i : Int), i)) ++
      [.lookup (77, 0), .replace (77, 1000), .lookup (77, 0), .scan]) with
    | .ok (os, h) => (if h.prev.isSome then os.drop 135 else []).map (fun o => match o with
        | .row (some r) => [r] | .rows l => l.filter (fun r => r.1 == 77) | _ => [])
    | .error _ => []) = [[(77, 77)], [(77, 77)], [(77, 1000)], [(77, 1000)]] := by decide +kernel

/-! ### tombstones exhaust the table -/

theorem probe_set {stop : Slot R → Bool} {slots : List (Slot R)} {start : Nat} {x : Slot R} (hx : stop x = true) :
    ∀ (n d pos : Nat), pos < slots.length → probe stop slots start n d = some pos →
      probe stop (slots.set pos x) start n d = some pos := by
  intro n
  induction n with
  | zero => intro d pos _ h; simp [probe] at h
  | succ n ih =>
    intro d pos hp h
    simp only [probe, List.length_set] at h ⊢
    rw [getD_set hp]
    by_cases hs : stop (slots.getD ((start + d) % slots.length) .empty) = true
    · rw [if_pos hs] at h
      simp only [Option.some.injEq] at h
      rw [if_pos h, if_pos hx, h]
    · rw [if_neg hs] at h
      by_cases hq : (start + d) % slots.length = pos
      · rw [if_pos hq, if_pos hx, hq]
      · rw [if_neg hq, if_neg hs]
        exact ih (d + 1) pos hp h

/-- a table that holds no rows, with `n` tombstones -/
structure Drained (n : Nat) (h : Hash R) : Prop where
  prev : h.prev = none
  len : h.current.slots.length = 256
  rows : ∀ p y, h.current.slots.getD p .empty ≠ .row y
  count : h.current.count = 0
  used : usedCount h.current.slots = n

theorem used_full {l : List (Slot R)} (h : usedCount l = l.length) : ∀ p, p < l.length → l.getD p .empty ≠ .empty := by
  have key : ∀ l : List (Slot R), usedCount l ≤ l.length := by
    intro l; induction l with
    | nil => simp [usedCount]
    | cons x l ih => cases x <;> simp <;> omega
  induction l with
  | nil => intro p hp; simp at hp
  | cons x l ih =>
    have := key l
    cases x with
    | empty => simp at h; omega
    | deleted =>
      intro p hp
      cases p with
      | zero => simp
      | succ p => exact ih (by simpa using h) p (by simpa using hp)
    | row r =>
      intro p hp
      cases p with
      | zero => simp
      | succ p => exact ih (by simpa using h) p (by simpa using hp)

theorem drain_step (hash : R → Nat) (cmp : R → R → Int) (hr : ∀ a, cmp a a = 0) {n : Nat} {h : Hash R}
    (D : Drained n h) (hn : n < 256) (k : R) :
    ∃ h1 h2, step hash cmp h (.upsert k) = .ok (.existed false (some k), h1) ∧
      step hash cmp h1 (.delete k) = .ok (.row (some k), h2) ∧ Drained (n + 1) h2 := by
  obtain ⟨q, hq, he⟩ := used_lt (l := h.current.slots) (by rw [D.used, D.len]; exact hn)
  cases hpr : probe (stopGet cmp k) h.current.slots (hash k % h.current.slots.length) h.current.slots.length 0 with
  | none =>
    obtain ⟨d, h1, h2⟩ := offset_exists (start := hash k % h.current.slots.length) (Nat.mod_lt _ (by rw [D.len]; omega)) hq
    have := probe_none _ _ hpr d (by omega) (by omega)
    rw [← h2, he] at this
    simp [stopGet] at this
  | some pos =>
    obtain ⟨d, _, _, h3, h4, _⟩ := probe_some _ _ _ hpr
    have hlt : pos < h.current.slots.length := h3 ▸ Nat.mod_lt _ (by rw [D.len]; omega)
    have hemp : h.current.slots.getD pos .empty = .empty := by
      cases hs : h.current.slots.getD pos .empty with
      | empty => rfl
      | deleted => rw [hs] at h4; simp [stopGet] at h4
      | row y => exact absurd hs (D.rows pos y)
    let h1 : Hash R := { h with current := ⟨h.current.slots.set pos (.row k), h.current.count + 1⟩ }
    let h2 : Hash R := { h with current := ⟨(h.current.slots.set pos (.row k)).set pos .deleted, h.current.count⟩ }
    have hg : Hash.grow hash cmp h1 = .ok h1 := grow_id (by simp [h1, D.len]) (by simp [h1, D.count])
    refine ⟨h1, h2, ?_, ?_, ?_⟩
    · have hget : h.current.get hash cmp k = .ok (none, pos) := by
        simp only [Store.get, Store.size, hpr, Store.at, hemp]
      have hg' : Hash.grow hash cmp ⟨⟨h.current.slots.set pos (.row k), h.current.count + 1⟩, none, h.pos⟩ = .ok h1 := by
        rw [← D.prev]; exact hg
      simp only [step, Hash.getOrSet, D.prev, hget, hg']
      simp only [h1, openAt, Store.size, List.length_set, hlt, if_true, Store.at, getD_set hlt]
    · have hp' := probe_set (x := .row k) (stop := stopGet cmp k) (by simp [stopGet, hr]) _ _ pos hlt hpr
      simp only [step, Hash.delete, h1, D.prev, Store.delete, Store.size, List.length_set, hp', Store.at, getD_set hlt,
        if_true, h2, Nat.add_sub_cancel]
    · have hgd : ∀ p, h2.current.slots.getD p .empty = if p = pos then .deleted else h.current.slots.getD p .empty := by
        intro p
        simp only [h2]
        rw [getD_set (by simpa using hlt), getD_set hlt]
        split <;> simp_all
      refine ⟨D.prev, by simp [h2, D.len], ?_, D.count, ?_⟩
      · intro p y
        rw [hgd]
        split
        · simp
        · exact D.rows p y
      · have e1 : usedCount h.current.slots = usedCount (h.current.slots.take pos) + usedCount (h.current.slots.drop (pos + 1)) := by
          conv => lhs; rw [split_at hlt, hemp]
          rw [usedCount_append]; rfl
        simp only [h2, List.set_set]
        rw [set_split hlt, usedCount_append, usedCount_deleted]
        have := D.used
        omega

theorem drain_run (hash : R → Nat) (cmp : R → R → Int) (hr : ∀ a, cmp a a = 0) (tail : List (HOp R)) :
    ∀ (ks : List R) (n : Nat) (h : Hash R), Drained n h → n + ks.length ≤ 256 →
    ∃ h' os, Drained (n + ks.length) h' ∧
      run hash cmp h (ks.flatMap (fun k => [.upsert k, .delete k]) ++ tail) =
        (match run hash cmp h' tail with | .error e => .error e | .ok (o, x) => .ok (os ++ o, x)) := by
  intro ks
  induction ks with
  | nil => intro n h D _; exact ⟨h, [], by simpa using D, by simp; cases run hash cmp h tail <;> rfl⟩
  | cons k ks ih =>
    intro n h D hn
    simp only [List.length_cons] at hn
    obtain ⟨h1, h2, s1, s2, D2⟩ := drain_step hash cmp hr D (by omega) k
    obtain ⟨h', os, D', hrun⟩ := ih (n + 1) h2 D2 (by omega)
    refine ⟨h', .existed false (some k) :: .row (some k) :: os, by rw [List.length_cons]; rw [show n + (ks.length + 1) = n + 1 + ks.length by omega]; exact D', ?_⟩
    simp only [List.flatMap_cons, List.cons_append, List.nil_append, run, s1, s2]
    simp only [hrun]
    cases run hash cmp h' tail <;> rfl

/-- **C12 fails** for every hash function and every choice of keys: after 256 keys have been inserted (upsert) and
deleted one after the other, the empty index raises "hashtable overflow" on every lookup and every upsert. -/
theorem C12_overflow_false (hash : R → Nat) (cmp : R → R → Int) (hr : ∀ a, cmp a a = 0) (ks : List R)
    (hks : ks.length = 256) (key : R) :
    run hash cmp Hash.create (ks.flatMap (fun k => [.upsert k, .delete k]) ++ [.lookup key]) = .error .overflow ∧
    run hash cmp Hash.create (ks.flatMap (fun k => [.upsert k, .delete k]) ++ [.upsert key]) = .error .overflow := by
  have D0 : Drained 0 (Hash.create : Hash R) := by
    have G := good_init hash cmp
    refine ⟨G.prev, G.len, ?_, G.count.trans (by rw [← G.perm.length_eq]; rfl), by have := G.used; omega⟩
    intro p y hy
    have := G.perm.mem_iff.2 (mem_rowsOf.2 ⟨p, getD_lt hy, hy⟩)
    simp at this
  have full : ∀ h : Hash R, Drained 256 h → h.current.get hash cmp key = .error .overflow := by
    intro h D
    have : probe (stopGet cmp key) h.current.slots (hash key % h.current.slots.length) h.current.slots.length 0 = none := by
      cases hpr : probe (stopGet cmp key) h.current.slots (hash key % h.current.slots.length) h.current.slots.length 0 with
      | none => rfl
      | some pos =>
        obtain ⟨d, _, _, h3, h4, _⟩ := probe_some _ _ _ hpr
        have hlt : pos < h.current.slots.length := h3 ▸ Nat.mod_lt _ (by rw [D.len]; omega)
        have h5 := used_full (D.used.trans D.len.symm) pos hlt
        cases hs : h.current.slots.getD pos .empty with
        | empty => exact absurd hs h5
        | deleted => rw [hs] at h4; simp [stopGet] at h4
        | row y => exact absurd hs (D.rows pos y)
    simp only [Store.get, Store.size, this]
  constructor
  · obtain ⟨h', os, D, e⟩ := drain_run hash cmp hr [.lookup key] ks 0 Hash.create D0 (by omega)
    rw [e]
    simp only [run, step, openKey, full h' (by simpa [hks] using D)]
  · obtain ⟨h', os, D, e⟩ := drain_run hash cmp hr [.upsert key] ks 0 Hash.create D0 (by omega)
    rw [e]
    simp only [run, step, Hash.getOrSet, D.prev, full h' (by simpa [hks] using D)]

example : ((List.range 256).map (fun (i : Nat) => ((i : Int), i))).length = 256 := by simp

/-! ## C13 -/

/-- **C13** (part): a scan of one partition, in any state of the index (also during a resize), visits exactly the
slots that hold a row, each once. `hc`: the row counter is right (it is in every history of `C12_map_partial`). -/
theorem C13_scan_one_partial (h : Hash R) (hc : h.current.count = 0 → rowsOf h.current.slots = []) :
    Hash.scan h = rowsOf h.current.slots ++ (match h.prev with | some p => rowsOf p.slots | none => []) :=
  scan_spec h fun _ => hc

/-- the rows an iterator still has to visit -/
inductive Visits (h : Hash R) : Iter R → List R → Prop
  | done (it : Iter R) : it.current = none → Visits h it []
  | more (it : Iter R) (r : R) (l : List R) : it.current = some r → Visits h (iterNext h it) l → Visits h it (r :: l)

theorem visits_of_loop (h : Hash R) : ∀ (n : Nat) (it : Iter R), (Hash.scanLoop h n it).length < n →
    Visits h it (Hash.scanLoop h n it) := by
  intro n
  induction n with
  | zero => intro it hl; omega
  | succ n ih =>
    intro it hl
    cases hc : it.current with
    | none => simp only [Hash.scanLoop, hc]; exact .done it hc
    | some r =>
      simp only [Hash.scanLoop, hc, List.length_cons] at hl ⊢
      exact .more it r _ hc (ih _ (by omega))

theorem rowsOf_le (l : List (Slot R)) : (rowsOf l).length ≤ l.length := by
  induction l with
  | nil => simp [rowsOf]
  | cons x l ih => cases x <;> simp <;> omega

theorem rows_le (h : Hash R) : h.rows.length ≤ h.capacity := by
  simp only [Hash.rows, prevRows, Hash.capacity, Store.size, List.length_append]
  have := rowsOf_le h.current.slots
  cases h.prev with
  | none => simpa using this
  | some p => have := rowsOf_le p.slots; simp only; omega

theorem visits_open (h : Hash R) (hc : h.current.count = 0 → rowsOf h.current.slots = []) :
    Visits h (openScan h) h.rows := by
  have e := scan_spec h fun _ => hc
  rw [← e]
  refine visits_of_loop h _ _ ?_
  have : (Hash.scan h).length ≤ h.capacity := by rw [e]; exact rows_le h
  simp only [Hash.scan, Hash.capacity] at this ⊢
  omega

theorem merge_loop_first {h : Hash R} {pre post : List (Hash R × Iter R)} :
    ∀ (l : List R) (r : R) (n : Nat) (it : Iter R), Visits h it (r :: l) → l.length < n →
      Merge.scanLoop n ⟨pre ++ (h, it) :: post, some pre.length, pre.length⟩ =
        if post = [] then .error .outOfBounds else .ok (r :: l) := by
  intro l
  induction l with
  | nil =>
    intro r n it hv hn
    cases hv with
    | more _ _ _ hc hv =>
      cases hv with
      | done _ hc' =>
        cases n with
        | zero => omega
        | succ n =>
          simp only [Merge.scanLoop, Merge.at, List.getElem?_append_right (Nat.le_refl _), Nat.sub_self,
            List.getElem?_cons_zero, hc, Merge.next, hc', Option.isSome_none, Bool.false_eq_true, if_false]
          cases post with
          | nil => simp
          | cons p post =>
            simp
            cases n <;> simp [Merge.scanLoop, Merge.at]
  | cons r' l ih =>
    intro r n it hv hn
    simp only [List.length_cons] at hn
    cases hv with
    | more _ _ _ hc hv =>
      cases n with
      | zero => omega
      | succ n =>
        have ih := ih r' n (iterNext h it) hv (by omega)
        have hsome : (iterNext h it).current.isSome = true := by cases hv; simp [*]
        simp only [Merge.scanLoop, Merge.at, List.getElem?_append_right (Nat.le_refl _), Nat.sub_self,
          List.getElem?_cons_zero, hc, Merge.next, hsome, if_true, List.set_append_right _ _ (Nat.le_refl _), List.set_cons_zero]
        rw [ih]
        cases post <;> simp

/-- **C13 fails**: what a scan over partitions does, for every table. Let `h` be the first partition with a row, after
the empty partitions `pre`. If other partitions follow, the scan ends after the rows of `h` and the rows of all
following partitions are never returned; if `h` is the last partition, the code reads past the end of its array. -/
theorem C13_merge_false (pre post : List (Hash R)) (h : Hash R)
    (hpre : ∀ p ∈ pre, p.rows = []) (hh : h.rows ≠ [])
    (hc : ∀ p ∈ pre ++ h :: post, p.current.count = 0 → rowsOf p.current.slots = []) :
    mergeScan (pre ++ h :: post) = if post = [] then .error .outOfBounds else .ok h.rows := by
  have hvis := visits_open h (hc h (by simp))
  have hopen : Merge.open (pre ++ h :: post) =
      ⟨pre.map (fun p => (p, openScan p)) ++ (h, openScan h) :: post.map (fun p => (p, openScan p)),
        some (pre.map (fun p => (p, openScan p))).length, (pre.map (fun p => (p, openScan p))).length⟩ := by
    unfold Merge.open
    have e : (List.map (fun p => (p, openScan p)) (pre ++ h :: post)).findIdx? (fun p => p.2.current.isSome) =
        some (pre.map (fun p => (p, openScan p))).length := by
      rw [List.map_append, List.map_cons, List.findIdx?_append]
      have e1 : (pre.map (fun p => (p, openScan p))).findIdx? (fun p => p.2.current.isSome) = none := by
        rw [List.findIdx?_eq_none_iff]
        intro x hx
        obtain ⟨p, hp, rfl⟩ := List.mem_map.1 hx
        have := visits_open p (hc p (by simp [hp]))
        rw [hpre p hp] at this
        cases this with
        | done _ h => simp [h]
      have e2 : (openScan h).current.isSome = true := by
        cases hr : h.rows with
        | nil => exact absurd hr hh
        | cons r l => rw [hr] at hvis; cases hvis; simp [*]
      simp [e1, List.findIdx?_cons, e2]
    simp only [e]
    rw [List.map_append, List.map_cons]
  cases hr : h.rows with
  | nil => exact absurd hr hh
  | cons r l =>
    rw [hr] at hvis
    unfold mergeScan
    rw [hopen]
    rw [merge_loop_first l r _ _ hvis]
    · simp
    · have h1 := rows_le h
      rw [hr] at h1
      simp only [List.length_cons] at h1
      simp only [List.map_append, List.map_cons, List.sum_append, List.sum_cons]
      omega

/-- two partitions with one row each (both hypotheses hold): the scan misses the row of the second -/
def samplePart (k : Int) : Hash (Int × Nat) :=
  match run hashKeyInt cmpKeyInt Hash.create [.upsert (k, 0)] with
  | .ok (_, h) => h
  | .error _ => Hash.create

example : (samplePart 1).rows = [(1, 0)] ∧ (samplePart 2).rows = [(2, 0)] ∧
    mergeScan [samplePart 1, samplePart 2] = .ok [(1, 0)] ∧ mergeScan [samplePart 1] = .error .outOfBounds := by
  decide +kernel

/-- **C13** (part): the scan over partitions is right when at most one partition has rows and it is not the last. -/
theorem C13_merge_partial (pre post : List (Hash R)) (h : Hash R)
    (hpre : ∀ p ∈ pre ++ post, p.rows = []) (hpost : post ≠ []) (hh : h.rows ≠ [])
    (hc : ∀ p ∈ pre ++ h :: post, p.current.count = 0 → rowsOf p.current.slots = []) :
    mergeScan (pre ++ h :: post) = .ok ((pre ++ h :: post).flatMap Hash.rows) := by
  rw [C13_merge_false pre post h (fun p hp => hpre p (by simp [hp])) hh hc, if_neg hpost]
  have e1 : pre.flatMap Hash.rows = [] := by
    rw [List.flatMap_eq_nil_iff]; intro p hp; exact hpre p (by simp [hp])
  have e2 : post.flatMap Hash.rows = [] := by
    rw [List.flatMap_eq_nil_iff]; intro p hp; exact hpre p (by simp [hp])
  rw [List.flatMap_append, List.flatMap_cons, e1, e2]
  simp

example : mergeScan [samplePart 1, Hash.create] = .ok [(1, 0)] := by decide +kernel

end Verif.Index.Hash
