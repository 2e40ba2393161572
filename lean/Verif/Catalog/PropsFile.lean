import Verif.Catalog.Restore
import Verif.Catalog.PropsDdl
/-!
# C91: the catalog file brings the catalog back

A checkpoint writes the catalog as JSON text; a start of the server reads that text into a new catalog.
-/
set_option linter.unusedSimpArgs false
set_option linter.unusedVariables false
set_option autoImplicit false
namespace Verif.Catalog
open Verif.Json (J enc WF WFList WFFields stored)
open Verif.Json.Text

/-! ## Specification -/

/-- text the JSON parser accepts -/
def OkText (s : Bytes) : Prop := Utf8 s ∧ s.length < 2 ^ 31
/-- an integer the JSON parser accepts (the least one is `C39_int_min_false`) -/
def OkInt (i : Int) : Prop := -(2 ^ 63) < i ∧ i < 2 ^ 63

structure OkCol (x : Col) : Prop where
  name : OkText x.name
  type : OkInt x.type
  typeSize : OkInt x.typeSize
  identity : OkInt x.cons.identity
  modulo : OkInt x.cons.modulo
  stored : OkText x.cons.stored
  resolved : OkText x.cons.resolved
  value : IsBytes x.cons.value
  valueSize : x.cons.value.length < 2 ^ 29

structure OkVol (v : Vol) : Prop where
  name : OkText v.name
  id : IsId v.id

structure OkTab (t : Tab) : Prop where
  db : OkText t.db
  name : OkText t.name
  id : IsId t.id
  cols : ∀ x ∈ t.cols, OkCol x
  count : t.cols.length < 2 ^ 31
  idxs : ∀ i ∈ t.idxs, OkText i.name ∧ OkInt i.type ∧ ∀ k ∈ i.keys, k.ref < t.cols.length
  parts : -2147483648 ≤ t.parts ∧ t.parts ≤ 2147483647
  vols : ∀ v ∈ t.vols, OkVol v
  tiers : ∀ x ∈ t.tiers, OkText x.name ∧ ∀ v ∈ x.vols, OkVol v

structure OkUdf (u : Udf) : Prop where
  db : OkText u.db
  name : OkText u.name
  text : OkText u.text
  type : OkInt u.type
  args : ∀ x ∈ u.args, OkCol x
  returning : ∀ x ∈ u.returning, OkCol x

/-- catalogs whose file can be read: every name and text is UTF-8 (see `C91_utf8_false`) and so on -/
structure Readable (c : Cat) : Prop where
  stors : ∀ s ∈ c.stors, OkText s.name ∧ OkText s.path ∧ OkText s.compression ∧ OkInt s.level
  dbs : ∀ d ∈ c.dbs, OkText d.name
  tabs : ∀ t ∈ c.tabs, OkTab t
  udfs : ∀ u ∈ c.udfs, OkUdf u

/-- no column was dropped (see `C91_dropped_false`) -/
structure Whole (c : Cat) : Prop where
  tabs : ∀ t ∈ c.tabs, ∀ x ∈ t.cols, x.dropped = false
  args : ∀ u ∈ c.udfs, ∀ x ∈ u.args, x.dropped = false
  returning : ∀ u ∈ c.udfs, ∀ x ∈ u.returning, x.dropped = false

/-- the same catalog, but for addresses, the counters of identity columns (`C91_identity_false`) and the
compiled bodies -/
structure Kept (c' c : Cat) : Prop where
  stors : (c'.stors.map Stor.plain).Perm (c.stors.map Stor.plain)
  dbs : (c'.dbs.map Db.plain).Perm (c.dbs.map Db.plain)
  tabs : c'.tabs.map tabPlain = c.tabs.map tabPlain
  udfs : c'.udfs.map udfPlain = c.udfs.map udfPlain

/-! ## the text -/

theorem utf8_ascii : ∀ {s : Bytes}, (∀ b ∈ s, b < 128) → Utf8 s
  | [], _ => .nil
  | a :: t, h => .one (h a (by simp)) (utf8_ascii fun b hb => h b (by simp [hb]))

theorem utf8_bytes {s : Bytes} (h : Utf8 s) : IsBytes s := by
  induction h with
  | nil => intro b hb; simp at hb
  | one h _ ih => intro b hb; rcases List.mem_cons.1 hb with rfl | hb; · omega
                  · exact ih b hb
  | two _ _ _ _ _ ih => intro b hb; simp only [List.mem_cons] at hb; rcases hb with rfl | rfl | hb; · omega
                        · omega
                        · exact ih b hb
  | @three a b c t _ _ _ h2 _ _ _ ih =>
    intro x hx; simp only [List.mem_cons] at hx
    have : b ≤ 0xBF := by split at h2 <;> omega
    rcases hx with rfl | rfl | rfl | hx
    · omega
    · omega
    · omega
    · exact ih x hx
  | @four a b c d t _ _ _ h2 _ _ _ _ _ ih =>
    intro x hx; simp only [List.mem_cons] at hx
    have : b ≤ 0xBF := by split at h2 <;> omega
    rcases hx with rfl | rfl | rfl | rfl | hx
    · omega
    · omega
    · omega
    · omega
    · exact ih x hx

mutual
theorem textOK_wf : (v : J) → TextOK v → WF v
  | .null, _ => trivial
  | .bool _, _ => trivial
  | .int i, h => by simp only [TextOK] at h; simp only [WF]; omega
  | .real _, h => by simp only [TextOK] at h
  | .str s, h => ⟨utf8_bytes h.1, h.2⟩
  | .arr l, h => textOKList_wf l h
  | .obj l, h => textOKFields_wf l h
theorem textOKList_wf : (l : List J) → TextOKList l → WFList l
  | [], _ => trivial
  | v :: t, h => ⟨textOK_wf v h.1, textOKList_wf t h.2⟩
theorem textOKFields_wf : (l : List (Bytes × J)) → TextOKFields l → WFFields l
  | [], _ => trivial
  | (k, v) :: t, h => ⟨⟨utf8_bytes h.1.1, h.1.2⟩, textOK_wf v h.2.1, textOKFields_wf t h.2.2⟩
end

theorem lit_ok (s : String) (h1 : ∀ b ∈ lit s, b < 128) (h2 : (lit s).length < 2 ^ 31) : OkText (lit s) := ⟨utf8_ascii h1, h2⟩

theorem hexN_ascii : ∀ (n v : Nat), (∀ b ∈ Codec.hexN n v, b < 128) ∧ (Codec.hexN n v).length = n
  | 0, _ => ⟨by simp [Codec.hexN], rfl⟩
  | n + 1, v => by
    obtain ⟨h1, h2⟩ := hexN_ascii n (v / 16)
    refine ⟨?_, by simp [Codec.hexN, h2]⟩
    intro b hb
    simp only [Codec.hexN, List.mem_append, List.mem_singleton] at hb
    rcases hb with hb | rfl
    · exact h1 b hb
    · unfold Codec.hexDigit; split <;> omega

theorem id_ok {s : Bytes} (h : IsId s) : OkText s := by
  obtain ⟨u, _, rfl⟩ := h
  unfold Codec.uuidGet
  refine ⟨utf8_ascii ?_, ?_⟩
  · intro b hb
    simp only [List.mem_append, List.mem_singleton] at hb
    rcases hb with ((((((((hb | rfl) | hb) | rfl) | hb) | rfl) | hb) | rfl) | hb) | hb
    all_goals first | exact (hexN_ascii _ _).1 b hb | omega
  · simp only [List.length_append, (hexN_ascii _ _).2, List.length_singleton]; omega

theorem url_ascii (k : Nat) : Codec.url.e k < 128 := by
  have h : ∀ b ∈ Codec.url.enc, b < 128 := by decide
  show (Codec.url.enc[k]?).getD 0 < 128
  cases e : Codec.url.enc[k]? with
  | none => decide
  | some b => exact h b (List.mem_of_getElem? e)

theorem ascii_cons {a : Nat} {t : Bytes} (ha : a < 128) (h : ∀ b ∈ t, b < 128) : ∀ b ∈ a :: t, b < 128 := by
  intro b hb
  rcases List.mem_cons.1 hb with rfl | hb
  · exact ha
  · exact h b hb

theorem encLoop_ascii : ∀ (s : Bytes) (st last : Nat), (∀ b ∈ Codec.encLoop Codec.url st last s, b < 128) ∧
    (Codec.encLoop Codec.url st last s).length ≤ 2 * s.length + 1
  | [], st, last => by
    simp only [Codec.encLoop, show Codec.url.pad = false from rfl, Bool.false_eq_true, if_false]
    split
    · exact ⟨fun b hb => by rw [List.mem_singleton.1 hb]; exact url_ascii _, by simp⟩
    · split
      · exact ⟨fun b hb => by rw [List.mem_singleton.1 hb]; exact url_ascii _, by simp⟩
      · exact ⟨by simp, by simp⟩
  | c :: t, st, last => by
    simp only [Codec.encLoop]
    split
    · obtain ⟨h1, h2⟩ := encLoop_ascii t 1 c
      exact ⟨ascii_cons (url_ascii _) h1, by simp; omega⟩
    · split
      · obtain ⟨h1, h2⟩ := encLoop_ascii t 2 c
        exact ⟨ascii_cons (url_ascii _) h1, by simp; omega⟩
      · obtain ⟨h1, h2⟩ := encLoop_ascii t 0 c
        exact ⟨ascii_cons (url_ascii _) (ascii_cons (url_ascii _) h1), by simp; omega⟩

theorem value_ok {s : Bytes} (h : s.length < 2 ^ 29) : OkText (Codec.encode Codec.url s) := by
  obtain ⟨h1, h2⟩ := encLoop_ascii s 0 0
  exact ⟨utf8_ascii h1, by unfold Codec.encode; omega⟩

/-! ### trees -/

theorem ok_field {k : String} {v : J} {t : List (Bytes × J)} (h1 : ∀ b ∈ lit k, b < 128) (h2 : (lit k).length < 2 ^ 31) (hv : TextOK v) (ht : TextOKFields t) :
    TextOKFields ((lit k, v) :: t) := ⟨lit_ok k h1 h2, hv, ht⟩
theorem ok_arr {α : Type} {l : List α} {w : α → J} (h : ∀ x ∈ l, TextOK (w x)) : TextOK (.arr (l.map w)) := by
  show TextOKList _
  rw [textOKList_iff]
  intro v hv
  obtain ⟨x, hx, rfl⟩ := List.mem_map.1 hv
  exact h x hx
theorem ok_pair {p : Bool} {n : String} {v : J} (h1 : ∀ b ∈ lit n, b < 128) (h2 : (lit n).length < 2 ^ 31) (hv : TextOK v) : TextOKList (pairJ p n v) := by
  cases p
  · exact trivial
  · exact ⟨⟨lit_ok n h1 h2, hv, trivial⟩, trivial⟩

theorem ok_cons {x : Col} (h : OkCol x) : TextOK (consJ x.cons) := by
  show TextOKList _
  simp only [textOKList_append]
  exact ⟨⟨⟨⟨⟨ok_pair (by decide) (by decide) trivial, ok_pair (by decide) (by decide) h.identity⟩, ok_pair (by decide) (by decide) h.modulo⟩,
    ok_pair (by decide) (by decide) h.stored⟩, ok_pair (by decide) (by decide) h.resolved⟩, ok_pair (by decide) (by decide) (value_ok h.valueSize)⟩
theorem ok_col {x : Col} (h : OkCol x) : TextOK (colJ x) :=
  ok_field (by decide) (by decide) h.name <| ok_field (by decide) (by decide) h.type <| ok_field (by decide) (by decide) h.typeSize <|
  ok_field (by decide) (by decide) trivial <| ok_field (by decide) (by decide) (ok_cons h) trivial
theorem ok_vol {v : Vol} (h : OkVol v) : TextOK (volJ v) :=
  ok_field (by decide) (by decide) h.name <| ok_field (by decide) (by decide) (id_ok h.id) <| ok_field (by decide) (by decide) trivial trivial
theorem ok_stor {s : Stor} (h : OkText s.name ∧ OkText s.path ∧ OkText s.compression ∧ OkInt s.level) : TextOK (storJ s) :=
  ok_field (by decide) (by decide) h.1 <| ok_field (by decide) (by decide) h.2.1 <| ok_field (by decide) (by decide) h.2.2.1 <|
  ok_field (by decide) (by decide) h.2.2.2 trivial
theorem ok_db {s : Db} (h : OkText s.name) : TextOK (dbJ s) := ok_field (by decide) (by decide) h trivial

theorem toInt_range (v : Int) : OkInt (toInt v) := by
  unfold OkInt toInt toSigned toUnsigned
  simp only [Nat.reducePow, Nat.reduceSub]
  split <;> omega

theorem ok_tab {t : Tab} (h : OkTab t) (hs : ∀ x ∈ t.tiers, toInt x.regionSize = x.regionSize ∧ toInt x.objectSize = x.objectSize) : TextOK (tabJ t) := by
  refine ok_field (by decide) (by decide) h.db <| ok_field (by decide) (by decide) h.name <| ok_field (by decide) (by decide) (id_ok h.id) <|
    ok_field (by decide) (by decide) trivial <| ok_field (by decide) (by decide) (ok_arr fun x hx => ok_col (h.cols x hx)) <|
    ok_field (by decide) (by decide) (ok_arr fun i hi => ?_) <|
    ok_field (by decide) (by decide) (ok_field (by decide) (by decide) ?_ <| ok_field (by decide) (by decide) (ok_arr fun v hv => ok_vol (h.vols v hv)) trivial) <|
    ok_field (by decide) (by decide) (ok_arr fun x hx => ?_) trivial
  · obtain ⟨h1, h2, h3⟩ := h.idxs i hi
    refine ok_field (by decide) (by decide) h1 <| ok_field (by decide) (by decide) h2 <| ok_field (by decide) (by decide) trivial <|
      ok_field (by decide) (by decide) trivial <| ok_field (by decide) (by decide) (ok_arr fun k hk => ?_) trivial
    have := h3 k hk
    have hc := h.count
    exact ok_field (by decide) (by decide) (show -(2 ^ 63) < ((k.ref : Nat) : Int) ∧ ((k.ref : Nat) : Int) < 2 ^ 63 by omega) <|
      ok_field (by decide) (by decide) trivial trivial
  · have := h.parts
    show -(2 ^ 63) < t.parts ∧ t.parts < 2 ^ 63
    omega
  · obtain ⟨h1, h2⟩ := h.tiers x hx
    refine ok_field (by decide) (by decide) h1 <| ok_field (by decide) (by decide) ?_ <| ok_field (by decide) (by decide) ?_ <|
      ok_field (by decide) (by decide) (ok_arr fun v hv => ok_vol (h2 v hv)) trivial
    · show OkInt x.regionSize
      rw [← (hs x hx).1]; exact toInt_range _
    · show OkInt x.objectSize
      rw [← (hs x hx).2]; exact toInt_range _

theorem ok_udf {u : Udf} (h : OkUdf u) : TextOK (udfJ u) :=
  ok_field (by decide) (by decide) h.db <| ok_field (by decide) (by decide) h.name <| ok_field (by decide) (by decide) h.text <|
  ok_field (by decide) (by decide) h.type <| ok_field (by decide) (by decide) (ok_arr fun x hx => ok_col (h.args x hx)) <|
  ok_field (by decide) (by decide) (ok_arr fun x hx => ok_col (h.returning x hx)) trivial

theorem ok_cat {c : Cat} (hw : Wf c) (h : Readable c) {lsn : Int} (hl : OkInt lsn) : TextOK (catJ lsn c) :=
  ok_field (by decide) (by decide) hl <|
  ok_field (by decide) (by decide) (ok_arr fun s hs => ok_stor (h.stors s (List.mem_filter.1 hs).1)) <|
  ok_field (by decide) (by decide) (ok_arr fun s hs => ok_db (h.dbs s (List.mem_filter.1 hs).1)) <|
  ok_field (by decide) (by decide) (ok_arr fun s hs => ok_tab (h.tabs s hs) (hw.tabOk s hs).sizes) <|
  ok_field (by decide) (by decide) (ok_arr fun s hs => ok_udf (h.udfs s hs)) trivial

theorem ok_sound {t : Tab} (h : OkTab t) : TabSound t :=
  ⟨h.id, fun v hv => (h.vols v hv).id, fun x hx v hv => ((h.tiers x hx).2 v hv).id, fun x hx => (h.cols x hx).value,
   fun i hi => (h.idxs i hi).2.2, h.count⟩
theorem ok_kept {t : Tab} (h : OkTab t) (hd : ∀ x ∈ t.cols, x.dropped = false) (hs : ∀ x ∈ t.tiers, toInt x.regionSize = x.regionSize ∧ toInt x.objectSize = x.objectSize) : TabKept t :=
  ⟨hd, toInt_of h.parts, hs⟩

theorem tabReq_of {n : Nat} {t : Tab} (hk : TabKeyed t) (ho : TabOk n t) (hd : ∀ x ∈ t.cols, x.dropped = false) : TabReq t := by
  refine ⟨pairwise_of ho.cols fun x hx y hy e => ?_, pairwise_of ho.idxs fun x hx y hy e => ?_, pairwise_of ho.tiers fun x hx y hy e => ?_⟩
  · refine hk.cols x hx y hy ?_
    simp only [colEq, hd x hx, hd y hy, Bool.not_false, Bool.true_and]
    simpa using e
  · refine hk.idxs x hx y hy ?_
    simpa [idxEq] using e
  · refine hk.tiers x hx y hy ?_
    simpa [tierEq] using e

/-! ## reading the tree back -/

theorem perm_sys {α : Type} {l : List α} {p : α → Bool} : (l.filter p ++ l.filter fun x => !p x).Perm l := List.filter_append_perm p l

/-- what a start of the server does with the objects of the file -/
def createCat (e : Env) (c : Cat) (lsn : Int) : Res (Cat × Int) :=
  (createAll (fun c s => storCreate c s false) ((c.stors.filter fun s => !s.system).map fun s => { s with oid := 0, system := false }) boot).bind fun c1 =>
  (createAll (fun c d => dbCreate c d false) ((c.dbs.filter fun s => !s.system).map fun s => { s with oid := 0, system := false }) c1).bind fun c2 =>
  (createAll (fun c t => tabCreate e c t false) (c.tabs.map tabPlain) c2).bind fun c3 =>
  (createAll (fun c u => udfCreate e c u) (c.udfs.map udfPlain) c3).bind fun c4 => .ok (c4, lsn)

theorem restore_reads {e : Env} {c : Cat} (hw : Wf c) (h : Readable c) {lsn : Int} (hl : OkInt lsn) (rest : Bytes) :
    restore e boot (encP (catJ lsn c) ++ rest) = createCat e c lsn := by
  have hok := ok_cat hw h hl
  unfold restore createCat
  unfold catJ at hok ⊢
  rw [readKeys_fold (.cons rfl rfl (.cons rfl rfl (.cons rfl rfl (.cons rfl rfl (.cons rfl rfl (.nil _)))))) hok rfl]
  show (restoreAll readStor _ boot (encP (.arr ((c.stors.filter fun s => !s.system).map storJ)) ++ _)).bind _ = _
  rw [restoreAll_enc (g := fun s => { s with oid := 0, system := false })
    (fun x hx r => readStor_enc (ok_stor (h.stors x (List.mem_filter.1 hx).1)) r)]
  congr 1
  funext c1
  show (restoreAll readDb _ c1 (encP (.arr ((c.dbs.filter fun s => !s.system).map dbJ)) ++ _)).bind _ = _
  rw [restoreAll_enc (g := fun s => { s with oid := 0, system := false })
    (fun x hx r => readDb_enc (ok_db (h.dbs x (List.mem_filter.1 hx).1)) r)]
  congr 1
  funext c2
  show (restoreAll readTab _ c2 (encP (.arr (c.tabs.map tabJ)) ++ _)).bind _ = _
  rw [restoreAll_enc (g := tabPlain) (fun x hx r => readTab_enc (ok_tab (h.tabs x hx) (hw.tabOk x hx).sizes) (ok_sound (h.tabs x hx)) r)]
  congr 1
  funext c3
  show (restoreAll readUdf _ c3 (encP (.arr (c.udfs.map udfJ)) ++ _)).bind _ = _
  rw [restoreAll_enc (g := udfPlain) (fun x hx r => readUdf_enc (ok_udf (h.udfs x hx))
    (fun y hy => ((h.udfs x hx).args y hy).value) (fun y hy => ((h.udfs x hx).returning y hy).value) r)]
  rfl

theorem file_text (L : Libc) {c : Cat} (hw : Wf c) (h : Readable c) {lsn : Int} (hl : OkInt lsn) : fileText L lsn c = .ok (textOf L true 0 (catJ lsn c)) := by
  have hok := ok_cat hw h hl
  have := export_enc L true (catJ lsn c) (textOK_wf _ hok) ((enc (catJ lsn c)).length + 1) 0 [] (by omega)
  rw [List.append_nil, stored_textOK _ hok] at this
  unfold fileText export_
  rw [this]
  rfl

/-- the text in between -/
theorem restart_reads (L : Libc) {e : Env} {c : Cat} (hw : Wf c) (h : Readable c) {lsn : Int} (hl : OkInt lsn) :
    ∃ text, fileText L lsn c = .ok text ∧ restart L e text = createCat e c lsn := by
  refine ⟨_, file_text L hw h hl, ?_⟩
  have := parse_textOf L true (catJ lsn c) (ok_cat hw h hl) [] (by trivial) 0
  rw [List.append_nil] at this
  unfold restart
  rw [this]
  have h1 := restore_reads (e := e) hw h hl []
  rw [List.append_nil] at h1
  exact h1

theorem createCat_kept {e : Env} {c : Cat} (hr : Reach c) (h : Readable c) (hd : Whole c) (hc : Compiles e c) (ho : e.opens = true) (lsn : Int) :
    ∃ c', createCat e c lsn = .ok (c', lsn) ∧ Reach c' ∧ Kept c' c := by
  have hn := hr.named
  have hw := hr.wf
  have hsys := hr.sys
  have s0 : ∀ x ∈ c.stors.filter fun s => !s.system, x.system = false := fun x hx => by simpa using (List.mem_filter.1 hx).2
  have hpS : c.stors.Pairwise (fun x y => same x.name y.name = false) :=
    pairwise_of hw.nod.stors fun x hx y hy e => hn.stors x hx y hy (by simpa [storEq] using e)
  have hpD : c.dbs.Pairwise (fun x y => same x.name y.name = false) :=
    pairwise_of hw.nod.dbs fun x hx y hy e => hn.dbs x hx y hy (by simpa [dbEq] using e)
  have hbS : ∀ x ∈ c.stors.filter fun s => !s.system, ∀ y ∈ boot.stors, same y.name x.name = false := by
    intro x hx y hy
    rw [← hsys.stors] at hy
    obtain ⟨hy1, hy2⟩ := List.mem_filter.1 hy
    obtain ⟨hx1, hx2⟩ := List.mem_filter.1 hx
    cases e : same y.name x.name with
    | false => rfl
    | true =>
      have := storOnly hw hy1 hx1 (hn.stors y hy1 x hx1 e)
      subst this
      simp [hy2] at hx2
  have hbD : ∀ x ∈ c.dbs.filter fun s => !s.system, ∀ y ∈ boot.dbs, same y.name x.name = false := by
    intro x hx y hy
    rw [← hsys.dbs] at hy
    obtain ⟨hy1, hy2⟩ := List.mem_filter.1 hy
    obtain ⟨hx1, hx2⟩ := List.mem_filter.1 hx
    cases e : same y.name x.name with
    | false => rfl
    | true =>
      have := dbOnly hw hy1 hx1 (hn.dbs y hy1 x hx1 e)
      subst this
      simp [hy2] at hx2
  have mS : ∀ l : List Stor, (∀ x ∈ l, x.system = false) → (l.map fun s => ({ s with oid := 0, system := false } : Stor)) = l.map Stor.plain :=
    fun l hl => List.map_congr_left fun x hx => by unfold Stor.plain; rw [hl x hx]
  have mD : ∀ l : List Db, (∀ x ∈ l, x.system = false) → (l.map fun s => ({ s with oid := 0, system := false } : Db)) = l.map Db.plain :=
    fun l hl => List.map_congr_left fun x hx => by unfold Db.plain; rw [hl x hx]
  obtain ⟨c1, a1, a2, a3, a4, a5, a6⟩ := stors_created ((c.stors.filter fun s => !s.system).map Stor.plain) boot .start
    (fun x hx => by obtain ⟨y, hy, rfl⟩ := List.mem_map.1 hx; exact s0 y hy)
    (List.pairwise_map.2 (hpS.filter _))
    (fun x hx y hy => by obtain ⟨z, hz, rfl⟩ := List.mem_map.1 hx; exact hbS z hz y hy)
  obtain ⟨c2, b1, b2, b3, b4, b5, b6⟩ := dbs_created ((c.dbs.filter fun s => !s.system).map Db.plain) c1 a2
    (fun x hx => by obtain ⟨y, hy, rfl⟩ := List.mem_map.1 hx; show y.system = false; simpa using (List.mem_filter.1 hy).2)
    (List.pairwise_map.2 (hpD.filter _))
    (fun x hx y hy => by obtain ⟨z, hz, rfl⟩ := List.mem_map.1 hx; rw [a4] at hy; exact hbD z hz y hy)
  have t2 : c2.tabs = [] := b5.trans a5
  have u2 : c2.udfs = [] := b6.trans a6
  obtain ⟨c3, d1, d2, d3, d4, d5, d6⟩ := tabs_created ho c.tabs c2 b2
    (fun t ht => ⟨tabReq_of (hn.inTabs t ht) (hw.tabOk t ht) (hd.tabs t ht), ok_kept (h.tabs t ht) (hd.tabs t ht) (hw.tabOk t ht).sizes⟩)
    (pairwise_of hw.nod.tabs fun x hx y hy e => hn.tabs x hx y hy (by simpa using e))
    (fun x hx y hy => by rw [t2] at hy; simp at hy)
  rw [t2] at d3
  have u3 : c3.udfs = [] := d6.trans u2
  obtain ⟨c4, f1, f2, f3, f4, f5, f6⟩ := udfs_created c hc c.udfs [] c3 d2 rfl (by simpa using d3) (by rw [u3])
    (fun u hu => ⟨hd.args u hu, hd.returning u hu⟩)
    (pairwise_of hw.nod.udfs fun x hx y hy e => hn.udfs x hx y hy (by simpa using e))
    (fun x hx y hy => by rw [u3] at hy; simp at hy)
  refine ⟨c4, ?_, f2, ?_⟩
  · unfold createCat
    rw [mS _ s0, a1]
    show (createAll _ ((c.dbs.filter fun s => !s.system).map fun s => ({ s with oid := 0, system := false } : Db)) c1).bind _ = _
    rw [mD _ (fun x hx => by simpa using (List.mem_filter.1 hx).2), b1]
    show (createAll _ (c.tabs.map tabPlain) c2).bind _ = _
    rw [d1]
    show (createAll _ (c.udfs.map udfPlain) c3).bind _ = _
    rw [f1]
    rfl
  · have pp : ∀ l : List Stor, (l.map Stor.plain).map Stor.plain = l.map Stor.plain := fun l => by rw [List.map_map]; rfl
    have pq : ∀ l : List Db, (l.map Db.plain).map Db.plain = l.map Db.plain := fun l => by rw [List.map_map]; rfl
    refine ⟨?_, ?_, ?_, ?_⟩
    · rw [f4, d4, b4, a3, pp, ← hsys.stors, ← List.map_append]
      exact perm_sys.map _
    · rw [f5, d5, b3, pq, a4, ← hsys.dbs, ← List.map_append]
      exact perm_sys.map _
    · rw [f6, d3]; simp
    · rw [f3, u3]; simp

/-- C91: whatever DDL was run before, the file a checkpoint writes brings the catalog back at the next start: the
same storages, databases, tables (columns, constraints, indexes, partitions, tiers) and functions, and the lsn -/
theorem C91_restart_partial (L : Libc) {e : Env} {c : Cat} (hr : Reach c) (h : Readable c) (hd : Whole c) (hc : Compiles e c) (ho : e.opens = true)
    {lsn : Int} (hl : OkInt lsn) :
    ∃ text c', fileText L lsn c = .ok text ∧ restart L e text = .ok (c', lsn) ∧ Kept c' c ∧ Reach c' := by
  obtain ⟨text, h1, h2⟩ := restart_reads L (e := e) hr.wf h hl
  obtain ⟨c', h3, h4, h5⟩ := createCat_kept hr h hd hc ho lsn
  exact ⟨text, c', h1, h2.trans h3, h5, h4⟩

/-! what a name means after the start -/

theorem find_map {α β : Type} {l : List α} {p : α → Bool} {q : β → Bool} {g : α → β} (h : ∀ x, q (g x) = p x) : (l.find? p).map g = (l.map g).find? q := by
  induction l with
  | nil => rfl
  | cons x l ih =>
    rw [List.map_cons, List.find?_cons, List.find?_cons, h x]
    cases p x
    · exact ih
    · rfl

theorem find_perm {α β : Type} {l l' : List α} {p : α → Bool} {q : β → Bool} {g : α → β} (h : ∀ x, q (g x) = p x) (hp : (l'.map g).Perm (l.map g))
    (hu : ∀ x ∈ l, ∀ y ∈ l, p x = true → p y = true → x = y) : (l'.find? p).map g = (l.find? p).map g := by
  have key : ∀ y ∈ l'.map g, q y = true → ∃ x ∈ l, p x = true ∧ g x = y := by
    intro y hy hq
    obtain ⟨x, hx, rfl⟩ := List.mem_map.1 (hp.mem_iff.1 hy)
    exact ⟨x, hx, by rw [← h]; exact hq, rfl⟩
  cases e : l'.find? p with
  | none =>
    cases e2 : l.find? p with
    | none => rfl
    | some x =>
      have hx := List.mem_of_find?_eq_some e2
      obtain ⟨y, hy, ey⟩ := List.mem_map.1 (hp.mem_iff.2 (List.mem_map_of_mem (f := g) hx))
      have h2 : p y = true := by rw [← h, ey, h]; exact List.find?_some e2
      have := List.find?_eq_none.1 e y hy
      exact absurd h2 this
  | some y =>
    obtain ⟨x, hx, h1, h2⟩ := key (g y) (List.mem_map_of_mem (List.mem_of_find?_eq_some e)) (by rw [h]; exact List.find?_some e)
    have e2 : l.find? p = some x := (find_iff hu x).2 ⟨hx, h1⟩
    rw [e2]
    simp [h2]

/-- C91: after the start every name means what it meant before -/
theorem C91_names_partial (L : Libc) {e : Env} {c : Cat} (hr : Reach c) (h : Readable c) (hd : Whole c) (hc : Compiles e c) (ho : e.opens = true)
    {lsn : Int} (hl : OkInt lsn) :
    ∃ text c', fileText L lsn c = .ok text ∧ restart L e text = .ok (c', lsn) ∧
      (∀ n, (findStor c' n).map Stor.plain = (findStor c n).map Stor.plain) ∧
      (∀ n, (findDb c' n).map Db.plain = (findDb c n).map Db.plain) ∧
      (∀ d n, (findTab c' d n).map tabPlain = (findTab c d n).map tabPlain) ∧
      (∀ d n, (findUdf c' d n).map udfPlain = (findUdf c d n).map udfPlain) := by
  obtain ⟨text, c', h1, h2, h3, h4⟩ := C91_restart_partial L hr h hd hc ho hl
  have hn := hr.named
  refine ⟨text, c', h1, h2, fun n => ?_, fun n => ?_, fun d n => ?_, fun d n => ?_⟩
  · refine find_perm (q := fun s : Stor => same s.name n) (fun x => rfl) h3.stors fun x hx y hy e1 e2 => ?_
    exact Option.some.inj (((stor_iff hn n x).2 ⟨hx, e1⟩).symm.trans ((stor_iff hn n y).2 ⟨hy, e2⟩))
  · refine find_perm (q := fun s : Db => same s.name n) (fun x => rfl) h3.dbs fun x hx y hy e1 e2 => ?_
    exact Option.some.inj (((db_iff hn n x).2 ⟨hx, e1⟩).symm.trans ((db_iff hn n y).2 ⟨hy, e2⟩))
  · have k : ∀ l : List Tab, (l.find? fun t => same t.db d && same t.name n).map tabPlain = (l.map tabPlain).find? fun t => same t.db d && same t.name n :=
      fun l => find_map fun x => rfl
    exact (k c'.tabs).trans ((congrArg _ h3.tabs).trans (k c.tabs).symm)
  · have k : ∀ l : List Udf, (l.find? fun t => same t.db d && same t.name n).map udfPlain = (l.map udfPlain).find? fun t => same t.db d && same t.name n :=
      fun l => find_map fun x => rfl
    exact (k c'.udfs).trans ((congrArg _ h3.udfs).trans (k c.udfs).symm)

/-! ## cases -/

/-- an identifier -/
def id1 : Bytes := Codec.uuidGet ⟨1, 2, 3, 4, 5, 6⟩
theorem isId1 : IsId id1 := ⟨⟨1, 2, 3, 4, 5, 6⟩, by unfold Codec.Uuid.Valid; decide, rfl⟩

/-- a table with two columns, an index, a default value and a tier -/
def bigTab : Tab :=
  ⟨0, nA, nB, id1, true,
   [intCol nA, ⟨0, nB, 1, 8, false, { Cons.init with notNull := true, value := [1, 2, 3] }⟩],
   [⟨0, nA, 0, true, true, [⟨0, true⟩]⟩], 4, [⟨nA, id1, false, false⟩], [⟨0, nA, 100, 200, [⟨nA, id1, true, false⟩]⟩], 0⟩
def bigStor : Stor := ⟨0, nA, [47], [], 3, false⟩
def fnA (text : Bytes) : Udf := ⟨0, nA, nA, text, [intCol nA], 1, [], []⟩

def bigTx : List (Env × Stmt) :=
  [(okEnv, .storCreate bigStor false), (okEnv, .dbCreate ⟨0, nA, false⟩ false), (okEnv, .tabCreate bigTab false), (okEnv, .udfCreate (fnA [65, 66]))]
def big : Cat := committed (runTx bigTx boot)

theorem big_reach : Reach big := by
  refine Reach.commit .start (fun s hs => ?_) (by decide)
  simp only [bigTx, List.mem_cons, List.not_mem_nil, or_false] at hs
  rcases hs with rfl | rfl | rfl | rfl
  · rfl
  · rfl
  · refine ⟨?_, ?_, ?_⟩ <;> simp [bigTab, intCol] <;> decide
  · trivial

theorem ok_short {s : Bytes} (h1 : ∀ b ∈ s, b < 128) (h2 : s.length < 100) : OkText s := ⟨utf8_ascii h1, by omega⟩

/-! a decidable sufficient condition -/
def short (s : Bytes) : Bool := s.all (fun b => decide (b < 128)) && decide (s.length < 100)
def small (i : Int) : Bool := decide (-9223372036854775808 < i) && decide (i < 9223372036854775808)
def checkCol (x : Col) : Bool :=
  short x.name && small x.type && small x.typeSize && small x.cons.identity && small x.cons.modulo && short x.cons.stored && short x.cons.resolved &&
  (x.cons.value.all fun b => decide (b < 256)) && decide (x.cons.value.length < 100)
def checkVol (v : Vol) : Bool := short v.name && decide (v.id = id1)
def checkTab (t : Tab) : Bool :=
  short t.db && short t.name && decide (t.id = id1) && t.cols.all checkCol && decide (t.cols.length < 100) &&
  (t.idxs.all fun i => short i.name && small i.type && i.keys.all fun k => decide (k.ref < t.cols.length)) &&
  decide (-2147483648 ≤ t.parts) && decide (t.parts ≤ 2147483647) && t.vols.all checkVol && t.tiers.all fun x => short x.name && x.vols.all checkVol
def checkUdf (u : Udf) : Bool := short u.db && short u.name && short u.text && small u.type && u.args.all checkCol && u.returning.all checkCol
def check (c : Cat) : Bool :=
  (c.stors.all fun s => short s.name && short s.path && short s.compression && small s.level) && (c.dbs.all fun d => short d.name) &&
  c.tabs.all checkTab && c.udfs.all checkUdf
def checkWhole (c : Cat) : Bool :=
  (c.tabs.all fun t => t.cols.all fun x => !x.dropped) && (c.udfs.all fun u => u.args.all fun x => !x.dropped) && (c.udfs.all fun u => u.returning.all fun x => !x.dropped)

theorem short_ok {s : Bytes} (h : short s = true) : OkText s := by
  simp only [short, Bool.and_eq_true, List.all_eq_true, decide_eq_true_eq] at h
  exact ok_short h.1 h.2
theorem small_ok {i : Int} (h : small i = true) : OkInt i := by
  simp only [small, Bool.and_eq_true, decide_eq_true_eq] at h
  unfold OkInt; omega
theorem checkCol_ok {x : Col} (h : checkCol x = true) : OkCol x := by
  simp only [checkCol, Bool.and_eq_true, List.all_eq_true, decide_eq_true_eq] at h
  obtain ⟨⟨⟨⟨⟨⟨⟨⟨a, b⟩, c⟩, d⟩, e⟩, f⟩, g⟩, i⟩, j⟩ := h
  exact ⟨short_ok a, small_ok b, small_ok c, small_ok d, small_ok e, short_ok f, short_ok g, i, by omega⟩
theorem checkVol_ok {x : Vol} (h : checkVol x = true) : OkVol x := by
  simp only [checkVol, Bool.and_eq_true, decide_eq_true_eq] at h
  exact ⟨short_ok h.1, by rw [h.2]; exact isId1⟩
theorem checkTab_ok {t : Tab} (h : checkTab t = true) : OkTab t := by
  simp only [checkTab, Bool.and_eq_true, List.all_eq_true, decide_eq_true_eq] at h
  obtain ⟨⟨⟨⟨⟨⟨⟨⟨⟨a, b⟩, c⟩, d⟩, e⟩, f⟩, g⟩, g2⟩, i⟩, j⟩ := h
  exact ⟨short_ok a, short_ok b, by rw [c]; exact isId1, fun x hx => checkCol_ok (d x hx), by omega,
    fun x hx => ⟨short_ok (f x hx).1.1, small_ok (f x hx).1.2, (f x hx).2⟩, ⟨g, g2⟩, fun v hv => checkVol_ok (i v hv),
    fun x hx => ⟨short_ok (j x hx).1, fun v hv => checkVol_ok ((j x hx).2 v hv)⟩⟩
theorem checkUdf_ok {u : Udf} (h : checkUdf u = true) : OkUdf u := by
  simp only [checkUdf, Bool.and_eq_true, List.all_eq_true, decide_eq_true_eq] at h
  obtain ⟨⟨⟨⟨⟨a, b⟩, c⟩, d⟩, e⟩, f⟩ := h
  exact ⟨short_ok a, short_ok b, short_ok c, small_ok d, fun x hx => checkCol_ok (e x hx), fun x hx => checkCol_ok (f x hx)⟩
theorem check_ok {c : Cat} (h : check c = true) : Readable c := by
  simp only [check, Bool.and_eq_true, List.all_eq_true] at h
  obtain ⟨⟨⟨a, b⟩, c⟩, d⟩ := h
  exact ⟨fun s hs => ⟨short_ok (a s hs).1.1.1, short_ok (a s hs).1.1.2, short_ok (a s hs).1.2, small_ok (a s hs).2⟩, fun s hs => short_ok (b s hs),
    fun t ht => checkTab_ok (c t ht), fun t ht => checkUdf_ok (d t ht)⟩
theorem checkWhole_ok {c : Cat} (h : checkWhole c = true) : Whole c := by
  simp only [checkWhole, Bool.and_eq_true, List.all_eq_true, Bool.not_eq_true'] at h
  exact ⟨h.1.1, h.1.2, h.2⟩

/-- the hypotheses of C91 hold of a catalog with a storage, a database, a table (default value, index, tier) and a function -/
example : Reach big ∧ Readable big ∧ Whole big ∧ Compiles okEnv big ∧ okEnv.opens = true ∧ OkInt 7 ∧ big.tabs.length = 1 ∧ big.udfs.length = 1 :=
  ⟨big_reach, check_ok (by decide), checkWhole_ok (by decide), fun _ _ _ _ _ _ _ _ _ => rfl, rfl, by unfold OkInt; omega, rfl, rfl⟩

/-! ## what the file loses -/

theorem reach_tx {c : Cat} (hr : Reach c) {l : List (Env × Stmt)} (h1 : ReqsOk l) (h2 : (runTx l c).reply ≠ .error) : Reach (committed (runTx l c)) := .commit hr h1 h2
theorem lsn7 : OkInt 7 := by unfold OkInt; omega

/-- C91 fails: `ALTER TABLE a.b DROP COLUMN b`, a checkpoint and a restart bring the column back (`column_copy` does not
copy `dropped`) -/
theorem C91_dropped_false (L : Libc) : ∃ c text c', Reach c ∧ Readable c ∧ Compiles okEnv c ∧ fileText L 7 c = .ok text ∧ restart L okEnv text = .ok (c', 7) ∧
    ((findTab c nA nB).bind fun t => findCol t nB) = none ∧ ((findTab c' nA nB).bind fun t => findCol t nB).isSome = true := by
  have hr := reach_tx big_reach (l := [(okEnv, .colDrop nA nB nB false false)]) (fun s hs => by rw [List.mem_singleton.1 hs]; trivial) (by decide)
  have hk : Readable (committed (runTx [(okEnv, .colDrop nA nB nB false false)] big)) := check_ok (by decide)
  obtain ⟨text, h1, h2⟩ := restart_reads L (e := okEnv) hr.wf hk lsn7
  exact ⟨_, text, _, hr, hk, fun _ _ _ _ _ _ _ _ _ => rfl, h1, h2.trans (by rfl), by decide, by decide⟩

/-- C91 fails: the counter set with `ALTER TABLE a.b SET IDENTITY 10` is not in the file -/
theorem C91_identity_false (L : Libc) : ∃ c text c', Reach c ∧ Readable c ∧ Whole c ∧ Compiles okEnv c ∧ fileText L 7 c = .ok text ∧ restart L okEnv text = .ok (c', 7) ∧
    (findTab c nA nB).map Tab.seq = some 10 ∧ (findTab c' nA nB).map Tab.seq = some 0 := by
  have hr := reach_tx big_reach (l := [(okEnv, .tabIdentity nA nB 10 false)]) (fun s hs => by rw [List.mem_singleton.1 hs]; trivial) (by decide)
  have hk : Readable (committed (runTx [(okEnv, .tabIdentity nA nB 10 false)] big)) := check_ok (by decide)
  obtain ⟨text, h1, h2⟩ := restart_reads L (e := okEnv) hr.wf hk lsn7
  exact ⟨_, text, _, hr, hk, checkWhole_ok (by decide), fun _ _ _ _ _ _ _ _ _ => rfl, h1, h2.trans (by rfl), by decide, by decide⟩

/-- bodies: the text `[2]` calls the function `b` of the database `a`, other texts call nothing -/
def callEnv : Env := ⟨fun _ => false, true, fun c u => if u.text = [2] then (if (findUdf c nA nB).isSome then some [nB] else none) else some []⟩
def callTx : List (Env × Stmt) :=
  [(callEnv, .dbCreate ⟨0, nA, false⟩ false), (callEnv, .udfCreate (fnA [1])), (callEnv, .udfCreate { fnA [1] with name := nB }), (callEnv, .udfReplace (fnA [2]))]

/-- C91 fails: a function replaced by one that calls a later function stays before it in the file, and the server does not
start: compiling it again is refused -/
theorem C91_replace_false (L : Libc) : ∃ c text, Reach c ∧ Readable c ∧ Whole c ∧ (∀ u ∈ c.udfs, (callEnv.compile c u).isSome = true) ∧
    fileText L 7 c = .ok text ∧ restart L callEnv text = .error .err := by
  have hr := reach_tx .start (l := callTx) (fun s hs => by
    simp only [callTx, List.mem_cons, List.not_mem_nil, or_false] at hs
    rcases hs with rfl | rfl | rfl | rfl
    · rfl
    · trivial
    · trivial
    · trivial) (by decide)
  have hk : Readable (committed (runTx callTx boot)) := check_ok (by decide)
  obtain ⟨text, h1, h2⟩ := restart_reads L (e := callEnv) hr.wf hk lsn7
  exact ⟨_, text, hr, hk, checkWhole_ok (by decide), by decide, h1, h2.trans (by rfl)⟩

/-- a function whose text holds the byte 255 -/
def rawUdf : Udf := ⟨0, mainName, nA, [255], [], 1, [], []⟩
def rawTx : List (Env × Stmt) := [(okEnv, .udfCreate rawUdf)]
def rawCat : Cat := committed (runTx rawTx boot)
theorem digits1 (n : Nat) (h : n < 10) : decDigits n = [48 + n] := by
  rw [decDigits]; simp [h]
theorem raw_parse (L : Libc) : parse L (textOf L true 0 (catJ 7 rawCat)) = .error .err := by
  have e7 : intText 7 = [55] := by unfold intText; rw [if_neg (by decide)]; exact digits1 7 (by decide)
  have e1 : intText 1 = [49] := by unfold intText; rw [if_neg (by decide)]; exact digits1 1 (by decide)
  show parse L (textOf L true 0 (.obj [(lit "lsn", .int 7), (lit "storages", .arr []), (lit "databases", .arr []), (lit "tables", .arr []), (lit "udfs", .arr [udfJ { rawUdf with oid := 2 }])])) = _
  simp only [udfJ, textOf, textList, textFields, colsJ, rawUdf, e7, e1]
  rfl

/-- C91 fails: the text of a function is stored as typed, any bytes (a comment, say); the JSON parser refuses the file and the
server does not start -/
theorem C91_utf8_false (L : Libc) : ∃ c text, Reach c ∧ Whole c ∧ Compiles okEnv c ∧ fileText L 7 c = .ok text ∧ restart L okEnv text = .error .err := by
  have hr : Reach rawCat := reach_tx .start (l := rawTx) (fun s hs => by rw [List.mem_singleton.1 hs]; trivial) (by decide)
  refine ⟨rawCat, textOf L true 0 (catJ 7 rawCat), hr, checkWhole_ok (by decide), fun _ _ _ _ _ _ _ _ _ => rfl, ?_, ?_⟩
  · have hw : WF (catJ 7 rawCat) := by
      show WF (.obj [(lit "lsn", .int 7), (lit "storages", .arr []), (lit "databases", .arr []), (lit "tables", .arr []), (lit "udfs", .arr [udfJ { rawUdf with oid := 2 }])])
      simp only [udfJ, colsJ, rawUdf, WF, WFList, WFFields, List.map_nil, IsBytes]
      decide
    have := export_enc L true (catJ 7 rawCat) hw ((enc (catJ 7 rawCat)).length + 1) 0 [] (by omega)
    rw [List.append_nil] at this
    unfold fileText export_
    rw [this]
    rfl
  · unfold restart
    rw [raw_parse]
    rfl

end Verif.Catalog
