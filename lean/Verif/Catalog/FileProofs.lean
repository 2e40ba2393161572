import Verif.Catalog.File
import Verif.Json.DecSkip
import Verif.Codec.Props
set_option linter.unusedSimpArgs false
set_option linter.unusedVariables false
set_option autoImplicit false
namespace Verif.Catalog
open Verif.Json (J enc skip peek clsOf readRaw readInteger readBool readObj readObjEnd readArray readArrayEnd clsOf_str dec_skip
  readInteger_write writeRaw writeInteger writeBool)
open scoped Verif.Json
open Verif.Json.Text

/-! ## reading what the parser of JSON text leaves -/

theorem skip_encP {v : J} (h : TextOK v) (rest : Bytes) : skip (encP v ++ rest) = .ok rest :=
  (dec_skip (dec_encP v h ((encP v).length) rest (Nat.le_refl _))).1

/-- an identifier as text -/
def IsId (s : Bytes) : Prop := ∃ u : Codec.Uuid, u.Valid ∧ s = Codec.uuidGet u

theorem uuidSet_id {s : Bytes} (h : IsId s) : ∃ u, Codec.uuidSet ⟨0, 0, 0, 0, 0, 0⟩ s = some u ∧ Codec.uuidGet u = s := by
  obtain ⟨u, hv, rfl⟩ := h
  refine ⟨u, ?_, rfl⟩
  have := Codec.C07_uuid_roundtrip u ⟨0, 0, 0, 0, 0, 0⟩ hv []
  rwa [List.append_nil] at this

/-- `readVal` on a tree -/
def want : Kind → J → Bytes → Res Val
  | .uuid, .str s, _ => (Codec.uuidSet ⟨0, 0, 0, 0, 0, 0⟩ s).elim (.error .err) fun u => .ok (.str (Codec.uuidGet u))
  | .str, .str s, _ => .ok (.str s)
  | .int, .int i, _ => .ok (.int i)
  | .bool, .bool b, _ => .ok (.bool b)
  | .arr, .arr l, r => .ok (.pos (encP (.arr l) ++ r))
  | .obj, .obj l, r => .ok (.pos (encP (.obj l) ++ r))
  | _, _, _ => .error .err

theorem want_uuid {s : Bytes} (h : IsId s) (r : Bytes) : want .uuid (.str s) r = .ok (.str s) := by
  obtain ⟨u, h1, h2⟩ := uuidSet_id h
  simp only [want, h1, Option.elim, h2]

theorem readVal_str {s : Bytes} (h : s.length < 2 ^ 31) (r : Bytes) : readVal .str (encP (.str s) ++ r) = .ok (.str s, r) := by
  have h1 := readRaw_strForm s h r
  obtain ⟨t, q, e, ht⟩ := strForm_head s
  simp only [encP] at h1 ⊢
  unfold readVal
  rw [e] at h1 ⊢
  simp only [List.cons_append, peek, Except.bind, clsOf_str t ht, if_true] at h1 ⊢
  rw [h1]

theorem readVal_uuid {s : Bytes} (h : s.length < 2 ^ 31) (hi : IsId s) (r : Bytes) : readVal .uuid (encP (.str s) ++ r) = .ok (.str s, r) := by
  have h1 := readRaw_strForm s h r
  obtain ⟨u, h2, h3⟩ := uuidSet_id hi
  obtain ⟨t, q, e, ht⟩ := strForm_head s
  simp only [encP] at h1 ⊢
  unfold readVal
  rw [e] at h1 ⊢
  simp only [List.cons_append, peek, Except.bind, clsOf_str t ht, if_true] at h1 ⊢
  rw [h1]
  simp only [h2, Option.elim, h3]

theorem clsOf_int' (i : Int) (h1 : -(2 ^ 63) ≤ i) (h2 : i < 2 ^ 63) : ∃ t q, writeInteger i = t :: q ∧ clsOf t = .int := by
  have hd := Json.dec_int 0 i h1 h2 []
  obtain ⟨t, q, e, ht⟩ := Json.writeInteger_head i
  exact ⟨t, q, e, Json.clsOf_int t ht⟩

theorem readVal_int {i : Int} (h : -(2 ^ 63) < i ∧ i < 2 ^ 63) (r : Bytes) : readVal .int (encP (.int i) ++ r) = .ok (.int i, r) := by
  have h1 := readInteger_write i (by omega) h.2 r
  obtain ⟨t, q, e, ht⟩ := clsOf_int' i (by omega) h.2
  simp only [encP] at h1 ⊢
  unfold readVal
  rw [e] at h1 ⊢
  simp only [List.cons_append, peek, Except.bind, ht, if_true] at h1 ⊢
  rw [h1]

theorem readVal_bool (b : Bool) (r : Bytes) : readVal .bool (encP (.bool b) ++ r) = .ok (.bool b, r) := by cases b <;> rfl

theorem readVal_arr {l : List J} (h : TextOK (.arr l)) (r : Bytes) : readVal .arr (encP (.arr l) ++ r) = .ok (.pos (encP (.arr l) ++ r), r) := by
  have h1 := skip_encP h r
  unfold readVal
  rw [h1]
  rfl
theorem readVal_obj {l : List (Bytes × J)} (h : TextOK (.obj l)) (r : Bytes) : readVal .obj (encP (.obj l) ++ r) = .ok (.pos (encP (.obj l) ++ r), r) := by
  have h1 := skip_encP h r
  unfold readVal
  rw [h1]
  rfl

theorem readVal_want {k : Kind} {v : J} (h : TextOK v) {r : Bytes} {w : Val} (hw : want k v r = .ok w) : readVal k (encP v ++ r) = .ok (w, r) := by
  cases k <;> cases v <;> simp only [want] at hw <;> try (cases hw; done)
  · rename_i s
    obtain ⟨u, hu⟩ : ∃ u, Codec.uuidSet ⟨0, 0, 0, 0, 0, 0⟩ s = some u := by
      cases e : Codec.uuidSet ⟨0, 0, 0, 0, 0, 0⟩ s with
      | none => rw [e] at hw; cases hw
      | some u => exact ⟨u, rfl⟩
    have h1 := readRaw_strForm s h.2 r
    obtain ⟨t, q, e, ht⟩ := strForm_head s
    simp only [encP] at h1 ⊢
    unfold readVal
    rw [e] at h1 ⊢
    simp only [List.cons_append, peek, Except.bind, clsOf_str t ht, if_true] at h1 ⊢
    rw [h1]
    rw [hu] at hw
    simp only [hu, Option.elim] at hw ⊢
    cases hw; rfl
  · cases hw; exact readVal_str h.2 r
  · cases hw; exact readVal_int h r
  · cases hw; exact readVal_bool _ r
  · cases hw; exact readVal_arr h r
  · cases hw; exact readVal_obj h r

/-- `objLoop` on the fields of a tree -/
inductive Fold (keys : Keys) (rest : Bytes) : List (Bytes × J) → Got → Got → Prop
  | nil (g : Got) : Fold keys rest [] g g
  | cons {k : Bytes} {v : J} {t : List (Bytes × J)} {g g' : Got} {kd : Kind} {w : Val} :
      (keys.find? fun x => decide (x.1 = k)) = some (k, kd) → want kd v (encPFields t ++ tOBJ_END :: rest) = .ok w →
      Fold keys rest t ((k, w) :: g) g' → Fold keys rest ((k, v) :: t) g g'

theorem objLoop_fold {keys : Keys} {rest : Bytes} {fs : List (Bytes × J)} {g g' : Got} (hf : Fold keys rest fs g g') :
    TextOKFields fs → ∀ fuel, fs.length < fuel → objLoop keys fuel g (encPFields fs ++ tOBJ_END :: rest) = .ok (g', rest) := by
  induction hf with
  | nil g =>
    intro _ fuel hl
    obtain ⟨f, rfl⟩ : ∃ f, fuel = f + 1 := ⟨fuel - 1, by simp at hl; omega⟩
    rfl
  | @cons k v t g g' kd w hk hw ht ih =>
    intro hok fuel hl
    obtain ⟨f, rfl⟩ : ∃ f, fuel = f + 1 := ⟨fuel - 1, by simp at hl; omega⟩
    simp only [TextOKFields] at hok
    have h0 := readRaw_strForm k hok.1.2 (encP v ++ (encPFields t ++ (tOBJ_END :: rest)))
    have h3 : readObjEnd (strForm k ++ (encP v ++ (encPFields t ++ (tOBJ_END :: rest)))) = .ok none := by
      obtain ⟨x, r, h, h2⟩ := strForm_head k
      have : x ≠ 79 := by omega
      simp [h, readObjEnd, this]
    simp only [encPFields, List.append_assoc, objLoop]
    rw [h3]
    simp only [Except.bind, Option.elim]
    rw [h0]
    simp only [readField, hk, Option.elim, readVal_want hok.2.1 hw, Except.bind]
    exact ih hok.2.2 f (by simp at hl; omega)

theorem encPFields_len (fs : List (Bytes × J)) : fs.length ≤ (encPFields fs).length := by
  induction fs with
  | nil => simp
  | cons a t ih =>
    obtain ⟨k, v⟩ := a
    have := strForm_length_pos k
    simp only [encPFields, List.length_append, List.length_cons]
    omega
theorem encPList_len (fs : List J) : fs.length ≤ (encPList fs).length := by
  induction fs with
  | nil => simp
  | cons v t ih =>
    have := encP_length_pos v
    simp only [encPList, List.length_append, List.length_cons]
    omega

theorem readKeys_fold {keys : Keys} {rest : Bytes} {fs : List (Bytes × J)} {g : Got} (hf : Fold keys rest fs [] g) (h : TextOK (.obj fs))
    (ha : (keys.all fun k => g.any fun x => decide (x.1 = k.1)) = true) : readKeys keys (encP (.obj fs) ++ rest) = .ok (g, rest) := by
  unfold readKeys
  simp only [encP, List.cons_append, List.append_assoc, List.nil_append, readObj, if_true, Except.bind]
  rw [objLoop_fold hf h _ (by have := encPFields_len fs; simp; omega)]
  simp only [ha, if_true]

theorem listLoop_enc {α : Type} {f : Bytes → Res (α × Bytes)} {w : α → J} {g : α → α} (rest : Bytes) : ∀ (l : List α) (fuel : Nat), l.length < fuel →
    (∀ x ∈ l, ∀ r, f (encP (w x) ++ r) = .ok (g x, r)) → listLoop f fuel (encPList (l.map w) ++ tARRAY_END :: rest) = .ok (l.map g, rest)
  | [], fuel, hl, _ => by
    obtain ⟨f, rfl⟩ : ∃ f, fuel = f + 1 := ⟨fuel - 1, by simp at hl; omega⟩
    rfl
  | x :: l, fuel, hl, hx => by
    obtain ⟨n, rfl⟩ : ∃ f, fuel = f + 1 := ⟨fuel - 1, by simp at hl; omega⟩
    have h3 : readArrayEnd (encP (w x) ++ (encPList (l.map w) ++ (tARRAY_END :: rest))) = .ok none := by
      obtain ⟨y, r, h, _, h2⟩ := encP_head (w x)
      simp [h, readArrayEnd, h2]
    simp only [List.map_cons, encPList, List.append_assoc, listLoop]
    rw [h3]
    simp only [Except.bind, Option.elim, hx x (by simp)]
    rw [listLoop_enc rest l n (by simp at hl; omega) fun y hy => hx y (by simp [hy])]

theorem readList_enc {α : Type} {f : Bytes → Res (α × Bytes)} {w : α → J} {g : α → α} {l : List α}
    (h : ∀ x ∈ l, ∀ r, f (encP (w x) ++ r) = .ok (g x, r)) (rest : Bytes) : readList f (encP (.arr (l.map w)) ++ rest) = .ok (l.map g, rest) := by
  unfold readList
  simp only [encP, List.cons_append, List.append_assoc, List.nil_append, readArray, if_true, Except.bind]
  exact listLoop_enc rest l _ (by have := encPList_len (l.map w); simp at this ⊢; omega) h

theorem textOKList_iff (l : List J) : TextOKList l ↔ ∀ v ∈ l, TextOK v := by
  induction l with
  | nil => simp [TextOKList]
  | cons v t ih => simp [TextOKList, ih]

/-! ## the objects -/

theorem readStor_enc {s : Stor} (h : TextOK (storJ s)) (rest : Bytes) :
    readStor (encP (storJ s) ++ rest) = .ok ({ s with oid := 0, system := false }, rest) := by
  unfold readStor
  unfold storJ at h ⊢
  rw [readKeys_fold (.cons rfl rfl (.cons rfl rfl (.cons rfl rfl (.cons rfl rfl (.nil _))))) h rfl]
  rfl

theorem readDb_enc {s : Db} (h : TextOK (dbJ s)) (rest : Bytes) : readDb (encP (dbJ s) ++ rest) = .ok ({ s with oid := 0, system := false }, rest) := by
  unfold readDb
  unfold dbJ at h ⊢
  rw [readKeys_fold (.cons rfl rfl (.nil _)) h rfl]
  rfl

theorem readVol_enc {v : Vol} (h : TextOK (volJ v)) (hi : IsId v.id) (rest : Bytes) : readVol (encP (volJ v) ++ rest) = .ok (volCopy v, rest) := by
  unfold readVol
  unfold volJ at h ⊢
  rw [readKeys_fold (.cons rfl rfl (.cons rfl (want_uuid hi _) (.cons rfl rfl (.nil _)))) h rfl]
  rfl

theorem readVols_enc {l : List Vol} (h : TextOK (volsJ l)) (hi : ∀ v ∈ l, IsId v.id) (rest : Bytes) :
    readVols (encP (volsJ l) ++ rest) = .ok (l.map volCopy, rest) := by
  unfold volsJ at *
  refine readList_enc (fun v hv r => readVol_enc ?_ (hi v hv) r) rest
  exact (textOKList_iff _).1 h _ (List.mem_map_of_mem hv)

/-! constraints -/

inductive Chain : Cons → List J → Cons → Prop
  | nil (k : Cons) : Chain k [] k
  | cons {k k' k'' : Cons} {v : J} {l : List J} : (∀ r, readPair k (encP v ++ r) = .ok (k', r)) → Chain k' l k'' → Chain k (v :: l) k''

theorem Chain.append {k k' k'' : Cons} {l l' : List J} (h : Chain k l k') (h' : Chain k' l' k'') : Chain k (l ++ l') k'' := by
  induction h with
  | nil => exact h'
  | cons h1 _ ih => exact .cons h1 (ih h')

theorem chain_pair {k k' : Cons} {p : Bool} {n : String} {v : J}
    (h : p = true → ∀ r, readPair k (encP (.arr [.str (lit n), v]) ++ r) = .ok (k', r)) (h0 : p = false → k' = k) : Chain k (pairJ p n v) k' := by
  unfold pairJ
  cases p with
  | true => exact .cons (h rfl) (.nil _)
  | false => rw [h0 rfl]; exact .nil _

theorem consLoop_chain {k k' : Cons} {l : List J} (h : Chain k l k') (rest : Bytes) : ∀ fuel, l.length < fuel →
    consLoop fuel k (encPList l ++ tARRAY_END :: rest) = .ok (k', rest) := by
  induction h with
  | nil k =>
    intro fuel hl
    obtain ⟨f, rfl⟩ : ∃ f, fuel = f + 1 := ⟨fuel - 1, by simp at hl; omega⟩
    rfl
  | @cons k k' k'' v l h1 _ ih =>
    intro fuel hl
    obtain ⟨n, rfl⟩ : ∃ f, fuel = f + 1 := ⟨fuel - 1, by simp at hl; omega⟩
    have h3 : readArrayEnd (encP v ++ (encPList l ++ (tARRAY_END :: rest))) = .ok none := by
      obtain ⟨y, r, h, _, h2⟩ := encP_head v
      simp [h, readArrayEnd, h2]
    simp only [encPList, List.append_assoc, consLoop]
    rw [h3]
    simp only [Except.bind, Option.elim, h1]
    exact ih n (by simp at hl; omega)

theorem lenSucc (l : List J) (rest : Bytes) : l.length < (encPList l ++ tARRAY_END :: rest).length + 1 := by
  have := encPList_len l
  rw [List.length_append]
  omega

theorem pair_enc (n : String) (v : J) (r : Bytes) :
    encP (.arr [.str (lit n), v]) ++ r = tARRAY :: (strForm (lit n) ++ (encP v ++ tARRAY_END :: r)) := by
  simp [encP, encPList]

theorem readPair_bool (k : Cons) (b : Bool) (r : Bytes) :
    readPair k (encP (.arr [.str (lit "not_null"), .bool b]) ++ r) = .ok ({ k with notNull := b }, r) := by
  rw [pair_enc]
  unfold readPair
  simp only [readArray, if_true, Except.bind]
  rw [readRaw_strForm _ (by decide)]
  simp only [show same (lit "not_null") (lit "not_null") = true by decide, if_true]
  cases b <;> rfl

theorem readPair_identity (k : Cons) {i : Int} (h : -(2 ^ 63) < i ∧ i < 2 ^ 63) (r : Bytes) :
    readPair k (encP (.arr [.str (lit "as_identity"), .int i]) ++ r) = .ok ({ k with identity := i }, r) := by
  rw [pair_enc]
  unfold readPair
  simp only [readArray, if_true, Except.bind]
  rw [readRaw_strForm _ (by decide)]
  simp only [show same (lit "as_identity") (lit "not_null") = false by decide, show same (lit "as_identity") (lit "as_identity") = true by decide, if_true,
    Bool.false_eq_true, if_false, encP]
  rw [readInteger_write i (by omega) h.2]
  rfl

theorem readPair_modulo (k : Cons) {i : Int} (h : -(2 ^ 63) < i ∧ i < 2 ^ 63) (r : Bytes) :
    readPair k (encP (.arr [.str (lit "as_identity_modulo"), .int i]) ++ r) = .ok ({ k with modulo := i }, r) := by
  rw [pair_enc]
  unfold readPair
  simp only [readArray, if_true, Except.bind]
  rw [readRaw_strForm _ (by decide)]
  simp only [show same (lit "as_identity_modulo") (lit "not_null") = false by decide, show same (lit "as_identity_modulo") (lit "as_identity") = false by decide,
    show same (lit "as_identity_modulo") (lit "as_identity_modulo") = true by decide, if_true, Bool.false_eq_true, if_false, encP]
  rw [readInteger_write i (by omega) h.2]
  rfl

theorem readPair_stored (k : Cons) {s : Bytes} (h : s.length < 2 ^ 31) (r : Bytes) :
    readPair k (encP (.arr [.str (lit "as_stored"), .str s]) ++ r) = .ok ({ k with stored := s }, r) := by
  rw [pair_enc]
  unfold readPair
  simp only [readArray, if_true, Except.bind]
  rw [readRaw_strForm _ (by decide)]
  simp only [show same (lit "as_stored") (lit "not_null") = false by decide, show same (lit "as_stored") (lit "as_identity") = false by decide,
    show same (lit "as_stored") (lit "as_identity_modulo") = false by decide, show same (lit "as_stored") (lit "as_stored") = true by decide,
    if_true, Bool.false_eq_true, if_false, encP]
  rw [readRaw_strForm _ h]
  rfl

theorem readPair_resolved (k : Cons) {s : Bytes} (h : s.length < 2 ^ 31) (r : Bytes) :
    readPair k (encP (.arr [.str (lit "as_resolved"), .str s]) ++ r) = .ok ({ k with resolved := s }, r) := by
  rw [pair_enc]
  unfold readPair
  simp only [readArray, if_true, Except.bind]
  rw [readRaw_strForm _ (by decide)]
  simp only [show same (lit "as_resolved") (lit "not_null") = false by decide, show same (lit "as_resolved") (lit "as_identity") = false by decide,
    show same (lit "as_resolved") (lit "as_identity_modulo") = false by decide, show same (lit "as_resolved") (lit "as_stored") = false by decide,
    show same (lit "as_resolved") (lit "as_resolved") = true by decide, if_true, Bool.false_eq_true, if_false, encP]
  rw [readRaw_strForm _ h]
  rfl

theorem readPair_default (k : Cons) {s : Bytes} (hb : IsBytes s) (h : (Codec.encode Codec.url s).length < 2 ^ 31) (r : Bytes) :
    readPair k (encP (.arr [.str (lit "default"), .str (Codec.encode Codec.url s)]) ++ r) = .ok ({ k with value := s }, r) := by
  rw [pair_enc]
  unfold readPair
  simp only [readArray, if_true, Except.bind]
  rw [readRaw_strForm _ (by decide)]
  simp only [show same (lit "default") (lit "not_null") = false by decide, show same (lit "default") (lit "as_identity") = false by decide,
    show same (lit "default") (lit "as_identity_modulo") = false by decide, show same (lit "default") (lit "as_stored") = false by decide,
    show same (lit "default") (lit "as_resolved") = false by decide, show same (lit "default") (lit "default") = true by decide,
    if_true, Bool.false_eq_true, if_false, encP]
  rw [readRaw_strForm _ h]
  simp only [Codec.C06_base64url_roundtrip s hb]
  rfl

theorem textOK_pair {p : Bool} {n : String} {v : J} (h : TextOKList (pairJ p n v)) (hp : p = true) : TextOK v := by
  subst hp
  simp only [pairJ, if_true, TextOKList, TextOK] at h
  exact h.1.2.1

theorem textOKList_append (a b : List J) : TextOKList (a ++ b) ↔ TextOKList a ∧ TextOKList b := by
  rw [textOKList_iff, textOKList_iff, textOKList_iff]
  simp only [List.mem_append]
  exact ⟨fun h => ⟨fun v hv => h v (.inl hv), fun v hv => h v (.inr hv)⟩, fun h v hv => hv.elim (h.1 v) (h.2 v)⟩

theorem readCons_enc {k : Cons} (h : TextOK (consJ k)) (hb : IsBytes k.value) (rest : Bytes) : readCons (encP (consJ k) ++ rest) = .ok (k, rest) := by
  unfold readCons
  unfold consJ at h ⊢
  simp only [TextOK, textOKList_append] at h
  obtain ⟨⟨⟨⟨⟨h1, h2⟩, h3⟩, h4⟩, h5⟩, h6⟩ := h
  obtain ⟨notNull, identity, modulo, stored, resolved, value⟩ := k
  dsimp only at h1 h2 h3 h4 h5 h6 hb ⊢
  simp only [encP, List.cons_append, List.append_assoc, List.nil_append, readArray, if_true, Except.bind]
  refine consLoop_chain ?_ rest _ (lenSucc _ _)
  have c1 : Chain Cons.init (pairJ notNull "not_null" (.bool notNull)) ⟨notNull, 0, 9223372036854775807, [], [], []⟩ :=
    chain_pair (fun _ r => readPair_bool _ _ r) (fun e => by rw [e]; rfl)
  have c2 : Chain ⟨notNull, 0, 9223372036854775807, [], [], []⟩ (pairJ (decide (identity ≠ 0)) "as_identity" (.int identity))
      ⟨notNull, identity, 9223372036854775807, [], [], []⟩ :=
    chain_pair (fun e r => readPair_identity _ (textOK_pair h2 e) r) (fun e => by simp at e; rw [e])
  have c3 : Chain ⟨notNull, identity, 9223372036854775807, [], [], []⟩ (pairJ (decide (modulo ≠ 9223372036854775807)) "as_identity_modulo" (.int modulo))
      ⟨notNull, identity, modulo, [], [], []⟩ :=
    chain_pair (fun e r => readPair_modulo _ (textOK_pair h3 e) r) (fun e => by simp at e; rw [e])
  have c4 : Chain ⟨notNull, identity, modulo, [], [], []⟩ (pairJ (!stored.isEmpty) "as_stored" (.str stored)) ⟨notNull, identity, modulo, stored, [], []⟩ :=
    chain_pair (fun e r => readPair_stored _ (textOK_pair h4 e).2 r) (fun e => by simp at e; rw [e])
  have c5 : Chain ⟨notNull, identity, modulo, stored, [], []⟩ (pairJ (!resolved.isEmpty) "as_resolved" (.str resolved)) ⟨notNull, identity, modulo, stored, resolved, []⟩ :=
    chain_pair (fun e r => readPair_resolved _ (textOK_pair h5 e).2 r) (fun e => by simp at e; rw [e])
  have c6 : Chain ⟨notNull, identity, modulo, stored, resolved, []⟩ (pairJ (!value.isEmpty) "default" (.str (Codec.encode Codec.url value)))
      ⟨notNull, identity, modulo, stored, resolved, value⟩ :=
    chain_pair (fun e r => readPair_default _ hb (textOK_pair h6 e).2 r) (fun e => by simp at e; rw [e])
  exact c1.append (c2.append (c3.append (c4.append (c5.append c6))))

/-! columns, keys, indexes, tiers -/

theorem readCol_enc {x : Col} (h : TextOK (colJ x)) (hb : IsBytes x.cons.value) (rest : Bytes) : readCol (encP (colJ x) ++ rest) = .ok ({ x with cid := 0 }, rest) := by
  have hc : TextOK (consJ x.cons) := by
    unfold colJ at h; simp only [TextOK, TextOKFields] at h; exact h.2.2.2.2.2.2.2.2.2.1
  unfold readCol
  unfold colJ at h ⊢
  rw [readKeys_fold (.cons rfl rfl (.cons rfl rfl (.cons rfl rfl (.cons rfl rfl (.cons rfl rfl (.nil _)))))) h rfl]
  show (readCons (encP (consJ x.cons) ++ _)).bind _ = _
  rw [readCons_enc hc hb]
  rfl

theorem readCols_enc {l : List Col} (h : TextOK (colsJ l)) (hb : ∀ x ∈ l, IsBytes x.cons.value) (rest : Bytes) :
    readCols (encP (colsJ l) ++ rest) = .ok (l.map fun x => { x with cid := 0 }, rest) := by
  unfold colsJ at *
  refine readList_enc (fun v hv r => readCol_enc ?_ (hb v hv) r) rest
  exact (textOKList_iff _).1 h _ (List.mem_map_of_mem hv)

theorem readKey_enc {k : KeyRef} {n : Nat} (h : TextOK (keyJ k)) (hk : k.ref < n) (hn : n < 2 ^ 31) (rest : Bytes) : readKey n (encP (keyJ k) ++ rest) = .ok (k, rest) := by
  unfold readKey
  unfold keyJ at h ⊢
  rw [readKeys_fold (.cons rfl rfl (.cons rfl rfl (.nil _))) h rfl]
  have e : toInt ((k.ref : Nat) : Int) = ((k.ref : Nat) : Int) := by
    unfold toInt toSigned toUnsigned
    simp only [Nat.reducePow, Nat.reduceSub]
    split <;> omega
  show (if 0 ≤ toInt ((k.ref : Nat) : Int) ∧ (toInt ((k.ref : Nat) : Int)).toNat < n then
    Except.ok ((⟨(toInt ((k.ref : Nat) : Int)).toNat, k.asc⟩ : KeyRef), rest) else .error Fail.ub) = _
  rw [e, if_pos ⟨by omega, by omega⟩]
  simp

theorem readIdx_enc {i : Idx} {n : Nat} (h : TextOK (idxJ i)) (hk : ∀ k ∈ i.keys, k.ref < n) (hn : n < 2 ^ 31) (rest : Bytes) :
    readIdx n (encP (idxJ i) ++ rest) = .ok ({ i with iid := 0 }, rest) := by
  have hc : TextOK (.arr (i.keys.map keyJ)) := by
    unfold idxJ at h; simp only [TextOK, TextOKFields] at h; exact h.2.2.2.2.2.2.2.2.2.1
  unfold readIdx
  unfold idxJ at h ⊢
  rw [readKeys_fold (.cons rfl rfl (.cons rfl rfl (.cons rfl rfl (.cons rfl rfl (.cons rfl rfl (.nil _)))))) h rfl]
  show (readList (readKey n) (encP (.arr (i.keys.map keyJ)) ++ _)).bind _ = _
  rw [readList_enc (g := id) (fun k hm r => readKey_enc ((textOKList_iff _).1 hc _ (List.mem_map_of_mem hm)) (hk k hm) hn r), List.map_id]
  rfl

/-- a tier as `tier_config_read` makes it -/
def tierPlain (x : Tier) : Tier := { x with tid := 0, vols := x.vols.map volCopy }

theorem readTier_enc {x : Tier} (h : TextOK (tierJ x)) (hi : ∀ v ∈ x.vols, IsId v.id) (rest : Bytes) :
    readTier (encP (tierJ x) ++ rest) = .ok (tierPlain x, rest) := by
  have hc : TextOK (volsJ x.vols) := by
    unfold tierJ at h; simp only [TextOK, TextOKFields] at h; exact h.2.2.2.2.2.2.2.1
  unfold readTier
  unfold tierJ at h ⊢
  rw [readKeys_fold (.cons rfl rfl (.cons rfl rfl (.cons rfl rfl (.cons rfl rfl (.nil _))))) h rfl]
  show (readVols (encP (volsJ x.vols) ++ _)).bind _ = _
  rw [readVols_enc hc hi]
  rfl

theorem readParts_enc {t : Tab} (h : TextOK (partsJ t)) (hi : ∀ v ∈ t.vols, IsId v.id) (rest : Bytes) :
    readParts (encP (partsJ t) ++ rest) = .ok ((t.parts, t.vols.map volCopy), rest) := by
  have hc : TextOK (volsJ t.vols) := by
    unfold partsJ at h; simp only [TextOK, TextOKFields] at h; exact h.2.2.2.1
  unfold readParts
  unfold partsJ at h ⊢
  rw [readKeys_fold (.cons rfl rfl (.cons rfl rfl (.nil _))) h rfl]
  show (readVols (encP (volsJ t.vols) ++ _)).bind _ = _
  rw [readVols_enc hc hi]
  rfl

/-- a table as `table_config_read` makes it -/
def tabPlain (t : Tab) : Tab :=
  { t with oid := 0, cols := t.cols.map (fun x => { x with cid := 0 }), idxs := t.idxs.map (fun x => { x with iid := 0 }),
           vols := t.vols.map volCopy, tiers := t.tiers.map tierPlain, seq := 0 }

/-- the parts of a table that are not text: its identifiers, the defaults of its columns, the columns of its indexes -/
structure TabSound (t : Tab) : Prop where
  id : IsId t.id
  vols : ∀ v ∈ t.vols, IsId v.id
  tiers : ∀ x ∈ t.tiers, ∀ v ∈ x.vols, IsId v.id
  values : ∀ x ∈ t.cols, IsBytes x.cons.value
  keys : ∀ i ∈ t.idxs, ∀ k ∈ i.keys, k.ref < t.cols.length
  count : t.cols.length < 2 ^ 31

theorem readTab_enc {t : Tab} (h : TextOK (tabJ t)) (hs : TabSound t) (rest : Bytes) : readTab (encP (tabJ t) ++ rest) = .ok (tabPlain t, rest) := by
  have hc := h
  unfold tabJ at hc
  simp only [TextOK, TextOKFields] at hc
  obtain ⟨-, -, -, -, -, -, -, -, -, c1, -, c2, -, c3, -, c4, -⟩ := hc
  unfold readTab
  unfold tabJ at h ⊢
  rw [readKeys_fold (.cons rfl rfl (.cons rfl rfl (.cons rfl (want_uuid hs.id _) (.cons rfl rfl (.cons rfl rfl
    (.cons rfl rfl (.cons rfl rfl (.cons rfl rfl (.nil _))))))))) h rfl]
  show (readCols (encP (colsJ t.cols) ++ _)).bind _ = _
  rw [readCols_enc c1 hs.values]
  show (readList (readIdx (t.cols.map _).length) (encP (.arr (t.idxs.map idxJ)) ++ _)).bind _ = _
  rw [List.length_map, readList_enc (g := fun x => { x with iid := 0 })
    (fun i hi r => readIdx_enc ((textOKList_iff _).1 c2 _ (List.mem_map_of_mem hi)) (hs.keys i hi) hs.count r)]
  show (readParts (encP (partsJ t) ++ _)).bind _ = _
  rw [readParts_enc c3 hs.vols]
  show (readList readTier (encP (.arr (t.tiers.map tierJ)) ++ _)).bind _ = _
  rw [readList_enc (g := tierPlain) (fun i hi r => readTier_enc ((textOKList_iff _).1 c4 _ (List.mem_map_of_mem hi)) (hs.tiers i hi) r)]
  rfl

/-- a function as `udf_config_read` makes it -/
def udfPlain (u : Udf) : Udf :=
  { u with oid := 0, args := u.args.map (fun x => { x with cid := 0 }), returning := u.returning.map (fun x => { x with cid := 0 }), uses := [] }

theorem readUdf_enc {u : Udf} (h : TextOK (udfJ u)) (ha : ∀ x ∈ u.args, IsBytes x.cons.value) (hr : ∀ x ∈ u.returning, IsBytes x.cons.value) (rest : Bytes) :
    readUdf (encP (udfJ u) ++ rest) = .ok (udfPlain u, rest) := by
  have hc := h
  unfold udfJ at hc
  simp only [TextOK, TextOKFields] at hc
  obtain ⟨-, -, -, -, -, -, -, -, -, c1, -, c2, -⟩ := hc
  unfold readUdf
  unfold udfJ at h ⊢
  rw [readKeys_fold (.cons rfl rfl (.cons rfl rfl (.cons rfl rfl (.cons rfl rfl (.cons rfl rfl (.cons rfl rfl (.nil _))))))) h rfl]
  show (readCols (encP (colsJ u.args) ++ _)).bind _ = _
  rw [readCols_enc c1 ha]
  show (readCols (encP (colsJ u.returning) ++ _)).bind _ = _
  rw [readCols_enc c2 hr]
  rfl

end Verif.Catalog
