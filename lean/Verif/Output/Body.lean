import Verif.Output.Proofs
/-! proofs: what output_json_write writes is the text of the document of the result -/
set_option autoImplicit false
set_option linter.unusedSimpArgs false
set_option linter.unusedVariables false
namespace Verif.Output
open Verif Verif.Json Verif.Json.Text

theorem plain_append {a b : Bytes} (ha : Plain a) (hb : Plain b) : Plain (a ++ b) := by
  intro c hc; rcases List.mem_append.mp hc with h | h
  · exact ha c h
  · exact hb c h
theorem plain_cons {a : Nat} {b : Bytes} (ha : 32 ≤ a ∧ a < 128 ∧ a ≠ 34 ∧ a ≠ 92) (hb : Plain b) : Plain (a :: b) := by
  intro c hc; rcases List.mem_cons.mp hc with h | h
  · subst h; exact ha
  · exact hb c h
theorem plain_nil : Plain [] := by simp [Plain]
theorem plain_digits (n : Nat) : Plain (decDigits n) := fun c hc => by have := (decDigits_digits n).2 c hc; omega
theorem plain_int (i : Int) : Plain (intText i) := by
  unfold intText; split
  · exact plain_cons (by omega) (plain_digits _)
  · exact plain_digits _
theorem plain_pad (w n : Nat) : Plain (Func.pad w n) := by
  refine plain_append ?_ (plain_digits n)
  intro c hc; have := List.eq_of_mem_replicate hc; omega
theorem plain_hex : ∀ n v, Plain (Codec.hexN n v)
  | 0, _ => plain_nil
  | n + 1, v => by
    refine plain_append (plain_hex n _) (plain_cons ?_ plain_nil)
    unfold Codec.hexDigit; split <;> omega
theorem plain_dash : Plain [45] := by simp [Plain]
theorem plain_append_iff (a b : Bytes) : Plain (a ++ b) ↔ Plain a ∧ Plain b :=
  ⟨fun h => ⟨fun c hc => h c (by simp [hc]), fun c hc => h c (by simp [hc])⟩, fun h => plain_append h.1 h.2⟩
theorem plain_uuid (u : Codec.Uuid) : Plain (Codec.uuidGet u) := by
  unfold Codec.uuidGet
  simp only [plain_append_iff, plain_hex, plain_dash, and_self]
theorem plain_dropLast {a : Bytes} (ha : Plain a) : Plain a.dropLast := fun c hc => ha c (List.dropLast_subset a hc)
theorem plain_piece (n : Int) (a b : Bytes) (ha : Plain a) (hb : Plain b) : Plain (Func.ivPiece n a b) := by
  unfold Func.ivPiece
  refine plain_append (plain_append (plain_append (plain_int n) (by simp [Plain])) ?_) (by simp [Plain])
  split
  · exact ha
  · exact hb
theorem plain_step (c : Prop) [Decidable c] {s : Bytes} (hs : Plain s) (n : Int) (a b : Bytes) (ha : Plain a) (hb : Plain b) :
    Plain (if c then s ++ Func.ivPiece n a b else s) := by
  split
  · exact plain_append hs (plain_piece n a b ha hb)
  · exact hs
theorem plain_iv (iv : Func.Iv) : Plain (Func.ivGet iv) := by
  unfold Func.ivGet
  apply plain_dropLast
  repeat' first | exact plain_nil | apply plain_step
  all_goals simp [Plain]
theorem plain_date (j : Int) (t : Bytes) (h : Func.dateGet j = .ok t) : Plain t := by
  unfold Func.dateGet at h
  cases hd : Func.dateGetGregorian j with
  | error e => rw [hd] at h; simp [bind, Except.bind] at h
  | ok x =>
    rw [hd] at h
    simp only [bind, Except.bind] at h
    cases h
    repeat' first | exact plain_pad _ _ | exact plain_dash | apply plain_append
theorem plain_ite (c : Prop) [Decidable c] {a b : Bytes} (ha : Plain a) (hb : Plain b) : Plain (if c then a else b) := by
  split
  · exact ha
  · exact hb
theorem plain_stamp (v : Int) (off : Option Int) (t : Bytes) (h : Func.tsGet v off = .ok t) : Plain t := by
  unfold Func.tsGet at h
  cases hd : Func.tsValidate v with
  | error e => rw [hd] at h; simp [bind, Except.bind] at h
  | ok x =>
    rw [hd] at h
    simp only [bind, Except.bind] at h
    have hf : ∀ us : Int, Plain (if us = 0 then [] else if Func.crem us 1000 = 0 then 46 :: Func.pad 3 (Func.cdiv us 1000).toNat
        else 46 :: Func.pad 6 us.toNat) := fun us =>
      plain_ite _ plain_nil (plain_ite _ (plain_cons (by omega) (plain_pad _ _)) (plain_cons (by omega) (plain_pad _ _)))
    have h1 : Plain [32] := by simp [Plain]
    have h2 : Plain [58] := by simp [Plain]
    cases off with
    | none =>
      simp only [Except.ok.injEq] at h
      rw [← h]
      simp only [plain_append_iff, plain_pad, plain_dash, hf, h1, h2, plain_nil, and_self]
    | some o =>
      simp only [Except.ok.injEq] at h
      rw [← h]
      have hs : ∀ b : Bytes, Plain b → Plain ((if o ≥ 0 then 43 else 45) :: b) := by
        intro b hb; refine plain_cons ?_ hb; split <;> omega
      have hz : ∀ (c : Prop) [Decidable c] (a b : Bytes), Plain a → Plain b → Plain (if c then (if o ≥ 0 then 43 else 45) :: a else (if o ≥ 0 then 43 else 45) :: b) :=
        fun c _ a b ha hb => plain_ite _ (hs _ ha) (hs _ hb)
      simp only [plain_append_iff, plain_pad, plain_dash, hf, h1, h2, plain_nil, and_self, true_and]
      apply hz
      · simp only [plain_append_iff, plain_pad, h2, and_self]
      · exact plain_pad _ _

theorem vecText_eq (L : Libc) (p : Bool) (d : Nat) : ∀ l : List Nat, vecText L l = textList L p d (l.map J.real)
  | [] => rfl
  | r :: l => by
    rw [vecText, List.map_cons, textList, vecText_eq L p d l]
    cases l <;> simp [textOf]

/-- one value -/
theorem cell_text (L : Libc) (p : Bool) (d : Nat) {c : Cell} {v : J} (h : Means c v) : cellText L p d c = .ok (textOf L p d v) := by
  cases h with
  | null => rfl
  | @true i h => simp only [cellText, textOf]; rw [if_pos h]; rfl
  | @false i h => simp [cellText, textOf, h]
  | int => rfl
  | dbl => rfl
  | str => rfl
  | @json v hw =>
    have := export_enc L p v hw ((enc v).length + 1) d [] (by omega)
    simp only [List.append_nil] at this
    simp [cellText, this, Except.map]
  | date h => simp [cellText, h, Except.map, textOf, (plain_date _ _ h).escape]
  | stamp h => simp [cellText, h, Except.map, textOf, (plain_stamp _ _ _ h).escape]
  | interval => simp [cellText, textOf, (plain_iv _).escape]
  | vec => simp [cellText, textOf, vecText_eq L p d]
  | uuid => simp [cellText, textOf, (plain_uuid _).escape]

/-! ## the limit -/

/-- what a writer does to the buffer: it appends `t`, or fails with an error because the limit is reached -/
def Appends (o : Out) (buf t : Bytes) (r : Res Bytes) : Prop :=
  r = .ok (buf ++ t) ∨ (r = .error .err ∧ o.limit ≤ (buf ++ t).length)

theorem appends_bind {o : Out} {buf t u : Bytes} {r : Res Bytes} {f : Bytes → Res Bytes} (h1 : Appends o buf t r)
    (h2 : Appends o (buf ++ t) u (f (buf ++ t))) : Appends o buf (t ++ u) (r.bind f) := by
  rcases h1 with rfl | ⟨rfl, h⟩
  · simp only [Except.bind]
    rcases h2 with h2 | ⟨h2, h3⟩
    · left; rw [h2]; simp
    · right; refine ⟨h2, ?_⟩; simpa using h3
  · right; refine ⟨rfl, ?_⟩; simp at h ⊢; omega

theorem appends_ensure (o : Out) (buf t : Bytes) : Appends o buf t (ensure o (buf ++ t)) := by
  unfold ensure
  split
  · exact .inr ⟨rfl, by assumption⟩
  · exact .inl rfl

theorem textOf_deep (L : Libc) (d d' : Nat) (v : J) : textOf L false d v = textOf L false d' v := by
  refine J.rec (motive_1 := fun v => ∀ d d', textOf L false d v = textOf L false d' v)
    (motive_2 := fun l => ∀ d d', textList L false d l = textList L false d' l)
    (motive_3 := fun l => ∀ d d', textFields L false d l = textFields L false d' l)
    (motive_4 := fun p => ∀ d d', textOf L false d p.2 = textOf L false d' p.2)
    ?_ ?_ ?_ ?_ ?_ ?_ ?_ ?_ ?_ ?_ ?_ ?_ v d d'
  · intros; rfl
  · intros; rfl
  · intros; rfl
  · intros; rfl
  · intros; rfl
  · intro l ih d d'; simp [textOf, ih d d']
  · intro l ih d d'; simp [textOf, ih d d']
  · intros; rfl
  · intro v l h1 h2 d d'; rw [textList, textList, h1 d d', h2 d d']
  · intros; rfl
  · intro ⟨k, v⟩ l h1 h2 d d'; have h3 : textOf L false (d + 1) v = textOf L false (d' + 1) v := h1 _ _
    rw [textFields, textFields, h3, h2 d d']; rfl
  · intro k v h d d'; exact h d d'

/-- the separators of the elements after the first -/
theorem array_cells (o : Out) : ∀ {l : List Cell} {vs : List J}, Cells l vs → ∀ (first : Bool) (buf : Bytes),
    Appends o buf ((if first = false ∧ vs ≠ [] then [44, 32] else []) ++ textList o.libc o.pretty 0 vs) (arrayCells o first l buf)
  | _, _, .nil, first, buf => by simp [arrayCells, textList, Appends]
  | _, _, .cons (v := v) (vs := vs) h1 h2, first, buf => by
    have ih := array_cells o h2 false
    simp only [arrayCells, cell_text _ _ _ h1, bind]
    have e : (if first = false ∧ v :: vs ≠ [] then [44, 32] else []) ++ textList o.libc o.pretty 0 (v :: vs) =
        ((if first = true then [] else [44, 32]) ++ textOf o.libc o.pretty 0 v) ++
          ((if false = false ∧ vs ≠ [] then [44, 32] else []) ++ textList o.libc o.pretty 0 vs) := by
      cases first <;> cases vs <;> simp [textList]
    rw [e]
    simp only [Except.bind]
    refine appends_bind ?_ (by simpa using ih _)
    have := appends_ensure o buf ((if first = true then [] else [44, 32]) ++ textOf o.libc o.pretty 0 v)
    simpa [List.append_assoc] using this

theorem obj_cells (o : Out) : ∀ {l : List Cell} {vs : List J}, Cells l vs → ∀ (names : List Bytes), (∀ k ∈ names, NameOk k) →
    vs.length = names.length → ∀ (first : Bool) (buf : Bytes),
    Appends o buf ((if first = false ∧ vs ≠ [] then (if o.pretty then [44, 10] else [44, 32]) else []) ++
      (if o.pretty ∧ vs ≠ [] then (textFields o.libc o.pretty 0 (names.zip vs)).dropLast else textFields o.libc o.pretty 0 (names.zip vs)))
      (objCells o first (names.zip l) buf)
  | _, _, .nil, names, hn, hl, first, buf => by
    simp [objCells, textFields, Appends]
  | _, _, .cons (v := v) (vs := vs) (l := l) h1 h2, [], hn, hl, first, buf => by simp at hl
  | _, _, .cons (v := v) (vs := vs) (l := l) h1 h2, k :: names, hn, hl, first, buf => by
    have ih := obj_cells o h2 names (fun k hk => hn k (by simp [hk])) (by simpa using hl) false
    have hk : escape k = k := Plain.escape (hn k (by simp))
    simp only [List.zip_cons_cons, objCells, cell_text _ _ _ h1, bind]
    have e : (if first = false ∧ v :: vs ≠ [] then (if o.pretty then [44, 10] else [44, 32]) else []) ++
        (if o.pretty ∧ v :: vs ≠ [] then (textFields o.libc o.pretty 0 ((k, v) :: names.zip vs)).dropLast
          else textFields o.libc o.pretty 0 ((k, v) :: names.zip vs)) =
        ((if first = true then [] else if o.pretty then [44, 10] else [44, 32]) ++
          ((if o.pretty then [32, 32, 34] else [34]) ++ k ++ [34, 58, 32]) ++ textOf o.libc o.pretty (if o.pretty then 1 else 0) v) ++
          ((if false = false ∧ vs ≠ [] then (if o.pretty then [44, 10] else [44, 32]) else []) ++
            (if o.pretty ∧ vs ≠ [] then (textFields o.libc o.pretty 0 (names.zip vs)).dropLast
              else textFields o.libc o.pretty 0 (names.zip vs))) := by
      cases vs with
      | nil =>
        cases hp : o.pretty
        · cases first <;> simp [textFields, hk, textOf_deep o.libc 1 0 v]
        · have : ∀ a : Bytes, (a ++ [10]).dropLast = a := fun a => List.dropLast_concat
          cases first <;> simp [textFields, hk, indent, List.dropLast_cons_of_ne_nil, List.dropLast_append_of_ne_nil]
      | cons x vs =>
        cases names with
        | nil => simp at hl
        | cons k2 names =>
          cases hp : o.pretty
          · cases first <;> simp [textFields, hk, textOf_deep o.libc 1 0 v]
          · have : ∀ a b : Bytes, b ≠ [] → (a ++ b).dropLast = a ++ b.dropLast := fun a b h => List.dropLast_append_of_ne_nil h
            have hne : textFields o.libc true 0 ((k2, x) :: names.zip vs) ≠ [] := by simp [textFields, indent]
            simp only [List.zip_cons_cons]
            rw [textFields]
            rw [this _ _ hne]
            cases first <;> simp [hk, indent]
    rw [e]
    simp only [Except.bind]
    refine appends_bind ?_ (by simpa using ih _)
    have := appends_ensure o buf ((if first = true then [] else if o.pretty then [44, 10] else [44, 32]) ++
          ((if o.pretty then [32, 32, 34] else [34]) ++ k ++ [34, 58, 32]) ++ textOf o.libc o.pretty (if o.pretty then 1 else 0) v)
    simpa [List.append_assoc] using this

theorem cells_len {l : List Cell} {vs : List J} (h : Cells l vs) : l.length = vs.length := by
  induction h with
  | nil => rfl
  | cons _ _ ih => simp [ih]

theorem dropLast_nl (L : Libc) : ∀ (l : List (Bytes × J)) (d : Nat), l ≠ [] → (textFields L true d l).dropLast ++ [10] = textFields L true d l
  | [], _, h => absurd rfl h
  | [(k, v)], d, _ => by
    have : ∀ a : Bytes, (a ++ [10]).dropLast ++ [10] = a ++ [10] := by intro a; simp
    simp only [textFields, List.isEmpty_nil, if_true, List.append_nil]
    exact this _
  | (k, v) :: x :: l, d, _ => by
    have ih := dropLast_nl L (x :: l) d (by simp)
    have hne : textFields L true d (x :: l) ≠ [] := by simp [textFields, indent]
    rw [textFields, List.dropLast_append_of_ne_nil hne, List.append_assoc, ih]

/-- the text written after the cells does not pass through the limit -/
theorem appends_more {o : Out} {buf t u : Bytes} {r : Res Bytes} (h : Appends o buf t r) :
    Appends o buf (t ++ u) (r.bind fun b => .ok (b ++ u)) :=
  appends_bind h (.inl rfl)
theorem appends_pre {o : Out} {buf t u : Bytes} {r : Res Bytes} (h : Appends o (buf ++ t) u r) : Appends o buf (t ++ u) r := by
  unfold Appends at h ⊢; simpa [List.append_assoc] using h

theorem row_text (o : Out) (names : List Bytes) (hn : ∀ k ∈ names, NameOk k) (hne : names ≠ []) {row : List Cell} {v : J}
    (h : RowDoc o.minimal names row v) (buf : Bytes) : Appends o buf (textOf o.libc o.pretty 0 v) (rowText o names row buf) := by
  unfold rowText
  cases h with
  | @obj _ vs hm hc hl =>
    rw [if_neg (by simp [hm])]
    have hv : vs ≠ [] := by intro e; subst e; cases names <;> simp_all
    have := obj_cells o hc names hn hl true (buf ++ if o.pretty then [123, 10] else [123])
    have := appends_pre (appends_more (u := if o.pretty then [10, 125] else [125]) this)
    have hz : names.zip vs ≠ [] := by
      cases names <;> cases vs <;> simp_all
    have e : (if o.pretty then [123, 10] else [123]) ++ (((if true = false ∧ vs ≠ [] then (if o.pretty then [44, 10] else [44, 32]) else []) ++
        (if o.pretty ∧ vs ≠ [] then (textFields o.libc o.pretty 0 (names.zip vs)).dropLast else textFields o.libc o.pretty 0 (names.zip vs))) ++
        if o.pretty then [10, 125] else [125]) = textOf o.libc o.pretty 0 (.obj (names.zip vs)) := by
      cases hp : o.pretty
      · simp [textOf]
      · have h2 := dropLast_nl o.libc (names.zip vs) 0 hz
        simp only [textOf, if_true, true_and, hv, ne_eq, not_false_iff, List.isEmpty_eq_false_iff.mpr hz, indent]
        rw [← h2]
        simp
    rw [e] at this
    exact this
  | @arr _ vs hm hc hl h2 =>
    rw [if_pos (by simp [hm])]
    have := array_cells o hc true (buf ++ if names.length > 1 then [91] else [])
    have := appends_pre (appends_more (u := if names.length > 1 then [93] else []) this)
    have e : (if names.length > 1 then [91] else []) ++ (((if true = false ∧ vs ≠ [] then [44, 32] else []) ++
        textList o.libc o.pretty 0 vs) ++ if names.length > 1 then [93] else []) = textOf o.libc o.pretty 0 (.arr vs) := by
      simp [textOf, show 1 < names.length by omega]
    rw [e] at this
    exact this
  | @one c v hm hl hc =>
    rw [if_pos (by simp [hm])]
    have := array_cells o (.cons hc .nil) true (buf ++ if names.length > 1 then [91] else [])
    have := appends_pre (appends_more (u := if names.length > 1 then [93] else []) this)
    have e : (if names.length > 1 then [91] else []) ++ (((if true = false ∧ [v] ≠ [] then [44, 32] else []) ++
        textList o.libc o.pretty 0 [v]) ++ if names.length > 1 then [93] else []) = textOf o.libc o.pretty 0 v := by
      simp [textList, hl]
    rw [e] at this
    exact this

theorem rows_text (o : Out) (names : List Bytes) (hn : ∀ k ∈ names, NameOk k) (hne : names ≠ []) : ∀ {rows : List (List Cell)} {vs : List J},
    RowDocs o.minimal names rows vs → ∀ (first : Bool) (buf : Bytes),
    Appends o buf ((if first = false ∧ vs ≠ [] then [44, 32] else []) ++ textList o.libc o.pretty 0 vs) (rowsText o names first rows buf)
  | _, _, .nil, first, buf => by simp [rowsText, textList, Appends]
  | _, _, .cons (v := v) (vs := vs) h1 h2, first, buf => by
    have ih := rows_text o names hn hne h2 false
    simp only [rowsText, bind]
    have e : (if first = false ∧ v :: vs ≠ [] then [44, 32] else []) ++ textList o.libc o.pretty 0 (v :: vs) =
        ((if first = true then [] else [44, 32]) ++ textOf o.libc o.pretty 0 v) ++
          ((if false = false ∧ vs ≠ [] then [44, 32] else []) ++ textList o.libc o.pretty 0 vs) := by
      cases first <;> cases vs <;> simp [textList]
    rw [e]
    exact appends_bind (appends_pre (row_text o names hn hne h1 _)) (ih _)

theorem write_text (o : Out) (names : List Bytes) (hn : ∀ k ∈ names, NameOk k) (hne : names ≠ []) {res : Result} {v : J}
    (h : ResultDoc o.minimal names res v) : Appends o [] (textOf o.libc o.pretty 0 v) (writeJson o names res) := by
  cases h with
  | @store rows vs h =>
    have := rows_text o names hn hne h true [91]
    have := appends_pre (buf := []) (appends_more (u := [93]) this)
    simpa [writeJson, textOf, bind] using this
  | @values row v h =>
    have := row_text o names hn hne h [91]
    have := appends_pre (buf := []) (appends_more (u := [93]) this)
    simpa [writeJson, textOf, textList, bind] using this

end Verif.Output
