import Verif.Import.Records
/-!
# Reading records and bodies (C96)
-/
set_option autoImplicit false
set_option linter.unusedSimpArgs false
set_option linter.unusedVariables false
namespace Verif.Import
open Verif Verif.Json.Text Verif.Parse.Lex Verif.Insert

/-- a list as setColumns gives it -/
def ListOk (cols : List Col) (list : Option (List Nat)) : Prop := ∀ l, list = some l → l ≠ [] ∧ l.Pairwise (· < ·) ∧ ∀ j ∈ l, j < cols.length

theorem list_fill {E : Env} {cols : List Col} {l : List Nat} (hl : ListOk cols (some l)) {ws : List Bytes} {row : List V} (h : FillList E cols l ws row) : FillL E 0 cols l ws row := by
  obtain ⟨-, hs, hin⟩ := hl l rfl
  exact fillL_of cols 0 l ws row hs (fun j hj => ⟨by omega, by have := hin j hj; omega⟩) h.width h.count (fun k j c w v e1 => h.listed k j c w v (by simpa using e1))
    (fun j c v e1 => h.other j c v (by simpa using e1))

theorem clean_null {cols : List Col} (hc : Clean cols) : ∀ c ∈ cols, c.dropped = true → c.notNull = false := fun c h hd => (hc c h hd).1

theorem record_read {E : Env} {cols : List Col} {list : Option (List Nat)} (hc : Clean cols) (hll : LastLive cols) (hl : ListOk cols list) {t : Bytes} {row : List V}
    (h : Record E cols list t row) {b r : Bytes} (hb : Blank b) (hr : Term r) :
    (Checked cols list row → ∃ b', Blank b' ∧ importJsonRow E cols list (b ++ (t ++ r)) = .ok (row, b' ++ r)) ∧
    (¬ Checked cols list row → importJsonRow E cols list (b ++ (t ++ r)) = .error .err) := by
  unfold importJsonRow
  cases h with
  | @array t ws row ht hg =>
    obtain ⟨h1, h2⟩ := row_given hg 0 t (93 :: r) ht (term_sq r) hll
    have hx : lexNext true (91 :: (t ++ 93 :: r)) = .ok (.sym 91, t ++ 93 :: r) := lex_sym _ (by simp)
    simp only [List.cons_append, List.append_assoc, List.nil_append]
    rw [ifTok_blank hb, ifTok_no hx (by simp), bind_ok]
    simp only [expect_blank hb, expect_yes hx, bind_ok, checked_none]
    constructor
    · intro ha
      obtain ⟨b', hb', e⟩ := h1 ha
      simp only [e, bind_ok, expect_yes (lex_square hb' r)]
      exact ⟨[], .nil, rfl⟩
    · intro ha
      simp only [h2 (clean_null hc) ha, bind_err]
  | @arrayOf l t ws row ht hg =>
    obtain ⟨h1, h2⟩ := row_list (list_fill hl hg) t (93 :: r) ht (term_sq r)
    have hx : lexNext true (91 :: (t ++ 93 :: r)) = .ok (.sym 91, t ++ 93 :: r) := lex_sym _ (by simp)
    simp only [List.cons_append, List.append_assoc, List.nil_append]
    rw [ifTok_blank hb, ifTok_no hx (by simp), bind_ok]
    simp only [expect_blank hb, expect_yes hx, bind_ok, checked_some]
    constructor
    · intro ha
      obtain ⟨b', hb', e⟩ := h1 ha
      simp only [e, bind_ok, expect_yes (lex_square hb' r)]
      exact ⟨[], .nil, rfl⟩
    · intro ha
      simp only [h2 ha, bind_err]
  | @object t ms l row ht hm hnd hn =>
    obtain ⟨h1, h2⟩ := obj_row (r := r) ht hm hnd hn
    have hx : lexNext true (123 :: (t ++ 125 :: r)) = .ok (.sym 123, t ++ 125 :: r) := lex_sym _ (by simp)
    simp only [List.cons_append, List.append_assoc, List.nil_append]
    rw [ifTok_blank hb, ifTok_yes hx, bind_ok]
    simp only [jsonObj, checked_none]
    constructor
    · intro ha
      obtain ⟨b', hb', e⟩ := h1 ha
      simp only [e, bind_ok, expect_yes (lex_curly hb' r)]
      exact ⟨[], .nil, rfl⟩
    · intro ha
      simp only [h2 ha, bind_err]
  | @document i w row hg =>
    have ht : Listed [123 :: w] (b ++ (123 :: w)) := by simpa using Listed.one (w := 123 :: w) hb Blank.nil
    obtain ⟨h1, h2⟩ := row_list (list_fill hl hg) _ r ht hr
    have hx : lexNext true (123 :: (w ++ r)) = .ok (.sym 123, w ++ r) := lex_sym _ (by simp)
    simp only [List.cons_append, List.append_assoc, List.nil_append] at h1 h2 ⊢
    rw [ifTok_blank hb, ifTok_yes hx, bind_ok]
    simp only [jsonObj, checked_some]
    exact ⟨h1, h2⟩

theorem record_head {E : Env} {cols : List Col} {list : Option (List Nat)} {t : Bytes} {row : List V} (h : Record E cols list t row) (r : Bytes) :
    ∃ d s, (d = 91 ∨ d = 123) ∧ t = d :: s ∧ lexNext true (t ++ r) = .ok (.sym d, s ++ r) := by
  cases h with
  | array _ _ => exact ⟨91, _, by simp, rfl, lex_sym _ (by simp)⟩
  | arrayOf _ _ => exact ⟨91, _, by simp, rfl, lex_sym _ (by simp)⟩
  | object _ _ _ _ => exact ⟨123, _, by simp, rfl, lex_sym _ (by simp)⟩
  | document _ => exact ⟨123, _, by simp, rfl, lex_sym _ (by simp)⟩

/-! ## lists of records -/

/-- what a reader of one row does with a text `R` says -/
def ReadsOne (one : Bytes → Res (List V × Bytes)) (R : Bytes → List V → Prop) (P : List V → Prop) : Prop :=
  ∀ (t : Bytes) (row : List V) (b r : Bytes), R t row → Blank b → Term r →
    (P row → ∃ b', Blank b' ∧ one (b ++ (t ++ r)) = .ok (row, b' ++ r)) ∧ (¬ P row → one (b ++ (t ++ r)) = .error .err)

theorem term_comma (x : Bytes) : Term (44 :: x) := term_of (by simp [After])

theorem json_loop {one : Bytes → Res (List V × Bytes)} {R : Bytes → List V → Prop} {P : List V → Prop} (h1 : ReadsOne one R P) {ts : List Bytes} {rows : List (List V)} (h : Records R ts rows) :
    ∀ (t r : Bytes) (f : Nat), ts ≠ [] → Listed ts t → ts.length ≤ f →
      ((∀ row ∈ rows, P row) → jsonLoop one f (t ++ 93 :: r) = .ok (rows, r)) ∧ ((∃ row ∈ rows, ¬ P row) → jsonLoop one f (t ++ 93 :: r) = .error .err) := by
  induction h with
  | nil => intro t r f h; exact absurd rfl h
  | @cons t0 ts row rows hr hrs ih =>
    intro t r f _ ht hf
    obtain ⟨f, rfl⟩ : ∃ k, f = k + 1 := ⟨f - 1, by simp at hf; omega⟩
    obtain ⟨b, u, hb, rfl, hu⟩ := listed_cons ht
    simp only [jsonLoop, List.append_assoc]
    rcases hu with ⟨rfl, hbu⟩ | ⟨hne, b', t', hb', rfl, ht'⟩
    · cases hrs
      obtain ⟨a1, a2⟩ := h1 t0 row b (u ++ 93 :: r) hr hb (term_of (after_of_blank hbu (by simp [After])))
      by_cases hp : P row
      · obtain ⟨b2, hb2, e⟩ := a1 hp
        rw [e, bind_ok]
        simp only
        rw [ifTok_blank hb2, ifTok_no (lex_square hbu r) (by simp), bind_ok]
        simp only [expect_blank hb2, expect_yes (lex_square hbu r), bind_ok]
        refine ⟨fun _ => trivial, ?_⟩
        rintro ⟨x, hx, hnx⟩
        simp only [List.mem_singleton] at hx
        subst hx; exact absurd hp hnx
      · rw [a2 hp, bind_err]
        exact ⟨fun h => absurd (h row (by simp)) hp, fun _ => rfl⟩
    · simp only [List.append_assoc, List.cons_append]
      obtain ⟨a1, a2⟩ := h1 t0 row b (b' ++ 44 :: (t' ++ 93 :: r)) hr hb (term_of (after_of_blank hb' (by simp [After])))
      obtain ⟨i1, i2⟩ := ih t' r f hne ht' (by simp at hf; omega)
      by_cases hp : P row
      · obtain ⟨b2, hb2, e⟩ := a1 hp
        rw [e, bind_ok]
        simp only
        rw [ifTok_blank hb2, ifTok_yes (lex_comma hb' _), bind_ok]
        simp only
        constructor
        · intro hall
          rw [i1 fun x hx => hall x (by simp [hx]), bind_ok]
        · rintro ⟨x, hx, hnx⟩
          rcases List.mem_cons.1 hx with rfl | hx
          · exact absurd hp hnx
          · rw [i2 ⟨x, hx, hnx⟩, bind_err]
      · rw [a2 hp, bind_err]
        exact ⟨fun h => absurd (h row (by simp)) hp, fun _ => rfl⟩

/-- the text of a row is not blank -/
def NotBlank (R : Bytes → List V → Prop) : Prop :=
  ∀ (t : Bytes) (row : List V) (r : Bytes), R t row → Term r → ∃ k s, lexNext true (t ++ r) = .ok (k, s) ∧ k ≠ .eof

theorem lines_term {R : Bytes → List V → Prop} {x : Bytes} {rows : List (List V)} (hn : NotBlank R) (h : Lines R x rows) : ∃ k s, lexNext true x = .ok (k, s) ∧ k ≠ .eof := by
  cases h with
  | one hr => simpa using hn x _ [] hr term_nil
  | @more t x row rows hr _ => exact hn t row (10 :: x) hr (term_nl x)

theorem lines_loop {one : Bytes → Res (List V × Bytes)} {R : Bytes → List V → Prop} {P : List V → Prop} (h1 : ReadsOne one R P) (hn : NotBlank R) {x : Bytes} {rows : List (List V)} (h : Lines R x rows) :
    ∀ (b : Bytes) (f : Nat), Blank b → rows.length ≤ f →
      ((∀ row ∈ rows, P row) → rowsToEof one f (b ++ x) = .ok (rows, [])) ∧ ((∃ row ∈ rows, ¬ P row) → rowsToEof one f (b ++ x) = .error .err) := by
  have heof : ∀ b, Blank b → ifTok .eof b = .ok (some []) := by
    intro b hb
    have := ifTok_blank hb .eof []
    rw [List.append_nil] at this
    rw [this]; rfl
  induction h with
  | @one t row hr =>
    intro b f hb hf
    obtain ⟨f, rfl⟩ : ∃ k, f = k + 1 := ⟨f - 1, by simp at hf; omega⟩
    simp only [rowsToEof]
    have h2 := h1 t row b [] hr hb term_nil
    simp only [List.append_nil] at h2
    obtain ⟨a1, a2⟩ := h2
    by_cases hp : P row
    · obtain ⟨b2, hb2, e⟩ := a1 hp
      rw [e, bind_ok]
      simp only [heof b2 hb2, bind_ok]
      refine ⟨fun _ => trivial, ?_⟩
      rintro ⟨x, hx, hnx⟩
      simp only [List.mem_singleton] at hx
      subst hx; exact absurd hp hnx
    · rw [a2 hp, bind_err]
      exact ⟨fun h => absurd (h row (by simp)) hp, fun _ => rfl⟩
  | @more t x row rows hr hx ih =>
    intro b f hb hf
    obtain ⟨f, rfl⟩ : ∃ k, f = k + 1 := ⟨f - 1, by simp at hf; omega⟩
    simp only [rowsToEof]
    obtain ⟨a1, a2⟩ := h1 t row b (10 :: x) hr hb (term_nl x)
    by_cases hp : P row
    · obtain ⟨b2, hb2, e⟩ := a1 hp
      obtain ⟨k, s, hk, hke⟩ := lines_term hn hx
      have hbb := blank_append hb2 blank_nl
      have e2 : b2 ++ 10 :: x = (b2 ++ [10]) ++ x := by simp
      obtain ⟨i1, i2⟩ := ih (b2 ++ [10]) f hbb (by simp at hf; omega)
      rw [e, bind_ok]
      simp only [e2]
      rw [ifTok_blank hbb, ifTok_no hk hke, bind_ok]
      simp only
      constructor
      · intro hall
        rw [i1 fun x hx => hall x (by simp [hx]), bind_ok]
      · rintro ⟨y, hy, hny⟩
        rcases List.mem_cons.1 hy with rfl | hy
        · exact absurd hp hny
        · rw [i2 ⟨y, hy, hny⟩, bind_err]
    · rw [a2 hp, bind_err]
      exact ⟨fun h => absurd (h row (by simp)) hp, fun _ => rfl⟩

theorem lines_length {R : Bytes → List V → Prop} {x : Bytes} {rows : List (List V)} (h : Lines R x rows) : rows.length ≤ x.length + 1 := by
  induction h with
  | one _ => simp
  | more _ _ ih => simp; omega

/-! ## the readers of one row -/

theorem json_one {E : Env} {cols : List Col} {list : Option (List Nat)} (hc : Clean cols) (hll : LastLive cols) (hl : ListOk cols list) :
    ReadsOne (importJsonRow E cols list) (Record E cols list) (Checked cols list) := fun _ _ _ _ h hb hr => record_read hc hll hl h hb hr

theorem jsonl_one {E : Env} {cols : List Col} {list : Option (List Nat)} (hc : Clean cols) (hll : LastLive cols) (hl : ListOk cols list) :
    ReadsOne (importJsonRow E cols list) (Spaced (Record E cols list)) (Checked cols list) := by
  intro t row b r h hb hr
  cases h with
  | @mk b1 t b2 row hb1 hrec hb2 =>
    have ht : Term (b2 ++ r) := term_of (after_of_blank hb2 (by simpa using hr [] .nil))
    obtain ⟨a1, a2⟩ := record_read hc hll hl hrec (blank_append hb hb1) ht
    simp only [List.append_assoc] at a1 a2 ⊢
    refine ⟨fun hp => ?_, a2⟩
    obtain ⟨b3, hb3, e⟩ := a1 hp
    exact ⟨b3 ++ b2, blank_append hb3 hb2, by rw [e]; simp⟩

theorem jsonl_notBlank {E : Env} {cols : List Col} {list : Option (List Nat)} : NotBlank (Spaced (Record E cols list)) := by
  intro t row r h hr
  cases h with
  | @mk b1 t b2 row hb1 hrec hb2 =>
    obtain ⟨d, s, -, -, e⟩ := record_head hrec (b2 ++ r)
    simp only [List.append_assoc]
    rw [lexNext_blank hb1, e]
    exact ⟨_, _, rfl, by simp⟩

theorem csv_one {E : Env} {cols : List Col} {list : Option (List Nat)} (hc : Clean cols) (hll : LastLive cols) (hl : ListOk cols list) :
    ReadsOne (importRow E 0 cols list) (Line E cols list) (Checked cols list) := by
  intro t row b r h hb hr
  rw [← List.append_assoc]
  cases h with
  | @all t ws row ht hg =>
    obtain ⟨a1, a2⟩ := row_given hg 0 (b ++ t) r (listed_blank hb ht) hr hll
    rw [checked_none]
    exact ⟨a1, a2 (clean_null hc)⟩
  | @listed l t ws row ht hg =>
    rw [checked_some]
    exact row_list (list_fill hl hg) (b ++ t) r (listed_blank hb ht) hr

theorem lit_tok {E : Env} {ty : Ty} {w : Bytes} {v : V} (h : Lit E ty w v) {r : Bytes} (hr : After r) : ∃ k s, lexNext true (w ++ r) = .ok (k, s) ∧ k ≠ .eof := by
  let c : Col := ⟨[], ty, false, false, false, false, .null⟩
  have h1 : parseValue E c (w ++ r) = .ok (v, r) := lit_value (c := c) h hr
  have h2 := value_not_eof (r := r) h1
  cases hk : lexNext true (w ++ r) with
  | error e =>
    unfold parseValue at h1
    rw [hk, bind_err] at h1; cases h1
  | ok x => exact ⟨x.1, x.2, rfl, fun e => h2 x.2 (by rw [hk, ← e])⟩

theorem csv_notBlank {E : Env} {cols : List Col} {list : Option (List Nat)} (hne : cols ≠ []) (hll : LastLive cols) (hl : ListOk cols list) : NotBlank (Line E cols list) := by
  have key : ∀ (w : Bytes) (ws : List Bytes) (t r : Bytes) (ty : Ty) (v : V), Lit E ty w v → Listed (w :: ws) t → Term r → ∃ k s, lexNext true (t ++ r) = .ok (k, s) ∧ k ≠ .eof := by
    intro w ws t r ty v hw ht hr
    obtain ⟨b, u, hb, rfl, hu⟩ := listed_cons ht
    simp only [List.append_assoc]
    rw [lexNext_blank hb]
    refine lit_tok hw ?_
    rcases hu with ⟨rfl, hbu⟩ | ⟨_, b', t', hb', rfl, ht'⟩
    · exact hr u hbu
    · simp only [List.append_assoc, List.cons_append]; exact after_blank hb' (by simp)
  have first : ∀ {cs : List Col} {ws : List Bytes} {row : List V}, Given E cs ws row → ∀ w ws', ws = w :: ws' → ∃ ty v, Lit E ty w v := by
    intro cs ws row h
    induction h with
    | nil => intro _ _ e; cases e
    | dropped _ _ ih => exact ih
    | item _ hl _ _ => intro w ws' e; cases e; exact ⟨_, _, hl⟩
  intro t row r h hr
  cases h with
  | @all t ws row ht hg =>
    cases ws with
    | nil => exact absurd (given_nil hg hll) hne
    | cons w ws =>
      obtain ⟨ty, v, hw⟩ := first hg w ws rfl
      exact key w ws t r ty v hw ht hr
  | @listed l t ws row ht hg =>
    obtain ⟨h1, -, hin⟩ := hl l rfl
    cases l with
    | nil => exact absurd rfl h1
    | cons i l =>
      cases ws with
      | nil => have := hg.count; simp at this
      | cons w ws =>
        have hi := hin i (by simp)
        have hr2 : i < row.length := by rw [hg.width]; exact hi
        exact key w ws t r _ _ (hg.listed 0 i cols[i] w row[i] rfl rfl (List.getElem?_eq_getElem hi) (List.getElem?_eq_getElem hr2)) ht hr

/-! ## the body -/

theorem records_ne {E : Env} {cols : List Col} {list : Option (List Nat)} {ts : List Bytes} {rows : List (List V)} (h : Records (Record E cols list) ts rows) : ∀ t ∈ ts, t ≠ [] := by
  induction h with
  | nil => simp
  | cons hr _ ih =>
    intro t ht
    rcases List.mem_cons.1 ht with rfl | ht
    · obtain ⟨d, s, -, rfl, -⟩ := record_head hr []
      simp
    · exact ih t ht

theorem atEof_blank {α : Type} (a : α) {b : Bytes} (hb : Blank b) : atEof (a, b) = .ok a := by
  unfold atEof
  have := ifTok_blank hb .eof []
  rw [List.append_nil] at this
  simp only [this]
  rfl

theorem body_read {E : Env} {cols : List Col} {list : Option (List Nat)} (hc : Clean cols) (hll : LastLive cols) (hne : cols ≠ []) (hl : ListOk cols list) {ct : Content} {s : Bytes}
    {rows : List (List V)} (h : Body E cols list ct s rows) (f : Nat) (hf : s.length < f) :
    ((∀ row ∈ rows, Checked cols list row) → ∃ b, Blank b ∧ importRows E cols list ct f s = .ok (rows, b)) ∧
    ((∃ row ∈ rows, ¬ Checked cols list row) → importRows E cols list ct f s = .error .err) := by
  cases h with
  | @csv x rows h =>
    have hlen := lines_length h
    obtain ⟨a1, a2⟩ := lines_loop (csv_one hc hll hl) (csv_notBlank hne hll hl) h [] f .nil (by omega)
    have hn : list ≠ some [] := fun e => (hl [] e).1 rfl
    simp only [importRows, importCsv, if_neg hn]
    exact ⟨fun h => ⟨[], .nil, by simpa using a1 h⟩, fun h => by simpa using a2 h⟩
  | @jsonl x rows h =>
    have hlen := lines_length h
    obtain ⟨a1, a2⟩ := lines_loop (jsonl_one hc hll hl) jsonl_notBlank h [] f .nil (by omega)
    simp only [importRows]
    exact ⟨fun h => ⟨[], .nil, by simpa using a1 h⟩, fun h => by simpa using a2 h⟩
  | @json b t b' ts rows hb hts ht hrs hb' =>
    have hlen := listed_length ht (records_ne hrs)
    obtain ⟨a1, a2⟩ := json_loop (json_one hc hll hl) hrs t b' f hts ht (by simp at hf; omega)
    have hx : lexNext true (91 :: (t ++ 93 :: b')) = .ok (.sym 91, t ++ 93 :: b') := lex_sym _ (by simp)
    simp only [importRows, importJson]
    rw [expect_blank hb, expect_yes hx, bind_ok]
    exact ⟨fun h => ⟨b', hb', a1 h⟩, a2⟩

end Verif.Import
