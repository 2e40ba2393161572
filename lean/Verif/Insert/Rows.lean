import Verif.Insert.Lits
/-!
# Rows (C94)
-/
set_option autoImplicit false
set_option linter.unusedSimpArgs false
set_option linter.unusedVariables false
namespace Verif.Insert
open Verif Verif.Json.Text Verif.Parse.Lex

theorem bind_err {α β : Type} (e : Fail) (f : α → Res β) : ((Except.error e : Res α) >>= f) = .error e := rfl

/-- NULL is fine for a value of a column -/
def Fits (c : Col) (v : V) : Prop := v = .null → c.notNull = false ∨ c.identity = true ∨ c.stored = true

theorem validate_ok {c : Col} {v : V} (h : Fits c v) : validate c v = .ok () := by
  unfold validate
  split
  · rfl
  · rename_i hv
    have := h (by simpa using hv)
    split
    · rfl
    · rename_i hs
      rw [if_neg]
      rintro ⟨h1, h2⟩
      simp_all

theorem validate_bad {c : Col} {v : V} (h : ¬ Fits c v) : validate c v = .error .err := by
  unfold Fits at h
  unfold validate
  have hv : v = .null := by
    cases v <;> first | rfl | (exfalso; apply h; intro e; cases e)
  subst hv
  simp only [true_implies] at h
  simp only [ne_eq, not_true_eq_false, if_false]
  have h1 : c.stored = false := by cases hs : c.stored <;> simp_all
  have h2 : c.notNull = true := by cases hs : c.notNull <;> simp_all
  have h3 : c.identity = false := by cases hs : c.identity <;> simp_all
  simp [h1, h2, h3]

theorem default_val {c : Col} {v : V} (h : Default c v) : valueDefault c = v := by
  cases h <;> simp_all [valueDefault]

theorem allowed_nil (row : List V) : Allowed [] row := by intro i c h; simp at h

theorem allowed_cons {c : Col} {cs : List Col} {v : V} {row : List V} : Allowed (c :: cs) (v :: row) ↔ Fits c v ∧ Allowed cs row := by
  constructor
  · intro h
    refine ⟨fun hv => h 0 c (by simp) (by simp [hv]), fun i d h1 h2 => h (i + 1) d (by simpa using h1) (by simpa using h2)⟩
  · rintro ⟨h1, h2⟩ i d h3 h4
    cases i with
    | zero =>
      simp only [List.getElem?_cons_zero, Option.some.injEq] at h3 h4
      exact h3 ▸ h1 h4
    | succ i => exact h2 i d (by simpa using h3) (by simpa using h4)

/-! ## items -/

theorem item_reads {E : Env} {c : Col} {w : Bytes} {v : V} (h : Item E c w v) {r : Bytes} (hr : After r) {b : Bytes} (hb : Blank b) :
    parseItem E c (b ++ (w ++ r)) = (do validate c v; .ok (v, r)) := by
  rw [parseItem_blank E c hb]
  unfold parseItem ifTok
  cases h with
  | dflt hw hd =>
    rw [lex_word hw kw_default (follow_kw hr _), bind_ok]
    simp only [if_true]
    rw [bind_ok]
    simp only [default_val hd]
  | lit hl =>
    obtain ⟨⟨t0, r0, h0, h1, -⟩, h2⟩ := lit_reads hl c rfl hr
    rw [h0, bind_ok]
    simp only [h1, if_false]
    rw [bind_ok, h2, bind_ok]

theorem listed_cons {w : Bytes} {ws : List Bytes} {t : Bytes} (h : Listed (w :: ws) t) :
    ∃ b u, Blank b ∧ t = b ++ (w ++ u) ∧ ((ws = [] ∧ Blank u) ∨ (ws ≠ [] ∧ ∃ b' t', Blank b' ∧ u = b' ++ 44 :: t' ∧ Listed ws t')) := by
  cases h with
  | one hb hb' => exact ⟨_, _, hb, rfl, .inl ⟨rfl, hb'⟩⟩
  | more hb hb' hne ht => exact ⟨_, _, hb, rfl, .inr ⟨hne, _, _, hb', rfl, ht⟩⟩

theorem ifTok_yes {s r : Bytes} {t : LTok} (h : lexNext true s = .ok (t, r)) : ifTok t s = .ok (some r) := by
  unfold ifTok; rw [h, bind_ok]; simp

theorem ifTok_no {s r : Bytes} {t x : LTok} (h : lexNext true s = .ok (x, r)) (hx : x ≠ t) : ifTok t s = .ok none := by
  unfold ifTok; rw [h, bind_ok]; simp [hx]

theorem expect_yes {s r : Bytes} {t : LTok} (h : lexNext true s = .ok (t, r)) : expect t s = .ok r := by
  unfold expect; rw [h, bind_ok]; simp

theorem expect_no {s r : Bytes} {t x : LTok} (h : lexNext true s = .ok (x, r)) (hx : x ≠ t) : expect t s = .error .err := by
  unfold expect; rw [h, bind_ok]; simp [hx]

theorem lex_close {b : Bytes} (hb : Blank b) (r : Bytes) : lexNext true (b ++ 41 :: r) = .ok (.sym 41, r) := by
  rw [lexNext_blank hb, lex_sym _ (by simp)]

theorem lex_comma {b : Bytes} (hb : Blank b) (r : Bytes) : lexNext true (b ++ 44 :: r) = .ok (.sym 44, r) := by
  rw [lexNext_blank hb, lex_sym _ (by simp)]

/-! ## rows without a column list -/

theorem row_loop {E : Env} {cols : List Col} {ws : List Bytes} {row : List V} (h : Fill E cols ws row) : ∀ (t r : Bytes), Listed ws t →
    (Allowed cols row → ∃ b, Blank b ∧ rowLoop E cols (t ++ 41 :: r) = .ok (row, b ++ 41 :: r)) ∧
    ((∀ c ∈ cols, c.dropped = true → c.notNull = false) → ¬ Allowed cols row → rowLoop E cols (t ++ 41 :: r) = .error .err) := by
  induction h with
  | nil =>
    intro t r ht
    cases ht with
    | nil hb => exact ⟨fun _ => ⟨_, hb, rfl⟩, fun _ h => absurd (allowed_nil _) h⟩
  | @dropped c cs ws row hd _ ih =>
    intro t r ht
    obtain ⟨ih1, ih2⟩ := ih t r ht
    simp only [rowLoop, hd, if_true, allowed_cons]
    constructor
    · rintro ⟨-, ha⟩
      obtain ⟨b, hb, e⟩ := ih1 ha
      exact ⟨b, hb, by rw [e, bind_ok]⟩
    · intro hc ha
      rw [ih2 (fun d hd => hc d (by simp [hd])) fun h => ha ⟨fun _ => .inl (hc c (by simp) hd), h⟩, bind_err]
  | @item c cs w ws v row hd hi hf ih =>
    intro t r ht
    obtain ⟨b, u, hb, rfl, hu⟩ := listed_cons ht
    simp only [rowLoop, hd, Bool.false_eq_true, if_false, allowed_cons]
    have hcs : ws ≠ [] → cs.isEmpty = false := by
      intro hne
      cases hf with
      | nil => exact absurd rfl hne
      | dropped _ _ => rfl
      | item _ _ _ => rfl
    have key : ∃ t' , Listed ws t' ∧ After (u ++ 41 :: r) ∧ rowComma cs.isEmpty (u ++ 41 :: r) = .ok (t' ++ 41 :: r) := by
      rcases hu with ⟨rfl, hbu⟩ | ⟨hne, b', t', hb', rfl, ht'⟩
      · exact ⟨u, .nil hbu, after_blank hbu (by simp), by unfold rowComma; rw [ifTok_no (lex_close hbu r) (by simp), bind_ok]⟩
      · refine ⟨t', ht', ?_, ?_⟩
        · simp only [List.append_assoc, List.cons_append]; exact after_blank hb' (by simp)
        · simp only [List.append_assoc, List.cons_append]
          unfold rowComma
          rw [ifTok_yes (lex_comma hb' _), bind_ok]
          simp [hcs hne]
    obtain ⟨t', ht', hau, hrc⟩ := key
    rw [List.append_assoc, List.append_assoc, item_reads hi hau hb]
    obtain ⟨ih1, ih2⟩ := ih t' r ht'
    by_cases hfit : Fits c v
    · rw [validate_ok hfit, bind_ok, bind_ok]
      simp only [hrc]
      rw [bind_ok]
      constructor
      · rintro ⟨-, ha⟩
        obtain ⟨b2, hb2, e⟩ := ih1 ha
        exact ⟨b2, hb2, by rw [e, bind_ok]⟩
      · intro hc ha
        rw [ih2 (fun d hd => hc d (by simp [hd])) fun h => ha ⟨hfit, h⟩, bind_err]
    · rw [validate_bad hfit, bind_err, bind_err]
      exact ⟨fun h => absurd h.1 hfit, fun _ _ => rfl⟩

/-! ## rows with a column list -/

/-- the list version in the order of the table -/
inductive FillL (E : Env) : Nat → List Col → List Nat → List Bytes → List V → Prop
  | nil {i : Nat} : FillL E i [] [] [] []
  | item {i : Nat} {c : Col} {cs : List Col} {l : List Nat} {w : Bytes} {ws : List Bytes} {v : V} {row : List V} : Lit E c.ty w v → FillL E (i + 1) cs l ws row →
      FillL E i (c :: cs) (i :: l) (w :: ws) (v :: row)
  | other {i : Nat} {c : Col} {cs : List Col} {l : List Nat} {ws : List Bytes} {v : V} {row : List V} : l.head? ≠ some i → Default c v → FillL E (i + 1) cs l ws row →
      FillL E i (c :: cs) l ws (v :: row)

theorem fillL_of {E : Env} : ∀ (cols : List Col) (i : Nat) (l : List Nat) (ws : List Bytes) (row : List V), l.Pairwise (· < ·) → (∀ j ∈ l, i ≤ j ∧ j < i + cols.length) →
    row.length = cols.length → ws.length = l.length →
    (∀ (k j : Nat) (c : Col) (w : Bytes) (v : V), l[k]? = some (i + j) → ws[k]? = some w → cols[j]? = some c → row[j]? = some v → Lit E c.ty w v) →
    (∀ (j : Nat) (c : Col) (v : V), i + j ∉ l → cols[j]? = some c → row[j]? = some v → Default c v) → FillL E i cols l ws row
  | [], i, l, ws, row, hp, hl, hr, hw, h1, h2 => by
    have : l = [] := by
      cases l with
      | nil => rfl
      | cons j l => have := hl j (by simp); simp at this; omega
    subst this
    have : ws = [] := List.length_eq_zero_iff.1 (by simpa using hw)
    have : row = [] := List.length_eq_zero_iff.1 (by simpa using hr)
    simp_all
    exact .nil
  | c :: cs, i, l, ws, row, hp, hl, hr, hw, h1, h2 => by
    obtain ⟨v, row, rfl⟩ : ∃ v row', row = v :: row' := by
      cases row with
      | nil => simp at hr
      | cons v row => exact ⟨v, row, rfl⟩
    by_cases hi : i ∈ l
    · obtain ⟨l, rfl⟩ : ∃ l', l = i :: l' := by
        cases l with
        | nil => simp at hi
        | cons j l =>
          rcases List.mem_cons.1 hi with rfl | hi
          · exact ⟨l, rfl⟩
          · have := (List.pairwise_cons.1 hp).1 i hi
            have := hl j (by simp)
            omega
      obtain ⟨w, ws, rfl⟩ : ∃ w ws', ws = w :: ws' := by
        cases ws with
        | nil => simp at hw
        | cons w ws => exact ⟨w, ws, rfl⟩
      refine .item (h1 0 0 c w v (by simp) (by simp) (by simp) (by simp)) ?_
      obtain ⟨hp1, hp2⟩ := List.pairwise_cons.1 hp
      refine fillL_of cs (i + 1) l ws row hp2 ?_ (by simpa using hr) (by simpa using hw) ?_ ?_
      · intro j hj
        have a := hp1 j hj
        have b := hl j (by simp [hj])
        simp at b; omega
      · intro k j d x y e1 e2 e3 e4
        exact h1 (k + 1) (j + 1) d x y (by simpa [Nat.add_assoc, Nat.add_comm 1] using e1) (by simpa using e2) (by simpa using e3) (by simpa using e4)
      · intro j d y e1 e2 e3
        refine h2 (j + 1) d y ?_ (by simpa using e2) (by simpa using e3)
        intro e
        rcases List.mem_cons.1 e with e | e
        · omega
        · exact e1 (by simpa [Nat.add_assoc, Nat.add_comm 1] using e)
    · refine .other ?_ (h2 0 c v (by simpa using hi) (by simp) (by simp)) ?_
      · intro e
        cases l with
        | nil => simp at e
        | cons j l => simp at e; exact hi (by simp [e])
      · refine fillL_of cs (i + 1) l ws row hp ?_ (by simpa using hr) hw ?_ ?_
        · intro j hj
          have b := hl j hj
          have : j ≠ i := fun e => hi (e ▸ hj)
          simp at b; omega
        · intro k j d x y e1 e2 e3 e4
          exact h1 k (j + 1) d x y (by simpa [Nat.add_assoc, Nat.add_comm 1] using e1) e2 (by simpa using e3) (by simpa using e4)
        · intro j d y e1 e2 e3
          exact h2 (j + 1) d y (by simpa [Nat.add_assoc, Nat.add_comm 1] using e1) (by simpa using e2) (by simpa using e3)

theorem fillL_lits {E : Env} {i : Nat} {cols : List Col} {l : List Nat} {ws : List Bytes} {row : List V} (h : FillL E i cols l ws row) :
    ∀ w ∈ ws, ∃ c v, Lit E c w v := by
  induction h with
  | nil => simp
  | item hl _ ih =>
    intro w hw
    rcases List.mem_cons.1 hw with rfl | hw
    · exact ⟨_, _, hl⟩
    · exact ih w hw
  | other _ _ _ ih => exact ih

theorem fillL_len {E : Env} {i : Nat} {cols : List Col} {l : List Nat} {ws : List Bytes} {row : List V} (h : FillL E i cols l ws row) : ws.length = l.length := by
  induction h <;> simp_all

/-- what comes next in a list of literals is not DEFAULT -/
theorem no_default {E : Env} {ws : List Bytes} {t r : Bytes} (h : Listed ws t) (hw : ∀ w ∈ ws, ∃ ty v, Lit E ty w v) : ifTok (.kw kDEFAULT) (t ++ 41 :: r) = .ok none := by
  cases ws with
  | nil =>
    cases h with
    | nil hb => exact ifTok_no (lex_close hb r) (by simp)
  | cons w ws =>
    obtain ⟨b, u, hb, rfl, hu⟩ := listed_cons h
    obtain ⟨ty, v, hl⟩ := hw w (by simp)
    have hau : After (u ++ 41 :: r) := by
      rcases hu with ⟨rfl, hbu⟩ | ⟨hne, b', t', hb', rfl, ht'⟩
      · exact after_blank hbu (by simp)
      · simp only [List.append_assoc, List.cons_append]; exact after_blank hb' (by simp)
    obtain ⟨⟨t0, r0, h0, h1, -⟩, -⟩ := lit_reads hl ⟨[], ty, false, false, false, false, .null⟩ rfl hau
    rw [List.append_assoc, List.append_assoc, ifTok_blank hb]
    exact ifTok_no h0 h1

theorem list_loop {E : Env} {i : Nat} {cols : List Col} {l : List Nat} {ws : List Bytes} {row : List V} (h : FillL E i cols l ws row) : ∀ (t r : Bytes), Listed ws t →
    (Allowed cols row → ∃ b, Blank b ∧ rowListLoop E i cols l (t ++ 41 :: r) = .ok (row, b ++ 41 :: r)) ∧
    (¬ Allowed cols row → rowListLoop E i cols l (t ++ 41 :: r) = .error .err) := by
  induction h with
  | nil =>
    intro t r ht
    cases ht with
    | nil hb => exact ⟨fun _ => ⟨_, hb, rfl⟩, fun h => absurd (allowed_nil _) h⟩
  | @other i c cs l ws v row hne hd hf ih =>
    intro t r ht
    obtain ⟨ih1, ih2⟩ := ih t r ht
    simp only [rowListLoop, allowed_cons]
    rw [no_default ht (fillL_lits hf), bind_ok]
    simp only [hne, if_false, default_val hd]
    by_cases hfit : Fits c v
    · rw [validate_ok hfit, bind_ok]
      constructor
      · rintro ⟨-, ha⟩
        obtain ⟨b, hb, e⟩ := ih1 ha
        exact ⟨b, hb, by rw [e, bind_ok]⟩
      · intro ha
        rw [ih2 fun h => ha ⟨hfit, h⟩, bind_err]
    · rw [validate_bad hfit, bind_err]
      exact ⟨fun h => absurd h.1 hfit, fun _ => rfl⟩
  | @item i c cs l w ws v row hl hf ih =>
    intro t r ht
    simp only [rowListLoop, allowed_cons]
    rw [no_default ht (fillL_lits (.item hl hf)), bind_ok]
    simp only [List.head?_cons, if_true, List.tail_cons]
    obtain ⟨b, u, hb, rfl, hu⟩ := listed_cons ht
    have hlen := fillL_len hf
    have key : ∃ t' , Listed ws t' ∧ After (u ++ 41 :: r) ∧ listComma l (u ++ 41 :: r) = .ok (t' ++ 41 :: r) := by
      rcases hu with ⟨rfl, hbu⟩ | ⟨hne, b', t', hb', rfl, ht'⟩
      · have : l = [] := List.length_eq_zero_iff.1 (by simpa using hlen.symm)
        exact ⟨u, .nil hbu, after_blank hbu (by simp), by simp [listComma, this]⟩
      · refine ⟨t', ht', ?_, ?_⟩
        · simp only [List.append_assoc, List.cons_append]; exact after_blank hb' (by simp)
        · simp only [List.append_assoc, List.cons_append]
          have : l.isEmpty = false := by
            cases l with
            | nil => exact absurd (List.length_eq_zero_iff.1 (by simpa using hlen)) hne
            | cons _ _ => rfl
          simp only [listComma, this, Bool.false_eq_true, if_false]
          exact expect_yes (lex_comma hb' _)
    obtain ⟨t', ht', hau, hrc⟩ := key
    rw [List.append_assoc, List.append_assoc, parseValue_blank E c hb, (lit_reads hl c rfl hau).2, bind_ok]
    simp only [hrc]
    rw [bind_ok]
    obtain ⟨ih1, ih2⟩ := ih t' r ht'
    by_cases hfit : Fits c v
    · rw [validate_ok hfit, bind_ok]
      constructor
      · rintro ⟨-, ha⟩
        obtain ⟨b, hb, e⟩ := ih1 ha
        exact ⟨b, hb, by rw [e, bind_ok]⟩
      · intro ha
        rw [ih2 fun h => ha ⟨hfit, h⟩, bind_err]
    · rw [validate_bad hfit, bind_err]
      exact ⟨fun h => absurd h.1 hfit, fun _ => rfl⟩

/-! ## all the rows -/

/-- the rows of a text, for a way to read one row -/
theorem rows_read {E : Env} {cols : List Col} {list : Option (List Nat)} {R : List Bytes → List V → Prop}
    (h1 : ∀ (b t r : Bytes) (ws : List Bytes) (row : List V), Blank b → Listed ws t → R ws row → Allowed cols row →
      parseOne E cols list (b ++ 40 :: (t ++ 41 :: r)) = .ok (row, r))
    (h2 : ∀ (b t r : Bytes) (ws : List Bytes) (row : List V), Blank b → Listed ws t → R ws row → ¬ Allowed cols row →
      parseOne E cols list (b ++ 40 :: (t ++ 41 :: r)) = .error .err)
    {x : Bytes} {rows : List (List V)} (h : Rows R x rows) : ∀ (r : Bytes) (f : Nat), x.length < f → ifTok (.sym 44) r = .ok none →
    ((∀ row ∈ rows, Allowed cols row) → parseRows E cols list f (x ++ r) = .ok (rows, r)) ∧
    ((∃ row ∈ rows, ¬ Allowed cols row) → parseRows E cols list f (x ++ r) = .error .err) := by
  induction h with
  | @one b t ws row hb ht hR =>
    intro r f hf hr
    obtain ⟨f, rfl⟩ : ∃ k, f = k + 1 := ⟨f - 1, by omega⟩
    simp only [parseRows, List.append_assoc, List.cons_append, List.nil_append, List.mem_singleton, forall_eq, exists_eq_left]
    constructor
    · intro ha
      rw [h1 b t r ws row hb ht hR ha, bind_ok]
      simp only [hr]
      rw [bind_ok]
    · intro ha
      rw [h2 b t r ws row hb ht hR ha, bind_err]
  | @more b t b' x ws row rows hb ht hR hb' _ ih =>
    intro r f hf hr
    obtain ⟨f, rfl⟩ : ∃ k, f = k + 1 := ⟨f - 1, by omega⟩
    obtain ⟨ih1, ih2⟩ := ih r f (by simp at hf; omega) hr
    simp only [parseRows, List.append_assoc, List.cons_append, List.mem_cons, forall_eq_or_imp, exists_eq_or_imp]
    by_cases ha : Allowed cols row
    · rw [h1 b t _ ws row hb ht hR ha, bind_ok]
      simp only [ifTok_yes (lex_comma hb' (x ++ r))]
      rw [bind_ok]
      constructor
      · rintro ⟨-, h⟩
        simp only [ih1 h]
        rfl
      · rintro (h | h)
        · exact absurd ha h
        · simp only [ih2 h]
          rfl
    · rw [h2 b t _ ws row hb ht hR ha, bind_err]
      exact ⟨fun h => absurd h.1 ha, fun _ => rfl⟩

theorem one_row {E : Env} {cols : List Col} (hc : Clean cols) {b t r : Bytes} {ws : List Bytes} {row : List V} (hb : Blank b) (ht : Listed ws t) (h : Fill E cols ws row) :
    (Allowed cols row → parseOne E cols none (b ++ 40 :: (t ++ 41 :: r)) = .ok (row, r)) ∧
    (¬ Allowed cols row → parseOne E cols none (b ++ 40 :: (t ++ 41 :: r)) = .error .err) := by
  obtain ⟨h1, h2⟩ := row_loop h t r ht
  simp only [parseOne, parseRow]
  rw [expect_blank hb, expect_yes (lex_sym _ (by simp)), bind_ok]
  constructor
  · intro ha
    obtain ⟨b', hb', e⟩ := h1 ha
    rw [e, bind_ok]
    simp only [expect_yes (lex_close hb' r)]
    rfl
  · intro ha
    rw [h2 (fun c hm hd => (hc c hm hd).1) ha, bind_err]

theorem one_list {E : Env} {cols : List Col} {l : List Nat} {b t r : Bytes} {ws : List Bytes} {row : List V} (hb : Blank b) (ht : Listed ws t)
    (h : FillL E 0 cols l ws row) :
    (Allowed cols row → parseOne E cols (some l) (b ++ 40 :: (t ++ 41 :: r)) = .ok (row, r)) ∧
    (¬ Allowed cols row → parseOne E cols (some l) (b ++ 40 :: (t ++ 41 :: r)) = .error .err) := by
  obtain ⟨h1, h2⟩ := list_loop h t r ht
  simp only [parseOne, parseRowList]
  rw [expect_blank hb, expect_yes (lex_sym _ (by simp)), bind_ok]
  constructor
  · intro ha
    obtain ⟨b', hb', e⟩ := h1 ha
    rw [e, bind_ok]
    simp only [expect_yes (lex_close hb' r)]
    rfl
  · intro ha
    rw [h2 ha, bind_err]

theorem ends_comma {r : Bytes} (h : Ends r) : ifTok (.sym 44) r = .ok none := by
  cases h with
  | eof hb =>
    have : lexNext true r = .ok (.eof, []) := by
      have := lexNext_blank hb true []
      rw [List.append_nil] at this
      rw [this]; rfl
    exact ifTok_no this (by simp)
  | tok hb hw hf hne =>
    rw [ifTok_blank hb]
    exact ifTok_no (C80_token hw _ hf) hne

/-! ## the column list -/

theorem findCol_some {cols : List Col} {n : Bytes} : ∀ {i j : Nat}, Named cols n i → findCol n j cols = some (j + i) := by
  induction cols with
  | nil => rintro i j ⟨c, h, -⟩; simp at h
  | cons c cs ih =>
    rintro i j ⟨d, h1, h2, h3, h4⟩
    simp only [findCol]
    cases i with
    | zero =>
      simp only [List.getElem?_cons_zero, Option.some.injEq] at h1
      subst h1
      have hl := congrArg List.length h3
      simp only [List.length_map] at hl
      simp [h2, isCase, h3, hl]
    | succ i =>
      have h0 := h4 0 c (by omega) (by simp)
      rw [if_neg]
      · rw [ih (i := i) (j := j + 1) ⟨d, by simpa using h1, h2, h3, fun k e hk he => h4 (k + 1) e (by omega) (by simpa using he)⟩]
        congr 1; omega
      · rintro ⟨a1, a2⟩
        rcases h0 with h0 | h0
        · rw [h0] at a1; cases a1
        · simp only [isCase, decide_eq_true_eq] at a2
          exact h0 a2.2

def chain (last : Option Nat) (l : List Nat) : Prop := l.Pairwise (· < ·) ∧ ∀ j ∈ last, ∀ i ∈ l, j < i

theorem column_loop {cols : List Col} {ws : List Bytes} {l : List Nat} (h : Names cols ws l) : ∀ (last : Option Nat) (t r : Bytes) (f : Nat), Listed ws t → ws ≠ [] →
    ws.length < f → (chain last l → columnLoop cols f last (t ++ 41 :: r) = .ok (l, r)) ∧ (¬ chain last l → columnLoop cols f last (t ++ 41 :: r) = .error .err) := by
  induction h with
  | nil => intro _ _ _ _ _ h; exact absurd rfl h
  | @cons w n i ws l hw hn hnames ih =>
    intro last t r f ht _ hf
    obtain ⟨f, rfl⟩ : ∃ k, f = k + 1 := ⟨f - 1, by omega⟩
    obtain ⟨b, u, hb, rfl, hu⟩ := listed_cons ht
    have hau : After (u ++ 41 :: r) := by
      rcases hu with ⟨rfl, hbu⟩ | ⟨hne, b', t', hb', rfl, ht'⟩
      · exact after_blank hbu (by simp)
      · simp only [List.append_assoc, List.cons_append]; exact after_blank hb' (by simp)
    simp only [columnLoop]
    rw [List.append_assoc, List.append_assoc, lexNext_blank hb, C80_token hw _ (follow_name hau n), bind_ok]
    have hfc := findCol_some (j := 0) hn
    simp only [Nat.zero_add] at hfc
    simp only [hfc]
    by_cases hl : last.any (fun j => decide (i ≤ j)) = true
    · simp only [hl, if_true]
      refine ⟨fun hc => ?_, fun _ => by trivial⟩
      cases last with
      | none => simp at hl
      | some j =>
        simp only [Option.any_some, decide_eq_true_eq] at hl
        have := hc.2 j (by simp) i (by simp)
        omega
    · simp only [hl, if_false, Bool.false_eq_true]
      have hli : ∀ j ∈ last, j < i := by
        intro j hj
        have : last = some j := hj
        subst this
        simp only [Option.any_some, decide_eq_true_eq] at hl
        omega
      rcases hu with ⟨rfl, hbu⟩ | ⟨hne, b', t', hb', rfl, ht'⟩
      · cases hnames
        rw [ifTok_no (lex_close hbu r) (by simp), bind_ok]
        simp only [expect_yes (lex_close hbu r)]
        rw [bind_ok]
        refine ⟨fun _ => rfl, fun h => absurd ?_ h⟩
        exact ⟨by simp, fun j hj k hk => by simp at hk; exact hk ▸ hli j hj⟩
      · simp only [List.append_assoc, List.cons_append]
        rw [ifTok_yes (lex_comma hb' _), bind_ok]
        obtain ⟨ih1, ih2⟩ := ih (some i) t' r f ht' hne (by simp at hf; omega)
        have hiff : chain last (i :: l) ↔ chain (some i) l := by
          unfold chain
          simp only [List.pairwise_cons, Option.mem_def, Option.some.injEq, forall_eq', List.mem_cons, forall_eq_or_imp]
          constructor
          · rintro ⟨⟨a, b⟩, c⟩; exact ⟨b, a⟩
          · rintro ⟨a, b⟩
            exact ⟨⟨b, a⟩, fun j hj => ⟨hli j hj, fun k hk => Nat.lt_trans (hli j hj) (b k hk)⟩⟩
        rw [hiff]
        constructor
        · intro h
          simp only [ih1 h]
          rfl
        · intro h
          simp only [ih2 h]
          rfl

theorem writes_name_first {w n : Bytes} (h : Writes w (.name n)) : w ≠ [] := (Writes.ne h).1

theorem column_list {cols : List Col} {ws : List Bytes} {l : List Nat} (h : Names cols ws l) (t r : Bytes) (ht : Listed ws t) :
    (l.Pairwise (· < ·) → columnList cols (t ++ 41 :: r) = .ok (l, r)) ∧ (¬ l.Pairwise (· < ·) → columnList cols (t ++ 41 :: r) = .error .err) := by
  unfold columnList
  cases h with
  | nil =>
    cases ht with
    | nil hb =>
      rw [ifTok_yes (lex_close hb r), bind_ok]
      exact ⟨fun _ => rfl, fun h => absurd List.Pairwise.nil h⟩
  | @cons w n i ws l hw hn hns =>
    have hh : Names cols (w :: ws) (i :: l) := .cons hw hn hns
    have hlen : (w :: ws).length ≤ t.length := listed_length ht (by
      have : ∀ {ws : List Bytes} {l : List Nat}, Names cols ws l → ∀ w ∈ ws, w ≠ [] := by
        intro ws l h
        induction h with
        | nil => simp
        | cons hw _ _ ih =>
          intro x hx
          rcases List.mem_cons.1 hx with rfl | hx
          · exact writes_name_first hw
          · exact ih x hx
      exact this hh)
    have hfirst : ifTok (.sym 41) (t ++ 41 :: r) = .ok none := by
      obtain ⟨b, u, hb, rfl, hu⟩ := listed_cons ht
      have hau : After (u ++ 41 :: r) := by
        rcases hu with ⟨rfl, hbu⟩ | ⟨hne, b', t', hb', rfl, ht'⟩
        · exact after_blank hbu (by simp)
        · simp only [List.append_assoc, List.cons_append]; exact after_blank hb' (by simp)
      rw [List.append_assoc, List.append_assoc, ifTok_blank hb]
      exact ifTok_no (C80_token hw _ (follow_name hau n)) (by simp)
    rw [hfirst, bind_ok]
    obtain ⟨h1, h2⟩ := column_loop hh none t r ((t ++ 41 :: r).length + 1) ht (by simp) (by simp at hlen ⊢; omega)
    have : chain none (i :: l) ↔ (i :: l).Pairwise (· < ·) := by simp [chain]
    rw [this] at h1 h2
    exact ⟨h1, h2⟩

end Verif.Insert
