import Verif.Insert.Rows
import Verif.Insert.Typed
/-!
# INSERT … VALUES puts each value in its column (C94)
-/
set_option autoImplicit false
set_option linter.unusedSimpArgs false
set_option linter.unusedVariables false
namespace Verif.Insert
open Verif Verif.Json.Text Verif.Parse.Lex

theorem rows_start {R : List Bytes → List V → Prop} {x : Bytes} {rows : List (List V)} (h : Rows R x rows) (r : Bytes) : ∃ b t, Blank b ∧ x ++ r = b ++ 40 :: t := by
  cases h with
  | @one b t ws row hb _ _ => exact ⟨b, t ++ [41] ++ r, hb, by simp⟩
  | @more b t b' x ws row rows hb _ _ _ _ => exact ⟨b, t ++ 41 :: (b' ++ 44 :: x) ++ r, hb, by simp⟩

theorem lex_values {R : List Bytes → List V → Prop} {x w : Bytes} {rows : List (List V)} (hw : Word "values" w) (h : Rows R x rows) (r : Bytes) :
    lexNext true (w ++ (x ++ r)) = .ok (.kw kVALUES, x ++ r) := by
  refine lex_word hw (by decide) ?_
  obtain ⟨b, t, hb, e⟩ := rows_start h r
  rw [e]
  cases hb with
  | nil => simp only [List.nil_append, CanFollow]; unfold identChar; omega
  | @space c _ h _ => have := space_val h; simp only [List.cons_append, CanFollow]; unfold identChar; omega
  | comment _ _ => simp only [List.cons_append, CanFollow]; unfold identChar; omega

/-- VALUES without a column list: the items of each row go to the columns that are not dropped, in order; the statement is refused when a row has NULL in
a NOT NULL column. -/
theorem C94_values_partial (E : Env) (cols : List Col) (hc : Clean cols) (b w x rest : Bytes) (rows : List (List V)) (hb : Blank b) (hw : Word "values" w)
    (hx : Rows (Fill E cols) x rows) (hr : Ends rest) :
    ((∀ row ∈ rows, Allowed cols row) → parseInsert E cols (b ++ (w ++ (x ++ rest))) = .ok (rows, rest)) ∧
    ((∃ row ∈ rows, ¬ Allowed cols row) → parseInsert E cols (b ++ (w ++ (x ++ rest))) = .error .err) := by
  have h0 := lex_values hw hx rest
  have := rows_read (list := none) (fun b t r ws row h1 h2 h3 h4 => (one_row hc h1 h2 h3 (r := r)).1 h4)
    (fun b t r ws row h1 h2 h3 h4 => (one_row hc h1 h2 h3 (r := r)).2 h4) hx rest ((x ++ rest).length + 1) (by simp; omega) (ends_comma hr)
  unfold parseInsert
  rw [ifTok_blank hb, ifTok_no h0 (by decide), bind_ok]
  simp only [ifTok_blank hb, ifTok_no (t := .sym 40) h0 (by simp)]
  rw [bind_ok]
  simp only [expect_blank hb, expect_yes h0]
  rw [bind_ok]
  exact this

/-- VALUES with a column list in the order of the table: a value goes to the column at its place of the list, every other column has its default; the statement
is refused when a row has NULL in a NOT NULL column. -/
theorem C94_list_partial (E : Env) (cols : List Col) (b t b' w x rest : Bytes) (names : List Bytes) (list : List Nat) (rows : List (List V)) (hb : Blank b)
    (hb' : Blank b') (hn : Listed names t) (hl : Names cols names list) (hs : list.Pairwise (· < ·)) (hw : Word "values" w)
    (hx : Rows (FillList E cols list) x rows) (hr : Ends rest) :
    ((∀ row ∈ rows, Allowed cols row) → parseInsert E cols (b ++ 40 :: (t ++ 41 :: (b' ++ (w ++ (x ++ rest))))) = .ok (rows, rest)) ∧
    ((∃ row ∈ rows, ¬ Allowed cols row) → parseInsert E cols (b ++ 40 :: (t ++ 41 :: (b' ++ (w ++ (x ++ rest))))) = .error .err) := by
  have h0 := lex_values hw hx rest
  have hin : ∀ j ∈ list, 0 ≤ j ∧ j < 0 + cols.length := by
    clear hs hx h0 hn
    induction hl with
    | nil => simp
    | cons _ hi _ ih =>
      intro j hj
      rcases List.mem_cons.1 hj with rfl | hj
      · obtain ⟨c, hc, -⟩ := hi
        have := (List.getElem?_eq_some_iff.1 hc).1
        omega
      · exact ih j hj
  have hfl : ∀ ws row, FillList E cols list ws row → FillL E 0 cols list ws row := fun ws row h =>
    fillL_of cols 0 list ws row hs hin h.width h.count (fun k j c w v e1 => h.listed k j c w v (by simpa using e1)) (fun j c v e1 => h.other j c v (by simpa using e1))
  have := rows_read (list := some list) (fun b t r ws row h1 h2 h3 h4 => (one_list h1 h2 (hfl _ _ h3) (r := r)).1 h4)
    (fun b t r ws row h1 h2 h3 h4 => (one_list h1 h2 (hfl _ _ h3) (r := r)).2 h4) hx rest ((x ++ rest).length + 1) (by simp; omega) (ends_comma hr)
  have hp : lexNext true (40 :: (t ++ 41 :: (b' ++ (w ++ (x ++ rest))))) = .ok (.sym 40, t ++ 41 :: (b' ++ (w ++ (x ++ rest)))) := lex_sym _ (by simp)
  unfold parseInsert
  rw [ifTok_blank hb, ifTok_no hp (by simp), bind_ok]
  simp only [ifTok_blank hb, ifTok_yes hp]
  rw [bind_ok]
  simp only [(column_list hl t (b' ++ (w ++ (x ++ rest))) hn).1 hs]
  rw [bind_ok]
  simp only [expect_blank hb', expect_yes h0]
  rw [bind_ok]
  exact this

/-- a column list that is not in the order of the table, or has a column twice, is refused -/
theorem C94_list_order (E : Env) (cols : List Col) (b t rest : Bytes) (names : List Bytes) (list : List Nat) (hb : Blank b) (hn : Listed names t)
    (hl : Names cols names list) (hs : ¬ list.Pairwise (· < ·)) : parseInsert E cols (b ++ 40 :: (t ++ 41 :: rest)) = .error .err := by
  have hp : lexNext true (40 :: (t ++ 41 :: rest)) = .ok (.sym 40, t ++ 41 :: rest) := lex_sym _ (by simp)
  unfold parseInsert
  rw [ifTok_blank hb, ifTok_no hp (by simp), bind_ok]
  simp only [ifTok_blank hb, ifTok_yes hp]
  rw [bind_ok]
  simp only [(column_list hl t rest hn).2 hs]
  rfl

/-! ## the number of values -/

theorem close_refused (E : Env) (c : Col) {b : Bytes} (hb : Blank b) (r : Bytes) : parseItem E c (b ++ 41 :: r) = .error .err := by
  rw [parseItem_blank E c hb]
  have h0 : lexNext true (41 :: r) = .ok (.sym 41, r) := lex_sym _ (by simp)
  unfold parseItem
  rw [ifTok_no h0 (by simp), bind_ok]
  simp only [parseValue_typed (E := E) (c := c) h0 (by simp) (by simp)]
  have hs : skipBlank ((41 :: r).length + 1) (41 :: r) = 41 :: r := skipBlank_tok (by decide) (by
    cases hx : isComment (41 :: r) with
    | false => rfl
    | true => obtain ⟨u, hu⟩ := isComment_cons hx; simp at hu) _
  have hj : parse E.libc (41 :: r) = .error .err := by
    rfl
  have hv : parseVector E (41 :: r) = .error .err := by
    unfold parseVector
    rw [expect_no h0 (by simp), bind_err]
  unfold parseTyped
  cases c.ty <;> simp [optMinus, optKw, bind_ok, bind_err, hs, hj, hv]
  rw [show List.length r + 1 + 1 = (41 :: r).length + 1 from rfl, hs, hj]
  rfl

theorem lit_first {E : Env} {ty : Ty} {w : Bytes} {v : V} (h : Lit E ty w v ∨ Word "default" w) {u : Bytes} (hu : After u) :
    ∃ t0 r0, lexNext true (w ++ u) = .ok (t0, r0) ∧ t0 ≠ .sym 41 := by
  rcases h with h | h
  · obtain ⟨⟨t0, r0, h0, -, h1⟩, -⟩ := lit_reads h ⟨[], ty, false, false, false, false, .null⟩ rfl hu
    exact ⟨t0, r0, h0, h1⟩
  · exact ⟨_, _, lex_word h kw_default (follow_kw hu _), by simp⟩

theorem after_rest {ws : List Bytes} {u r : Bytes} (hu : (ws = [] ∧ Blank u) ∨ (ws ≠ [] ∧ ∃ b' t', Blank b' ∧ u = b' ++ 44 :: t' ∧ Listed ws t')) : After (u ++ 41 :: r) := by
  rcases hu with ⟨rfl, hbu⟩ | ⟨hne, b', t', hb', rfl, ht'⟩
  · exact after_blank hbu (by simp)
  · simp only [List.append_assoc, List.cons_append]; exact after_blank hb' (by simp)

theorem wrong_count (E : Env) : ∀ (cols : List Col) (ws : List Bytes) (t r : Bytes), Listed ws t →
    (∀ (i : Nat) (c : Col) (w : Bytes), (cols.filter (fun c => !c.dropped))[i]? = some c → ws[i]? = some w → ∃ v, Item E c w v) →
    (∀ w ∈ ws, ∃ ty v, Lit E ty w v ∨ Word "default" w) → ws.length ≠ (cols.filter (fun c => !c.dropped)).length →
    rowLoop E cols (t ++ 41 :: r) = .error .err ∨ ∃ l r', rowLoop E cols (t ++ 41 :: r) = .ok (l, r') ∧ expect (.sym 41) r' = .error .err
  | [], ws, t, r, ht, hi, hx, hl => by
    cases ws with
    | nil => simp at hl
    | cons w ws =>
      refine .inr ⟨[], _, rfl, ?_⟩
      obtain ⟨b, u, hb, rfl, hu⟩ := listed_cons ht
      obtain ⟨ty, v, h⟩ := hx w (by simp)
      obtain ⟨t0, r0, h0, h1⟩ := lit_first h (after_rest (r := r) hu)
      rw [List.append_assoc, List.append_assoc, expect_blank hb]
      exact expect_no h0 h1
  | c :: cs, ws, t, r, ht, hi, hx, hl => by
    cases hd : c.dropped with
    | true =>
      simp only [rowLoop, hd, if_true]
      rcases wrong_count E cs ws t r ht (fun i d w h1 h2 => hi i d w (by simpa [List.filter_cons, hd] using h1) h2) hx (by simpa [List.filter_cons, hd] using hl) with e | ⟨l, r', e, e'⟩
      · rw [e]; exact .inl rfl
      · rw [e]; exact .inr ⟨_, r', rfl, e'⟩
    | false =>
      simp only [rowLoop, hd, Bool.false_eq_true, if_false]
      simp only [List.filter_cons, hd, Bool.not_false, if_true] at hi hl
      cases ws with
      | nil =>
        cases ht with
        | nil hb => rw [close_refused E c hb r]; exact .inl rfl
      | cons w ws =>
        obtain ⟨b, u, hb, rfl, hu⟩ := listed_cons ht
        obtain ⟨v, hv⟩ := hi 0 c w (by simp) (by simp)
        rw [List.append_assoc, List.append_assoc, item_reads hv (after_rest hu) hb]
        by_cases hf : Fits c v
        · rw [validate_ok hf, bind_ok, bind_ok]
          have hi' : ∀ (i : Nat) (d : Col) (w : Bytes), (cs.filter (fun c => !c.dropped))[i]? = some d → ws[i]? = some w → ∃ v, Item E d w v :=
            fun i d w h1 h2 => hi (i + 1) d w (by simpa using h1) (by simpa using h2)
          have hx' : ∀ w ∈ ws, ∃ ty v, Lit E ty w v ∨ Word "default" w := fun w hw => hx w (by simp [hw])
          have hl' : ws.length ≠ (cs.filter (fun c => !c.dropped)).length := by simpa using hl
          rcases hu with ⟨rfl, hbu⟩ | ⟨hne, b', t', hb', rfl, ht'⟩
          · have e : rowComma cs.isEmpty (u ++ 41 :: r) = .ok (u ++ 41 :: r) := by
              unfold rowComma; rw [ifTok_no (lex_close hbu r) (by simp), bind_ok]
            simp only [e]
            rw [bind_ok]
            rcases wrong_count E cs [] u r (.nil hbu) hi' hx' hl' with e | ⟨l, r', e, e'⟩
            · rw [e]; exact .inl rfl
            · rw [e]; exact .inr ⟨_, r', rfl, e'⟩
          · simp only [List.append_assoc, List.cons_append]
            cases cs with
            | nil =>
              left
              unfold rowComma
              rw [ifTok_yes (lex_comma hb' _), bind_ok]
              rfl
            | cons d ds =>
              have e : rowComma (d :: ds).isEmpty (b' ++ 44 :: (t' ++ 41 :: r)) = .ok (t' ++ 41 :: r) := by
                unfold rowComma
                rw [ifTok_yes (lex_comma hb' _), bind_ok]
                rfl
              simp only [e]
              rw [bind_ok]
              rcases wrong_count E (d :: ds) ws t' r ht' hi' hx' hl' with e | ⟨l, r', e, e'⟩
              · rw [e]; exact .inl rfl
              · rw [e]; exact .inr ⟨_, r', rfl, e'⟩
        · rw [validate_bad hf, bind_err]; exact .inl rfl

/-- VALUES without a column list: a row with too few or too many items is refused -/
theorem C94_count (E : Env) (cols : List Col) (b w b' t rest : Bytes) (ws : List Bytes) (hb : Blank b) (hw : Word "values" w) (hb' : Blank b') (ht : Listed ws t)
    (hi : ∀ (i : Nat) (c : Col) (w : Bytes), (cols.filter (fun c => !c.dropped))[i]? = some c → ws[i]? = some w → ∃ v, Item E c w v)
    (hx : ∀ w ∈ ws, ∃ ty v, Lit E ty w v ∨ Word "default" w)
    (hl : ws.length ≠ (cols.filter (fun c => !c.dropped)).length) : parseInsert E cols (b ++ (w ++ (b' ++ 40 :: (t ++ 41 :: rest)))) = .error .err := by
  have h0 : lexNext true (w ++ (b' ++ 40 :: (t ++ 41 :: rest))) = .ok (.kw kVALUES, b' ++ 40 :: (t ++ 41 :: rest)) := by
    refine lex_word hw (by decide) ?_
    cases hb' with
    | nil => simp only [List.nil_append, CanFollow]; unfold identChar; omega
    | @space c _ h _ => have := space_val h; simp only [List.cons_append, CanFollow]; unfold identChar; omega
    | comment _ _ => simp only [List.cons_append, CanFollow]; unfold identChar; omega
  unfold parseInsert
  rw [ifTok_blank hb, ifTok_no h0 (by decide), bind_ok]
  simp only [ifTok_blank hb, ifTok_no (t := .sym 40) h0 (by simp)]
  rw [bind_ok]
  simp only [expect_blank hb, expect_yes h0]
  rw [bind_ok]
  simp only [parseRows, parseOne, parseRow, expect_blank hb', expect_yes (lex_sym (c := 40) (t ++ 41 :: rest) (by simp))]
  rcases wrong_count E cols ws t rest ht hi hx hl with e | ⟨l, r', e, e'⟩
  · simp only [bind_ok, e, bind_err]
  · simp only [bind_ok, e, e', bind_err]

/-! ## GENERATE -/

theorem defaults_row (cols : List Col) :
    (Allowed cols (cols.map valueDefault) → defaults cols = .ok (cols.map valueDefault)) ∧ (¬ Allowed cols (cols.map valueDefault) → defaults cols = .error .err) := by
  induction cols with
  | nil => exact ⟨fun _ => rfl, fun h => absurd (allowed_nil _) h⟩
  | cons c cs ih =>
    simp only [List.map_cons, allowed_cons, defaults]
    by_cases hf : Fits c (valueDefault c)
    · rw [validate_ok hf, bind_ok]
      constructor
      · rintro ⟨-, h⟩; rw [ih.1 h, bind_ok]
      · intro h; rw [ih.2 fun h' => h ⟨hf, h'⟩, bind_err]
    · rw [validate_bad hf, bind_err]
      exact ⟨fun h => absurd h.1 hf, fun _ => rfl⟩

theorem generate_rows (cols : List Col) (n : Nat) (h : Allowed cols (cols.map valueDefault)) : generate cols n = .ok (List.replicate n (cols.map valueDefault)) := by
  induction n with
  | zero => rfl
  | succ n ih => simp only [generate, (defaults_row cols).1 h, ih, bind_ok, List.replicate_succ]

theorem generate_bad (cols : List Col) (n : Nat) (h : ¬ Allowed cols (cols.map valueDefault)) : generate cols (n + 1) = .error .err := by
  simp only [generate, (defaults_row cols).2 h, bind_err]

/-- a row where every column has its default -/
def AllDefault (cols : List Col) (row : List V) : Prop := row.length = cols.length ∧ ∀ (i : Nat) (c : Col) (v : V), cols[i]? = some c → row[i]? = some v → Default c v

theorem allDefault_eq : ∀ {cols : List Col} {row : List V}, AllDefault cols row → row = cols.map valueDefault
  | [], row, h => List.length_eq_zero_iff.1 (by simpa using h.1)
  | c :: cs, [], h => by simp [AllDefault] at h
  | c :: cs, v :: row, h => by
    rw [List.map_cons, default_val (h.2 0 c v (by simp) (by simp)),
      ← allDefault_eq (cols := cs) (row := row) ⟨by simpa using h.1, fun i d x h1 h2 => h.2 (i + 1) d x (by simpa using h1) (by simpa using h2)⟩]

/-- GENERATE n, for n below 2^31: n rows of defaults; refused when a NOT NULL column has none -/
theorem C94_generate_partial (E : Env) (cols : List Col) (b w b' rest : Bytes) (c0 : Nat) (n : Nat) (row : List V) (hb : Blank b) (hw : Word "generate" w) (hb' : Blank (c0 :: b'))
    (hn : n < 2 ^ 31) (hr : CanFollow (.int n) rest) (hrow : AllDefault cols row) :
    (Allowed cols row → parseInsert E cols (b ++ (w ++ (c0 :: b' ++ (decDigits n ++ rest)))) = .ok (List.replicate n row, rest)) ∧
    (¬ Allowed cols row → 0 < n → parseInsert E cols (b ++ (w ++ (c0 :: b' ++ (decDigits n ++ rest)))) = .error .err) := by
  have h0 : lexNext true (w ++ (c0 :: b' ++ (decDigits n ++ rest))) = .ok (.kw kGENERATE, c0 :: b' ++ (decDigits n ++ rest)) := by
    refine lex_word hw (by decide) ?_
    cases hb' with
    | space h _ => have := space_val h; simp only [List.cons_append, CanFollow]; unfold identChar; omega
    | comment _ _ => simp only [List.cons_append, CanFollow]; unfold identChar; omega
  have h1 : lexNext true (c0 :: b' ++ (decDigits n ++ rest)) = .ok (.int n, rest) := by
    rw [lexNext_blank hb']; exact C80_token (.int n (by omega)) rest hr
  have hg : genCount n = n := by
    unfold genCount toSigned
    rw [Nat.mod_eq_of_lt (by omega), if_pos (by omega)]
    simp
  have e := allDefault_eq hrow
  subst e
  unfold parseInsert
  rw [ifTok_blank hb, ifTok_yes h0, bind_ok]
  simp only [h1]
  rw [bind_ok]
  simp only [hg]
  constructor
  · intro ha
    rw [generate_rows cols n ha, bind_ok]
  · intro ha hpos
    obtain ⟨m, rfl⟩ : ∃ m, n = m + 1 := ⟨n - 1, by omega⟩
    rw [generate_bad cols m ha, bind_err]

/-! ## the partitions -/

theorem store_none (id : Int) : ∀ (cols : List Col) (row : List V), (∀ (i : Nat) (c : Col), cols[i]? = some c → c.identity = false) → row.length = cols.length → storeRow id cols row = row
  | [], [], _, _ => rfl
  | [], v :: row, _, h => by simp at h
  | c :: cs, [], _, h => by simp at h
  | c :: cs, v :: row, hn, h => by
    have h0 := hn 0 c (by simp)
    simp only [storeRow, h0, Bool.false_eq_true, if_false]
    rw [store_none id cs row (fun i d hd => hn (i + 1) d (by simpa using hd)) (by simpa using h)]

theorem identity_row {S : Type} (draw : S → Int × S) (st : S) : ∀ (cols : List Col) (row : List V), row.length = cols.length →
    (∀ (i j : Nat) (c d : Col), cols[i]? = some c → cols[j]? = some d → c.identity = true → d.identity = true → i = j) →
    (∀ (i : Nat) (c : Col) (v : V), cols[i]? = some c → row[i]? = some v → c.identity = true → v = .null ∨ ∃ k, v = .int k) →
    Numbered draw cols row st (storeRow (identityOf draw cols row st).1 cols row) (identityOf draw cols row st).2
  | [], [], _, _, _ => .given (by simp)
  | [], v :: row, h, _, _ => by simp at h
  | c :: cs, [], h, _, _ => by simp at h
  | c :: cs, v :: row, h, h1, h2 => by
    cases hc : c.identity with
    | true =>
      have hno : ∀ (i : Nat) (d : Col), cs[i]? = some d → d.identity = false := by
        intro i d hd
        cases he : d.identity with
        | false => rfl
        | true => have := h1 0 (i + 1) c d (by simp) (by simpa using hd) hc he; omega
      have hst : ∀ id, storeRow id (c :: cs) (v :: row) = .int id :: row := by
        intro id
        simp only [storeRow, hc, if_true, store_none id cs row hno (by simpa using h)]
      rcases h2 0 c v (by simp) (by simp) hc with rfl | ⟨k, rfl⟩
      · simp only [identityOf, hc, if_true]
        rw [hst]
        have := Numbered.drawn (draw := draw) (cols := c :: cs) (row := .null :: row) (st := st) (i := 0) (c := c) (by simp) hc (by simp)
        simpa using this
      · simp only [identityOf, hc, if_true]
        rw [hst]
        refine .given ?_
        intro i d hd hi
        cases i with
        | zero => simp
        | succ i => rw [hno i d (by simpa using hd)] at hi; cases hi
    | false =>
      have ih := identity_row draw st cs row (by simpa using h) (fun i j d e hd he a b => by
          have := h1 (i + 1) (j + 1) d e (by simpa using hd) (by simpa using he) a b; omega)
        (fun i d x hd hx => h2 (i + 1) d x (by simpa using hd) (by simpa using hx))
      simp only [identityOf, storeRow, hc, Bool.false_eq_true, if_false]
      generalize identityOf draw cs row st = q at ih ⊢
      obtain ⟨q1, q2⟩ := q
      generalize storeRow (q1, q2).1 cs row = row' at ih ⊢
      cases ih with
      | given hg =>
        refine .given ?_
        intro i d hd hi
        cases i with
        | zero => simp only [List.getElem?_cons_zero, Option.some.injEq] at hd; rw [← hd, hc] at hi; cases hi
        | succ i => simpa using hg i d (by simpa using hd) hi
      | @drawn i d hd hi hv =>
        have := Numbered.drawn (draw := draw) (cols := c :: cs) (row := v :: row) (st := st) (i := i + 1) (c := d) (by simpa using hd) hi (by simpa using hv)
        simpa using this

/-- the rows that the requests have for a partition -/
def rowsOf (p : Nat) (reqs : List (Nat × List (List V))) : List (List V) := (reqs.filter (fun x => decide (x.1 = p))).flatMap (·.2)

theorem addReq_keys (q : Nat) (row : List V) : ∀ (reqs : List (Nat × List (List V))), ∀ k ∈ (addReq q row reqs).map (·.1), k = q ∨ k ∈ reqs.map (·.1)
  | [], k, h => by simpa [addReq] using h
  | (p, l) :: t, k, h => by
    unfold addReq at h
    split at h
    · simp only [List.map_cons, List.mem_cons] at h ⊢; rcases h with h | h
      · exact .inr (.inl h)
      · exact .inr (.inr h)
    · simp only [List.map_cons, List.mem_cons] at h ⊢
      rcases h with h | h
      · exact .inr (.inl h)
      · rcases addReq_keys q row t k h with h | h
        · exact .inl h
        · exact .inr (.inr h)

theorem addReq_nodup (q : Nat) (row : List V) : ∀ (reqs : List (Nat × List (List V))), (reqs.map (·.1)).Nodup → ((addReq q row reqs).map (·.1)).Nodup
  | [], _ => by simp [addReq]
  | (p, l) :: t, h => by
    simp only [List.map_cons, List.nodup_cons] at h
    unfold addReq
    split
    · simpa using h
    · rename_i hne
      simp only [List.map_cons, List.nodup_cons]
      refine ⟨fun hm => ?_, addReq_nodup q row t h.2⟩
      rcases addReq_keys q row t p hm with e | e
      · exact hne e
      · exact h.1 e

theorem rowsOf_cons (p q : Nat) (l : List (List V)) (t : List (Nat × List (List V))) : rowsOf p ((q, l) :: t) = (if q = p then l else []) ++ rowsOf p t := by
  unfold rowsOf
  rw [List.filter_cons]
  by_cases h : q = p <;> simp [h]

theorem rowsOf_none (p : Nat) : ∀ (t : List (Nat × List (List V))), p ∉ t.map (·.1) → rowsOf p t = []
  | [], _ => rfl
  | (q, l) :: t, h => by
    simp only [List.map_cons, List.mem_cons, not_or] at h
    rw [rowsOf_cons, rowsOf_none p t h.2, if_neg (fun e => h.1 e.symm)]
    rfl

theorem addReq_rows (p q : Nat) (row : List V) : ∀ (reqs : List (Nat × List (List V))), (reqs.map (·.1)).Nodup →
    rowsOf p (addReq q row reqs) = rowsOf p reqs ++ (if q = p then [row] else [])
  | [], _ => by rw [addReq, rowsOf_cons]; simp [rowsOf]
  | (x, l) :: t, h => by
    simp only [List.map_cons, List.nodup_cons] at h
    unfold addReq
    split
    · rename_i e
      subst e
      rw [rowsOf_cons, rowsOf_cons]
      by_cases hx : x = p
      · subst hx
        simp [rowsOf_none x t h.1]
      · simp [hx]
    · rw [rowsOf_cons, rowsOf_cons, addReq_rows p q row t h.2, List.append_assoc]

theorem shard_rows {S : Type} (draw : S → Int × S) (cols : List Col) (part : List V → Nat)
    (h1 : ∀ (i j : Nat) (c d : Col), cols[i]? = some c → cols[j]? = some d → c.identity = true → d.identity = true → i = j) :
    ∀ (rows : List (List V)) (st : S) (reqs : List (Nat × List (List V))), (reqs.map (·.1)).Nodup →
    (∀ row ∈ rows, row.length = cols.length ∧ ∀ (i : Nat) (c : Col) (v : V), cols[i]? = some c → row[i]? = some v → c.identity = true → v = .null ∨ ∃ k, v = .int k) →
    ∃ rows', NumberedAll draw cols rows st rows' (shard draw cols part rows st reqs).2 ∧ (((shard draw cols part rows st reqs).1).map (·.1)).Nodup ∧
      ∀ p, rowsOf p (shard draw cols part rows st reqs).1 = rowsOf p reqs ++ rows'.filter (fun r => decide (part r = p))
  | [], st, reqs, hn, _ => ⟨[], .nil, hn, fun p => by simp [shard]⟩
  | row :: rows, st, reqs, hn, hr => by
    obtain ⟨ha, hb⟩ := hr row (by simp)
    have hnum := identity_row draw st cols row ha h1 hb
    simp only [shard]
    obtain ⟨rows', i1, i2, i3⟩ := shard_rows draw cols part h1 rows (identityOf draw cols row st).2
      (addReq (part (storeRow (identityOf draw cols row st).1 cols row)) (storeRow (identityOf draw cols row st).1 cols row) reqs) (addReq_nodup _ _ _ hn)
      (fun r hm => hr r (by simp [hm]))
    refine ⟨_ :: rows', .cons hnum i1, i2, fun p => ?_⟩
    rw [i3 p, addReq_rows p _ _ _ hn, List.filter_cons, List.append_assoc]
    congr 1
    by_cases hp : part (storeRow (identityOf draw cols row st).1 cols row) = p <;> simp [hp]

/-- The rows of a statement go to the partitions: one request per partition at most, the rows of a partition in the order of the statement, each with the values as
given and the next number of the sequence for an identity that is NULL (for at most one identity column). -/
theorem C94_shard_partial {S : Type} (draw : S → Int × S) (cols : List Col) (part : List V → Nat) (rows : List (List V)) (st : S)
    (h1 : ∀ (i j : Nat) (c d : Col), cols[i]? = some c → cols[j]? = some d → c.identity = true → d.identity = true → i = j)
    (h2 : ∀ row ∈ rows, row.length = cols.length ∧ ∀ (i : Nat) (c : Col) (v : V), cols[i]? = some c → row[i]? = some v → c.identity = true → v = .null ∨ ∃ k, v = .int k) :
    ∃ rows', NumberedAll draw cols rows st rows' (shard draw cols part rows st []).2 ∧ (((shard draw cols part rows st []).1).map (·.1)).Nodup ∧
      ∀ p, rowsOf p (shard draw cols part rows st []).1 = rows'.filter (fun r => decide (part r = p)) := by
  obtain ⟨rows', a, b, c⟩ := shard_rows draw cols part h1 rows st [] (by simp) h2
  exact ⟨rows', a, b, fun p => by rw [c p]; simp [rowsOf]⟩

/-! ## a table, and what fails -/

def sampleEnv : Env := ⟨⟨fun _ => [], fun _ => none⟩, fun i => i.toNat, fun _ _ => 0, fun _ _ => none, fun _ n => n, fun _ _ => 0, fun _ => none, 0, none⟩

/-- a int, b int -/
def sampleCols : List Col := [⟨[97], .int, true, false, false, false, .null⟩, ⟨[98], .int, false, false, false, false, .int 7⟩]

/-- `VALUES (1, -2), (3, DEFAULT)` -/
example : parseInsert sampleEnv sampleCols (strBytes "VALUES (1, -2), (3, DEFAULT)") = .ok ([[.int 1, .int (-2)], [.int 3, .int 7]], []) := by decide +kernel
/-- `(A) VALUES (5)` -/
example : parseInsert sampleEnv sampleCols (strBytes "(A) VALUES (5)") = .ok ([[.int 5, .int 7]], []) := by decide +kernel

theorem dec1 : decDigits 1 = [49] := by simp [decDigits]
theorem dec2 : decDigits 2 = [50] := by simp [decDigits]
theorem dec3 : decDigits 3 = [51] := by simp [decDigits]

/-- the text of the first example as rows: `(1, -2)`, `(3, DEFAULT)` -/
example : Rows (Fill sampleEnv sampleCols) (strBytes " (1, -2), (3, DEFAULT)") [[.int 1, .int (-2)], [.int 3, .int 7]] := by
  have f1 : Fill sampleEnv sampleCols [[49], [45, 50]] [.int 1, .int (-2)] :=
    .item rfl (.lit (dec1 ▸ .int (m := false) (.int (by decide)))) (.item rfl (.lit (.int (m := true) (n := 2) (dec2 ▸ .neg (b := []) (by simp) (.int (by decide))))) .nil)
  have f2 : Fill sampleEnv sampleCols [[51], strBytes "DEFAULT"] [.int 3, .int 7] :=
    .item rfl (.lit (dec3 ▸ .int (m := false) (.int (by decide)))) (.item rfl (.dflt (by unfold Word; decide) (.dflt rfl)) .nil)
  have sp : Blank [32] := .space rfl .nil
  exact .more (t := [49, 44, 32, 45, 50]) (x := strBytes " (3, DEFAULT)") sp (.more (t := [32, 45, 50]) .nil .nil (by simp) (.one sp .nil)) f1 .nil
    (.one (t := strBytes "3, DEFAULT") sp (.more (t := strBytes " DEFAULT") .nil .nil (by simp) (.one (w := strBytes "DEFAULT") sp .nil)) f2)

example : Clean sampleCols ∧ Ends [] ∧ Word "values" (strBytes "Values") ∧ Allowed sampleCols [.int 3, .int 7] ∧ ¬ Allowed sampleCols [.null, .int 7] := by
  refine ⟨(by intro c h hd; simp [sampleCols] at h; rcases h with rfl | rfl <;> cases hd), .eof .nil, by unfold Word; decide, ?_, fun h => ?_⟩
  · intro i c _ h
    match i, h with
    | 0, h => simp at h
    | 1, h => simp at h
    | n + 2, h => simp at h
  · have := h 0 _ rfl rfl
    simp at this

/-- a column list `b`, its column, and a row for it -/
example : Names sampleCols [[98]] [1] ∧ ¬ [1, 0].Pairwise (· < ·) ∧ FillList sampleEnv [⟨[98], .int, false, false, false, false, .int 7⟩] [0] [[49]] [.int 1] := by
  refine ⟨.cons (n := [98]) (.name ⟨⟨98, [], rfl, by decide⟩, by decide⟩ (by decide +kernel)) ⟨_, rfl, rfl, rfl, ?_⟩ .nil, by decide, ⟨rfl, rfl, ?_, ?_⟩⟩
  · intro j d hj hd
    obtain rfl : j = 0 := by omega
    simp [sampleCols] at hd
    subst hd
    exact .inr (by decide)
  · intro k i c w v h1 h2 h3 h4
    match k, h1, h2 with
    | 0, h1, h2 =>
      simp at h1 h2
      subst h1; subst h2
      simp at h3 h4
      subst h3; subst h4
      exact dec1 ▸ .int (m := false) (.int (by decide))
  · intro i c v h1 h2
    match i, h2 with
    | 0, _ => simp at h1

/-- a row that goes to the partition of its value, with a number drawn -/
example : ∃ rows', NumberedAll (fun (n : Nat) => ((n : Int), n + 1)) [⟨[97], .int, true, true, false, false, .null⟩] [[.null], [.int 4]] 10 rows' 11 :=
  ⟨_, .cons (.drawn (i := 0) rfl rfl rfl) (.cons (.given (by
    intro i c hc hi
    match i, hc with
    | 0, _ => simp)) .nil)⟩

/-- **C94 fails** for escapes: the string that SELECT reads as `a"b` is stored with the backslash -/
theorem C94_escape_false : parseInsert sampleEnv [⟨[97], .str, false, false, false, false, .null⟩] (strBytes "VALUES (\"a\\\"b\")") = .ok ([[.str [97, 92, 34, 98]]], []) ∧
    strValue [97, 92, 34, 98] true = .ok [97, 34, 98] := by constructor <;> decide +kernel

/-- **C94 fails** for commas: they may be left out, and one may follow the last value when the last column is dropped -/
theorem C94_comma_false : parseInsert sampleEnv sampleCols (strBytes "VALUES (1 2)") = .ok ([[.int 1, .int 2]], []) ∧
    parseInsert sampleEnv (sampleCols ++ [⟨[99], .int, false, false, false, true, .null⟩]) (strBytes "VALUES (1, 2,)") = .ok ([[.int 1, .int 2, .null]], []) := by
  constructor <;> decide +kernel

/-- **C94 fails** for DEFAULT in a statement with a column list: it is refused for a column of the list that is not the last one, and taken before the values by a column that is not in the list -/
theorem C94_default_false : parseInsert sampleEnv (sampleCols.reverse) (strBytes "(b, a) VALUES (DEFAULT, 1)") = .error .err ∧
    parseInsert sampleEnv (sampleCols.reverse) (strBytes "(a) VALUES (DEFAULT 5)") = .ok ([[.int 7, .int 5]], []) := by
  constructor <;> decide +kernel

/-- **C94 fails** for the smallest integer -/
theorem C94_min_false : parseInsert sampleEnv sampleCols (strBytes "VALUES (-9223372036854775808, 1)") = .error .err := by decide +kernel

/-- **C94 fails** for GENERATE with a count of 2^31 or more: 4294967297 gives one row, 3000000000 gives none -/
theorem C94_generate_false : parseInsert sampleEnv sampleCols.tail (strBytes "GENERATE 4294967297") = .ok ([[.int 7]], []) ∧
    parseInsert sampleEnv sampleCols.tail (strBytes "GENERATE 3000000000") = .ok ([], []) := by constructor <;> decide +kernel

/-- **C94 fails** with two identity columns: both get the identity of the first one, also when the statement gives a value for the second -/
theorem C94_identity_false : (shard (fun (n : Nat) => ((n : Int), n + 1)) [⟨[97], .int, true, true, false, false, .null⟩, ⟨[98], .int, true, true, false, false, .null⟩] (fun _ => 0)
    [[.int 5, .int 7]] 10 []).1 = [(0, [[.int 5, .int 5]])] := by decide

/-- C94: whatever text is taken, every row has one cell per column, of the type of the column (or a variable declared with that type), with NULL only where the column
may have it -/
theorem C94_typed (E : Env) (cols : List Col) (hd : ∀ c ∈ cols, HasTy E c.ty c.dflt) (s r : Bytes) (rows : List (List V)) (h : parseInsert E cols s = .ok (rows, r)) :
    ∀ row ∈ rows, RowOk E cols row := parseInsert_ok hd h

example : (∀ c ∈ sampleCols, HasTy sampleEnv c.ty c.dflt) ∧ parseInsert sampleEnv sampleCols (strBytes "VALUES (1, 2), (3, 4)") = .ok ([[.int 1, .int 2], [.int 3, .int 4]], []) := by
  refine ⟨?_, by decide +kernel⟩
  intro c hc
  simp only [sampleCols, List.mem_cons, List.not_mem_nil, or_false] at hc
  rcases hc with rfl | rfl
  · first | exact .null _ | exact .int _
  · first | exact .null _ | exact .int _

end Verif.Insert
