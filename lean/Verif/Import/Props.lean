import Verif.Import.Typed
import Verif.Insert.Props
/-!
# C96: the rows sent to an endpoint are the rows stored
-/
set_option autoImplicit false
set_option linter.unusedSimpArgs false
namespace Verif.Import
open Verif Verif.Json.Text Verif.Parse.Lex Verif.Insert

/-- C96, a list of columns: names of columns in the order of the table are these columns -/
theorem C96_columns (cols : List Col) (s : Bytes) (l : List Nat) (h : Spec cols s l) : setColumns cols s = .ok (some l) := set_columns h

/-- C96, a list of columns: whatever list is taken, the columns used are those of its first names, in the order of the table; what is after them is nothing, a comma, or begins with
an empty name -/
theorem C96_columns_only (cols : List Col) (s : Bytes) (l : List Nat) (h : setColumns cols s = .ok (some l)) :
    (l = [] ∧ ∃ q, s = 44 :: q) ∨ ∃ p q, s = p ++ q ∧ Spec cols p l ∧ (q = [] ∨ q = [44] ∨ ∃ q', q = 44 :: 44 :: q') := by
  unfold setColumns at h
  split at h
  · cases h
  · rename_i hn
    obtain ⟨x, h1, h⟩ := bind_eq_ok h
    cases h
    rcases loop_spec _ _ _ _ h1 with ⟨h2, h3⟩ | ⟨-, h2⟩
    · exact .inl ⟨h2, h3.resolve_left hn⟩
    · exact .inr h2

/-- C96, without a list of columns: CSV, JSONL or JSON text gives exactly the rows it says; it is refused if it has NULL where NULL may not be. (Partial: without escapes in
strings; the last column of the table is not a dropped one, see C96_dropped_false.) -/
theorem C96_rows_partial (E : Env) (cols : List Col) (hc : Clean cols) (hl : LastLive cols) (hne : cols ≠ []) (ct : Content) (s : Bytes) (rows : List (List V))
    (h : Body E cols none ct s rows) (fuel : Nat) (hf : s.length < fuel) :
    ((∀ row ∈ rows, Allowed cols row) → importInsert E cols [] ct fuel s = .ok rows) ∧ ((∃ row ∈ rows, ¬ Allowed cols row) → importInsert E cols [] ct fuel s = .error .err) := by
  obtain ⟨h1, h2⟩ := body_read hc hl hne (by intro l e; cases e) h fuel hf
  simp only [checked_none] at h1 h2
  have h0 : setColumns cols [] = .ok none := by simp [setColumns]
  unfold importInsert
  rw [h0, bind_ok]
  constructor
  · intro ha
    obtain ⟨b, hb, e⟩ := h1 ha
    rw [e, bind_ok, atEof_blank _ hb]
  · intro ha
    rw [h2 ha, bind_err]

/-- C96, with a list of columns: the values are for the listed columns, the others have their defaults -/
theorem C96_listed_partial (E : Env) (cols : List Col) (hc : Clean cols) (hl : LastLive cols) (spec : Bytes) (l : List Nat) (hs : Spec cols spec l) (ct : Content) (s : Bytes)
    (rows : List (List V)) (h : Body E cols (some l) ct s rows) (fuel : Nat) (hf : s.length < fuel) :
    ((∀ row ∈ rows, Checked cols (some l) row) → importInsert E cols spec ct fuel s = .ok rows) ∧
    ((∃ row ∈ rows, ¬ Checked cols (some l) row) → importInsert E cols spec ct fuel s = .error .err) := by
  have hne : cols ≠ [] := by
    rintro rfl
    have := (spec_sorted hs).2
    cases l with
    | nil => exact (spec_ne hs).2 rfl
    | cons a l => have := this a (by simp); simp at this
  obtain ⟨h1, h2⟩ := body_read hc hl hne (spec_listOk hs) h fuel hf
  unfold importInsert
  rw [set_columns hs, bind_ok]
  constructor
  · intro ha
    obtain ⟨b, hb, e⟩ := h1 ha
    rw [e, bind_ok, atEof_blank _ hb]
  · intro ha
    rw [h2 ha, bind_err]

/-- C96, the arguments of a function: one record of JSON -/
theorem C96_args_partial (E : Env) (cols : List Col) (hc : Clean cols) (hl : LastLive cols) (ct : Content) (hct : ct ≠ .csv) (s : Bytes) (row : List V)
    (h : Spaced (Record E cols none) s row) (fuel : Nat) :
    (Allowed cols row → importArgs E cols [] ct fuel s = .ok [row]) ∧ (¬ Allowed cols row → importArgs E cols [] ct fuel s = .error .err) := by
  obtain ⟨h1, h2⟩ := jsonl_one hc hl (by intro l e; cases e) s row [] [] h .nil term_nil
  simp only [checked_none, List.append_nil, List.nil_append] at h1 h2
  have h0 : setColumns cols [] = .ok none := by simp [setColumns]
  have h3 : importArgRows E cols none ct fuel s = (importJsonRow E cols none s >>= fun x => .ok ([x.1], x.2)) := by
    cases ct with
    | csv => exact absurd rfl hct
    | jsonl => rfl
    | json => rfl
  unfold importArgs
  rw [h0, bind_ok, h3]
  constructor
  · intro ha
    obtain ⟨b, hb, e⟩ := h1 ha
    rw [e, bind_ok, bind_ok, atEof_blank _ hb]
  · intro ha
    rw [h2 ha, bind_err, bind_err]

/-- C96: whatever list and text are taken, every row has one cell per column, of the type of the column (or a variable declared with that type), with NULL only where the column
may have it (the columns that are not listed are checked when they are stored) -/
theorem C96_typed (E : Env) (cols : List Col) (hd : ∀ c ∈ cols, HasTy E c.ty c.dflt) (spec : Bytes) (ct : Content) (fuel : Nat) (s : Bytes) (rows : List (List V))
    (h : importInsert E cols spec ct fuel s = .ok rows) :
    ∃ list, setColumns cols spec = .ok list ∧ ∀ row ∈ rows, row.length = cols.length ∧ ∀ (i : Nat) (c : Col) (v : V), cols[i]? = some c → row[i]? = some v → HasTy E c.ty v ∧
      (v = .null → (∀ l, list = some l → i ∈ l) → c.notNull = false ∨ c.identity = true ∨ c.stored = true ∨ c.dropped = true) := by
  unfold importInsert at h
  obtain ⟨list, h1, h⟩ := bind_eq_ok h
  obtain ⟨⟨rs, r⟩, h2, h⟩ := bind_eq_ok h
  refine ⟨list, h1, ?_⟩
  unfold atEof at h
  obtain ⟨o, h3, h⟩ := bind_eq_ok h
  cases o with
  | none => cases h
  | some r' =>
    cases h
    exact rows_shape hd (columns_sorted h1) h2

/-! ## concrete cases -/

/-- text of the requests: CSV, JSONL, JSON, with a list, and the arguments of a function -/
example : importInsert sampleEnv sampleCols [] .csv 100 (strBytes "1, 2\n3,-4\n") = .ok [[.int 1, .int 2], [.int 3, .int (-4)]] := by decide +kernel
example : importInsert sampleEnv sampleCols [] .jsonl 100 (strBytes "{\"a\": 1}\n [3, null] \n") = .ok [[.int 1, .int 7], [.int 3, .null]] := by decide +kernel
example : importInsert sampleEnv sampleCols [] .json 100 (strBytes "[{\"B\": 2, \"a\": 1}, [3, 4]]") = .ok [[.int 1, .int 2], [.int 3, .int 4]] := by decide +kernel
example : importInsert sampleEnv sampleCols (strBytes "A") .csv 100 (strBytes "1\n3") = .ok [[.int 1, .int 7], [.int 3, .int 7]] := by decide +kernel
example : importInsert sampleEnv sampleCols (strBytes "b,a") .csv 100 (strBytes "1,2") = .error .err := by decide +kernel
example : importInsert sampleEnv sampleCols [] .json 100 (strBytes "[{\"b\": 2}]") = .error .err := by decide +kernel
example : importInsert sampleEnv sampleCols [] .json 100 (strBytes "[{\"a\": 2, \"a\": 3}]") = .error .err := by decide +kernel
example : importArgs sampleEnv sampleCols [] .json 100 (strBytes "[5, 6]") = .ok [[.int 5, .int 6]] := by decide +kernel

theorem lit1 : Lit sampleEnv .int [49] (.int 1) := dec1 ▸ .int (m := false) (.int (by decide))
theorem lit2 : Lit sampleEnv .int [50] (.int 2) := dec2 ▸ .int (m := false) (.int (by decide))
theorem sp : Blank [32] := .space rfl .nil
theorem given12 : Given sampleEnv sampleCols [[49], [50]] [.int 1, .int 2] := .item rfl lit1 (.item rfl lit2 .nil)
theorem listed12 : Listed [[49], [50]] [49, 44, 50] := .more (w := [49]) (t := [50]) .nil .nil (by simp) (.one (w := [50]) .nil .nil)

theorem namedA : Named sampleCols [97] 0 := ⟨_, rfl, rfl, rfl, by intro j d hj; omega⟩

/-- the object `{"a":1}` says 1 and the default -/
theorem objA : Record sampleEnv sampleCols none (strBytes "{\"a\":1}") [.int 1, .int 7] := by
  refine .object (t := strBytes "\"a\":1") (ms := [strBytes "\"a\":1"]) (l := [(0, .int 1)]) (.one (w := strBytes "\"a\":1") .nil .nil) ?_ (by decide) ⟨rfl, ?_, ?_⟩
  · refine .cons (m := [34, 97, 34] ++ ([] ++ 58 :: ([] ++ [49]))) (.mk (k := [97]) (kq := 34 :: ([97] ++ [34])) (.mk (.inl rfl) (.one (by decide) .nil) (by decide) (by decide)) namedA rfl .nil .nil lit1) .nil
  · intro i v h
    simp only [List.mem_singleton, Prod.mk.injEq] at h
    obtain ⟨rfl, rfl⟩ := h
    rfl
  · intro i c v h1 h2 h3
    match i, h1, h2, h3 with
    | 0, h1, _, _ => exact absurd (by simp) (h1 (.int 1))
    | 1, _, h2, h3 =>
      simp only [sampleCols, List.getElem?_cons_succ, List.getElem?_cons_zero, Option.some.injEq] at h2 h3
      subst h2; subst h3
      exact .dflt rfl
    | n + 2, _, h2, _ => simp [sampleCols] at h2

example : Body sampleEnv sampleCols none .csv (strBytes "1,2\n1,2") [[.int 1, .int 2], [.int 1, .int 2]] ∧
    Body sampleEnv sampleCols none .jsonl (strBytes "{\"a\":1}\n[1,2]") [[.int 1, .int 7], [.int 1, .int 2]] ∧
    Body sampleEnv sampleCols none .json (strBytes "[{\"a\":1}, [1,2]]") [[.int 1, .int 7], [.int 1, .int 2]] := by
  have arr : Record sampleEnv sampleCols none (strBytes "[1,2]") [.int 1, .int 2] := .array listed12 given12
  refine ⟨.csv (.more (t := [49, 44, 50]) (x := [49, 44, 50]) (.all listed12 given12) (.one (.all listed12 given12))), ?_, ?_⟩
  · exact .jsonl (.more (t := [] ++ (strBytes "{\"a\":1}" ++ [])) (x := [] ++ (strBytes "[1,2]" ++ [])) (.mk .nil objA .nil) (.one (.mk .nil arr .nil)))
  · exact .json (b := []) (b' := []) (t := strBytes "{\"a\":1}, [1,2]") .nil (by simp)
      (.more (b := []) (w := strBytes "{\"a\":1}") (b' := []) (t := strBytes " [1,2]") .nil .nil (by simp) (.one (b := [32]) (w := strBytes "[1,2]") (b' := []) sp .nil))
      (.cons objA (.cons arr .nil)) .nil

example : Clean sampleCols ∧ LastLive sampleCols ∧ sampleCols ≠ [] ∧ Spec sampleCols [65] [0] ∧ Allowed sampleCols [.int 1, .int 7] := by
  refine ⟨(by intro c h hd; simp [sampleCols] at h; rcases h with rfl | rfl <;> cases hd), ?_, by simp [sampleCols], .one (by simp) (by simp) ⟨_, rfl, rfl, rfl, by intro j d hj; omega⟩, ?_⟩
  · intro c h
    simp [sampleCols] at h
    subst h; rfl
  · intro i c _ h
    match i, h with
    | 0, h => simp at h
    | 1, h => simp at h
    | n + 2, h => simp at h

/-! ## where it fails -/

/-- **C96 fails** when the last column of the table was dropped: an array or a line of CSV needs a comma after its last value, and is refused without one -/
theorem C96_dropped_false : importInsert sampleEnv (sampleCols ++ [⟨[99], .int, false, false, false, true, .null⟩]) [] .json 100 (strBytes "[[1, 2]]") = .error .err ∧
    importInsert sampleEnv (sampleCols ++ [⟨[99], .int, false, false, false, true, .null⟩]) [] .json 100 (strBytes "[[1, 2,]]") = .ok [[.int 1, .int 2, .null]] := by
  constructor <;> decide +kernel

/-- **C96 fails** for text that is not JSON: a comma may follow the last member of an object, strings may be in single quotes, `--` comments are skipped -/
theorem C96_syntax_false : importInsert sampleEnv sampleCols [] .json 100 (strBytes "[{\"a\": 1,}]") = .ok [[.int 1, .int 7]] ∧
    importInsert sampleEnv sampleCols [] .json 100 (strBytes "[{'a': 1}]") = .ok [[.int 1, .int 7]] ∧
    importInsert sampleEnv sampleCols [] .json 100 (strBytes "[[1, -- 5]]\n2]]") = .ok [[.int 1, .int 2]] := by
  refine ⟨?_, ?_, ?_⟩ <;> decide +kernel

/-- **C96 fails** for no rows: `[]` and an empty CSV or JSONL are refused, for every table with columns -/
theorem C96_empty_false : importInsert sampleEnv sampleCols [] .json 100 (strBytes "[]") = .error .err ∧ importInsert sampleEnv sampleCols [] .csv 100 [] = .error .err ∧
    importInsert sampleEnv sampleCols [] .jsonl 100 [] = .error .err := by
  refine ⟨?_, ?_, ?_⟩ <;> decide +kernel

/-- **C96 fails** for lines: rows need no newline between them, and a row may go over lines -/
theorem C96_lines_false : importInsert sampleEnv sampleCols [] .csv 100 (strBytes "1,2 3,4") = .ok [[.int 1, .int 2], [.int 3, .int 4]] ∧
    importInsert sampleEnv sampleCols [] .csv 100 (strBytes "1,\n2\n3\n,4") = .ok [[.int 1, .int 2], [.int 3, .int 4]] ∧
    importInsert sampleEnv sampleCols [] .jsonl 100 (strBytes "[1,2][3,4]") = .ok [[.int 1, .int 2], [.int 3, .int 4]] := by
  refine ⟨?_, ?_, ?_⟩ <;> decide +kernel

/-- **C96 fails** for strings with escapes: a column of strings gets the text between the quotes as it is written, with the `\` -/
theorem C96_escape_false : importInsert sampleEnv [⟨[97], .str, false, false, false, false, .null⟩] [] .json 100 (strBytes "[[\"a\\nb\"]]") = .ok [[.str [97, 92, 110, 98]]] := by decide +kernel

/-- **C96 fails** for CSV: strings must be in quotes, and a quote is not doubled but ends the string -/
theorem C96_csv_false : importInsert sampleEnv [⟨[97], .str, false, false, false, false, .null⟩] [] .csv 100 (strBytes "abc\n") = .error .err ∧
    importInsert sampleEnv [⟨[97], .str, false, false, false, false, .null⟩] [] .csv 100 (strBytes "\"a\"\"b\"\n") = .ok [[.str [97]], [.str [98]]] := by
  constructor <;> decide +kernel

/-- **C96 fails** for a list of columns with an empty name: the names after it are dropped without an error -/
theorem C96_columns_false : setColumns sampleCols (strBytes "a,,b") = .ok (some [0]) ∧ setColumns sampleCols (strBytes "a,,nothing") = .ok (some [0]) ∧
    importInsert sampleEnv sampleCols (strBytes "a,,b") .csv 100 (strBytes "1") = .ok [[.int 1, .int 7]] := by
  refine ⟨?_, ?_, ?_⟩ <;> decide +kernel

/-- **C96 fails** for a CSV request to a function that has no arguments: while the text has a token, no number of turns ends the loop (each turn adds a row of no values) -/
theorem C96_endless_false (E : Env) (s r : Bytes) (t : LTok) (h : lexNext true s = .ok (t, r)) (ht : t ≠ .eof) : ∀ fuel, importArgs E [] [] .csv fuel s = .error .ub := by
  intro fuel
  have hn : ifTok .eof s = .ok none := ifTok_no h ht
  have hl : ∀ f, rowsToEof (importRow E 0 [] none) f s = .error .ub := by
    intro f
    induction f with
    | zero => rfl
    | succ f ih =>
      have h1 : importRow E 0 [] none s = .ok ([], s) := rfl
      simp only [rowsToEof, h1, bind_ok, hn, ih, bind_err]
  unfold importArgs
  simp only [setColumns, if_true, bind_ok, importArgRows, importCsv, reduceCtorEq, if_false, hl, bind_err]

example : lexNext true (strBytes "1") = .ok (.int 1, []) := by decide +kernel

end Verif.Import
