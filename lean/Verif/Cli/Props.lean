import Verif.Cli.Lines
/-!
# C100: the command line client sends the statements of its input, each whole, in order
-/
set_option autoImplicit false
set_option linter.unusedVariables false
namespace Verif.Cli
open Verif Verif.Json.Text Verif.Parse.Lex

/-- For all lines: what is sent, with the white space dropped between, and what is left at the end, is the input. Nothing is lost, changed, sent twice or sent in another order, and nothing empty is sent. -/
theorem C100_lossless (ls : List Bytes) : Split (textOf ls) (lines [] ls).1 (lines [] ls).2 ∧ (session ls = (lines [] ls).1 ++ (if (lines [] ls).2 = [] then [] else [(lines [] ls).2])) :=
  ⟨(lines_split ls [] (.inl rfl)).1, rfl⟩

/-- After every line the client waits only when no complete block is in the buffer. -/
theorem C100_ends (buf l : Bytes) : read (line buf l).2 = none :=
  drain_end _ _ (by simp; omega)

/-- For every buffer that begins with a statement: exactly that statement is taken, whatever follows it. -/
theorem C100_statement {b r : Bytes} (h : Ends 0 0 none (b ++ r) r) (h35 : (skipBlank ((b ++ r).length + 1) (b ++ r)).headD 0 ≠ 35) : read (b ++ r) = some (b, r) ∧ b ≠ [] :=
  ends_read h h35

/-- For every text made of statements, in any division into lines: the client sends exactly the statements, in order (up to white space before them), and nothing is left. -/
theorem C100_lines_partial (ls : List Bytes) (bs : List Bytes) (h : Stmts (textOf ls) bs) : (session ls).map strip = bs.map strip ∧ (lines [] ls).2 = [] := by
  obtain ⟨h1, h2⟩ := lines_stmts ls [] bs (.inl rfl) rfl h
  refine ⟨?_, h2⟩
  rw [(C100_lossless ls).2, h2, if_pos rfl, List.append_nil, h1]

/-- What was read from the lines so far is not read in another way when more lines come. -/
theorem C100_more_lines {buf b rest : Bytes} (T : Bytes) (hl : Lined buf) (h : read buf = some (b, rest)) (hb : b ≠ []) : read (buf ++ T) = some (b, rest ++ T) :=
  read_mono T hl h hb

/-! ## what is cut in a wrong place -/

/-- `BEGIN IF NOT x THEN SELECT 1; END; END;` is cut in its middle: NOT after IF is taken for IF NOT EXISTS. -/
theorem C100_if_not_false : session [strBytes "BEGIN IF NOT x THEN SELECT 1; END; END;"] = [strBytes "BEGIN IF NOT x THEN SELECT 1; END;", strBytes " END", strBytes ";"] := by decide +kernel

/-- `SELECT (CASE WHEN a THEN 1 END );` is cut after END: CASE after '(' is not seen, END is. -/
theorem C100_case_false : session [strBytes "SELECT (CASE WHEN a THEN 1 END );"] = [strBytes "SELECT (CASE WHEN a THEN 1 END", strBytes " );"] := by decide +kernel

/-- A block with `CASE … END,` in it is not sent, nor anything after it: END before ',' is not seen. -/
theorem C100_end_comma_false : (lines [] [strBytes "BEGIN SELECT CASE WHEN a THEN 1 END, 2; END;", strBytes "SELECT 1;"]).1 = [] := by decide +kernel

/-- `DROP TABLE IF -- c`, `EXISTS t;` is not sent, nor anything after it. -/
theorem C100_if_comment_false : (lines [] [strBytes "DROP TABLE IF -- c", strBytes "EXISTS t;", strBytes "SELECT 1;"]).1 = [] := by decide +kernel

/-- A line with a comment only is kept in the buffer, as if a statement was not complete; at the end of the input it is sent. -/
theorem C100_comment_false : session [strBytes "SELECT 1;", strBytes "-- c"] = [strBytes "SELECT 1;", strBytes "-- c\n"] := by decide +kernel

/-! ## cases -/

/-- the word of a token -/
def kwOf : LTok → Option String
  | .kw i => kwNames[i]?
  | _ => none

theorem isKw_iff {k : LTok} {w : String} (h : kwOf k = some w) : IsKw k w := by
  cases k with
  | kw i => exact ⟨i, rfl, h⟩
  | _ => cases h

theorem notBlock {k : LTok} (h : (blockWords.all fun w => decide (kwOf k ≠ some w)) = true) : ∀ w ∈ blockWords, ¬ IsKw k w := by
  rintro w hw ⟨i, rfl, hi⟩
  have := List.all_eq_true.1 h w hw
  rw [decide_eq_true_eq] at this
  exact this hi

theorem delimited {p : Option Nat} {s r : Bytes} (h : p.all delim = true ∨ skipBlank (s.length + 1) s ≠ s) (h2 : r ≠ [] ∧ delim (r.headD 0) = true) : Delimited p s r := by
  refine ⟨h.imp ?_ id, ?_⟩
  · rintro h c rfl; exact h
  · cases r with
    | nil => exact absurd rfl h2.1
    | cons d r => exact ⟨d, r, rfl, h2.2⟩

theorem other {ic lv : Nat} {p : Option Nat} {s t : Bytes} (k : LTok) (r : Bytes)
    (h : lexNext true s = .ok (k, r) ∧ k ≠ .eof ∧ k ≠ .sym 59 ∧ (blockWords.all fun w => decide (kwOf k ≠ some w)) = true) (h2 : Ends ic lv (lastOf s r) r t) : Ends ic lv p s t :=
  .other h.1 h.2.1 h.2.2.1 (notBlock h.2.2.2) h2

/-- two statements over three lines: a block with a string and a comment in it -/
def sampleLines : List Bytes := [strBytes "BEGIN SELECT 'a;b';", strBytes "END; select 1 -- c;", strBytes ";"]

/-- the index of a keyword -/
def kwi (w : String) : Nat := kwNames.findIdx (fun x => x == w)

theorem sample_first (T : Bytes) (hT : T = strBytes " select 1 -- c;\n;\n") : Ends 0 0 none (strBytes "BEGIN SELECT 'a;b';\nEND;" ++ T) T := by
  subst hT
  refine .open_ (k := .kw (kwi "begin")) (w := "begin") (r := strBytes " SELECT 'a;b';\nEND; select 1 -- c;\n;\n") (by decide +kernel) (by decide) (isKw_iff (by decide +kernel))
    (delimited (.inl (by decide)) (by decide +kernel)) ?_
  refine other (.kw (kwi "select")) (strBytes " 'a;b';\nEND; select 1 -- c;\n;\n") (by decide +kernel) ?_
  refine other (.str (strBytes "a;b") false) (strBytes ";\nEND; select 1 -- c;\n;\n") (by decide +kernel) ?_
  refine .semi (r := strBytes "\nEND; select 1 -- c;\n;\n") (by decide +kernel) ?_
  refine .end_ (k := .kw (kwi "end")) (r := strBytes "; select 1 -- c;\n;\n") (by decide +kernel) (isKw_iff (by decide +kernel))
    (delimited (.inl (by decide)) (by decide +kernel)) ?_
  exact .stop (by decide +kernel)

theorem sample_second : Ends 0 0 none (strBytes " select 1 -- c;\n;" ++ [10]) [10] := by
  refine other (.kw (kwi "select")) (strBytes " 1 -- c;\n;\n") (by decide +kernel) ?_
  refine other (.int 1) (strBytes " -- c;\n;\n") (by decide +kernel) ?_
  exact .stop (by decide +kernel)

theorem sample_stmts : Stmts (textOf sampleLines) [strBytes "BEGIN SELECT 'a;b';\nEND;", strBytes " select 1 -- c;\n;"] := by
  have e : textOf sampleLines = strBytes "BEGIN SELECT 'a;b';\nEND;" ++ (strBytes " select 1 -- c;\n;" ++ [10]) := by decide +kernel
  rw [e]
  refine .cons (sample_first _ (by decide +kernel)) (by decide +kernel) (.cons sample_second (by decide +kernel) (.nil (by decide)))

example : session sampleLines = [strBytes "BEGIN SELECT 'a;b';\nEND;", strBytes " select 1 -- c;\n;"] := by decide +kernel

example : (session sampleLines).map strip = [strBytes "BEGIN SELECT 'a;b';\nEND;", strBytes "select 1 -- c;\n;"] :=
  (C100_lines_partial _ _ sample_stmts).1.trans (by decide +kernel)

example : read (strBytes "BEGIN SELECT 'a;b';\nEND;" ++ strBytes " select 1 -- c;\n;\n") = some (strBytes "BEGIN SELECT 'a;b';\nEND;", strBytes " select 1 -- c;\n;\n") :=
  (C100_statement (sample_first _ rfl) (by decide +kernel)).1

/-- IF … THEN … END, CASE … END, IF EXISTS and IF NOT EXISTS -/
example : session [strBytes "BEGIN IF a THEN SELECT CASE WHEN b THEN 1 END ; END IF; END;", strBytes "DROP TABLE IF EXISTS t; CREATE TABLE IF NOT EXISTS t (a INT);"] =
    [strBytes "BEGIN IF a THEN SELECT CASE WHEN b THEN 1 END ; END IF; END;", strBytes "DROP TABLE IF EXISTS t;", strBytes " CREATE TABLE IF NOT EXISTS t (a INT);"] := by decide +kernel

/-- C100_more_lines at a buffer with a complete statement -/
example : read (strBytes "SELECT 1; SEL\n" ++ strBytes "ECT 2;\n") = some (strBytes "SELECT 1;", strBytes " SEL\n" ++ strBytes "ECT 2;\n") :=
  C100_more_lines _ (.inr ⟨strBytes "SELECT 1; SEL", by decide⟩) (by decide +kernel) (by decide)

end Verif.Cli
