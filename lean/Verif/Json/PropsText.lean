import Verif.Json.ParseProofs
import Verif.Json.Props
set_option linter.unusedSimpArgs false
/-!
# Property theorems: JSON text (C05, C39)
-/
namespace Verif.Json.Text
open Verif Verif.Json

/-- **C05**: any byte string, escaped and unescaped, is itself (escape_str / unescape_str). -/
theorem C05_unescape_escape (s : Bytes) : unescape false (escape s) = .ok s := unescape_escape s

/-- **C05**: a quoted, escaped UTF-8 string followed by anything is read up to its closing quote and no
further, and decodes to the original bytes. -/
theorem C05_quoted_read_back (s : Bytes) (hs : Utf8 s) (rest : Bytes) :
    ∃ raw esc, stringRead ([34] ++ escape s ++ [34] ++ rest) = .ok (raw, rest, esc) ∧
      unescape false raw = .ok s := by
  refine ⟨escape s, hasEscape s, ?_, unescape_escape s⟩
  simpa using stringRead_escape s hs rest

/-- **C05**: every quote in the printed form is preceded by a backslash of its own (the form is a sequence of
ordinary characters and two-character escapes). -/
theorem C05_no_bare_quote (s : Bytes) :
    ∃ parts : List Bytes, escape s = parts.flatten ∧ parts.length = s.length ∧
      ∀ p ∈ parts, (∃ c, p = [c] ∧ c ≠ 34 ∧ c ≠ 92) ∨ (∃ c, p = [92, c]) := by
  induction s with
  | nil => exact ⟨[], rfl, rfl, by simp⟩
  | cons c t ih =>
    obtain ⟨ps, h1, h2, h3⟩ := ih
    refine ⟨escapeChar c :: ps, by simp [escape, h1], by simp [h2], ?_⟩
    intro p hp
    simp only [List.mem_cons] at hp
    rcases hp with rfl | hp
    · unfold escapeChar
      repeat' split
      all_goals simp_all
    · exact h3 p hp

example : Utf8 [104, 34, 92, 10, 0xC3, 0xA9] :=
  .one (by omega) (.one (by omega) (.one (by omega) (.one (by omega)
    (.two (by omega) (by omega) (by omega) (by omega) .nil))))

/-- the escapes used when printing are inverted even though an unknown escape would read an unwritten byte:
that case is a finding (`"\q"`), shown here. -/
theorem C05_unknown_escape_reads_unwritten : ∃ raw, unescape false raw = .error .ub := ⟨[92, 113], rfl⟩

/-- the escapes of C and SQL strings: the letter after the backslash and the byte it stands for -/
def escapeTable : List (Nat × Nat) := [(92, 92), (34, 34), (97, 7), (98, 8), (102, 12), (110, 10), (114, 13), (116, 9), (118, 11)]

/-- **C05**: each of the known escapes `\\ \" \a \b \f \n \r \t \v` is read as the byte it stands for, anywhere in a text. -/
theorem C05_escapes_read (c x : Nat) (h : (c, x) ∈ escapeTable) (pre t r : Bytes) (hp : 92 ∉ pre) (hr : unescape false t = .ok r) :
    unescape false (pre ++ 92 :: c :: t) = .ok (pre ++ x :: r) := by
  induction pre with
  | nil =>
    simp only [escapeTable, List.mem_cons, Prod.mk.injEq, List.not_mem_nil, or_false] at h
    rcases h with ⟨rfl, rfl⟩ | ⟨rfl, rfl⟩ | ⟨rfl, rfl⟩ | ⟨rfl, rfl⟩ | ⟨rfl, rfl⟩ | ⟨rfl, rfl⟩ | ⟨rfl, rfl⟩ | ⟨rfl, rfl⟩ | ⟨rfl, rfl⟩ <;>
      simp [unescape, unescapeChar, hr] <;> rfl
  | cons a p ih =>
    have h1 : a ≠ 92 := fun e => hp (by simp [e])
    have h2 := ih (fun e => hp (by simp [e]))
    simp only [List.cons_append, unescape]
    rw [if_neg (by simp [h1]), if_pos trivial, h2]
    rfl

theorem stringLoop_newline (q : Nat) (rest : Bytes) : ∀ (pre : Bytes) (fuel : Nat) (acc : Bytes) (esc : Bool), q ≠ 10 →
    (∀ c ∈ pre, c < 128 ∧ c ≠ q ∧ c ≠ 92) → pre.length < fuel → stringLoop q fuel false acc esc (pre ++ 10 :: rest) = .error .err
  | _, 0, _, _, _, _, h => by omega
  | [], fuel + 1, acc, esc, hq, _, _ => by
    simp only [List.nil_append, stringLoop]
    rw [if_neg (by simp; omega), if_neg (by omega), if_pos trivial]
  | c :: p, fuel + 1, acc, esc, hq, hp, hl => by
    simp only [List.cons_append, stringLoop]
    obtain ⟨h1, h2, h3⟩ := hp c (by simp)
    rw [if_neg (by simp [h2]), if_neg h2]
    by_cases hc : c = 10
    · rw [if_pos hc]
    · rw [if_neg hc]
      have e : utf8Next (c :: (p ++ 10 :: rest)) = some (p ++ 10 :: rest) := by simp [utf8Next, h1]
      rw [e]
      simp only [h3, if_false]
      exact stringLoop_newline q rest p fuel _ _ hq (fun c h => hp c (by simp [h])) (by simp at hl; omega)

/-- **C05**: a string literal with a raw line break in it is refused. -/
theorem C05_raw_newline_refused (pre rest : Bytes) (hp : ∀ c ∈ pre, c < 128 ∧ c ≠ 34 ∧ c ≠ 92) :
    stringRead (34 :: (pre ++ 10 :: rest)) = .error .err := by
  simp only [stringRead]
  exact stringLoop_newline 34 rest pre _ _ _ (by omega) hp (by simp; omega)

example : stringRead [34, 97, 98, 10, 99, 34] = .error .err := by decide

mutual
theorem it_le (L : Libc) (p : Bool) : (v : J) → TextOK v → ∀ d, it v ≤ 2 * (textOf L p d v).length
  | .null, _, d => by simp [it, textOf]
  | .bool b, _, d => by cases b <;> simp [it, textOf]
  | .int i, _, d => by
    obtain ⟨c, t, h, _⟩ := intText_head i
    simp [it, textOf, h]; omega
  | .real r, h, d => by simp only [TextOK] at h
  | .str s, _, d => by simp [it, textOf]; omega
  | .arr l, h, d => by
    simp only [TextOK] at h
    have := itL_le L p l h d
    simp [it, textOf]; omega
  | .obj l, h, d => by
    simp only [TextOK] at h
    have := itF_le L p l h d
    cases p
    · simp [it, textOf] at this ⊢; omega
    · cases l with
      | nil => simp [it, itF, textOf]
      | cons x t => simp [it, textOf] at this ⊢; omega
theorem itL_le (L : Libc) (p : Bool) : (l : List J) → TextOKList l → ∀ d, itL l ≤ 2 * (textList L p d l).length + 1
  | [], _, d => by simp [itL]
  | v :: t, h, d => by
    simp only [TextOKList] at h
    have h1 := it_le L p v h.1 d
    have h2 := itL_le L p t h.2 d
    cases t with
    | nil => simp [itL, textList] at h1 ⊢; omega
    | cons x u => simp [itL, textList] at h1 h2 ⊢; omega
theorem itF_le (L : Libc) (p : Bool) : (l : List (Bytes × J)) → TextOKFields l → ∀ d,
    itF l ≤ 2 * (textFields L p d l).length
  | [], _, d => by simp [itF]
  | (k, v) :: t, h, d => by
    simp only [TextOKFields] at h
    have h1 := it_le L p v h.2.1 (d + 1)
    have h2 := itF_le L p t h.2.2 d
    simp only [itF, textFields, List.length_append, List.length_cons, List.length_nil]
    omega
end

theorem parse_textOf (L : Libc) (p : Bool) (v : J) (h : TextOK v) (rest : Bytes) (hr : Stop rest) (d : Nat) :
    parse L (textOf L p d v ++ rest) = .ok (rest, encP v) := by
  have hi := it_le L p v h d
  unfold parse
  obtain ⟨f, hf⟩ : ∃ f, 2 * (textOf L p d v ++ rest).length + 2 = f + it v :=
    ⟨2 * (textOf L p d v ++ rest).length + 2 - it v, by simp; omega⟩
  have := parse_text L p v h f d [] [] rest [] nospace hr
  rw [hf]
  simp only [List.nil_append] at this
  rw [this]
  cases f <;> rfl

mutual
theorem stored_textOK : (v : J) → TextOK v → stored v = v
  | .null, _ => rfl
  | .bool _, _ => rfl
  | .int _, _ => rfl
  | .real _, h => by simp only [TextOK] at h
  | .str _, _ => rfl
  | .arr l, h => by simp only [TextOK] at h; simp [stored, storedList_textOK l h]
  | .obj l, h => by simp only [TextOK] at h; simp [stored, storedFields_textOK l h]
theorem storedList_textOK : (l : List J) → TextOKList l → storedList l = l
  | [], _ => rfl
  | v :: t, h => by simp only [TextOKList] at h; simp [storedList, stored_textOK v h.1, storedList_textOK t h.2]
theorem storedFields_textOK : (l : List (Bytes × J)) → TextOKFields l → storedFields l = l
  | [], _ => rfl
  | (k, v) :: t, h => by
    simp only [TextOKFields] at h; simp [storedFields, stored_textOK v h.2.1, storedFields_textOK t h.2.2]
end

/-- **C39**: a stored document printed (compact or pretty), parsed and read gives the same value; printing
stops exactly at the end of the document and parsing exactly at the end of the text, whatever follows (as
long as what follows does not continue a number).  `_partial`: reals and -2^63 are excluded by `TextOK`
(see `C39_int_min_false`; reals go through printf("%g"), which keeps 6 digits). -/
theorem C39_text_roundtrip_partial (L : Libc) (pretty : Bool) (v : J) (hw : WF v) (h : TextOK v)
    (after rest : Bytes) (hr : Stop rest) :
    ∃ text doc, export_ L pretty (enc v ++ after) = .ok (text, after) ∧
      parse L (text ++ rest) = .ok (rest, doc) ∧
      ∀ tail, decode (doc ++ tail) = .ok (v, tail) := by
  refine ⟨textOf L pretty 0 v, encP v, ?_, parse_textOf L pretty v h rest hr 0, ?_⟩
  · have := export_enc L pretty v hw ((enc v ++ after).length + 1) 0 after (by simp; omega)
    rwa [stored_textOK v h] at this
  · intro tail
    exact dec_encP v h _ tail (by simp; omega)

/-- **C39** (violated at the boundary): the smallest integer is printed, but the text is rejected. -/
theorem C39_int_min_false (L : Libc) :
    ∃ text, export_ L false (enc (.int (-2 ^ 63))) = .ok (text, []) ∧ parse L text = .error .err := by
  refine ⟨textOf L false 0 (.int (-2 ^ 63)), ?_, ?_⟩
  · have := export_enc L false (.int (-2 ^ 63)) (by simp [WF]) ((enc (.int (-2 ^ 63)) ++ []).length + 1) 0 [] (by simp)
    simpa [export_, stored] using this
  · have : textOf L false 0 (.int (-2 ^ 63)) =
      [45, 57, 50, 50, 51, 51, 55, 50, 48, 51, 54, 56, 53, 52, 55, 55, 53, 56, 48, 56] := by
      simp [textOf, intText, decDigits]
    rw [this]
    rfl

/-- a sample document meeting the hypotheses of C39 -/
example : WF (.obj [([97, 34], .arr [.int (-5), .null, .str [10, 0xC3, 0xA9], .obj []])]) ∧
    TextOK (.obj [([97, 34], .arr [.int (-5), .null, .str [10, 0xC3, 0xA9], .obj []])]) := by
  refine ⟨by simp [WF, WFList, WFFields, IsBytes], ?_⟩
  simp only [TextOK, TextOKFields, TextOKList]
  refine ⟨⟨.one (by omega) (.one (by omega) .nil), by simp⟩, ⟨by omega, trivial, ⟨?_, by simp⟩, trivial, trivial⟩, trivial⟩
  exact .one (by omega) (.two (by omega) (by omega) (by omega) (by omega) .nil)

end Verif.Json.Text
