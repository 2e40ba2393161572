import Verif.Output.Body
import Verif.Json.PropsText
/-!
# Property theorems: the body of a response (C93)
-/
set_option autoImplicit false
set_option linter.unusedSimpArgs false
set_option linter.unusedVariables false
namespace Verif.Output
open Verif Verif.Json Verif.Json.Text

/-! ## helpers -/

/-- the tokens of the grammar have no control characters other than white space -/
def NoCtl (t : Bytes) : Prop := ∀ c ∈ t, c < 32 → c = 9 ∨ c = 10 ∨ c = 13
theorem noctl_append {a b : Bytes} (ha : NoCtl a) (hb : NoCtl b) : NoCtl (a ++ b) := by
  intro c hc; rcases List.mem_append.mp hc with h | h
  · exact ha c h
  · exact hb c h
theorem noctl_of {t : Bytes} (h : ∀ c ∈ t, 32 ≤ c) : NoCtl t := fun c hc h2 => absurd (h c hc) (by omega)
theorem noctl_ws {w : Bytes} (h : Ws w) : NoCtl w := fun c hc h2 => by have := h c hc; omega
theorem chr_ge {x y : Bytes} (h : Chr x y) : ∀ c ∈ y, 32 ≤ c := by
  cases h with
  | ascii => simp; omega
  | esc h =>
    simp only [escapes, List.mem_cons, Prod.mk.injEq, List.not_mem_nil, or_false] at h
    simp; omega
  | two => simp; omega
  | @three a b c h1 h2 h3 h4 h5 h6 => have hb : 0x80 ≤ b := by (split at h3 <;> omega)
                                      simp; omega
  | @four a b c d h1 h2 h3 h4 h5 h6 h7 h8 => have hb : 0x80 ≤ b := by (split at h3 <;> omega)
                                             simp; omega
theorem chrs_ge {x y : Bytes} (h : Chrs x y) : ∀ c ∈ y, 32 ≤ c := by
  induction h with
  | nil => simp
  | cons h _ ih => intro c hc; rcases List.mem_append.mp hc with h1 | h1
                   · exact chr_ge h c h1
                   · exact ih c h1
theorem intPart_ge {t : Bytes} (h : IntPart t) : ∀ c ∈ t, 48 ≤ c ∧ c ≤ 57 := by
  rcases h with rfl | h
  · simp
  · exact h.1.2
theorem number_chars {t : Bytes} (h : IsNumber t) : ∀ c ∈ t, (48 ≤ c ∧ c ≤ 57) ∨ c = 45 ∨ c = 43 ∨ c = 46 ∨ c = 101 ∨ c = 69 := by
  obtain ⟨m, i, f, e, rfl, hm, hi, hf, he⟩ := h
  intro c hc
  simp only [List.mem_append] at hc
  rcases hc with ((hc | hc) | hc) | hc
  · rcases hm with rfl | rfl
    · simp at hc
    · simp at hc; omega
  · have := intPart_ge hi c hc; omega
  · rcases hf with rfl | ⟨d, rfl, hd⟩
    · simp at hc
    · rcases List.mem_cons.mp hc with h | h
      · omega
      · have := hd.2 c h; omega
  · rcases he with rfl | ⟨x, s, d, rfl, hx, hs, hd⟩
    · simp at hc
    · simp only [List.mem_append, List.mem_cons] at hc
      rcases hc with (h | h) | h
      · omega
      · rcases hs with rfl | rfl | rfl
        · simp at h
        · simp at h; omega
        · simp at h; omega
      · have := hd.2 c h; omega
theorem intIs_chars {i : Int} {t : Bytes} (h : IntIs i t) : ∀ c ∈ t, (48 ≤ c ∧ c ≤ 57) ∨ c = 45 := by
  obtain ⟨d, hd, ⟨rfl, _⟩ | ⟨rfl, _⟩⟩ := h
  · intro c hc; have := intPart_ge hd c hc; omega
  · intro c hc
    rcases List.mem_cons.mp hc with h | h
    · omega
    · have := intPart_ge hd c h; omega

theorem doc_noctl {N : Nat → Bytes → Prop} {v : J} {t : Bytes} (h : Doc N v t) : NoCtl t := by
  refine Doc.rec (motive_1 := fun _ t _ => NoCtl t) (motive_2 := fun _ t _ => NoCtl t) (motive_3 := fun _ t _ => NoCtl t)
    ?_ ?_ ?_ ?_ ?_ ?_ ?_ ?_ ?_ ?_ ?_ ?_ ?_ ?_ h
  · exact noctl_of (by simp)
  · exact noctl_of (by simp)
  · exact noctl_of (by simp)
  · intro i t h; exact noctl_of (fun c hc => by have := intIs_chars h c hc; omega)
  · intro r t _ h; exact noctl_of (fun c hc => by have := number_chars h c hc; omega)
  · intro s t h; exact noctl_append (noctl_append (noctl_of (by simp)) (noctl_of (chrs_ge h))) (noctl_of (by simp))
  · intro w h; exact noctl_append (noctl_append (noctl_of (by simp)) (noctl_ws h)) (noctl_of (by simp))
  · intro l t _ h; exact noctl_append (noctl_append (noctl_of (by simp)) h) (noctl_of (by simp))
  · intro w h; exact noctl_append (noctl_append (noctl_of (by simp)) (noctl_ws h)) (noctl_of (by simp))
  · intro l t _ h; exact noctl_append (noctl_append (noctl_of (by simp)) h) (noctl_of (by simp))
  · intro v w t w' h1 _ h3 h2; exact noctl_append (noctl_append (noctl_ws h1) h2) (noctl_ws h3)
  · intro v l w t w' u h1 _ h3 _ h2 h4
    exact noctl_append (noctl_append (noctl_append (noctl_append (noctl_ws h1) h2) (noctl_ws h3)) (noctl_of (by simp))) h4
  · intro k v w kt w1 w2 t w' h1 h2 h3 h4 _ h5 h6
    exact noctl_append (noctl_append (noctl_append (noctl_append (noctl_append (noctl_append (noctl_append (noctl_append (noctl_ws h1)
      (noctl_of (by simp))) (noctl_of (chrs_ge h2))) (noctl_of (by simp))) (noctl_ws h3)) (noctl_of (by simp))) (noctl_ws h4)) h6) (noctl_ws h5)
  · intro k v l w kt w1 w2 t w' u h1 h2 h3 h4 _ h5 _ h6 h7
    exact noctl_append (noctl_append (noctl_append (noctl_append (noctl_append (noctl_append (noctl_append (noctl_append (noctl_append (noctl_append (noctl_ws h1)
      (noctl_of (by simp))) (noctl_of (chrs_ge h2))) (noctl_of (by simp))) (noctl_ws h3)) (noctl_of (by simp))) (noctl_ws h4)) h6) (noctl_ws h5)) (noctl_of (by simp))) h7

theorem utf8_append {a b : Bytes} (ha : Utf8 a) (hb : Utf8 b) : Utf8 (a ++ b) := by
  induction ha with
  | nil => exact hb
  | one h _ ih => exact .one h ih
  | two h1 h2 h3 h4 _ ih => exact .two h1 h2 h3 h4 ih
  | three h1 h2 h3 h4 h5 h6 _ ih => exact .three h1 h2 h3 h4 h5 h6 ih
  | four h1 h2 h3 h4 h5 h6 h7 h8 _ ih => exact .four h1 h2 h3 h4 h5 h6 h7 h8 ih
theorem utf8_ascii {a : Bytes} (h : ∀ c ∈ a, c < 128) : Utf8 a := by
  induction a with
  | nil => exact .nil
  | cons c t ih => exact .one (h c (by simp)) (ih (fun c hc => h c (by simp [hc])))
theorem utf8_tail {a : Nat} {t : Bytes} (ha : a < 128) (h : Utf8 (a :: t)) : Utf8 t := by
  cases h with
  | one _ h => exact h
  | two h => omega
  | three h => omega
  | four h => omega
theorem chr_utf8 {x y : Bytes} (h : Chr x y) : Utf8 y := by
  cases h with
  | ascii h1 h2 => exact .one h2 .nil
  | esc h =>
    simp only [escapes, List.mem_cons, Prod.mk.injEq, List.not_mem_nil, or_false] at h
    exact .one (by omega) (.one (by omega) .nil)
  | two h1 h2 h3 h4 => exact .two h1 h2 h3 h4 .nil
  | three h1 h2 h3 h4 h5 h6 => exact .three h1 h2 h3 h4 h5 h6 .nil
  | four h1 h2 h3 h4 h5 h6 h7 h8 => exact .four h1 h2 h3 h4 h5 h6 h7 h8 .nil
theorem chrs_utf8 {x y : Bytes} (h : Chrs x y) : Utf8 y := by
  induction h with
  | nil => exact .nil
  | cons h _ ih => exact utf8_append (chr_utf8 h) ih
theorem ws_utf8 {w : Bytes} (h : Ws w) : Utf8 w := utf8_ascii (fun c hc => by have := h c hc; omega)

/-- a JSON text is UTF-8 -/
theorem doc_utf8 {N : Nat → Bytes → Prop} {v : J} {t : Bytes} (h : Doc N v t) : Utf8 t := by
  have hc : ∀ c : Nat, c < 128 → Utf8 [c] := fun c h => .one h .nil
  refine Doc.rec (motive_1 := fun _ t _ => Utf8 t) (motive_2 := fun _ t _ => Utf8 t) (motive_3 := fun _ t _ => Utf8 t)
    ?_ ?_ ?_ ?_ ?_ ?_ ?_ ?_ ?_ ?_ ?_ ?_ ?_ ?_ h
  · exact utf8_ascii (by simp)
  · exact utf8_ascii (by simp)
  · exact utf8_ascii (by simp)
  · intro i t h; exact utf8_ascii (fun c hc => by have := intIs_chars h c hc; omega)
  · intro r t _ h; exact utf8_ascii (fun c hc => by have := number_chars h c hc; omega)
  · intro s t h; exact utf8_append (utf8_append (hc _ (by omega)) (chrs_utf8 h)) (hc _ (by omega))
  · intro w h; exact utf8_append (utf8_append (hc _ (by omega)) (ws_utf8 h)) (hc _ (by omega))
  · intro l t _ h; exact utf8_append (utf8_append (hc _ (by omega)) h) (hc _ (by omega))
  · intro w h; exact utf8_append (utf8_append (hc _ (by omega)) (ws_utf8 h)) (hc _ (by omega))
  · intro l t _ h; exact utf8_append (utf8_append (hc _ (by omega)) h) (hc _ (by omega))
  · intro v w t w' h1 _ h3 h2; exact utf8_append (utf8_append (ws_utf8 h1) h2) (ws_utf8 h3)
  · intro v l w t w' u h1 _ h3 _ h2 h4
    exact utf8_append (utf8_append (utf8_append (utf8_append (ws_utf8 h1) h2) (ws_utf8 h3)) (hc _ (by omega))) h4
  · intro k v w kt w1 w2 t w' h1 h2 h3 h4 _ h5 h6
    exact utf8_append (utf8_append (utf8_append (utf8_append (utf8_append (utf8_append (utf8_append (utf8_append (ws_utf8 h1)
      (hc _ (by omega))) (chrs_utf8 h2)) (hc _ (by omega))) (ws_utf8 h3)) (hc _ (by omega))) (ws_utf8 h4)) h6) (ws_utf8 h5)
  · intro k v l w kt w1 w2 t w' u h1 h2 h3 h4 _ h5 _ h6 h7
    exact utf8_append (utf8_append (utf8_append (utf8_append (utf8_append (utf8_append (utf8_append (utf8_append (utf8_append (utf8_append (ws_utf8 h1)
      (hc _ (by omega))) (chrs_utf8 h2)) (hc _ (by omega))) (ws_utf8 h3)) (hc _ (by omega))) (ws_utf8 h4)) h6) (ws_utf8 h5)) (hc _ (by omega))) h7

/-! ## C93 -/

/-- **C93**: for a result whose strings are printable and whose reals printf writes as JSON numbers, there is a JSON text (RFC 8259) for
the rows, in their order and under the names of the columns, and the server either writes exactly this text or reports that the
response is larger than limit_send, which is then so. `_partial`: control characters without an escape of their own and reals that are
not numbers are excluded (`C93_control_false`, `C93_nan_false`); that "%g" keeps the value is not claimed. -/
theorem C93_body_partial (o : Out) (names : List Bytes) (hn : ∀ k ∈ names, NameOk k) (hne : names ≠ []) (res : Result) (v : J)
    (h : ResultDoc o.minimal names res v) (hc : Clean (isNum o.libc) v) :
    ∃ body, Doc (numOf o.libc) v body ∧
      (writeJson o names res = .ok body ∨ (writeJson o names res = .error .err ∧ o.limit ≤ body.length)) :=
  ⟨_, doc_text o.libc o.pretty v hc 0, by simpa [Appends] using write_text o names hn hne h⟩

/-- **C93**: the body read by the server's own JSON parser is the document of the rows again. `_partial`: without reals and -2^63 (C39). -/
theorem C93_reads_back_partial (o : Out) (names : List Bytes) (hn : ∀ k ∈ names, NameOk k) (hne : names ≠ []) (res : Result) (v : J)
    (h : ResultDoc o.minimal names res v) (hc : TextOK v) (body : Bytes) (hw : writeJson o names res = .ok body) :
    ∃ doc, parse o.libc body = .ok ([], doc) ∧ decode doc = .ok (v, []) := by
  rcases write_text o names hn hne h with h1 | ⟨h1, _⟩
  · rw [h1] at hw
    cases hw
    refine ⟨encP v, ?_, ?_⟩
    · have := parse_textOf o.libc o.pretty v hc [] (by simp [Stop]) 0
      simpa using this
    · have := dec_encP v hc ((encP v).length + 1) [] (by omega)
      simp only [List.append_nil] at this
      exact this
  · rw [h1] at hw; cases hw

/-- a control character (a string with the byte 1) -/
def ctlOut (L : Libc) : Out := ⟨L, false, true, 1000⟩

/-- **C93 (control characters, false)**: a string with the byte 1 is written into the body as it is: the body is no JSON text, for no value. -/
theorem C93_control_false (L : Libc) :
    ∃ body, writeJson (ctlOut L) [[97]] (.store [[.str [1]]]) = .ok body ∧ ¬ ∃ v, Doc (numOf L) v body := by
  refine ⟨[91, 34, 1, 34, 93], rfl, ?_⟩
  rintro ⟨v, h⟩
  have := doc_noctl h 1 (by simp) (by omega)
  omega

theorem doc_ne {N : Nat → Bytes → Prop} {v : J} {t : Bytes} (h : Doc N v t) : t ≠ [] := by
  cases h with
  | int h =>
    obtain ⟨d, hd, ⟨rfl, _⟩ | ⟨rfl, _⟩⟩ := h
    · rcases hd with rfl | hd
      · simp
      · exact hd.1.1
    · simp
  | real _ h =>
    obtain ⟨m, i, f, e, rfl, _, hi, _⟩ := h
    rcases hi with rfl | hd
    · simp
    · simp [hd.1.1]
  | _ => simp

theorem doc_n {N : Nat → Bytes → Prop} {v : J} {t u : Bytes} (h : Doc N v t) (e : t = 110 :: u) : u = [117, 108, 108] := by
  cases h with
  | null => simp_all
  | int h => have := intIs_chars h 110 (by simp [e]); omega
  | real _ h => have := number_chars h 110 (by simp [e]); omega
  | _ => simp_all

/-- **C93 (NaN, false)**: when printf writes `nan` for a real, so does the body, which is then no JSON text for any value. -/
theorem C93_nan_false (L : Libc) (nan : Nat) (hL : L.fmtG nan = [110, 97, 110]) :
    ∃ body, writeJson (ctlOut L) [[97]] (.store [[.dbl nan]]) = .ok body ∧ ¬ ∃ v, Doc (numOf L) v body := by
  refine ⟨[91, 110, 97, 110, 93], ?_, ?_⟩
  · have h := cell_text L false 0 (c := .dbl nan) .dbl
    rw [show textOf L false 0 (.real nan) = L.fmtG nan by rfl, hL] at h
    simp only [writeJson, rowsText, rowText, rowArray, arrayCells, ctlOut, h, bind, Except.bind, if_true]
    rfl
  · rintro ⟨v, h⟩
    have key : ∀ {w t r : Bytes} {x : J}, Ws w → Doc (numOf L) x t → [110, 97, 110] = w ++ (t ++ r) → False := by
      intro w t r x hw hd e
      cases w with
      | cons a w => simp at e; have := hw a (by simp); omega
      | nil =>
        cases t with
        | nil => exact doc_ne hd rfl
        | cons a t =>
          simp at e
          have := doc_n hd (by rw [← e.1])
          subst this
          simp at e
    generalize hb : ([91, 110, 97, 110, 93] : Bytes) = b at h
    cases h with
    | @arr l t h =>
      have e : [110, 97, 110] = t := by simpa using congrArg List.dropLast (congrArg List.tail hb)
      cases h with
      | one hw hd _ => exact key hw hd (by rw [e, List.append_assoc])
      | more hw hd _ _ => exact key hw hd (by rw [e, List.append_assoc, List.append_assoc, List.append_assoc])
    | @arr0 w hw =>
      have e : [110, 97, 110] = w := by simpa using congrArg List.dropLast (congrArg List.tail hb)
      have := hw 110 (by rw [← e]; simp); omega
    | int h => have := intIs_chars h 91 (by rw [← hb]; simp); omega
    | real _ h => have := number_chars h 91 (by rw [← hb]; simp); omega
    | _ => simp at hb

/-! ### errors -/

/-- exporting `{"msg": text}` -/
theorem error_text (o : Out) (text : Bytes) (hb : IsBytes text) (hs : text.length < 2 ^ 31 - 1000) :
    writeError o text = .ok (textOf o.libc false 0 (.obj [([109, 115, 103], .str (errorText text))])) := by
  have hw : errorText text = text ∨ 512 < text.length := by
    unfold errorText; split
    · right; assumption
    · left; rfl
  by_cases hl : 512 < text.length
  · have hlen : (errorText text).length = 516 := by simp [errorText, hl]; omega
    unfold writeError
    simp only [gt_iff_lt, hl, if_true]
    have h1 : leNat (leBytes 4 (errorText text).length) = (errorText text).length := leNat_leBytes_of_lt (by omega)
    have hr : ∀ r : Bytes, readRaw (writeString32 (errorText text) ++ r) = .ok (errorText text, r) := by
      intro r
      simp only [writeString32, List.cons_append, List.append_assoc, readRaw, readN_le]
      simp only [bind, Except.bind, h1]
      simp (config := {decide := true}) only [if_false, if_true]
      apply takeRaw_append
      simp only [toSigned]; split <;> omega
    obtain ⟨f, hf⟩ : ∃ f, (tOBJ :: (writeRaw [109, 115, 103] ++ writeString32 (errorText text) ++ [tOBJ_END])).length = f + 4 := by
      refine ⟨(tOBJ :: (writeRaw [109, 115, 103] ++ writeString32 (errorText text) ++ [tOBJ_END])).length - 4, ?_⟩
      have : (writeString32 (errorText text)).length = 521 := by unfold writeString32; rw [List.length_append, List.length_cons, hlen]; rfl
      simp only [List.length_cons, List.length_append, this]; omega
    rw [hf]
    have e1 : exportAs o.libc false (f + 3) 1 (writeRaw [109, 115, 103] ++ (writeString32 (errorText text) ++ [tOBJ_END])) =
        .ok (textOf o.libc false 1 (stored (.str [109, 115, 103])), writeString32 (errorText text) ++ [tOBJ_END]) :=
      export_scalar o.libc false (f + 2) 1 (.str [109, 115, 103]) (by simp [WF, IsBytes]) _ (by simp) (by simp)
    have e2 : exportAs o.libc false (f + 3) 1 (writeString32 (errorText text) ++ [tOBJ_END]) =
        .ok ([34] ++ escape (errorText text) ++ [34], [tOBJ_END]) := by
      have := hr [tOBJ_END]
      simp only [writeString32, List.cons_append] at this ⊢
      simp only [exportAs, peek, bind, Except.bind, clsOf_str tSTRING32 (by omega)]
      rw [this]
      rfl
    have e3 : exportFields o.libc false (f + 4) 0 (writeRaw [109, 115, 103] ++ (writeString32 (errorText text) ++ [tOBJ_END])) =
        .ok (textFields o.libc false 0 [([109, 115, 103], .str (errorText text))], []) := by
      simp only [exportFields]
      rw [readObjEnd_raw]
      simp only [bind, Except.bind, e1, e2, stored, peek, readObjEnd]
      simp [exportFields, textFields, textOf, readObjEnd, bind, Except.bind]
    simp only [List.append_assoc] at e3 ⊢
    have e4 : exportAs o.libc false (f + 4 + 1) 0 (tOBJ :: (writeRaw [109, 115, 103] ++ (writeString32 (errorText text) ++ [tOBJ_END]))) =
        .ok (textOf o.libc false 0 (.obj [([109, 115, 103], .str (errorText text))]), []) := by
      rw [exportAs]
      simp only [peek, bind, Except.bind, show clsOf tOBJ = .obj by decide, readObj, if_true, Bool.false_eq_true, if_false, e3, textOf]
    rw [e4]
    rfl
  · have he : errorText text = text := by simp [errorText, hl]
    unfold writeError
    simp only [gt_iff_lt, hl, if_false]
    have := export_enc o.libc false (.obj [([109, 115, 103], .str text)]) (by simp [WF, WFFields, IsBytes]; exact ⟨hb, by omega⟩)
      ((enc (.obj [([109, 115, 103], .str text)])).length + 1) 0 [] (by omega)
    simp only [enc, encFields, stored, storedFields, List.append_nil, List.append_assoc] at this
    simp only [List.append_assoc]
    rw [this, he]
    rfl

/-- **C93**: an error is answered with the JSON text of `{"msg": text}`, when the text is printable; of a text over 512 bytes with
"…", a line break and its last 512 bytes. -/
theorem C93_error (o : Out) (text : Bytes) (hb : IsBytes text) (hs : text.length < 2 ^ 31 - 1000)
    (shown : Bytes) (hsh : (text.length ≤ 512 ∧ shown = text) ∨
      (512 < text.length ∧ ∃ head last, text = head ++ last ∧ last.length = 512 ∧ shown = [0xE2, 0x80, 0xA6, 10] ++ last))
    (hp : Printable shown) :
    ∃ body, writeError o text = .ok body ∧ Doc (numOf o.libc) (.obj [([109, 115, 103], .str shown)]) body := by
  have he : errorText text = shown := by
    rcases hsh with ⟨h, rfl⟩ | ⟨h, head, last, rfl, hl, rfl⟩
    · simp [errorText, show ¬ 512 < shown.length by omega]
    · unfold errorText
      rw [if_pos h]
      simp [hl]
  refine ⟨_, error_text o text hb hs, ?_⟩
  rw [he]
  refine doc_text o.libc false _ ?_ 0
  simp only [Clean, CleanFields]
  exact ⟨Plain.printable (by simp [Plain]), hp, trivial⟩

/-- a long error text: é and 511 times a -/
def longText : Bytes := [0xC3, 0xA9] ++ List.replicate 511 97

/-- **C93 (long errors, false)**: the text of an error over 512 bytes is cut inside of a character: a valid UTF-8 text of which the
body is no JSON text for any value. -/
theorem C93_error_cut_false (o : Out) :
    Utf8 longText ∧ ∃ body, writeError o longText = .ok body ∧ ¬ ∃ v, Doc (numOf o.libc) v body := by
  have hb : IsBytes longText := by
    intro c hc
    simp only [longText, List.mem_append, List.mem_cons, List.mem_replicate, List.not_mem_nil, or_false] at hc
    omega
  have hlen : longText.length = 513 := by unfold longText; rw [List.length_append, List.length_replicate]; rfl
  have he : errorText longText = [0xE2, 0x80, 0xA6, 10, 0xA9] ++ List.replicate 511 97 := by
    unfold errorText
    rw [if_pos (by omega), hlen]
    rfl
  refine ⟨.two (by omega) (by omega) (by omega) (by omega) (utf8_ascii (fun c hc => by have := List.eq_of_mem_replicate hc; omega)), _,
    error_text o longText hb (by omega), ?_⟩
  rintro ⟨v, h⟩
  have h := doc_utf8 h
  rw [he] at h
  have hesc : escape ([0xE2, 0x80, 0xA6, 10, 0xA9] ++ List.replicate 511 97) = [0xE2, 0x80, 0xA6, 92, 110, 0xA9] ++ List.replicate 511 97 := by
    rw [escape_append, escape_plain (List.replicate 511 97) (fun c hc => by have := List.eq_of_mem_replicate hc; omega)]
    rfl
  simp only [textOf, textFields, Bool.false_eq_true, if_false, hesc, List.isEmpty_nil, if_true, List.append_nil, List.nil_append] at h
  rw [show escape [109, 115, 103] = [109, 115, 103] by rfl] at h
  simp only [List.cons_append, List.nil_append, List.append_assoc] at h
  have h := utf8_tail (by omega) (utf8_tail (by omega) (utf8_tail (by omega) (utf8_tail (by omega) (utf8_tail (by omega) (utf8_tail (by omega) (utf8_tail (by omega) (utf8_tail (by omega) (utf8_tail (by omega) h))))))))
  cases h with
  | one h => omega
  | two h h2 => omega
  | three _ _ _ _ _ _ h =>
    have h := utf8_tail (by omega) (utf8_tail (by omega) h)
    cases h with
    | one h => omega
    | two h => omega
    | three h => omega
    | four h => omega
  | four h => omega

/-! ### documents -/

/-- **C93**: a document (a SHOW command) is answered with the JSON text of `[{"column": doc}]`, or of `[doc]` in the minimal format; asked to unwrap, an array
is written without the outer brackets. -/
theorem C93_document (o : Out) (column : Bytes) (hcol : NameOk column) (v : J) (hw : WF v) (hc : Clean (isNum o.libc) (stored v)) (unwrap : Bool)
    (w : J) (hv : w = if o.minimal then stored v else .obj [(column, stored v)]) :
    ∃ body, writeDoc o column (enc v) unwrap = .ok body ∧
      ((unwrap = true ∧ ∃ l, v = .arr l) → Doc (numOf o.libc) w body) ∧
      (¬ (unwrap = true ∧ ∃ l, v = .arr l) → Doc (numOf o.libc) (.arr [w]) body) := by
  have he := export_enc o.libc o.pretty v hw ((enc v).length + 1) 0 [] (by omega)
  simp only [List.append_nil] at he
  have hpk : ∃ t, peek (enc v) = .ok t ∧ (t = tARRAY ↔ ∃ l, v = .arr l) := by
    cases v with
    | null => exact ⟨_, rfl, by simp⟩
    | bool b => cases b <;> exact ⟨_, rfl, by simp⟩
    | int i => obtain ⟨t, r, h, ht⟩ := writeInteger_head i; exact ⟨t, by simp [enc, h, peek], by simp; omega⟩
    | real i => obtain ⟨t, r, h, ht⟩ := writeReal_head i; exact ⟨t, by simp [enc, h, peek], by simp; omega⟩
    | str i => obtain ⟨t, r, h, ht⟩ := writeRaw_head i; exact ⟨t, by simp [enc, h, peek], by simp; omega⟩
    | arr l => exact ⟨tARRAY, by simp [enc, peek], by simp⟩
    | obj l => exact ⟨tOBJ, by simp [enc, peek], by simp⟩
  obtain ⟨t, ht, hta⟩ := hpk
  have hd := doc_text o.libc o.pretty (stored v) hc 0
  have hbody : Doc (numOf o.libc) w (if o.minimal then textOf o.libc o.pretty 0 (stored v)
      else [123] ++ (if o.pretty then [10, 32, 32, 34] else [34]) ++ column ++ [34, 58, 32] ++ textOf o.libc o.pretty 0 (stored v) ++
        (if o.pretty then [10] else []) ++ [125]) := by
    cases hm : o.minimal
    · rw [hm] at hv; simp only [Bool.false_eq_true, if_false] at hv ⊢
      subst hv
      have := Doc.obj (Members.one (w := if o.pretty then [10, 32, 32] else []) (w' := if o.pretty then [10] else []) (by cases o.pretty <;> simp [Ws]) (Plain.chrs hcol) ws_nil ws_sp hd (by cases o.pretty <;> simp [Ws]))
      cases hp : o.pretty <;> rw [hp] at this <;> simpa using this
    · rw [hm] at hv; simp only [if_true] at hv ⊢
      subst hv; exact hd
  unfold writeDoc
  simp only [ht, bind, Except.bind, he, Except.map]
  refine ⟨_, rfl, ?_, ?_⟩
  · intro hu
    have e : (!(unwrap && decide (t = tARRAY))) = false := by simp [hu.1, hta.mpr hu.2]
    simp only [e, Bool.false_eq_true, if_false, List.nil_append, List.append_nil]
    exact hbody
  · intro hu
    have e : (!(unwrap && decide (t = tARRAY))) = true := by
      cases hb : unwrap
      · rfl
      · have : ¬ t = tARRAY := fun h => hu ⟨hb, hta.mp h⟩
        simp [this]
    simp only [e, if_true]
    have := Doc.arr (Elems.one ws_nil hbody ws_nil)
    simpa using this

/-! ### a case that meets the hypotheses -/

/-- two rows of (id, tags, day) as objects -/
example (L : Libc) : ∃ v, ResultDoc false [[105, 100], [116]] (.store [[.int (-7), .json (enc (.arr [.str [34, 10]]))], [.null, .bool 1]]) v ∧
    Clean (isNum L) v ∧ (∀ k ∈ [[105, 100], [116]], NameOk k) ∧
    writeJson ⟨L, false, false, 1000⟩ [[105, 100], [116]] (.store [[.int (-7), .json (enc (.arr [.str [34, 10]]))], [.null, .bool 1]]) =
      .ok ([91, 123, 34, 105, 100, 34, 58, 32] ++ [45, 55] ++ [44, 32, 34, 116, 34, 58, 32, 91, 34, 92, 34, 92, 110, 34, 93, 125, 44, 32] ++
        [123, 34, 105, 100, 34, 58, 32, 110, 117, 108, 108, 44, 32, 34, 116, 34, 58, 32, 116, 114, 117, 101, 125, 93]) := by
  have hr : ResultDoc false [[105, 100], [116]] (.store [[.int (-7), .json (enc (.arr [.str [34, 10]]))], [.null, .bool 1]])
      (.arr [.obj [([105, 100], .int (-7)), ([116], .arr [.str [34, 10]])], .obj [([105, 100], .null), ([116], .bool true)]]) :=
    .store (.cons (RowDoc.obj (vs := [_, _]) rfl (.cons .int (.cons (Means.json (v := .arr [.str [34, 10]]) (by simp [WF, WFList, IsBytes])) .nil)) rfl)
      (.cons (RowDoc.obj (vs := [_, _]) rfl (.cons .null (.cons (.true (by omega)) .nil)) rfl) .nil))
  refine ⟨_, hr, ?_, ?_, ?_⟩
  · simp only [Clean, CleanList, CleanFields]
    have h1 : Printable [105, 100] := Plain.printable (by simp [Plain])
    have h2 : Printable [116] := Plain.printable (by simp [Plain])
    have h3 : Printable [34, 10] := ⟨[92, 34] ++ ([92, 110] ++ []), .cons (x := [34]) (.esc (by simp [escapes])) (.cons (x := [10]) (.esc (by simp [escapes])) .nil)⟩
    exact ⟨⟨h1, trivial, h2, ⟨h3, trivial⟩, trivial⟩, ⟨h1, trivial, h2, trivial, trivial⟩, trivial⟩
  · simp [NameOk]
  · have h := write_text ⟨L, false, false, 1000⟩ [[105, 100], [116]] (by simp [NameOk]) (by simp) hr
    have e : textOf L false 0 (.arr [.obj [([105, 100], .int (-7)), ([116], .arr [.str [34, 10]])], .obj [([105, 100], .null), ([116], .bool true)]]) =
        [91, 123, 34, 105, 100, 34, 58, 32] ++ [45, 55] ++ [44, 32, 34, 116, 34, 58, 32, 91, 34, 92, 34, 92, 110, 34, 93, 125, 44, 32] ++
        [123, 34, 105, 100, 34, 58, 32, 110, 117, 108, 108, 44, 32, 34, 116, 34, 58, 32, 116, 114, 117, 101, 125, 93] := by
      simp [textOf, textList, textFields, intText, decDigits, escape, escapeChar]
    simp only at h
    rw [e] at h
    rcases h with h | ⟨_, h⟩
    · rw [h]; rfl
    · simp at h

end Verif.Output
