import Verif.Json.TextModel
import Verif.Json.Eq
set_option linter.unusedSimpArgs false
namespace Verif.Json.Text
open Verif Verif.Json

mutual
/-- The text of a value (spec): compact form, or the indented form with `pretty`. -/
def textOf (L : Libc) (pretty : Bool) (deep : Nat) : J → Bytes
  | .null => [110, 117, 108, 108]
  | .bool b => if b then [116, 114, 117, 101] else [102, 97, 108, 115, 101]
  | .int i => intText i
  | .real r => L.fmtG r
  | .str s => [34] ++ escape s ++ [34]
  | .arr l => [91] ++ textList L pretty deep l ++ [93]
  | .obj l =>
    if pretty then
      (if l.isEmpty then [123, 125] else [123, 10] ++ textFields L pretty deep l ++ indent deep ++ [125])
    else [123] ++ textFields L pretty deep l ++ [125]
def textList (L : Libc) (pretty : Bool) (deep : Nat) : List J → Bytes
  | [] => []
  | v :: t => textOf L pretty deep v ++ (if t.isEmpty then [] else [44, 32]) ++ textList L pretty deep t
def textFields (L : Libc) (pretty : Bool) (deep : Nat) : List (Bytes × J) → Bytes
  | [] => []
  | (k, v) :: t =>
    (if pretty then indent (deep + 1) else []) ++ ([34] ++ escape k ++ [34]) ++ [58, 32] ++
      textOf L pretty (deep + 1) v ++
      (if t.isEmpty then (if pretty then [10] else []) else (if pretty then [44, 10] else [44, 32])) ++
      textFields L pretty deep t
end

theorem peek_encList (l : List J) (rest : Bytes) :
    ∃ x, peek (encList l ++ (tARRAY_END :: rest)) = .ok x ∧ (x = tARRAY_END ↔ l.isEmpty = true) := by
  cases l with
  | nil => exact ⟨81, rfl, by simp⟩
  | cons v t =>
    obtain ⟨x, h1, h2⟩ := peek_encList_cons v t (tARRAY_END :: rest)
    exact ⟨x, h1, by simp; exact h2⟩

theorem peek_encFields (l : List (Bytes × J)) (rest : Bytes) :
    ∃ x, peek (encFields l ++ (tOBJ_END :: rest)) = .ok x ∧ (x = tOBJ_END ↔ l.isEmpty = true) := by
  cases l with
  | nil => exact ⟨79, rfl, by simp⟩
  | cons p t =>
    obtain ⟨k, v⟩ := p
    obtain ⟨x, r, h1, h2⟩ := writeRaw_head k
    exact ⟨x, by simp [encFields, h1, peek], by simp; omega⟩

theorem readObjEnd_encFields (l : List (Bytes × J)) (rest : Bytes) :
    readObjEnd (encFields l ++ (tOBJ_END :: rest)) = .ok (if l.isEmpty then some rest else none) := by
  cases l with
  | nil => rfl
  | cons p t =>
    obtain ⟨k, v⟩ := p
    simp only [encFields, List.append_assoc]
    rw [readObjEnd_raw]; rfl

theorem export_scalar (L : Libc) (pretty : Bool) (f deep : Nat) (v : J) (hw : WF v) (rest : Bytes)
    (hs : ∀ l, v ≠ .arr l) (ho : ∀ l, v ≠ .obj l) :
    exportAs L pretty (f + 1) deep (enc v ++ rest) = .ok (textOf L pretty deep (stored v), rest) := by
  cases v with
  | null => rfl
  | bool b => cases b <;> rfl
  | int i =>
    simp only [WF] at hw
    have := readInteger_write i hw.1 hw.2 rest
    obtain ⟨t, r, h, ht⟩ := writeInteger_head i
    simp only [enc, stored, textOf]
    rw [h] at this ⊢
    simp only [exportAs, List.cons_append, peek, bind, Except.bind, clsOf_int t ht] at this ⊢
    rw [this]
  | real q =>
    simp only [WF] at hw
    have := readReal_write q hw rest
    obtain ⟨t, r, h, ht⟩ := writeReal_head q
    simp only [enc, stored, textOf]
    rw [h] at this ⊢
    have hc : clsOf t = .real := by rcases ht with rfl | rfl <;> decide
    simp only [exportAs, List.cons_append, peek, bind, Except.bind, hc] at this ⊢
    rw [this]
  | str s =>
    simp only [WF] at hw
    have := readRaw_write s hw.2 rest
    obtain ⟨t, r, h, ht⟩ := writeRaw_head s
    simp only [enc, stored, textOf]
    rw [h] at this ⊢
    simp only [exportAs, List.cons_append, peek, bind, Except.bind, clsOf_str t ht] at this ⊢
    rw [this]
  | arr l => exact absurd rfl (hs l)
  | obj l => exact absurd rfl (ho l)

theorem storedList_isEmpty (l : List J) : (storedList l).isEmpty = l.isEmpty := by
  cases l <;> rfl
theorem storedFields_isEmpty (l : List (Bytes × J)) : (storedFields l).isEmpty = l.isEmpty := by
  cases l with
  | nil => rfl
  | cons p t => obtain ⟨k, v⟩ := p; rfl

mutual
theorem export_enc (L : Libc) (pretty : Bool) : (v : J) → WF v → ∀ (fuel deep : Nat) (rest : Bytes),
    (enc v).length ≤ fuel →
    exportAs L pretty fuel deep (enc v ++ rest) = .ok (textOf L pretty deep (stored v), rest)
  | .null, hw, fuel, deep, rest, hf => by
    obtain ⟨f, rfl⟩ : ∃ f, fuel = f + 1 := ⟨fuel - 1, by simp [enc] at hf; omega⟩
    exact export_scalar L pretty f deep _ hw rest (by simp) (by simp)
  | .bool b, hw, fuel, deep, rest, hf => by
    obtain ⟨f, rfl⟩ : ∃ f, fuel = f + 1 := ⟨fuel - 1, by have := enc_length_pos (.bool b); omega⟩
    exact export_scalar L pretty f deep _ hw rest (by simp) (by simp)
  | .int b, hw, fuel, deep, rest, hf => by
    obtain ⟨f, rfl⟩ : ∃ f, fuel = f + 1 := ⟨fuel - 1, by have := enc_length_pos (.int b); omega⟩
    exact export_scalar L pretty f deep _ hw rest (by simp) (by simp)
  | .real b, hw, fuel, deep, rest, hf => by
    obtain ⟨f, rfl⟩ : ∃ f, fuel = f + 1 := ⟨fuel - 1, by have := enc_length_pos (.real b); omega⟩
    exact export_scalar L pretty f deep _ hw rest (by simp) (by simp)
  | .str b, hw, fuel, deep, rest, hf => by
    obtain ⟨f, rfl⟩ : ∃ f, fuel = f + 1 := ⟨fuel - 1, by have := enc_length_pos (.str b); omega⟩
    exact export_scalar L pretty f deep _ hw rest (by simp) (by simp)
  | .arr l, hw, fuel, deep, rest, hf => by
    obtain ⟨f, rfl⟩ : ∃ f, fuel = f + 1 := ⟨fuel - 1, by simp [enc] at hf; omega⟩
    simp only [WF] at hw
    have := exportList_enc L pretty l hw f deep rest (by simp [enc] at hf; omega)
    simp only [enc, List.cons_append, List.append_assoc, List.nil_append, stored, textOf]
    simp only [exportAs, peek, bind, Except.bind, show clsOf tARRAY = .arr by decide, readArray, if_true, this]
    simp
  | .obj l, hw, fuel, deep, rest, hf => by
    obtain ⟨f, rfl⟩ : ∃ f, fuel = f + 1 := ⟨fuel - 1, by simp [enc] at hf; omega⟩
    simp only [WF] at hw
    have := exportFields_enc L pretty l hw f deep rest (by simp [enc] at hf; omega)
    simp only [enc, List.cons_append, List.append_assoc, List.nil_append, stored, textOf]
    simp only [exportAs, peek, bind, Except.bind, show clsOf tOBJ = .obj by decide, readObj, if_true,
      readObjEnd_encFields, storedFields_isEmpty]
    cases pretty
    · simp [this]
    · cases hl : l.isEmpty
      · simp [this]
      · simp
theorem exportList_enc (L : Libc) (pretty : Bool) : (l : List J) → WFList l → ∀ (fuel deep : Nat) (rest : Bytes),
    (encList l).length + 1 ≤ fuel →
    exportList L pretty fuel deep (encList l ++ (tARRAY_END :: rest)) = .ok (textList L pretty deep (storedList l), rest)
  | [], _, fuel, deep, rest, hf => by
    obtain ⟨f, rfl⟩ : ∃ f, fuel = f + 1 := ⟨fuel - 1, by omega⟩
    rfl
  | v :: t, hw, fuel, deep, rest, hf => by
    obtain ⟨f, rfl⟩ : ∃ f, fuel = f + 1 := ⟨fuel - 1, by omega⟩
    simp only [WFList] at hw
    simp only [encList, List.length_append] at hf
    have hp := enc_length_pos v
    have h1 := export_enc L pretty v hw.1 f deep (encList t ++ (tARRAY_END :: rest)) (by omega)
    have h2 := exportList_enc L pretty t hw.2 f deep rest (by omega)
    obtain ⟨x, hx, hx2⟩ := peek_encList t rest
    simp only [encList, List.append_assoc, exportList, storedList, textList, storedList_isEmpty]
    rw [readArrayEnd_enc]
    simp only [bind, Except.bind, h1, h2, hx, hx2]
theorem exportFields_enc (L : Libc) (pretty : Bool) : (l : List (Bytes × J)) → WFFields l →
    ∀ (fuel deep : Nat) (rest : Bytes), (encFields l).length + 1 ≤ fuel →
    exportFields L pretty fuel deep (encFields l ++ (tOBJ_END :: rest)) =
      .ok (textFields L pretty deep (storedFields l), rest)
  | [], _, fuel, deep, rest, hf => by
    obtain ⟨f, rfl⟩ : ∃ f, fuel = f + 1 := ⟨fuel - 1, by omega⟩
    rfl
  | (k, v) :: t, hw, fuel, deep, rest, hf => by
    obtain ⟨f, rfl⟩ : ∃ f, fuel = f + 1 := ⟨fuel - 1, by omega⟩
    simp only [WFFields] at hw
    simp only [encFields, List.length_append] at hf
    have hp := writeRaw_length_pos k
    have hp' := enc_length_pos v
    have h0 : exportAs L pretty f (deep + 1) (enc (.str k) ++ (enc v ++ (encFields t ++ (tOBJ_END :: rest)))) =
        .ok (textOf L pretty (deep + 1) (stored (.str k)), enc v ++ (encFields t ++ (tOBJ_END :: rest))) := by
      obtain ⟨g, rfl⟩ : ∃ g, f = g + 1 := ⟨f - 1, by omega⟩
      exact export_scalar L pretty g (deep + 1) (.str k) (by simp only [WF]; exact hw.1)
        (enc v ++ (encFields t ++ (tOBJ_END :: rest))) (by simp) (by simp)
    have h1 := export_enc L pretty v hw.2.1 f (deep + 1) (encFields t ++ (tOBJ_END :: rest)) (by omega)
    have h2 := exportFields_enc L pretty t hw.2.2 f deep rest (by omega)
    obtain ⟨x, hx, hx2⟩ := peek_encFields t rest
    simp only [enc, stored, textOf] at h0
    simp only [encFields, List.append_assoc, exportFields, storedFields, textFields, storedFields_isEmpty]
    rw [readObjEnd_raw]
    simp only [List.append_assoc] at h0
    simp only [bind, Except.bind, h0, h1, h2, hx, hx2]
    simp only [List.append_assoc]
end

/-! ## escape / unescape -/

theorem unescape_escapeChar (c : Nat) (rest : Bytes) :
    unescape false (escapeChar c ++ rest) = (do let r ← unescape false rest; .ok (c :: r)) := by
  unfold escapeChar
  split
  · rename_i h; subst h; simp [unescape, unescapeChar]
  · split
    · rename_i h; subst h; simp [unescape, unescapeChar]
    · split
      · rename_i h; subst h; simp [unescape, unescapeChar]
      · split
        · rename_i h; subst h; simp [unescape, unescapeChar]
        · split
          · rename_i h; subst h; simp [unescape, unescapeChar]
          · split
            · rename_i h; subst h; simp [unescape, unescapeChar]
            · split
              · rename_i h; subst h; simp [unescape, unescapeChar]
              · simp only [List.cons_append, List.nil_append, unescape]
                rw [if_neg (by simp; omega), if_pos trivial]

theorem unescape_escape (s : Bytes) : unescape false (escape s) = .ok s := by
  induction s with
  | nil => rfl
  | cons c t ih => simp [escape, unescape_escapeChar, ih, bind, Except.bind]

/-- Valid UTF-8 (RFC 3629, section 4): spec predicate. -/
inductive Utf8 : Bytes → Prop
  | nil : Utf8 []
  | one {a t} : a < 128 → Utf8 t → Utf8 (a :: t)
  | two {a b t} : 0xC2 ≤ a → a ≤ 0xDF → 0x80 ≤ b → b ≤ 0xBF → Utf8 t → Utf8 (a :: b :: t)
  | three {a b c t} : 0xE0 ≤ a → a ≤ 0xEF → (if a = 0xE0 then 0xA0 else 0x80) ≤ b →
      b ≤ (if a = 0xED then 0x9F else 0xBF) → 0x80 ≤ c → c ≤ 0xBF → Utf8 t → Utf8 (a :: b :: c :: t)
  | four {a b c d t} : 0xF0 ≤ a → a ≤ 0xF4 → (if a = 0xF0 then 0x90 else 0x80) ≤ b →
      b ≤ (if a = 0xF4 then 0x8F else 0xBF) → 0x80 ≤ c → c ≤ 0xBF → 0x80 ≤ d → d ≤ 0xBF →
      Utf8 t → Utf8 (a :: b :: c :: d :: t)

/-- escape does nothing on bytes that are not escaped -/
theorem escapeChar_plain (c : Nat) (h : 128 ≤ c) : escapeChar c = [c] := by
  unfold escapeChar
  simp only [show c ≠ 34 by omega, show c ≠ 92 by omega, show c ≠ 8 by omega, show c ≠ 12 by omega,
    show c ≠ 10 by omega, show c ≠ 13 by omega, show c ≠ 9 by omega, if_false]

/-- one turn of the string loop over a whole code point that is neither quote nor newline -/
theorem stringLoop_cp {q fuel : Nat} {slash esc : Bool} {acc r bs : Bytes} {c : Nat} {cp : Bytes}
    (hbs : bs = c :: (cp ++ r)) (h1 : c ≠ q) (h2 : c ≠ 10) (h3 : utf8Next bs = some r) :
    stringLoop q (fuel + 1) slash acc esc bs =
      stringLoop q fuel (if c = 92 then !slash else false) (acc ++ (c :: cp)) (if c = 92 then true else esc) r := by
  have e : (c :: (cp ++ r)).take ((c :: (cp ++ r)).length - r.length) = c :: cp := by
    have : (c :: (cp ++ r)).length - r.length = (c :: cp).length := by simp; omega
    rw [this]
    exact List.take_left' (l₁ := c :: cp) (l₂ := r) rfl
  subst hbs
  simp only [stringLoop, h1, h2, h3, false_and, if_false, e]

/-- an escaped pair `\x` -/
theorem stringLoop_pair {fuel : Nat} {esc : Bool} {acc r : Bytes} {x : Nat} (hx : x < 128) (hn : x ≠ 10) :
    stringLoop 34 (fuel + 2) false acc esc (92 :: x :: r) = stringLoop 34 fuel false (acc ++ [92, x]) true r := by
  rw [stringLoop_cp (q := 34) (bs := 92 :: (x :: r)) (c := 92) (cp := []) (r := x :: r) rfl (by omega) (by omega) (by simp [utf8Next])]
  simp only [if_true, Bool.not_false]
  by_cases h : x = 34
  · subst h
    simp [stringLoop]
  · rw [stringLoop_cp (q := 34) (bs := x :: (r)) (c := x) (cp := []) (r := r) rfl h hn (by simp [utf8Next, hx])]
    by_cases h9 : x = 92
    · subst h9; simp
    · simp [h9]

theorem stringLoop_plain {fuel : Nat} {esc : Bool} {acc r : Bytes} {x : Nat} (hx : x < 128) (hn : x ≠ 10)
    (h34 : x ≠ 34) (h92 : x ≠ 92) :
    stringLoop 34 (fuel + 1) false acc esc (x :: r) = stringLoop 34 fuel false (acc ++ [x]) esc r := by
  rw [stringLoop_cp (q := 34) (bs := x :: (r)) (c := x) (cp := []) (r := r) rfl h34 hn (by simp [utf8Next, hx])]
  simp [h92]

theorem escapeChar_cases (c : Nat) : (∃ x, escapeChar c = [92, x] ∧ x < 128 ∧ x ≠ 10) ∨
    (escapeChar c = [c] ∧ c ≠ 34 ∧ c ≠ 92 ∧ c ≠ 10) := by
  unfold escapeChar
  split
  · exact Or.inl ⟨_, rfl, by omega, by omega⟩
  · split
    · exact Or.inl ⟨_, rfl, by omega, by omega⟩
    · split
      · exact Or.inl ⟨_, rfl, by omega, by omega⟩
      · split
        · exact Or.inl ⟨_, rfl, by omega, by omega⟩
        · split
          · exact Or.inl ⟨_, rfl, by omega, by omega⟩
          · split
            · exact Or.inl ⟨_, rfl, by omega, by omega⟩
            · split
              · exact Or.inl ⟨_, rfl, by omega, by omega⟩
              · exact Or.inr ⟨rfl, by omega, by omega, by omega⟩

/-- does the escaped form contain an escape? -/
def hasEscape : Bytes → Bool
  | [] => false
  | c :: t => (escapeChar c != [c]) || hasEscape t

theorem stringLoop_escape (s : Bytes) (hs : Utf8 s) : ∀ (fuel : Nat) (acc : Bytes) (esc : Bool) (rest : Bytes),
    (escape s).length < fuel →
    stringLoop 34 fuel false acc esc (escape s ++ (34 :: rest)) =
      .ok (acc ++ escape s, rest, esc || hasEscape s) := by
  induction hs with
  | nil =>
    intro fuel acc esc rest hf
    obtain ⟨f, rfl⟩ : ∃ f, fuel = f + 1 := ⟨fuel - 1, by omega⟩
    simp [escape, stringLoop, hasEscape]
  | @one a t ha ht ih =>
    intro fuel acc esc rest hf
    rcases escapeChar_cases a with ⟨x, hx, h1, h2⟩ | ⟨hx, h1, h2, h3⟩
    · simp only [escape, hx, List.length_append, List.length_cons, List.length_nil] at hf
      obtain ⟨f, rfl⟩ : ∃ f, fuel = f + 2 := ⟨fuel - 2, by omega⟩
      simp only [escape, hx, List.cons_append, List.nil_append]
      rw [stringLoop_pair h1 h2, ih f _ _ rest (by omega)]
      have : (escapeChar a != [a]) = true := by rw [hx]; simp [bne]
      simp [hasEscape, this]
    · simp only [escape, hx, List.length_append, List.length_cons, List.length_nil] at hf
      obtain ⟨f, rfl⟩ : ∃ f, fuel = f + 1 := ⟨fuel - 1, by omega⟩
      simp only [escape, hx, List.cons_append, List.nil_append]
      rw [stringLoop_plain ha h3 h1 h2, ih f _ _ rest (by omega)]
      simp [hasEscape, hx]
  | @two a b t h1 h2 h3 h4 ht ih =>
    intro fuel acc esc rest hf
    have ea := escapeChar_plain a (by omega)
    have eb := escapeChar_plain b (by omega)
    simp only [escape, ea, eb, List.cons_append, List.nil_append, List.length_cons] at hf ⊢
    obtain ⟨f, rfl⟩ : ∃ f, fuel = f + 1 := ⟨fuel - 1, by omega⟩
    rw [stringLoop_cp (q := 34) (bs := a :: b :: (escape t ++ (34 :: rest))) (c := a) (cp := [b]) (r := escape t ++ (34 :: rest)) rfl (by omega) (by omega)]
    · rw [if_neg (show a ≠ 92 by omega), if_neg (show a ≠ 92 by omega), ih f _ _ rest (by omega)]
      simp [hasEscape, ea, eb, show a ≠ 92 by omega]
    · simp only [utf8Next, List.cons_append, List.nil_append]
      rw [if_neg (by omega), if_pos (by omega), if_pos (by omega), if_neg (by omega)]
  | @three a b c t h1 h2 h3 h4 h5 h6 ht ih =>
    intro fuel acc esc rest hf
    have h3' : 0x80 ≤ b := by split at h3 <;> omega
    have h4' : b ≤ 0xBF := by split at h4 <;> omega
    have ea := escapeChar_plain a (by omega)
    have eb := escapeChar_plain b (by omega)
    have ec := escapeChar_plain c (by omega)
    simp only [escape, ea, eb, ec, List.cons_append, List.nil_append, List.length_cons] at hf ⊢
    obtain ⟨f, rfl⟩ : ∃ f, fuel = f + 1 := ⟨fuel - 1, by omega⟩
    rw [stringLoop_cp (q := 34) (bs := a :: b :: c :: (escape t ++ (34 :: rest))) (c := a) (cp := [b, c]) (r := escape t ++ (34 :: rest)) rfl (by omega) (by omega)]
    · rw [if_neg (show a ≠ 92 by omega), if_neg (show a ≠ 92 by omega), ih f _ _ rest (by omega)]
      simp [hasEscape, ea, eb, ec, show a ≠ 92 by omega]
    · simp only [utf8Next, List.cons_append, List.nil_append]
      rw [if_neg (by omega), if_neg (by omega), if_pos (by omega), if_pos (by omega), if_neg]
      split at h3 <;> omega
  | @four a b c d t h1 h2 h3 h4 h5 h6 h7 h8 ht ih =>
    intro fuel acc esc rest hf
    have h3' : 0x80 ≤ b := by split at h3 <;> omega
    have h4' : b ≤ 0xBF := by split at h4 <;> omega
    have ea := escapeChar_plain a (by omega)
    have eb := escapeChar_plain b (by omega)
    have ec := escapeChar_plain c (by omega)
    have ed := escapeChar_plain d (by omega)
    simp only [escape, ea, eb, ec, ed, List.cons_append, List.nil_append, List.length_cons] at hf ⊢
    obtain ⟨f, rfl⟩ : ∃ f, fuel = f + 1 := ⟨fuel - 1, by omega⟩
    rw [stringLoop_cp (q := 34) (bs := a :: b :: c :: d :: (escape t ++ (34 :: rest))) (c := a) (cp := [b, c, d]) (r := escape t ++ (34 :: rest)) rfl (by omega) (by omega)]
    · rw [if_neg (show a ≠ 92 by omega), if_neg (show a ≠ 92 by omega), ih f _ _ rest (by omega)]
      simp [hasEscape, ea, eb, ec, ed, show a ≠ 92 by omega]
    · simp only [utf8Next, List.cons_append, List.nil_append]
      rw [if_neg (by omega), if_neg (by omega), if_neg (by omega), if_pos (by omega), if_pos (by omega), if_neg]
      split at h3 <;> omega

theorem stringRead_escape (s : Bytes) (hs : Utf8 s) (rest : Bytes) :
    stringRead (34 :: (escape s ++ (34 :: rest))) = .ok (escape s, rest, hasEscape s) := by
  unfold stringRead
  have := stringLoop_escape s hs ((escape s ++ (34 :: rest)).length + 1) [] false rest (by simp; omega)
  simpa using this

theorem escape_noEscape (s : Bytes) (h : hasEscape s = false) : escape s = s := by
  induction s with
  | nil => rfl
  | cons c t ih =>
    simp only [hasEscape, Bool.or_eq_false_iff] at h
    have h1 : escapeChar c = [c] := by simpa using h.1
    simp [escape, h1, ih h.2]

/-- the document form of a string that came from text -/
def strForm (s : Bytes) : Bytes := if hasEscape s then writeString32 s else writeRaw s

theorem encodeString_escape (s : Bytes) : encodeString (escape s) (hasEscape s) = .ok (strForm s) := by
  unfold encodeString strForm
  cases h : hasEscape s
  · simp [escape_noEscape s h]
  · simp [unescape_escape, bind, Except.bind]

end Verif.Json.Text
