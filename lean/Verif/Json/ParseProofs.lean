import Verif.Json.TextProofs
set_option linter.unusedSimpArgs false
namespace Verif.Json.Text
open Verif Verif.Json

mutual
/-- Values whose text can be read back: valid UTF-8 strings, integers other than -2^63, no reals. -/
def TextOK : J → Prop
  | .null | .bool _ => True
  | .int i  => -(2 ^ 63) < i ∧ i < 2 ^ 63
  | .real _ => False
  | .str s  => Utf8 s ∧ s.length < 2 ^ 31
  | .arr l  => TextOKList l
  | .obj l  => TextOKFields l
def TextOKList : List J → Prop
  | []     => True
  | v :: t => TextOK v ∧ TextOKList t
def TextOKFields : List (Bytes × J) → Prop
  | []          => True
  | (k, v) :: t => (Utf8 k ∧ k.length < 2 ^ 31) ∧ TextOK v ∧ TextOKFields t
end

mutual
/-- document produced by the parser -/
def encP : J → Bytes
  | .null   => [tNULL]
  | .bool b => writeBool b
  | .int i  => writeInteger i
  | .real r => writeReal r
  | .str s  => strForm s
  | .arr l  => tARRAY :: (encPList l ++ [tARRAY_END])
  | .obj l  => tOBJ :: (encPFields l ++ [tOBJ_END])
def encPList : List J → Bytes
  | []     => []
  | v :: t => encP v ++ encPList t
def encPFields : List (Bytes × J) → Bytes
  | []          => []
  | (k, v) :: t => strForm k ++ (encP v ++ encPFields t)
end

theorem strForm_head (s : Bytes) : ∃ t r, strForm s = t :: r ∧ 42 ≤ t ∧ t ≤ 77 := by
  unfold strForm
  split
  · exact ⟨77, _, rfl, by omega, by omega⟩
  · exact writeRaw_head s

theorem readRaw_strForm (s : Bytes) (h : s.length < 2 ^ 31) (rest : Bytes) :
    readRaw (strForm s ++ rest) = .ok (s, rest) := by
  unfold strForm
  split
  · have h1 : leNat (leBytes 4 s.length) = s.length := leNat_leBytes_of_lt (by omega)
    simp only [writeString32, List.cons_append, List.append_assoc, readRaw, readN_le]
    simp only [bind, Except.bind, h1]
    simp (config := {decide := true}) only [if_false, if_true]
    apply takeRaw_append
    simp only [toSigned]; split <;> omega
  · exact readRaw_write s h rest

theorem dec_strForm (f : Nat) (s : Bytes) (h1 : s.length < 2 ^ 31) (rest : Bytes) :
    dec (f + 1) (strForm s ++ rest) = .ok (.str s, rest) := by
  have := readRaw_strForm s h1 rest
  obtain ⟨t, r, h, ht⟩ := strForm_head s
  rw [h] at this ⊢
  simp only [dec, List.cons_append, peek, bind, Except.bind, clsOf_str t ht] at this ⊢
  rw [this]

theorem encP_head (v : J) : ∃ t r, encP v = t :: r ∧ t ≠ 79 ∧ t ≠ 81 := by
  cases v with
  | str s =>
    obtain ⟨t, r, h, h1⟩ := strForm_head s
    exact ⟨t, r, by simp [encP, h], by omega, by omega⟩
  | null => exact ⟨0, [], by simp [encP], by omega, by omega⟩
  | bool b =>
    obtain ⟨t, h, h1⟩ := writeBool_head b
    exact ⟨t, [], by simp [encP, h], by omega, by omega⟩
  | int i =>
    obtain ⟨t, r, h, h1⟩ := writeInteger_head i
    exact ⟨t, r, by simp [encP, h], by omega, by omega⟩
  | real q =>
    obtain ⟨t, r, h, h1⟩ := writeReal_head q
    exact ⟨t, r, by simp [encP, h], by omega, by omega⟩
  | arr l => exact ⟨80, encPList l ++ [81], by simp [encP], by omega, by omega⟩
  | obj l => exact ⟨78, encPFields l ++ [79], by simp [encP], by omega, by omega⟩

theorem encP_length_pos (v : J) : 1 ≤ (encP v).length := by
  obtain ⟨t, r, h, _⟩ := encP_head v
  simp [h]

theorem strForm_length_pos (v : Bytes) : 1 ≤ (strForm v).length := by
  obtain ⟨t, r, h, _⟩ := strForm_head v
  simp [h]

mutual
theorem dec_encP : (v : J) → TextOK v → ∀ (fuel : Nat) (rest : Bytes), (encP v).length ≤ fuel →
    dec fuel (encP v ++ rest) = .ok (v, rest)
  | .null, _, fuel, rest, hf => by
    obtain ⟨f, rfl⟩ : ∃ f, fuel = f + 1 := ⟨fuel - 1, by have := encP_length_pos .null; omega⟩
    rfl
  | .bool b, _, fuel, rest, hf => by
    obtain ⟨f, rfl⟩ : ∃ f, fuel = f + 1 := ⟨fuel - 1, by have := encP_length_pos (.bool b); omega⟩
    cases b <;> rfl
  | .int i, hw, fuel, rest, hf => by
    obtain ⟨f, rfl⟩ : ∃ f, fuel = f + 1 := ⟨fuel - 1, by have := encP_length_pos (.int i); omega⟩
    simp only [TextOK] at hw
    simpa [encP] using dec_int f i (by omega) hw.2 rest
  | .real r, hw, fuel, rest, hf => by simp only [TextOK] at hw
  | .str s, hw, fuel, rest, hf => by
    obtain ⟨f, rfl⟩ : ∃ f, fuel = f + 1 := ⟨fuel - 1, by have := encP_length_pos (.str s); omega⟩
    simp only [TextOK] at hw
    simpa [encP] using dec_strForm f s hw.2 rest
  | .arr l, hw, fuel, rest, hf => by
    obtain ⟨f, rfl⟩ : ∃ f, fuel = f + 1 := ⟨fuel - 1, by simp [encP] at hf; omega⟩
    simp only [TextOK] at hw
    have := decList_encP l hw f rest (by simp [encP] at hf; omega)
    simp only [encP, List.cons_append, List.append_assoc, List.nil_append]
    simp only [dec, peek, bind, Except.bind, show clsOf tARRAY = .arr by decide, readArray, if_true, this]
  | .obj l, hw, fuel, rest, hf => by
    obtain ⟨f, rfl⟩ : ∃ f, fuel = f + 1 := ⟨fuel - 1, by simp [encP] at hf; omega⟩
    simp only [TextOK] at hw
    have := decFields_encP l hw f rest (by simp [encP] at hf; omega)
    simp only [encP, List.cons_append, List.append_assoc, List.nil_append]
    simp only [dec, peek, bind, Except.bind, show clsOf tOBJ = .obj by decide, readObj, if_true, this]
theorem decList_encP : (l : List J) → TextOKList l → ∀ (fuel : Nat) (rest : Bytes), (encPList l).length + 1 ≤ fuel →
    decList fuel (encPList l ++ (tARRAY_END :: rest)) = .ok (l, rest)
  | [], _, fuel, rest, hf => by
    obtain ⟨f, rfl⟩ : ∃ f, fuel = f + 1 := ⟨fuel - 1, by omega⟩
    rfl
  | v :: t, hw, fuel, rest, hf => by
    obtain ⟨f, rfl⟩ : ∃ f, fuel = f + 1 := ⟨fuel - 1, by omega⟩
    simp only [TextOKList] at hw
    simp only [encPList, List.length_append] at hf
    have hp := encP_length_pos v
    have h1 := dec_encP v hw.1 f (encPList t ++ (tARRAY_END :: rest)) (by omega)
    have h2 := decList_encP t hw.2 f rest (by omega)
    have h3 : readArrayEnd (encP v ++ (encPList t ++ (tARRAY_END :: rest))) = .ok none := by
      obtain ⟨x, r, h, _, h2⟩ := encP_head v
      simp [h, readArrayEnd, h2]
    simp only [encPList, List.append_assoc, decList]
    rw [h3]
    simp only [bind, Except.bind, h1, h2]
theorem decFields_encP : (l : List (Bytes × J)) → TextOKFields l → ∀ (fuel : Nat) (rest : Bytes),
    (encPFields l).length + 1 ≤ fuel →
    decFields fuel (encPFields l ++ (tOBJ_END :: rest)) = .ok (l, rest)
  | [], _, fuel, rest, hf => by
    obtain ⟨f, rfl⟩ : ∃ f, fuel = f + 1 := ⟨fuel - 1, by omega⟩
    rfl
  | (k, v) :: t, hw, fuel, rest, hf => by
    obtain ⟨f, rfl⟩ : ∃ f, fuel = f + 1 := ⟨fuel - 1, by omega⟩
    simp only [TextOKFields] at hw
    simp only [encPFields, List.length_append] at hf
    have hp := strForm_length_pos k
    have h0 := readRaw_strForm k hw.1.2 (encP v ++ (encPFields t ++ (tOBJ_END :: rest)))
    have h1 := dec_encP v hw.2.1 f (encPFields t ++ (tOBJ_END :: rest)) (by omega)
    have h2 := decFields_encP t hw.2.2 f rest (by omega)
    have h3 : readObjEnd (strForm k ++ (encP v ++ (encPFields t ++ (tOBJ_END :: rest)))) = .ok none := by
      obtain ⟨x, r, h, h2⟩ := strForm_head k
      have : x ≠ 79 := by omega
      simp [h, readObjEnd, this]
    simp only [encPFields, List.append_assoc, decFields]
    rw [h3]
    simp only [bind, Except.bind, h0, h1, h2]
end

/-! ## numbers -/

/-- the text after a number does not continue it -/
def Stop : Bytes → Prop
  | [] => True
  | c :: _ => ¬ (48 ≤ c ∧ c ≤ 57) ∧ c ≠ 46 ∧ c ≠ 101 ∧ c ≠ 69

theorem digitLoop_stop (v : Nat) (rest : Bytes) (h : Stop rest) : digitLoop v rest = .int v rest := by
  cases rest with
  | nil => rfl
  | cons c t =>
    obtain ⟨h1, h2, h3, h4⟩ := h
    simp only [digitLoop]
    rw [if_neg (by omega), if_pos]
    simp [isDigit]; omega

theorem digitLoop_digits (n : Nat) (h : n ≤ 2 ^ 63 - 1) (rest : Bytes) :
    digitLoop 0 (decDigits n ++ rest) = digitLoop n rest := by
  induction n using Nat.strongRecOn generalizing rest with
  | ind n ih =>
    unfold decDigits
    split
    · rename_i hn
      have hd : isDigit (48 + n) = true := by simp [isDigit]; omega
      simp only [List.cons_append, List.nil_append, digitLoop, hd]
      rw [if_neg (by omega), if_neg (by simp), if_neg (by omega)]
      congr 1; omega
    · rename_i hn
      have hd : isDigit (48 + n % 10) = true := by simp [isDigit]; omega
      rw [List.append_assoc, ih (n / 10) (by omega) (by omega)]
      simp only [List.cons_append, List.nil_append, digitLoop, hd]
      rw [if_neg (by omega), if_neg (by simp), if_neg (by omega)]
      congr 1; omega

theorem decDigits_head (n : Nat) : ∃ c t, decDigits n = c :: t ∧ 48 ≤ c ∧ c ≤ 57 := by
  induction n using Nat.strongRecOn with
  | ind n ih =>
    unfold decDigits
    split
    · exact ⟨_, _, rfl, by omega, by omega⟩
    · obtain ⟨c, t, h, h1⟩ := ih (n / 10) (by omega)
      exact ⟨c, t ++ [48 + n % 10], by rw [h]; rfl, h1⟩

theorem intText_head (i : Int) : ∃ c t, intText i = c :: t ∧ (c = 45 ∨ (48 ≤ c ∧ c ≤ 57)) := by
  unfold intText
  split
  · exact ⟨45, _, rfl, Or.inl rfl⟩
  · obtain ⟨c, t, h, h1⟩ := decDigits_head i.toNat
    exact ⟨c, t, h, Or.inr h1⟩

theorem number_int (L : Libc) (i : Int) (h1 : -(2 ^ 63) < i) (h2 : i < 2 ^ 63) (rest : Bytes) (hr : Stop rest) :
    number L (intText i ++ rest) = .ok (writeInteger i, rest) := by
  unfold intText
  split
  · rename_i h
    have := digitLoop_digits (-i).toNat (by omega) rest
    rw [digitLoop_stop _ rest hr] at this
    simp only [number, isMinus, decide_true, List.cons_append, List.drop_succ_cons, List.drop_zero, if_true, this]
    congr 2
    congr 1
    omega
  · rename_i h
    have := digitLoop_digits i.toNat (by omega) rest
    rw [digitLoop_stop _ rest hr] at this
    obtain ⟨c, t, hc, hc1⟩ := decDigits_head i.toNat
    have hm : isMinus (decDigits i.toNat ++ rest) = false := by
      rw [hc, List.cons_append]
      simp [isMinus]; omega
    simp only [number, hm]
    simp only [Bool.false_eq_true, if_false, this]
    congr 2
    congr 1
    omega

theorem next_space (sp : Bytes) (hsp : ∀ c ∈ sp, isSpace c = true) (c : Nat) (t : Bytes) (hc : isSpace c = false) :
    next (sp ++ (c :: t)) = .ok (c :: t) := by
  induction sp with
  | nil => simp [next, hc]
  | cons x xs ih =>
    simp only [List.cons_append, next]
    rw [if_pos (hsp x (by simp))]
    exact ih (fun y hy => hsp y (by simp [hy]))

theorem const_str (L : Libc) (s : Bytes) (hs : Utf8 s) (rest : Bytes) :
    const L (34 :: (escape s ++ (34 :: rest))) = .ok (strForm s, rest) := by
  simp only [const]
  rw [if_pos (Or.inl trivial), stringRead_escape s hs rest]
  simp only [bind, Except.bind, encodeString_escape]

theorem isSpace_false (c : Nat) (h : c ≠ 32) (h2 : 14 ≤ c) : isSpace c = false := by
  simp [isSpace]; omega

theorem const_int (L : Libc) (i : Int) (h1 : -(2 ^ 63) < i) (h2 : i < 2 ^ 63) (rest : Bytes) (hr : Stop rest) :
    const L (intText i ++ rest) = .ok (writeInteger i, rest) := by
  have := number_int L i h1 h2 rest hr
  obtain ⟨c, t, hc, h⟩ := intText_head i
  rw [hc, List.cons_append] at this ⊢
  simp only [const]
  rw [if_neg (by omega), if_neg (by omega), if_neg (by omega), if_neg (by omega), if_pos, this]
  rcases h with h | h
  · right; right; exact h
  · left; simp [isDigit]; omega

mutual
/-- number of parser turns -/
def it : J → Nat
  | .arr l => 1 + itL l
  | .obj l => 1 + itF l
  | .null | .bool _ | .int _ | .real _ | .str _ => 1
def itL : List J → Nat
  | [] => 0
  | v :: t => it v + 1 + itL t
def itF : List (Bytes × J) → Nat
  | [] => 0
  | (_, v) :: t => 1 + it v + 1 + itF t
end

theorem parseLoop_step (L : Libc) {f : Nat} {s : St} {stk stk' : List St} {bs bs' out e : Bytes}
    (h : parseStep L s stk bs = .ok (stk', bs', e)) :
    parseLoop L (f + 1) (s :: stk) bs out = parseLoop L f stk' bs' (out ++ e) := by
  simp only [parseLoop, h, bind, Except.bind]

theorem parseStep_const (L : Libc) (stk : List St) (sp : Bytes) (hsp : ∀ c ∈ sp, isSpace c = true)
    (c : Nat) (t e rest : Bytes) (hc : isSpace c = false) (h1 : c ≠ 91) (h2 : c ≠ 123)
    (h : const L (c :: t) = .ok (e, rest)) :
    parseStep L .value stk (sp ++ (c :: t)) = .ok (stk, rest, e) := by
  simp only [parseStep, next_space sp hsp c t hc, bind, Except.bind, h1, h2, if_false, h]

/-- first character of the text of a value -/
theorem text_head (L : Libc) (p : Bool) (d : Nat) (v : J) (h : TextOK v) :
    ∃ c t, textOf L p d v = c :: t ∧ isSpace c = false ∧ c ≠ 93 := by
  cases v with
  | null => exact ⟨110, _, by simp [textOf]; rfl, by decide, by omega⟩
  | bool b => cases b
              · exact ⟨102, _, by simp [textOf]; rfl, by decide, by omega⟩
              · exact ⟨116, _, by simp [textOf]; rfl, by decide, by omega⟩
  | int i =>
    obtain ⟨c, t, hc, h⟩ := intText_head i
    exact ⟨c, t, by simp [textOf, hc], isSpace_false c (by omega) (by omega), by omega⟩
  | real r => simp [TextOK] at h
  | str s => exact ⟨34, _, by simp [textOf]; rfl, by decide, by omega⟩
  | arr l => exact ⟨91, _, by simp [textOf]; rfl, by decide, by omega⟩
  | obj l =>
    cases p
    · exact ⟨123, _, by simp [textOf]; rfl, by decide, by omega⟩
    · cases hl : l.isEmpty
      · exact ⟨123, _, by simp [textOf, hl]; rfl, by decide, by omega⟩
      · exact ⟨123, _, by simp [textOf, hl]; rfl, by decide, by omega⟩

theorem indent_space (n : Nat) : ∀ c ∈ indent n, isSpace c = true := by
  induction n with
  | zero => simp [indent]
  | succ n ih =>
    intro c hc
    simp only [indent, List.mem_cons] at hc
    rcases hc with h | h | h
    · subst h; decide
    · subst h; decide
    · exact ih c h

theorem next_of_nonspace (c : Nat) (t : Bytes) (h : isSpace c = false) : next (c :: t) = .ok (c :: t) := by
  simp [next, h]

theorem parseStep_open (L : Libc) (stk : List St) (sp : Bytes) (hsp : ∀ c ∈ sp, isSpace c = true)
    (c : Nat) (t tl : Bytes) (hn : next tl = .ok (c :: t)) (h : c ≠ 93) :
    parseStep L .value stk (sp ++ (91 :: tl)) = .ok (.value :: .arrayNext :: stk, c :: t, [tARRAY]) := by
  simp only [parseStep, next_space sp hsp 91 _ (by decide), bind, Except.bind, if_true,
    hn]
  split
  · rename_i heq; simp at heq; omega
  · rfl

theorem parseStep_openObj (L : Libc) (stk : List St) (sp : Bytes) (hsp : ∀ c ∈ sp, isSpace c = true)
    (c : Nat) (t tl : Bytes) (hn : next tl = .ok (c :: t)) (h : c ≠ 125) :
    parseStep L .value stk (sp ++ (123 :: tl)) = .ok (.mapKey :: stk, c :: t, [tOBJ]) := by
  simp only [parseStep, next_space sp hsp 123 _ (by decide), bind, Except.bind,
    hn]
  rw [if_neg (by omega), if_pos trivial]
  split
  · rename_i heq; simp at heq; omega
  · rfl

theorem parseStep_key (L : Libc) (stk : List St) (sp : Bytes) (hsp : ∀ c ∈ sp, isSpace c = true)
    (k : Bytes) (hk : Utf8 k) (rest : Bytes) :
    parseStep L .mapKey stk (sp ++ (34 :: (escape k ++ (34 :: 58 :: rest)))) =
      .ok (.value :: .mapNext :: stk, rest, strForm k) := by
  simp only [parseStep, next_space sp hsp 34 _ (by decide), bind, Except.bind]
  rw [if_neg (by omega), stringRead_escape k hk]
  simp only [encodeString_escape, next_of_nonspace 58 rest (by decide)]

theorem parseStep_key0 (L : Libc) (stk : List St) (k : Bytes) (hk : Utf8 k) (rest : Bytes) :
    parseStep L .mapKey stk (34 :: (escape k ++ (34 :: 58 :: rest))) =
      .ok (.value :: .mapNext :: stk, rest, strForm k) :=
  parseStep_key L stk [] (by simp) k hk rest

theorem parseStep_arrEnd (L : Libc) (stk : List St) (rest : Bytes) :
    parseStep L .arrayNext stk (93 :: rest) = .ok (stk, rest, [tARRAY_END]) := by
  simp [parseStep, next, bind, Except.bind, show isSpace 93 = false by decide]

theorem parseStep_arrComma (L : Libc) (stk : List St) (rest : Bytes) :
    parseStep L .arrayNext stk (44 :: rest) = .ok (.value :: .arrayNext :: stk, rest, []) := by
  simp [parseStep, next, bind, Except.bind, show isSpace 44 = false by decide]

theorem parseStep_objEnd (L : Libc) (stk : List St) (sp : Bytes) (hsp : ∀ c ∈ sp, isSpace c = true) (rest : Bytes) :
    parseStep L .mapNext stk (sp ++ (125 :: rest)) = .ok (stk, rest, [tOBJ_END]) := by
  simp [parseStep, next_space sp hsp 125 _ (by decide), bind, Except.bind]

theorem parseStep_objComma (L : Libc) (stk : List St) (rest : Bytes) :
    parseStep L .mapNext stk (44 :: rest) = .ok (.mapKey :: stk, rest, []) := by
  simp [parseStep, next, bind, Except.bind, show isSpace 44 = false by decide]

/-- leading white space before a key does not matter -/
theorem parse_keyspace (L : Libc) {f : Nat} (stk : List St) (sp : Bytes) (hsp : ∀ c ∈ sp, isSpace c = true)
    (c : Nat) (t : Bytes) (hc : isSpace c = false) (out : Bytes) :
    parseLoop L f (.mapKey :: stk) (sp ++ (c :: t)) out = parseLoop L f (.mapKey :: stk) (c :: t) out := by
  cases f with
  | zero => rfl
  | succ f =>
    have : parseStep L .mapKey stk (sp ++ (c :: t)) = parseStep L .mapKey stk (c :: t) := by
      simp only [parseStep, next_space sp hsp c t hc, next_of_nonspace c t hc]
    simp only [parseLoop, this]

theorem nospace : ∀ c ∈ ([] : Bytes), isSpace c = true := by simp

theorem next_nl_space (sp : Bytes) (h : ∀ c ∈ sp, isSpace c = true) (c : Nat) (t : Bytes) (hc : isSpace c = false) :
    next (10 :: (sp ++ (c :: t))) = .ok (c :: t) := by
  have := next_space (10 :: sp) (by
    intro x hx
    simp only [List.mem_cons] at hx
    rcases hx with h1 | h1
    · subst h1; decide
    · exact h x h1) c t hc
  simpa using this

mutual
theorem parse_text (L : Libc) (p : Bool) : (v : J) → TextOK v → ∀ (f d : Nat) (stk : List St) (sp rest out : Bytes),
    (∀ c ∈ sp, isSpace c = true) → Stop rest →
    parseLoop L (f + it v) (.value :: stk) (sp ++ (textOf L p d v ++ rest)) out = parseLoop L f stk rest (out ++ encP v)
  | .null, _, f, d, stk, sp, rest, out, hsp, hr => by
    refine parseLoop_step L ?_
    exact parseStep_const L stk sp hsp 110 _ _ rest (by decide) (by omega) (by omega) (by simp [const, keyword, encP])
  | .bool true, _, f, d, stk, sp, rest, out, hsp, hr => by
    refine parseLoop_step L ?_
    exact parseStep_const L stk sp hsp 116 _ _ rest (by decide) (by omega) (by omega) (by simp [const, keyword, encP])
  | .bool false, _, f, d, stk, sp, rest, out, hsp, hr => by
    refine parseLoop_step L ?_
    exact parseStep_const L stk sp hsp 102 _ _ rest (by decide) (by omega) (by omega) (by simp [const, keyword, encP])
  | .int i, h, f, d, stk, sp, rest, out, hsp, hr => by
    simp only [TextOK] at h
    have hc := const_int L i h.1 h.2 rest hr
    obtain ⟨c, t, hh, hh1⟩ := intText_head i
    refine parseLoop_step L ?_
    simp only [textOf, encP]
    rw [hh, List.cons_append] at hc ⊢
    exact parseStep_const L stk sp hsp c _ _ rest (isSpace_false c (by omega) (by omega)) (by omega) (by omega) hc
  | .real r, h, f, d, stk, sp, rest, out, hsp, hr => by simp only [TextOK] at h
  | .str s, h, f, d, stk, sp, rest, out, hsp, hr => by
    simp only [TextOK] at h
    refine parseLoop_step L ?_
    simp only [textOf, encP, List.append_assoc, List.cons_append, List.nil_append]
    exact parseStep_const L stk sp hsp 34 _ _ rest (by decide) (by omega) (by omega) (const_str L s h.1 rest)
  | .arr [], h, f, d, stk, sp, rest, out, hsp, hr => by
    refine parseLoop_step L ?_
    simp only [textOf, textList, encP, encPList, List.append_assoc, List.cons_append, List.nil_append]
    simp [parseStep, next_space sp hsp 91 _ (by decide), bind, Except.bind, next_of_nonspace 93 rest (by decide)]
  | .arr (v :: t), h, f, d, stk, sp, rest, out, hsp, hr => by
    simp only [TextOK] at h
    have hl := parse_list L p v t h f d stk [] rest (out ++ [tARRAY]) nospace
    simp only [TextOKList] at h
    obtain ⟨c, u, hc, hc1, hc2⟩ := text_head L p d v h.1
    have e : f + it (.arr (v :: t)) = (f + itL (v :: t)) + 1 := by simp [it]; omega
    rw [e]
    simp only [textOf, encP, List.append_assoc, List.cons_append, List.nil_append]
    simp only [textList, hc, List.append_assoc, List.cons_append, List.nil_append] at hl ⊢
    rw [parseLoop_step L (parseStep_open L stk sp hsp c _ _ (next_of_nonspace c _ hc1) hc2), hl]
  | .obj [], h, f, d, stk, sp, rest, out, hsp, hr => by
    refine parseLoop_step L ?_
    cases p <;>
    simp [textOf, textFields, encP, encPFields, List.append_assoc, parseStep, next_space sp hsp 123 _ (by decide),
      bind, Except.bind, next_of_nonspace 125 rest (by decide)]
  | .obj ((k, v) :: t), h, f, d, stk, sp, rest, out, hsp, hr => by
    simp only [TextOK] at h
    have hl := parse_fields L p k v t h f d stk (if p then indent (d + 1) else []) rest (out ++ [tOBJ])
      (by cases p
          · simp
          · exact indent_space _)
    simp only [TextOKFields] at h
    have e : f + it (.obj ((k, v) :: t)) = (f + itF ((k, v) :: t)) + 1 := by simp [it]; omega
    rw [e]
    cases p
    · simp only [textOf, textFields, encP, List.append_assoc, List.cons_append, List.nil_append,
        Bool.false_eq_true, if_false] at hl ⊢
      rw [parseLoop_step L (parseStep_openObj L stk sp hsp 34 _ _ (next_of_nonspace 34 _ (by decide)) (by omega)), hl]
    · simp only [textOf, textFields, encP, List.append_assoc, List.cons_append, List.nil_append,
        List.isEmpty_cons, Bool.false_eq_true, if_false, if_true] at hl ⊢
      rw [parseLoop_step L (parseStep_openObj L stk sp hsp 34 _ _ (next_nl_space (indent (d + 1)) (indent_space _) 34 _ (by decide)) (by omega)), hl]
termination_by v => sizeOf v
decreasing_by all_goals simp_wf; try omega
theorem parse_list (L : Libc) (p : Bool) : (v : J) → (l : List J) → TextOKList (v :: l) →
    ∀ (f d : Nat) (stk : List St) (sp rest out : Bytes), (∀ c ∈ sp, isSpace c = true) →
    parseLoop L (f + itL (v :: l)) (.value :: .arrayNext :: stk) (sp ++ (textList L p d (v :: l) ++ (93 :: rest))) out
      = parseLoop L f stk rest (out ++ (encPList (v :: l) ++ [tARRAY_END]))
  | v, [], h, f, d, stk, sp, rest, out, hsp => by
    simp only [TextOKList] at h
    have h1 := parse_text L p v h.1 (f + 1) d (.arrayNext :: stk) sp (93 :: rest) out hsp (by simp [Stop])
    have e : f + itL [v] = (f + 1) + it v := by simp [itL]; omega
    rw [e]
    simp only [textList, List.isEmpty_nil, if_true, List.append_nil]
    rw [h1, parseLoop_step L (parseStep_arrEnd L stk rest)]
    simp [encPList]
  | v, w :: l, h, f, d, stk, sp, rest, out, hsp => by
    have h' := h
    simp only [TextOKList] at h'
    have h1 := parse_text L p v h'.1 (f + itL (w :: l) + 1) d (.arrayNext :: stk) sp
      (44 :: 32 :: (textList L p d (w :: l) ++ (93 :: rest))) out hsp (by simp [Stop])
    have h2 := parse_list L p w l (by simp only [TextOKList]; exact h'.2) f d stk [32] rest (out ++ encP v)
      (by simp; decide)
    have e : f + itL (v :: w :: l) = (f + itL (w :: l) + 1) + it v := by simp [itL]; omega
    rw [e, textList]
    simp only [List.isEmpty_cons, Bool.false_eq_true, if_false, List.append_assoc, List.cons_append, List.nil_append]
    rw [h1, parseLoop_step L (parseStep_arrComma L stk _)]
    simp only [List.cons_append, List.nil_append] at h2
    rw [List.append_nil, h2]
    simp [encPList]
termination_by v l => sizeOf v + sizeOf l
decreasing_by all_goals simp_wf; try omega
theorem parse_fields (L : Libc) (p : Bool) : (k : Bytes) → (v : J) → (l : List (Bytes × J)) →
    TextOKFields ((k, v) :: l) →
    ∀ (f d : Nat) (stk : List St) (sp rest out : Bytes), (∀ c ∈ sp, isSpace c = true) →
    parseLoop L (f + itF ((k, v) :: l)) (.mapKey :: stk)
      (34 :: (escape k ++ (34 :: 58 :: 32 :: (textOf L p (d + 1) v ++
        ((if l.isEmpty then (if p then [10] else []) else (if p then [44, 10] else [44, 32])) ++
         (textFields L p d l ++ ((if p then indent d else []) ++ (125 :: rest)))))))) out
      = parseLoop L f stk rest (out ++ (encPFields ((k, v) :: l) ++ [tOBJ_END]))
  | k, v, [], h, f, d, stk, sp, rest, out, hsp => by
    simp only [TextOKFields] at h
    have e : f + itF [(k, v)] = ((f + 1) + it v) + 1 := by simp [itF]; omega
    rw [e, parseLoop_step L (parseStep_key0 L stk k h.1.1 _)]
    have h1 := parse_text L p v h.2.1 (f + 1) (d + 1) (.mapNext :: stk) [32]
      ((if p then 10 :: indent d else []) ++ (125 :: rest)) (out ++ strForm k) (by simp; decide)
      (by cases p <;> simp [Stop])
    have h2 := parseStep_objEnd L stk (if p then 10 :: indent d else []) (by
      cases p
      · simp
      · intro c hc
        simp only [if_true, List.mem_cons] at hc
        rcases hc with h | h
        · subst h; decide
        · exact indent_space _ c h) rest
    have : (32 :: (textOf L p (d + 1) v ++ ((if ([] : List (Bytes × J)).isEmpty then (if p then [10] else []) else (if p then [44, 10] else [44, 32])) ++
         (textFields L p d [] ++ ((if p then indent d else []) ++ (125 :: rest)))))) =
        [32] ++ (textOf L p (d + 1) v ++ ((if p then 10 :: indent d else []) ++ (125 :: rest))) := by
      cases p <;> simp [textFields]
    rw [this, h1, parseLoop_step L h2]
    simp [encPFields]
  | k, v, (k', w) :: l, h, f, d, stk, sp, rest, out, hsp => by
    have h' := h
    simp only [TextOKFields] at h'
    have e : f + itF ((k, v) :: (k', w) :: l) = ((f + itF ((k', w) :: l) + 1) + it v) + 1 := by simp [itF]; omega
    rw [e, parseLoop_step L (parseStep_key0 L stk k h'.1.1 _)]
    have h2 := parse_fields L p k' w l (by simp only [TextOKFields]; exact h'.2.2) f d stk [] rest
      (out ++ strForm k ++ encP v) nospace
    have h1 := parse_text L p v h'.2.1 (f + itF ((k', w) :: l) + 1) (d + 1) (.mapNext :: stk) [32]
      (44 :: ((if p then 10 :: indent (d + 1) else [32]) ++ (34 :: (escape k' ++ (34 :: 58 :: 32 :: (textOf L p (d + 1) w ++
        ((if l.isEmpty then (if p then [10] else []) else (if p then [44, 10] else [44, 32])) ++
         (textFields L p d l ++ ((if p then indent d else []) ++ (125 :: rest)))))))))) (out ++ strForm k) (by simp; decide)
      (by simp [Stop])
    have h3 := parse_keyspace L (f := f + itF ((k', w) :: l)) stk (if p then 10 :: indent (d + 1) else [32]) (by
      cases p
      · simp; decide
      · intro c hc
        simp only [if_true, List.mem_cons] at hc
        rcases hc with h | h
        · subst h; decide
        · exact indent_space _ c h) 34 (escape k' ++ (34 :: 58 :: 32 :: (textOf L p (d + 1) w ++
        ((if l.isEmpty then (if p then [10] else []) else (if p then [44, 10] else [44, 32])) ++
         (textFields L p d l ++ ((if p then indent d else []) ++ (125 :: rest))))))) (by decide)
      (out ++ strForm k ++ encP v)
    have : (32 :: (textOf L p (d + 1) v ++ ((if ((k', w) :: l).isEmpty then (if p then [10] else []) else (if p then [44, 10] else [44, 32])) ++
         (textFields L p d ((k', w) :: l) ++ ((if p then indent d else []) ++ (125 :: rest)))))) =
        [32] ++ (textOf L p (d + 1) v ++ (44 :: ((if p then 10 :: indent (d + 1) else [32]) ++ (34 :: (escape k' ++ (34 :: 58 :: 32 :: (textOf L p (d + 1) w ++
        ((if l.isEmpty then (if p then [10] else []) else (if p then [44, 10] else [44, 32])) ++
         (textFields L p d l ++ ((if p then indent d else []) ++ (125 :: rest))))))))))) := by
      cases p <;> simp [textFields]
    rw [this, h1, parseLoop_step L (parseStep_objComma L stk _), List.append_nil, h3, h2]
    simp [encPFields]
termination_by k v l => sizeOf v + sizeOf l
decreasing_by all_goals simp_wf; try omega
end
end Verif.Json.Text
