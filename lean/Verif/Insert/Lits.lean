import Verif.Insert.Proofs
/-!
# The literals of a column (C94)
-/
set_option autoImplicit false
set_option linter.unusedSimpArgs false
set_option linter.unusedVariables false
namespace Verif.Insert
open Verif Verif.Json.Text Verif.Parse.Lex

theorem bind_ok {α β : Type} (a : α) (f : α → Res β) : (Except.ok a >>= f) = f a := rfl

theorem kw_null : kwNames[kNULL]? = some "null" := by decide
theorem kw_default : kwNames[kDEFAULT]? = some "default" := by decide

theorem parseValue_typed {E : Env} {c : Col} {s r : Bytes} {t : LTok} (h : lexNext true s = .ok (t, r)) (h1 : t ≠ .kw kNULL) (h2 : ∀ n, t ≠ .name n) :
    parseValue E c s = parseTyped E c s t r := by
  unfold parseValue
  rw [h, bind_ok]
  simp only [h1, if_false]

/-- an optional word and a string -/
theorem maybe_steps {k : String} {i : Nat} {pre s w : Bytes} (hk : kwNames[i]? = some k) (hp : Maybe k pre) (hw : Quoted s w) (r : Bytes) :
    ∃ t0 r0, lexNext true (pre ++ w ++ r) = .ok (t0, r0) ∧ optKw i t0 r0 = .ok (.str s false, r) ∧ (t0 = .kw i ∨ t0 = .str s false) := by
  cases hp with
  | none => exact ⟨.str s false, r, by simpa using lex_quoted hw r, by simp [optKw], .inr rfl⟩
  | @some x b hx hb =>
    refine ⟨.kw i, b ++ (w ++ r), ?_, ?_, .inl rfl⟩
    · rw [List.append_assoc, List.append_assoc]
      refine lex_word hx hk ?_
      obtain ⟨q, t, rfl, hq⟩ := quoted_head hw
      cases hb with
      | nil => simp only [List.nil_append, List.cons_append, CanFollow]; unfold identChar; omega
      | @space c _ h _ => have := space_val h; simp only [List.cons_append, CanFollow]; unfold identChar; omega
      | comment _ _ => simp only [List.cons_append, CanFollow]; unfold identChar; omega
    · simp only [optKw, if_true]
      rw [lexNext_blank hb]
      exact lex_quoted hw r

/-! ## vectors -/

theorem comp_value {E : Env} {w : Bytes} {x : Nat} (h : Comp E w x) : ∃ m t, Num m t w ∧ compOf E m t = .ok x := by
  cases h with
  | int h => exact ⟨_, _, h, rfl⟩
  | real h => exact ⟨_, _, h, rfl⟩

theorem vec_step {E : Env} {w b r : Bytes} {x : Nat} (h : Comp E w x) (hr : After r) (hb : Blank b) (f : Nat) :
    vecLoop E (f + 1) (b ++ (w ++ r)) = (do
      let (t, r) ← lexNext true r
      if t = .sym 44 then do
        let (l, r) ← vecLoop E f r
        .ok (x :: l, r)
      else if t = .sym 93 then .ok ([x], r)
      else .error .err) := by
  obtain ⟨m, t, hn, hx⟩ := comp_value h
  obtain ⟨t0, r0, h0, hm, -⟩ := num_steps hn hr
  simp only [vecLoop]
  rw [lexNext_blank hb, h0, bind_ok, hm, bind_ok]
  simp only [hx]
  rw [bind_ok]

theorem vec_loop {E : Env} {ws : List Bytes} {t : Bytes} (ht : Listed ws t) : ws ≠ [] → ∀ (l : List Nat), Comps E ws l → ∀ (r : Bytes) (f : Nat), ws.length < f →
    vecLoop E f (t ++ 93 :: r) = .ok (l, r) := by
  induction ht with
  | nil _ => intro h; exact absurd rfl h
  | @one b w b' hb hb' =>
    intro _ l hl r f hf
    obtain ⟨f, rfl⟩ : ∃ k, f = k + 1 := ⟨f - 1, by omega⟩
    cases hl with
    | @cons _ x _ l hx hl =>
      cases hl
      rw [List.append_assoc, List.append_assoc, vec_step hx (after_blank hb' (by simp)) hb, lexNext_blank hb', lex_sym _ (by simp), bind_ok]
      simp
  | @more b w b' t ws hb hb' hws ht ih =>
    intro _ l hl r f hf
    obtain ⟨f, rfl⟩ : ∃ k, f = k + 1 := ⟨f - 1, by omega⟩
    cases hl with
    | @cons _ x _ l hx hl =>
      simp only [List.append_assoc, List.cons_append]
      rw [vec_step hx (after_blank hb' (by simp)) hb, lexNext_blank hb', lex_sym _ (by simp), bind_ok]
      simp only [if_true]
      rw [ih hws l hl r f (by simp at hf; omega)]
      rfl

theorem listed_length {ws : List Bytes} {t : Bytes} (h : Listed ws t) (hw : ∀ w ∈ ws, w ≠ []) : ws.length ≤ t.length := by
  induction h with
  | nil _ => simp
  | @one b w b' _ _ =>
    have := List.length_pos_iff.2 (hw w (by simp))
    simp; omega
  | @more b w b' t ws _ _ _ _ ih =>
    have := List.length_pos_iff.2 (hw w (by simp))
    have := ih fun x hx => hw x (by simp [hx])
    simp; omega

theorem num_ne {m : Bool} {t : LTok} {w : Bytes} (h : Num m t w) : w ≠ [] := by
  cases m with
  | false => obtain ⟨c, l, rfl, _⟩ := num_head h; simp
  | true => cases h; simp

theorem comps_ne {E : Env} {ws : List Bytes} {l : List Nat} (h : Comps E ws l) : ∀ w ∈ ws, w ≠ [] := by
  induction h with
  | nil => simp
  | cons hx _ ih =>
    intro w hw
    rcases List.mem_cons.1 hw with rfl | hw
    · obtain ⟨m, t, hn, -⟩ := comp_value hx; exact num_ne hn
    · exact ih w hw

/-- the first token of a list that is not empty is not `]` -/
theorem vec_first {E : Env} {ws : List Bytes} {t : Bytes} {l : List Nat} (ht : Listed ws t) (hl : Comps E ws l) (hws : ws ≠ []) (r : Bytes) :
    ∃ t0 r0, lexNext true (t ++ 93 :: r) = .ok (t0, r0) ∧ t0 ≠ .sym 93 := by
  have key : ∀ {w b' u : Bytes} {x : Nat}, Comp E w x → After u → ∃ t0 r0, lexNext true (w ++ u) = .ok (t0, r0) ∧ t0 ≠ .sym 93 := by
    intro w b' u x hx hu
    obtain ⟨m, t, hn, -⟩ := comp_value hx
    obtain ⟨t0, r0, h0, hm, h1, h2, -⟩ := num_steps hn hu
    exact ⟨t0, r0, h0, h2⟩
  cases ht with
  | nil _ => exact absurd rfl hws
  | @one b w b' hb hb' =>
    cases hl with
    | cons hx _ =>
      simp only [List.append_assoc, lexNext_blank hb]
      exact key (b' := b') hx (after_blank hb' (by simp))
  | @more b w b' t ws hb hb' _ _ =>
    cases hl with
    | cons hx _ =>
      simp only [List.append_assoc, List.cons_append, lexNext_blank hb]
      exact key (b' := b') hx (after_blank hb' (by simp))

theorem vector_reads {E : Env} {ws : List Bytes} {t : Bytes} {l : List Nat} (ht : Listed ws t) (hl : Comps E ws l) (r : Bytes) :
    parseVector E (91 :: (t ++ 93 :: r)) = .ok (l, r) := by
  unfold parseVector expect
  rw [lex_sym _ (by simp), bind_ok]
  simp only [if_true]
  rw [bind_ok]
  cases ws with
  | nil =>
    cases hl
    cases ht with
    | nil hb =>
      unfold ifTok
      rw [lexNext_blank hb, lex_sym _ (by simp), bind_ok]
      simp only [if_true]
      rw [bind_ok]
  | cons w ws =>
    obtain ⟨t0, r0, h0, h1⟩ := vec_first ht hl (by simp) r
    unfold ifTok
    rw [h0, bind_ok]
    simp only [h1, if_false]
    rw [bind_ok]
    have := listed_length ht (comps_ne hl)
    exact vec_loop ht (by simp) l hl r _ (by simp at this ⊢; omega)

/-! ## JSON -/

theorem json_first {L : Libc} {v : Json.J} {p : Bool} {d : Nat} (hv : TextOK v) (hn : v ≠ .null) {r : Bytes} (hr : After r) :
    (∃ t0 r0, lexNext true (textOf L p d v ++ r) = .ok (t0, r0) ∧ t0 ≠ .sym 41 ∧ t0 ≠ .kw kDEFAULT ∧ t0 ≠ .kw kNULL ∧ ∀ n, t0 ≠ .name n) ∧
    ∀ f, skipBlank f (textOf L p d v ++ r) = textOf L p d v ++ r := by
  have sk : ∀ (c : Nat) (t : Bytes), isSpace c = false → (c ≠ 45 ∨ t.head? ≠ some 45) → ∀ f, skipBlank f (c :: t) = c :: t := by
    intro c t h1 h2 f
    refine skipBlank_tok h1 ?_ f
    cases hx : isComment (c :: t) with
    | false => rfl
    | true =>
      obtain ⟨u, hu⟩ := isComment_cons hx
      simp only [List.cons.injEq] at hu
      rcases h2 with h2 | h2
      · omega
      · rw [hu.2] at h2; simp at h2
  cases v with
  | null => exact absurd rfl hn
  | bool b =>
    cases b with
    | true => exact ⟨⟨.kw kTRUE, r, lex_word (k := "true") (by simp only [Word, textOf]; decide) (by decide) (follow_kw hr _), by decide, by decide, by decide, by simp⟩, sk _ _ (by decide) (by simp)⟩
    | false => exact ⟨⟨.kw kFALSE, r, lex_word (k := "false") (by simp only [Word, textOf]; decide) (by decide) (follow_kw hr _), by decide, by decide, by decide, by simp⟩, sk _ _ (by decide) (by simp)⟩
  | int i =>
    simp only [TextOK] at hv
    simp only [textOf, intText]
    split
    · rename_i hi
      have hm : Num true (.int (-i).toNat) (45 :: ([] ++ decDigits (-i).toNat)) := .neg (by simp) (.int (by omega))
      obtain ⟨t0, r0, h0, -, h1, -, h2⟩ := num_steps hm hr
      refine ⟨⟨t0, r0, by simpa using h0, h1, h2⟩, ?_⟩
      obtain ⟨c, t, hc, hc'⟩ := Parse.Lex.decDigits_head (-i).toNat
      have hcv : 48 ≤ c ∧ c ≤ 57 := by simpa [isDigit] using hc'
      rw [hc]
      exact sk _ _ (by decide) (.inr (by simp; omega))
    · have hm : Num false (.int i.toNat) (decDigits i.toNat) := .int (by omega)
      obtain ⟨t0, r0, h0, -, h1, -, h2⟩ := num_steps hm hr
      refine ⟨⟨t0, r0, h0, h1, h2⟩, ?_⟩
      obtain ⟨c, t, hc, hc'⟩ := Parse.Lex.decDigits_head i.toNat
      have hcv : 48 ≤ c ∧ c ≤ 57 := by simpa [isDigit] using hc'
      rw [hc]
      exact sk _ _ (by simp [isSpace]; omega) (.inl (by omega))
  | real x => exact hv.elim
  | str s =>
    refine ⟨⟨.str (escape s) (hasEscape s), r, ?_, by simp, by simp, by simp, by simp⟩, ?_⟩
    · have := C80_token (.escaped hv.1) r (follow_str _ _)
      simpa [textOf] using this
    · simp only [textOf, List.cons_append, List.nil_append]
      exact sk _ _ (by decide) (by simp)
  | arr l =>
    simp only [textOf, List.cons_append, List.nil_append]
    exact ⟨⟨.sym 91, _, lex_sym _ (by simp), by simp, by simp, by simp, by simp⟩, sk _ _ (by decide) (by simp)⟩
  | obj l =>
    have : ∃ u, textOf L p d (.obj l) = 123 :: u := by
      simp only [textOf]
      split
      · split
        · exact ⟨_, rfl⟩
        · exact ⟨_, rfl⟩
      · exact ⟨_, rfl⟩
    obtain ⟨u, hu⟩ := this
    rw [hu]
    exact ⟨⟨.sym 123, _, lex_sym _ (by simp), by simp, by simp, by simp, by simp⟩, sk _ _ (by decide) (by simp)⟩

/-! ## literals -/

theorem lit_reads {E : Env} {ty : Ty} {w : Bytes} {v : V} (h : Lit E ty w v) (c : Col) (hc : c.ty = ty) {r : Bytes} (hr : After r) :
    (∃ t0 r0, lexNext true (w ++ r) = .ok (t0, r0) ∧ t0 ≠ .kw kDEFAULT ∧ t0 ≠ .sym 41) ∧ parseValue E c (w ++ r) = .ok (v, r) := by
  have num : ∀ {m : Bool} {t : LTok} {w : Bytes} {v : V}, Num m t w →
      (∀ s t0 r0, optMinus t0 r0 = .ok (m, t, r) → parseTyped E c s t0 r0 = .ok (v, r)) →
      (∃ t0 r0, lexNext true (w ++ r) = .ok (t0, r0) ∧ t0 ≠ .kw kDEFAULT ∧ t0 ≠ .sym 41) ∧ parseValue E c (w ++ r) = .ok (v, r) := by
    intro m t w v hn hp
    obtain ⟨t0, r0, h0, hm, h1, -, h3, h4, h5⟩ := num_steps hn hr
    refine ⟨⟨t0, r0, h0, h3, h1⟩, ?_⟩
    rw [parseValue_typed h0 h4 h5]
    exact hp _ _ _ hm
  have word : ∀ {k : String} {i : Nat} {w : Bytes} {v : V}, Word k w → kwNames[i]? = some k → i ≠ kDEFAULT → i ≠ kNULL →
      (∀ s, parseTyped E c s (.kw i) r = .ok (v, r)) →
      (∃ t0 r0, lexNext true (w ++ r) = .ok (t0, r0) ∧ t0 ≠ .kw kDEFAULT ∧ t0 ≠ .sym 41) ∧ parseValue E c (w ++ r) = .ok (v, r) := by
    intro k i w v hw hk h1 h2 hp
    have h0 := lex_word hw hk (follow_kw hr i)
    refine ⟨⟨.kw i, r, h0, by simpa using h1, by simp⟩, ?_⟩
    rw [parseValue_typed h0 (by simpa using h2) (by simp)]
    exact hp _
  have quo : ∀ {k : String} {i : Nat} {pre s w : Bytes} {v : V}, kwNames[i]? = some k → Maybe k pre → Quoted s w → i ≠ kDEFAULT → i ≠ kNULL →
      (∀ x t0 r0, (t0 = .kw i ∨ t0 = .str s false) → optKw i t0 r0 = .ok (.str s false, r) → parseTyped E c x t0 r0 = .ok (v, r)) →
      (∃ t0 r0, lexNext true (pre ++ w ++ r) = .ok (t0, r0) ∧ t0 ≠ .kw kDEFAULT ∧ t0 ≠ .sym 41) ∧ parseValue E c (pre ++ w ++ r) = .ok (v, r) := by
    intro k i pre s w v hk hp hw h1 h2 hx
    obtain ⟨t0, r0, h0, ho, ht⟩ := maybe_steps hk hp hw r
    refine ⟨⟨t0, r0, h0, ?_, ?_⟩, ?_⟩
    · rcases ht with rfl | rfl
      · simpa using h1
      · simp
    · rcases ht with rfl | rfl <;> simp
    · rw [parseValue_typed h0 ?_ ?_]
      · exact hx _ _ _ ht ho
      · rcases ht with rfl | rfl
        · simpa using h2
        · simp
      · rcases ht with rfl | rfl <;> simp
  cases h with
  | null hw =>
    have h0 := lex_word hw kw_null (follow_kw hr kNULL)
    refine ⟨⟨.kw kNULL, r, h0, by decide, by simp⟩, ?_⟩
    unfold parseValue
    rw [h0, bind_ok]
    simp
  | var hi hk hv =>
    have h0 := C80_token (.name hi hk) r (follow_name hr _)
    refine ⟨⟨_, r, h0, by simp, by simp⟩, ?_⟩
    unfold parseValue
    rw [h0, bind_ok]
    simp [hc, hv]
  | true hw => exact word hw (i := kTRUE) (by decide) (by decide) (by decide) (fun s => by simp [parseTyped, hc, kTRUE, kFALSE])
  | false hw => exact word hw (i := kFALSE) (by decide) (by decide) (by decide) (fun s => by simp [parseTyped, hc, kTRUE, kFALSE])
  | int hn =>
    refine num hn fun s t0 r0 h1 => ?_
    simp only [parseTyped, hc]
    rw [h1, bind_ok]
    simp [signed]
  | intReal hn hi =>
    refine num hn fun s t0 r0 h1 => ?_
    simp only [parseTyped, hc]
    rw [h1, bind_ok]
    simp [hi]
  | dblInt hn =>
    refine num hn fun s t0 r0 h1 => ?_
    simp only [parseTyped, hc]
    rw [h1, bind_ok]
    simp [signed]
  | dbl hn =>
    refine num hn fun s t0 r0 h1 => ?_
    simp only [parseTyped, hc]
    rw [h1, bind_ok]
  | str hq =>
    have h0 := lex_quoted hq r
    refine ⟨⟨_, r, h0, by simp, by simp⟩, ?_⟩
    rw [parseValue_typed h0 (by simp) (by simp)]
    simp [parseTyped, hc]
  | json hv hn =>
    obtain ⟨⟨t0, r0, h0, h4, h1, h2, h3⟩, hs⟩ := json_first (L := E.libc) hv hn hr
    refine ⟨⟨t0, r0, h0, h1, h4⟩, ?_⟩
    rw [parseValue_typed h0 h2 h3]
    simp only [parseTyped, hc]
    rw [hs, parse_textOf _ _ _ hv _ (follow_stop hr), bind_ok]
  | now hw => exact word hw (i := kCURRENT_TIMESTAMP) (by decide) (by decide) (by decide) (fun s => by simp [parseTyped, hc, kTRUE, kFALSE])
  | unix hn =>
    have h0 := C80_token (.int _ hn) r (follow_int hr _)
    refine ⟨⟨_, r, h0, by simp, by simp⟩, ?_⟩
    rw [parseValue_typed h0 (by simp) (by simp)]
    simp [parseTyped, hc]
  | stamp hp hq h1 h2 =>
    refine quo (i := kTIMESTAMP) (by decide) hp hq (by decide) (by decide) fun x t0 r0 ht ho => ?_
    simp only [parseTyped, hc]
    rcases ht with rfl | rfl
    · rw [if_neg (by decide)]
      simp only [ho, bind_ok, h1, h2]
    · rw [if_neg (by simp)]
      simp only [ho, bind_ok, h1, h2]
  | interval hp hq h1 =>
    refine quo (i := kINTERVAL) (by decide) hp hq (by decide) (by decide) fun x t0 r0 ht ho => ?_
    simp only [parseTyped, hc, ho, bind_ok, h1]
  | today hw hj => exact word hw (i := kCURRENT_DATE) (by decide) (by decide) (by decide) (fun s => by simp [parseTyped, hc, hj, bind_ok])
  | date hp hq h1 =>
    refine quo (i := kDATE) (by decide) hp hq (by decide) (by decide) fun x t0 r0 ht ho => ?_
    simp only [parseTyped, hc]
    rcases ht with rfl | rfl
    · rw [if_neg (by decide)]
      simp only [ho, bind_ok, h1]
    · rw [if_neg (by simp)]
      simp only [ho, bind_ok, h1]
  | @vec pre t ws l hp ht hl =>
    have hv := vector_reads ht hl r
    cases hp with
    | none =>
      simp only [List.nil_append, List.cons_append, List.append_assoc]
      have h0 : lexNext true (91 :: (t ++ 93 :: r)) = .ok (.sym 91, t ++ 93 :: r) := lex_sym _ (by simp)
      refine ⟨⟨_, _, h0, by simp, by simp⟩, ?_⟩
      rw [parseValue_typed h0 (by simp) (by simp)]
      simp only [parseTyped, hc]
      rw [if_neg (by simp), hv, bind_ok]
    | @some x b hx hb =>
      simp only [List.nil_append, List.cons_append, List.append_assoc]
      have h0 : lexNext true (x ++ (b ++ 91 :: (t ++ 93 :: r))) = .ok (.kw kVECTOR, b ++ 91 :: (t ++ 93 :: r)) := by
        refine lex_word hx (by decide) ?_
        cases hb with
        | nil => simp only [List.nil_append, CanFollow]; unfold identChar; omega
        | @space c _ h _ => have := space_val h; simp only [List.cons_append, CanFollow]; unfold identChar; omega
        | comment _ _ => simp only [List.cons_append, CanFollow]; unfold identChar; omega
      refine ⟨⟨_, _, h0, by decide, by simp⟩, ?_⟩
      rw [parseValue_typed h0 (by decide) (by simp)]
      simp only [parseTyped, hc]
      rw [if_pos trivial, parseVector_blank E hb, hv, bind_ok]
  | uuid hp hq h1 =>
    refine quo (i := kUUID) (by decide) hp hq (by decide) (by decide) fun x t0 r0 ht ho => ?_
    simp only [parseTyped, hc, ho, bind_ok, h1]

end Verif.Insert
