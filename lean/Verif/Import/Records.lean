import Verif.Import.Proofs
/-!
# Reading objects, records and bodies (C96)
-/
set_option autoImplicit false
set_option linter.unusedSimpArgs false
set_option linter.unusedVariables false
namespace Verif.Import
open Verif Verif.Json.Text Verif.Parse.Lex Verif.Insert

/-! ## objects -/

theorem lex_colon {b w : Bytes} (hb : Blank b) (hw : ∃ d t, w = d :: t ∧ d ≠ 58 ∧ d ≠ 61 ∧ d ≠ 93) {b' r : Bytes} (hb' : Blank b') :
    lexNext true (b ++ 58 :: (b' ++ (w ++ r))) = .ok (.sym 58, b' ++ (w ++ r)) := by
  rw [lexNext_blank hb]
  have hf : CanFollow (.sym 58) (b' ++ (w ++ r)) := by
    have : ∀ d t, d ≠ 58 → d ≠ 61 → CanFollow (.sym 58) (d :: t) := by
      intro d t h1 h2
      simp only [CanFollow]
      refine ⟨?_, by omega⟩
      intro p hp
      simp only [pairs, List.mem_cons, List.not_mem_nil, or_false] at hp
      rintro ⟨h3, h4⟩
      rcases hp with rfl | rfl | rfl | rfl | rfl | rfl | rfl | rfl | rfl <;> simp only at h3 h4 <;> omega
    cases hb' with
    | nil =>
      obtain ⟨d, t, rfl, h1, h2, -⟩ := hw
      exact this d _ h1 h2
    | @space c _ h _ => have := space_val h; exact ‹∀ d t, d ≠ 58 → d ≠ 61 → CanFollow (.sym 58) (d :: t)› c _ (by omega) (by omega)
    | comment _ _ => exact this 45 _ (by omega) (by omega)
  simpa using C80_token (.sym 58 (by unfold symChar; omega)) _ hf

theorem named_col {cols : List Col} {n : Bytes} {i : Nat} (h : Named cols n i) : findCol n 0 cols = some i := by
  have := findCol_some (j := 0) h
  simpa using this

/-- one key and its value -/
theorem member_read {E : Env} {cols : List Col} {m : Bytes} {i : Nat} {v : V} (h : Member E cols m i v) {c : Col} (hc : cols[i]? = some c) (cells : List (Option V))
    (hcell : (cells[i]?).getD none = none) {b r : Bytes} (hb : Blank b) (hr : After r) :
    ∃ key r0, ifStr (b ++ (m ++ r)) = .ok (some (key, r0)) ∧
      (Insert.Fits c v → member E cols cells key r0 = .ok (cells.set i (some v), r)) ∧ (¬ Insert.Fits c v → member E cols cells key r0 = .error .err) := by
  cases h with
  | @mk k kq b1 b2 w _ c' _ hq hn hc' h1 h2 hl =>
    rw [hc] at hc'
    cases hc'
    refine ⟨k, b1 ++ 58 :: (b2 ++ (w ++ r)), ?_, ?_⟩
    · unfold ifStr
      rw [lexNext_blank hb]
      have := lex_quoted hq (b1 ++ 58 :: (b2 ++ (w ++ r)))
      simp only [List.append_assoc, List.cons_append] at this ⊢
      rw [this, bind_ok]
    · unfold member
      rw [expect_yes (lex_colon h1 (lit_head (c := c) hl) h2), bind_ok]
      simp only [named_col hn, hc, hcell, Option.isSome_none, Bool.false_eq_true, if_false]
      rw [parseValue_blank E c h2, lit_value hl hr, bind_ok]
      constructor
      · intro hf; simp only [validate_ok hf, bind_ok]
      · intro hf; simp only [validate_bad hf, bind_err]

def setAll (cells : List (Option V)) (l : List (Nat × V)) : List (Option V) := l.foldl (fun cs p => cs.set p.1 (some p.2)) cells

theorem member_ne {E : Env} {cols : List Col} {m : Bytes} {i : Nat} {v : V} (h : Member E cols m i v) : m ≠ [] := by
  cases h with
  | mk hq _ _ _ _ _ => obtain ⟨q, t, rfl, -⟩ := quoted_head hq; simp

theorem members_ne {E : Env} {cols : List Col} {ms : List Bytes} {l : List (Nat × V)} (h : Members E cols ms l) : ∀ m ∈ ms, m ≠ [] := by
  induction h with
  | nil => simp
  | cons hm _ ih =>
    intro x hx
    rcases List.mem_cons.1 hx with rfl | hx
    · exact member_ne hm
    · exact ih x hx

theorem ifStr_no {s r : Bytes} {t : LTok} (h : lexNext true s = .ok (t, r)) (ht : ∀ x e, t ≠ .str x e) : ifStr s = .ok none := by
  unfold ifStr
  rw [h, bind_ok]
  cases t <;> first | rfl | exact absurd rfl (ht _ _)

theorem lex_curly {b : Bytes} (hb : Blank b) (r : Bytes) : lexNext true (b ++ 125 :: r) = .ok (.sym 125, r) := by
  rw [lexNext_blank hb, lex_sym _ (by simp)]

theorem lex_square {b : Bytes} (hb : Blank b) (r : Bytes) : lexNext true (b ++ 93 :: r) = .ok (.sym 93, r) := by
  rw [lexNext_blank hb, lex_sym _ (by simp)]

theorem obj_loop {E : Env} {cols : List Col} {ms : List Bytes} {l : List (Nat × V)} (h : Members E cols ms l) : ∀ (cells : List (Option V)) (t r : Bytes) (f : Nat), Listed ms t →
    ms.length < f → (l.map Prod.fst).Nodup → (∀ p ∈ l, (cells[p.1]?).getD none = none) →
    ((∀ (p : Nat × V) (c : Col), p ∈ l → cols[p.1]? = some c → Insert.Fits c p.2) → ∃ b, Blank b ∧ objLoop E cols f cells (t ++ 125 :: r) = .ok (setAll cells l, b ++ 125 :: r)) ∧
    ((∃ (p : Nat × V) (c : Col), p ∈ l ∧ cols[p.1]? = some c ∧ ¬ Insert.Fits c p.2) → objLoop E cols f cells (t ++ 125 :: r) = .error .err) := by
  induction h with
  | nil =>
    intro cells t r f ht hf _ _
    obtain ⟨f, rfl⟩ : ∃ k, f = k + 1 := ⟨f - 1, by simp at hf; omega⟩
    cases ht with
    | nil hb =>
      refine ⟨fun _ => ⟨t, hb, ?_⟩, ?_⟩
      · simp only [objLoop]
        rw [ifStr_no (lex_curly hb r) (by simp), bind_ok]
        rfl
      · rintro ⟨p, c, hp, -⟩; simp at hp
  | @cons m ms i v l hm hms ih =>
    intro cells t r f ht hf hnd hcells
    obtain ⟨f, rfl⟩ : ∃ k, f = k + 1 := ⟨f - 1, by omega⟩
    obtain ⟨b, u, hb, rfl, hu⟩ := listed_cons ht
    have hau : After (u ++ 125 :: r) := by
      rcases hu with ⟨rfl, hbu⟩ | ⟨hne, b', t', hb', rfl, ht'⟩
      · exact after_blank hbu (by simp)
      · simp only [List.append_assoc, List.cons_append]; exact after_blank hb' (by simp)
    obtain ⟨c, hc⟩ : ∃ c, cols[i]? = some c := by cases hm with | mk _ _ hc _ _ _ => exact ⟨_, hc⟩
    obtain ⟨key, r0, h1, h2, h3⟩ := member_read hm hc cells (hcells (i, v) (by simp)) hb hau
    simp only [objLoop]
    rw [List.append_assoc, List.append_assoc, h1, bind_ok]
    simp only
    by_cases hfit : Insert.Fits c v
    · rw [h2 hfit, bind_ok]
      simp only [List.map_cons, List.nodup_cons] at hnd
      have hcells' : ∀ p ∈ l, ((cells.set i (some v))[p.1]?).getD none = none := by
        intro p hp
        have : i ≠ p.1 := fun e => hnd.1 (by rw [e]; exact List.mem_map_of_mem hp)
        rw [List.getElem?_set_ne this]
        exact hcells p (by simp [hp])
      rcases hu with ⟨rfl, hbu⟩ | ⟨hne, b', t', hb', rfl, ht'⟩
      · cases hms
        rw [ifTok_no (lex_curly hbu r) (by simp), bind_ok]
        refine ⟨fun _ => ⟨u, hbu, rfl⟩, ?_⟩
        rintro ⟨p, d, hp, hd, hx⟩
        simp only [List.mem_singleton] at hp
        subst hp
        rw [hc] at hd
        cases hd
        exact absurd hfit hx
      · simp only [List.append_assoc, List.cons_append]
        rw [ifTok_yes (lex_comma hb' _), bind_ok]
        simp only
        obtain ⟨ih1, ih2⟩ := ih (cells.set i (some v)) t' r f ht' (by simp at hf; omega) hnd.2 hcells'
        constructor
        · intro hall
          exact ih1 fun p d hp hd => hall p d (by simp [hp]) hd
        · rintro ⟨p, d, hp, hd, hx⟩
          rcases List.mem_cons.1 hp with rfl | hp
          · rw [hc] at hd
            cases hd
            exact absurd hfit hx
          · exact ih2 ⟨p, d, hp, hd, hx⟩
    · rw [h3 hfit, bind_err]
      exact ⟨fun hall => absurd (hall (i, v) c (by simp) hc) hfit, fun _ => rfl⟩

theorem setAll_length (l : List (Nat × V)) : ∀ (cells : List (Option V)), (setAll cells l).length = cells.length := by
  induction l with
  | nil => intro cells; rfl
  | cons p l ih => intro cells; simp only [setAll, List.foldl_cons]; exact (ih _).trans (by simp)

theorem setAll_other (l : List (Nat × V)) (i : Nat) (hi : ∀ x, (i, x) ∉ l) : ∀ (cells : List (Option V)), (setAll cells l)[i]? = cells[i]? := by
  induction l with
  | nil => intro cells; rfl
  | cons p l ih =>
    intro cells
    simp only [setAll, List.foldl_cons]
    have h1 := ih (fun x hx => hi x (by simp [hx])) (cells.set p.1 (some p.2))
    simp only [setAll] at h1
    rw [h1, List.getElem?_set_ne]
    rintro rfl
    exact hi p.2 (by simp)

theorem setAll_mem (l : List (Nat × V)) (hnd : (l.map Prod.fst).Nodup) {i : Nat} {v : V} (h : (i, v) ∈ l) : ∀ (cells : List (Option V)), i < cells.length → (setAll cells l)[i]? = some (some v) := by
  induction l with
  | nil => simp at h
  | cons p l ih =>
    intro cells hi
    simp only [List.map_cons, List.nodup_cons] at hnd
    rcases List.mem_cons.1 h with rfl | h
    · have := setAll_other l i (fun x hx => hnd.1 (List.mem_map.2 ⟨(i, x), hx, rfl⟩)) (cells.set i (some v))
      simp only [setAll, List.foldl_cons] at this ⊢
      rw [this, List.getElem?_set_self hi]
    · have := ih hnd.2 h (cells.set p.1 (some p.2)) (by simpa using hi)
      simpa only [setAll, List.foldl_cons] using this

theorem fill_defaults : ∀ (cols : List Col) (cells : List (Option V)) (row : List V), cells.length = cols.length → row.length = cols.length →
    (∀ (i : Nat) (v : V), cells[i]? = some (some v) → row[i]? = some v) →
    (∀ (i : Nat) (c : Col) (v : V), cells[i]? = some none → cols[i]? = some c → row[i]? = some v → Default c v) →
    ((∀ (i : Nat) (c : Col) (v : V), cells[i]? = some none → cols[i]? = some c → row[i]? = some v → Insert.Fits c v) → fillDefaults cols cells = .ok row) ∧
    ((∃ (i : Nat) (c : Col) (v : V), cells[i]? = some none ∧ cols[i]? = some c ∧ row[i]? = some v ∧ ¬ Insert.Fits c v) → fillDefaults cols cells = .error .err)
  | [], cells, row, h1, h2, h3, h4 => by
    have : row = [] := List.length_eq_zero_iff.1 (by simpa using h2)
    subst this
    refine ⟨fun _ => by simp [fillDefaults], ?_⟩
    rintro ⟨i, c, v, -, h, -⟩; simp at h
  | c :: cs, [], row, h1, h2, h3, h4 => by simp at h1
  | c :: cs, o :: cells, [], h1, h2, h3, h4 => by simp at h2
  | c :: cs, o :: cells, v :: row, h1, h2, h3, h4 => by
    have ih := fill_defaults cs cells row (by simpa using h1) (by simpa using h2) (fun i x hx => by simpa using h3 (i + 1) x (by simpa using hx))
      (fun i d x a1 a2 a3 => h4 (i + 1) d x (by simpa using a1) (by simpa using a2) (by simpa using a3))
    have up : (∃ (i : Nat) (d : Col) (x : V), cells[i]? = some none ∧ cs[i]? = some d ∧ row[i]? = some x ∧ ¬ Insert.Fits d x) ∨ (o = none ∧ ¬ Insert.Fits c v) ↔
        ∃ (i : Nat) (d : Col) (x : V), (o :: cells)[i]? = some none ∧ (c :: cs)[i]? = some d ∧ (v :: row)[i]? = some x ∧ ¬ Insert.Fits d x := by
      constructor
      · rintro (⟨i, d, x, a1, a2, a3, a4⟩ | ⟨rfl, a⟩)
        · exact ⟨i + 1, d, x, by simpa using a1, by simpa using a2, by simpa using a3, a4⟩
        · exact ⟨0, c, v, rfl, rfl, rfl, a⟩
      · rintro ⟨i, d, x, a1, a2, a3, a4⟩
        cases i with
        | zero =>
          simp only [List.getElem?_cons_zero, Option.some.injEq] at a1 a2 a3
          subst a1; subst a2; subst a3
          exact .inr ⟨rfl, a4⟩
        | succ i => exact .inl ⟨i, d, x, by simpa using a1, by simpa using a2, by simpa using a3, a4⟩
    rw [← up]
    cases o with
    | some x =>
      have : v = x := by simpa using h3 0 x rfl
      subst this
      simp only [fillDefaults]
      constructor
      · intro hall
        rw [ih.1 fun i d x a1 a2 a3 => hall (i + 1) d x (by simpa using a1) (by simpa using a2) (by simpa using a3), bind_ok]
      · rintro (h | ⟨h, -⟩)
        · rw [ih.2 h, bind_err]
        · cases h
    | none =>
      have hd := h4 0 c v rfl rfl rfl
      simp only [fillDefaults, default_val hd]
      by_cases hfit : Insert.Fits c v
      · rw [validate_ok hfit, bind_ok]
        constructor
        · intro hall
          rw [ih.1 fun i d x a1 a2 a3 => hall (i + 1) d x (by simpa using a1) (by simpa using a2) (by simpa using a3), bind_ok]
        · rintro (h | ⟨-, h⟩)
          · rw [ih.2 h, bind_err]
          · exact absurd hfit h
      · rw [validate_bad hfit, bind_err]
        exact ⟨fun hall => absurd (hall 0 c v rfl rfl rfl) hfit, fun _ => rfl⟩

/-- all values fit, for no list -/
theorem checked_none {cols : List Col} {row : List V} : Checked cols none row ↔ Allowed cols row := by
  unfold Checked Allowed
  constructor
  · intro h i c h1 h2; exact h i c h1 h2 (by simp)
  · intro h i c h1 h2 _; exact h i c h1 h2

theorem checked_some {cols : List Col} {l : List Nat} {row : List V} : Checked cols (some l) row ↔ FitsL 0 cols l row := by
  unfold Checked FitsL Insert.Fits
  constructor
  · rintro h i c v h1 h2 h3 rfl; exact h i c h1 h2 (by simpa using h3)
  · intro h i c h1 h2 h3; exact h i c _ h1 h2 (by simpa using h3 l rfl) rfl

theorem allowed_fits {cols : List Col} {row : List V} : Allowed cols row ↔ ∀ (i : Nat) (c : Col) (v : V), cols[i]? = some c → row[i]? = some v → Insert.Fits c v := by
  unfold Allowed Insert.Fits
  constructor
  · rintro h i c v h1 h2 rfl; exact h i c h1 h2
  · intro h i c h1 h2; exact h i c _ h1 h2 rfl

theorem obj_row {E : Env} {cols : List Col} {t r : Bytes} {ms : List Bytes} {l : List (Nat × V)} {row : List V} (ht : Listed ms t) (hm : Members E cols ms l)
    (hnd : (l.map Prod.fst).Nodup) (hn : ByName cols l row) :
    (Allowed cols row → ∃ b, Blank b ∧ importObj E cols (t ++ 125 :: r) = .ok (row, b ++ 125 :: r)) ∧
    (¬ Allowed cols row → importObj E cols (t ++ 125 :: r) = .error .err) := by
  have hlen := listed_length ht (members_ne hm)
  obtain ⟨o1, o2⟩ := obj_loop hm (cols.map fun _ => none) t r ((t ++ 125 :: r).length + 1) ht (by simp; omega) hnd (by
    intro p _
    cases hx : (cols.map fun _ => (none : Option V))[p.1]? with
    | none => rfl
    | some y => simp at hx; obtain ⟨_, _, rfl⟩ := hx; rfl)
  have hcl : (setAll (cols.map fun _ => none) l).length = cols.length := by rw [setAll_length]; simp
  have hin : ∀ i v, (i, v) ∈ l → ∃ c, cols[i]? = some c := by
    intro i v h
    have := hn.named i v h
    have hi : i < row.length := by
      rcases Nat.lt_or_ge i row.length with h | h
      · exact h
      · rw [List.getElem?_eq_none h] at this; cases this
    rw [hn.width] at hi
    exact ⟨cols[i], List.getElem?_eq_getElem hi⟩
  have hset : ∀ i v, (i, v) ∈ l → (setAll (cols.map fun _ => none) l)[i]? = some (some v) := by
    intro i v h
    obtain ⟨c, hc⟩ := hin i v h
    refine setAll_mem l hnd h _ ?_
    simp only [List.length_map]
    rcases Nat.lt_or_ge i cols.length with h | h
    · exact h
    · rw [List.getElem?_eq_none h] at hc; cases hc
  have hunset : ∀ i, (setAll (cols.map fun _ => none) l)[i]? = some none → ∀ x, (i, x) ∉ l := by
    intro i h x hx
    rw [hset i x hx] at h; simp at h
  have hdec : ∀ i, (∃ x, (i, x) ∈ l) ∨ ∀ x, (i, x) ∉ l := fun i => by
    by_cases h : ∃ x, (i, x) ∈ l
    · exact .inl h
    · exact .inr fun x hx => h ⟨x, hx⟩
  obtain ⟨f1, f2⟩ := fill_defaults cols (setAll (cols.map fun _ => none) l) row hcl hn.width
    (by
      intro i v h
      rcases hdec i with ⟨x, hx⟩ | hx
      · rw [hset i x hx] at h
        simp only [Option.some.injEq] at h
        subst h
        exact hn.named i x hx
      · rw [setAll_other l i hx] at h
        simp at h)
    (fun i c v h1 h2 h3 => hn.other i c v (hunset i h1) h2 h3)
  unfold importObj
  by_cases hall : ∀ (p : Nat × V) (c : Col), p ∈ l → cols[p.1]? = some c → Insert.Fits c p.2
  · obtain ⟨b, hb, e⟩ := o1 hall
    rw [e, bind_ok]
    simp only
    constructor
    · intro ha
      rw [allowed_fits] at ha
      rw [f1 fun i c v _ h2 h3 => ha i c v h2 h3, bind_ok]
      exact ⟨b, hb, rfl⟩
    · intro ha
      rw [allowed_fits] at ha
      rw [f2, bind_err]
      refine Classical.byContradiction fun hno => ha fun i c v h1 h2 => ?_
      rcases hdec i with ⟨x, hx⟩ | hx
      · have := hn.named i x hx
        rw [h2] at this
        cases this
        exact hall (i, v) c hx h1
      · refine Classical.byContradiction fun hf => hno ⟨i, c, v, ?_, h1, h2, hf⟩
        rw [setAll_other l i hx, List.getElem?_map, h1]
        rfl
  · have : ∃ (p : Nat × V) (c : Col), p ∈ l ∧ cols[p.1]? = some c ∧ ¬ Insert.Fits c p.2 := by
      refine Classical.byContradiction fun hno => hall fun p c h1 h2 => Classical.byContradiction fun hf => hno ⟨p, c, h1, h2, hf⟩
    rw [o2 this, bind_err]
    refine ⟨fun ha => ?_, fun _ => rfl⟩
    obtain ⟨p, c, h1, h2, h3⟩ := this
    rw [allowed_fits] at ha
    exact absurd (ha p.1 c p.2 h2 (hn.named p.1 p.2 h1)) h3

end Verif.Import
