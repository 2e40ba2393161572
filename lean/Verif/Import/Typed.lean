import Verif.Import.Bodies
/-!
# The list of columns, and what any text an import takes gives (C96)
-/
set_option autoImplicit false
set_option linter.unusedSimpArgs false
set_option linter.unusedVariables false
namespace Verif.Import
open Verif Verif.Json.Text Verif.Parse.Lex Verif.Insert

/-! ## the list of columns -/

theorem take_name {n s : Bytes} (h : 44 ∉ n) : (n ++ 44 :: s).takeWhile (· ≠ 44) = n ∧ ((n ++ 44 :: s).dropWhile (· ≠ 44)).drop 1 = s := by
  induction n with
  | nil => simp
  | cons c n ih =>
    have hc : c ≠ 44 := fun e => h (by simp [e])
    obtain ⟨h1, h2⟩ := ih fun e => h (by simp [e])
    simp only [List.cons_append, List.takeWhile_cons, List.dropWhile_cons, hc, ne_eq, not_false_eq_true, decide_true, if_true]
    exact ⟨congrArg (c :: ·) h1, h2⟩

theorem take_last {n : Bytes} (h : 44 ∉ n) : n.takeWhile (· ≠ 44) = n ∧ (n.dropWhile (· ≠ 44)).drop 1 = [] := by
  induction n with
  | nil => simp
  | cons c n ih =>
    have hc : c ≠ 44 := fun e => h (by simp [e])
    obtain ⟨h1, h2⟩ := ih fun e => h (by simp [e])
    simp only [List.takeWhile_cons, List.dropWhile_cons, hc, ne_eq, not_false_eq_true, decide_true, if_true]
    exact ⟨by rw [h1], h2⟩

theorem spec_loop {cols : List Col} {s : Bytes} {l : List Nat} (h : Spec cols s l) : ∀ (f : Nat) (last : Option Nat), s.length < f → (∀ j i, last = some j → l.head? = some i → j < i) →
    columnLoop cols f last s = .ok l := by
  induction h with
  | @one n i hn hc hi =>
    intro f last hf hl
    have hpos := List.length_pos_iff.2 hn
    obtain ⟨f, rfl⟩ : ∃ k, f = k + 2 := ⟨f - 2, by omega⟩
    obtain ⟨h1, h2⟩ := take_last hc
    have hlast : (last.any fun j => decide (i ≤ j)) = false := by
      cases last with
      | none => rfl
      | some j => have := hl j i rfl rfl; simp; omega
    simp only [columnLoop, h1, h2, if_neg hn, named_col hi, hlast, Bool.false_eq_true, if_false, List.takeWhile_nil, if_true, bind_ok]
  | @more n s i j l hn hc hi hs hij ih =>
    intro f last hf hl
    obtain ⟨f, rfl⟩ : ∃ k, f = k + 1 := ⟨f - 1, by omega⟩
    obtain ⟨h1, h2⟩ := take_name (s := s) hc
    have hlast : (last.any fun j => decide (i ≤ j)) = false := by
      cases last with
      | none => rfl
      | some j => have := hl j i rfl rfl; simp; omega
    simp only [columnLoop, h1, h2, if_neg hn, named_col hi, hlast, Bool.false_eq_true, if_false]
    rw [ih f (some i) (by simp at hf; omega) (by intro a b e1 e2; simp at e1 e2; omega), bind_ok]

theorem spec_ne {cols : List Col} {s : Bytes} {l : List Nat} (h : Spec cols s l) : s ≠ [] ∧ l ≠ [] := by
  cases h with
  | one hn _ _ => exact ⟨hn, by simp⟩
  | more hn _ _ _ _ => exact ⟨by simp, by simp⟩

theorem set_columns {cols : List Col} {s : Bytes} {l : List Nat} (h : Spec cols s l) : setColumns cols s = .ok (some l) := by
  unfold setColumns
  rw [if_neg (spec_ne h).1, spec_loop h _ none (by omega) (by simp), bind_ok]

theorem findCol_named {n : Bytes} : ∀ {cols : List Col} {k j : Nat}, findCol n k cols = some j → ∃ i, j = k + i ∧ Named cols n i
  | [], k, j, h => by simp [findCol] at h
  | c :: cs, k, j, h => by
    by_cases hc : c.dropped = false ∧ c.name.map lower = n.map lower
    · have : j = k := by
        simp only [findCol] at h
        revert h
        split
        · intro h; simpa using h.symm
        · rename_i hx
          intro _
          have hlen := congrArg List.length hc.2
          simp only [List.length_map] at hlen
          have hx : c.dropped = false → c.name.length = n.length → ¬ c.name.map lower = n.map lower := by simpa [isCase] using hx
          exact absurd hc.2 (hx hc.1 hlen)
      refine ⟨0, by omega, c, rfl, hc.1, hc.2, by intro j d hj; omega⟩
    · have : findCol n (k + 1) cs = some j := by
        simp only [findCol] at h
        revert h
        split
        · rename_i hx
          intro _
          have hx : c.dropped = false ∧ c.name.length = n.length ∧ c.name.map lower = n.map lower := by simpa [isCase] using hx
          exact absurd ⟨hx.1, hx.2.2⟩ hc
        · exact id
      obtain ⟨i, rfl, d, h1, h2, h3, h4⟩ := findCol_named this
      refine ⟨i + 1, by omega, d, by simpa using h1, h2, h3, ?_⟩
      intro a e ha he
      cases a with
      | zero =>
        simp only [List.getElem?_cons_zero, Option.some.injEq] at he
        subst he
        by_cases hd : c.dropped = true
        · exact .inl hd
        · exact .inr fun hx => hc ⟨by simpa using hd, hx⟩
      | succ a => exact h4 a e (by omega) (by simpa using he)

/-- how a text that is taken goes on after the names that are used -/
def Rest (q : Bytes) : Prop := q = [] ∨ q = [44] ∨ ∃ q', q = 44 :: 44 :: q'

theorem takeWhile_split (s : Bytes) : 44 ∉ s.takeWhile (· ≠ 44) ∧
    (s = s.takeWhile (· ≠ 44) ∧ (s.dropWhile (· ≠ 44)).drop 1 = [] ∨ s = s.takeWhile (· ≠ 44) ++ 44 :: (s.dropWhile (· ≠ 44)).drop 1) := by
  induction s with
  | nil => simp
  | cons c s ih =>
    by_cases hc : c = 44
    · subst hc; simp
    · simp only [List.takeWhile_cons, List.dropWhile_cons, hc, ne_eq, not_false_eq_true, decide_true, if_true]
      refine ⟨by simpa [Ne.symm hc] using ih.1, ?_⟩
      rcases ih.2 with ⟨h1, h2⟩ | h1
      · exact .inl ⟨congrArg (c :: ·) h1, h2⟩
      · exact .inr (congrArg (c :: ·) h1)

theorem loop_spec {cols : List Col} : ∀ (f : Nat) (last : Option Nat) (s : Bytes) (l : List Nat), columnLoop cols f last s = .ok l →
    (l = [] ∧ (s = [] ∨ ∃ q, s = 44 :: q)) ∨ ((∀ j i, last = some j → l.head? = some i → j < i) ∧ ∃ p q, s = p ++ q ∧ Spec cols p l ∧ Rest q)
  | 0, last, s, l, h => by cases h
  | f + 1, last, s, l, h => by
    obtain ⟨hc, hsplit⟩ := takeWhile_split s
    simp only [columnLoop] at h
    split at h
    · rename_i hn
      cases h
      refine .inl ⟨rfl, ?_⟩
      rw [hn] at hsplit
      rcases hsplit with ⟨h1, -⟩ | h1
      · exact .inl h1
      · exact .inr ⟨_, by simpa using h1⟩
    · rename_i hn
      split at h
      · cases h
      · rename_i i hi
        split at h
        · cases h
        · rename_i hlast
          obtain ⟨l', h1, h2⟩ := bind_eq_ok h
          cases h2
          obtain ⟨i', e, hnam⟩ := findCol_named hi
          obtain rfl : i = i' := by omega
          refine .inr ⟨?_, ?_⟩
          · rintro j k rfl hk
            simp only [List.head?_cons, Option.some.injEq] at hk
            subst hk
            simp at hlast
            omega
          · rcases loop_spec f (some i) _ l' h1 with ⟨rfl, h3⟩ | ⟨h3, p, q, h4, h5, h6⟩
            · refine ⟨_, if (s.dropWhile (· ≠ 44)) = [] then [] else 44 :: (s.dropWhile (· ≠ 44)).drop 1, ?_, .one hn hc hnam, ?_⟩
              · rcases hsplit with ⟨h6, h7⟩ | h6
                · have : s.dropWhile (· ≠ 44) = [] := by
                    have := List.takeWhile_append_dropWhile (p := (· ≠ 44)) (l := s)
                    have h8 := congrArg List.length this
                    rw [← h6] at h8
                    simp only [List.length_append] at h8
                    exact List.length_eq_zero_iff.1 (by omega)
                  rw [if_pos this, List.append_nil]; exact h6
                · rw [if_neg]
                  · exact h6
                  · intro e
                    have h8 : 44 ∈ s := by rw [h6]; simp
                    have := List.takeWhile_append_dropWhile (p := (· ≠ 44)) (l := s)
                    rw [e, List.append_nil] at this
                    rw [← this] at h8
                    exact hc h8
              · split
                · exact .inl rfl
                · rcases h3 with h3 | ⟨q, h3⟩
                  · exact .inr (.inl (by rw [h3]))
                  · exact .inr (.inr ⟨q, by rw [h3]⟩)
            · have hs : s = s.takeWhile (· ≠ 44) ++ 44 :: (s.dropWhile (· ≠ 44)).drop 1 := by
                rcases hsplit with ⟨-, h7⟩ | h7
                · rw [h7] at h4
                  have : p = [] := by
                    cases p with
                    | nil => rfl
                    | cons => simp at h4
                  exact absurd this (spec_ne h5).1
                · exact h7
              cases l' with
              | nil => exact absurd rfl (spec_ne h5).2
              | cons j l' =>
                refine ⟨s.takeWhile (· ≠ 44) ++ 44 :: p, q, ?_, .more hn hc hnam h5 (h3 i j rfl rfl), h6⟩
                conv => lhs; rw [hs, h4]
                simp

theorem named_live {cols : List Col} {n : Bytes} {i : Nat} (h : Named cols n i) : i < cols.length := by
  obtain ⟨c, h, -⟩ := h
  exact (List.getElem?_eq_some_iff.1 h).1

theorem spec_sorted {cols : List Col} {s : Bytes} {l : List Nat} (h : Spec cols s l) : l.Pairwise (· < ·) ∧ ∀ j ∈ l, j < cols.length := by
  induction h with
  | one _ _ hi =>
    refine ⟨by simp, ?_⟩
    intro j hj
    simp only [List.mem_singleton] at hj
    subst hj
    exact named_live hi
  | @more n s i j l _ _ hi _ hij ih =>
    refine ⟨?_, ?_⟩
    · rw [List.pairwise_cons]
      refine ⟨?_, ih.1⟩
      intro a ha
      rcases List.mem_cons.1 ha with rfl | ha
      · exact hij
      · have := (List.pairwise_cons.1 ih.1).1 a ha
        omega
    · intro a ha
      rcases List.mem_cons.1 ha with rfl | ha
      · exact named_live hi
      · exact ih.2 a ha

theorem spec_listOk {cols : List Col} {s : Bytes} {l : List Nat} (h : Spec cols s l) : ListOk cols (some l) := by
  rintro x hx
  cases hx
  exact ⟨(spec_ne h).2, spec_sorted h⟩

/-! ## rows of any text -/

/-- a row of an import: a cell for each column, of its type; NULL only where it may be, if the column is listed -/
def Shape (E : Env) (cols : List Col) (list : Option (List Nat)) (row : List V) : Prop :=
  row.length = cols.length ∧ ∀ (i : Nat) (c : Col) (v : V), cols[i]? = some c → row[i]? = some v → HasTy E c.ty v ∧
    (v = .null → (∀ l, list = some l → i ∈ l) → c.notNull = false ∨ c.identity = true ∨ c.stored = true ∨ c.dropped = true)

theorem shape_none {E : Env} {cols : List Col} {row : List V} : Shape E cols none row ↔ RowOk E cols row := by
  unfold Shape RowOk CellOk
  simp

theorem row_none {E : Env} : ∀ {cols : List Col} {i : Nat} {s r : Bytes} {row : List V}, importRow E i cols none s = .ok (row, r) → RowOk E cols row
  | [], i, s, r, row, h => by simp only [importRow] at h; cases h; exact rowOk_nil E
  | c :: cs, i, s, r, row, h => by
    simp only [importRow] at h
    split at h
    · rename_i hdr
      obtain ⟨⟨l, r1⟩, h1, h⟩ := bind_eq_ok h
      cases h
      exact rowOk_cons ⟨.null _, fun _ => .inr (.inr (.inr hdr))⟩ (row_none h1)
    · obtain ⟨⟨v, r1⟩, h1, h⟩ := bind_eq_ok h
      obtain ⟨u, h2, h⟩ := bind_eq_ok h
      obtain ⟨r2, h3, h⟩ := bind_eq_ok h
      obtain ⟨⟨l, r3⟩, h4, h⟩ := bind_eq_ok h
      cases h
      exact rowOk_cons (cellOk_of (parseValue_ty h1) h2) (row_none h4)

/-- a row for a list -/
def RowL (E : Env) (i : Nat) (cols : List Col) (l : List Nat) (row : List V) : Prop :=
  row.length = cols.length ∧ ∀ (j : Nat) (c : Col) (v : V), cols[j]? = some c → row[j]? = some v → HasTy E c.ty v ∧ (i + j ∈ l → CellOk E c v)

theorem rowL_cons {E : Env} {i : Nat} {c : Col} {cs : List Col} {l l' : List Nat} {v : V} {row : List V} (h : HasTy E c.ty v) (h' : i ∈ l → CellOk E c v) (hl : ∀ j ∈ l, i < j → j ∈ l')
    (hr : RowL E (i + 1) cs l' row) : RowL E i (c :: cs) l (v :: row) := by
  refine ⟨by simp [hr.1], ?_⟩
  intro j c' v' h1 h2
  cases j with
  | zero =>
    simp only [List.getElem?_cons_zero, Option.some.injEq] at h1 h2
    subst h1 h2; exact ⟨h, h'⟩
  | succ j =>
    simp only [List.getElem?_cons_succ] at h1 h2
    obtain ⟨a1, a2⟩ := hr.2 j c' v' h1 h2
    refine ⟨a1, fun hj => a2 ?_⟩
    rw [Nat.add_right_comm, Nat.add_assoc]
    exact hl _ hj (by omega)

theorem row_some {E : Env} : ∀ {cols : List Col} {i : Nat} {l : List Nat} {s r : Bytes} {row : List V}, DefaultsOk E cols → l.Pairwise (· < ·) → (∀ j ∈ l, i ≤ j) →
    importRow E i cols (some l) s = .ok (row, r) → RowL E i cols l row
  | [], i, l, s, r, row, _, _, _, h => by simp only [importRow] at h; cases h; exact ⟨rfl, by simp⟩
  | c :: cs, i, l, s, r, row, hd, hs, hge, h => by
    have hd' : DefaultsOk E cs := fun x hx => hd x (List.mem_cons_of_mem _ hx)
    simp only [importRow] at h
    split at h
    · rename_i hh
      obtain ⟨⟨v, r1⟩, h1, h⟩ := bind_eq_ok h
      obtain ⟨u, h2, h⟩ := bind_eq_ok h
      obtain ⟨r2, h3, h⟩ := bind_eq_ok h
      obtain ⟨⟨row', r3⟩, h4, h⟩ := bind_eq_ok h
      cases h
      cases l with
      | nil => simp at hh
      | cons a l =>
        simp only [List.head?_cons, Option.some.injEq] at hh
        subst hh
        obtain ⟨p1, p2⟩ := List.pairwise_cons.1 hs
        have hc := cellOk_of (parseValue_ty h1) h2
        refine rowL_cons (l' := l) (parseValue_ty h1) (fun _ => hc) ?_ (row_some hd' p2 (fun j hj => p1 j hj) h4)
        intro j hj hlt
        rcases List.mem_cons.1 hj with rfl | hj
        · omega
        · exact hj
    · rename_i hh
      obtain ⟨⟨row', r3⟩, h4, h⟩ := bind_eq_ok h
      cases h
      have hni : ∀ j ∈ l, i + 1 ≤ j := by
        intro j hj
        cases l with
        | nil => simp at hj
        | cons a l =>
          have ha := hge a (by simp)
          have : a ≠ i := fun e => hh (by simp [e])
          rcases List.mem_cons.1 hj with rfl | hj
          · omega
          · have := (List.pairwise_cons.1 hs).1 j hj
            omega
      exact rowL_cons (l' := l) (valueDefault_ty (hd c (List.mem_cons_self ..))) (fun hi => by have := hni i hi; omega) (fun j hj _ => hj) (row_some hd' hs hni h4)

/-- a list in the order of the table -/
def Sorted (list : Option (List Nat)) : Prop := ∀ l, list = some l → l.Pairwise (· < ·)

theorem row_shape {E : Env} {cols : List Col} {list : Option (List Nat)} (hd : DefaultsOk E cols) (hl : Sorted list) {s r : Bytes} {row : List V} (h : importRow E 0 cols list s = .ok (row, r)) :
    Shape E cols list row := by
  cases list with
  | none => exact shape_none.2 (row_none h)
  | some l =>
    obtain ⟨h1, h2⟩ := row_some hd (hl l rfl) (by simp) h
    refine ⟨h1, fun i c v e1 e2 => ?_⟩
    obtain ⟨a1, a2⟩ := h2 i c v e1 e2
    exact ⟨a1, fun hv hi => (a2 (by simpa using hi l rfl)).2 hv⟩

/-- cells so far -/
def CellsOk (E : Env) (cols : List Col) (cells : List (Option V)) : Prop :=
  cells.length = cols.length ∧ ∀ (i : Nat) (c : Col) (v : V), cols[i]? = some c → cells[i]? = some (some v) → CellOk E c v

theorem member_cells {E : Env} {cols : List Col} {cells cells' : List (Option V)} {key s r : Bytes} (h : CellsOk E cols cells) (hm : member E cols cells key s = .ok (cells', r)) : CellsOk E cols cells' := by
  unfold member at hm
  obtain ⟨r1, h1, hm⟩ := bind_eq_ok hm
  split at hm
  · cases hm
  · split at hm
    · cases hm
    · rename_i i _ _ c hc
      split at hm
      · cases hm
      · obtain ⟨⟨v, r2⟩, h2, hm⟩ := bind_eq_ok hm
        obtain ⟨u, h3, hm⟩ := bind_eq_ok hm
        cases hm
        refine ⟨by simp [h.1], ?_⟩
        intro j d x e1 e2
        by_cases hj : i = j
        · subst hj
          rw [hc] at e1
          cases e1
          rw [List.getElem?_set_self (by rw [h.1]; exact (List.getElem?_eq_some_iff.1 hc).1)] at e2
          simp only [Option.some.injEq] at e2
          subst e2
          exact cellOk_of (parseValue_ty h2) h3
        · rw [List.getElem?_set_ne hj] at e2
          exact h.2 j d x e1 e2

theorem obj_cells {E : Env} {cols : List Col} : ∀ (f : Nat) {cells cells' : List (Option V)} {s r : Bytes}, CellsOk E cols cells → objLoop E cols f cells s = .ok (cells', r) → CellsOk E cols cells'
  | 0, cells, cells', s, r, _, h => by cases h
  | f + 1, cells, cells', s, r, hc, h => by
    simp only [objLoop] at h
    obtain ⟨o, h1, h⟩ := bind_eq_ok h
    cases o with
    | none => cases h; exact hc
    | some kr =>
      obtain ⟨⟨cs, r1⟩, h2, h⟩ := bind_eq_ok h
      obtain ⟨o, h3, h⟩ := bind_eq_ok h
      have := member_cells hc h2
      cases o with
      | none => cases h; exact this
      | some r2 => exact obj_cells f this h

theorem fill_shape {E : Env} : ∀ {cols : List Col} {cells : List (Option V)} {row : List V}, DefaultsOk E cols → CellsOk E cols cells → fillDefaults cols cells = .ok row → RowOk E cols row
  | [], cells, row, _, _, h => by cases cells <;> simp only [fillDefaults] at h <;> cases h <;> exact rowOk_nil E
  | c :: cs, [], row, _, hc, h => by have := hc.1; simp at this
  | c :: cs, o :: cells, row, hd, hc, h => by
    have hd' : DefaultsOk E cs := fun x hx => hd x (List.mem_cons_of_mem _ hx)
    have hc' : CellsOk E cs cells := ⟨by simpa using hc.1, fun i d v e1 e2 => hc.2 (i + 1) d v (by simpa using e1) (by simpa using e2)⟩
    cases o with
    | some v =>
      simp only [fillDefaults] at h
      obtain ⟨row', h1, h⟩ := bind_eq_ok h
      cases h
      exact rowOk_cons (hc.2 0 c v rfl rfl) (fill_shape hd' hc' h1)
    | none =>
      simp only [fillDefaults] at h
      obtain ⟨u, h0, h⟩ := bind_eq_ok h
      obtain ⟨row', h1, h⟩ := bind_eq_ok h
      cases h
      exact rowOk_cons (cellOk_of (valueDefault_ty (hd c (List.mem_cons_self ..))) h0) (fill_shape hd' hc' h1)

theorem obj_shape {E : Env} {cols : List Col} (hd : DefaultsOk E cols) {s r : Bytes} {row : List V} (h : importObj E cols s = .ok (row, r)) : RowOk E cols row := by
  unfold importObj at h
  obtain ⟨⟨cells, r1⟩, h1, h⟩ := bind_eq_ok h
  obtain ⟨row', h2, h⟩ := bind_eq_ok h
  cases h
  refine fill_shape hd (obj_cells _ ?_ h1) h2
  refine ⟨by simp, ?_⟩
  intro i c v e1 e2
  simp at e2

theorem json_shape {E : Env} {cols : List Col} {list : Option (List Nat)} (hd : DefaultsOk E cols) (hl : Sorted list) {s r : Bytes} {row : List V} (h : importJsonRow E cols list s = .ok (row, r)) :
    Shape E cols list row := by
  unfold importJsonRow at h
  obtain ⟨o, h1, h⟩ := bind_eq_ok h
  cases o with
  | none =>
    obtain ⟨r1, h2, h⟩ := bind_eq_ok h
    obtain ⟨⟨row', r2⟩, h3, h⟩ := bind_eq_ok h
    obtain ⟨r3, h4, h⟩ := bind_eq_ok h
    cases h
    exact row_shape hd hl h3
  | some r1 =>
    simp only [jsonObj] at h
    split at h
    · obtain ⟨⟨row', r2⟩, h3, h⟩ := bind_eq_ok h
      obtain ⟨r3, h4, h⟩ := bind_eq_ok h
      cases h
      exact shape_none.2 (obj_shape hd h3)
    · obtain ⟨⟨row', r2⟩, h3, h⟩ := bind_eq_ok h
      obtain ⟨r3, h4, h⟩ := bind_eq_ok h
      cases h
      exact row_shape hd hl h3
    · exact row_shape hd hl h
    · cases h

theorem eof_shape {P : List V → Prop} {one : Bytes → Res (List V × Bytes)} (h1 : ∀ s r row, one s = .ok (row, r) → P row) : ∀ (f : Nat) {s r : Bytes} {rows : List (List V)},
    rowsToEof one f s = .ok (rows, r) → ∀ row ∈ rows, P row
  | 0, s, r, rows, h => by cases h
  | f + 1, s, r, rows, h => by
    simp only [rowsToEof] at h
    obtain ⟨⟨row, r1⟩, h2, h⟩ := bind_eq_ok h
    obtain ⟨o, h3, h⟩ := bind_eq_ok h
    have := h1 _ _ _ h2
    cases o with
    | some r2 => cases h; simpa using this
    | none =>
      obtain ⟨⟨rows', r3⟩, h4, h⟩ := bind_eq_ok h
      cases h
      intro x hx
      rcases List.mem_cons.1 hx with rfl | hx
      · exact this
      · exact eof_shape h1 f h4 x hx

theorem loop_shape {P : List V → Prop} {one : Bytes → Res (List V × Bytes)} (h1 : ∀ s r row, one s = .ok (row, r) → P row) : ∀ (f : Nat) {s r : Bytes} {rows : List (List V)},
    jsonLoop one f s = .ok (rows, r) → ∀ row ∈ rows, P row
  | 0, s, r, rows, h => by cases h
  | f + 1, s, r, rows, h => by
    simp only [jsonLoop] at h
    obtain ⟨⟨row, r1⟩, h2, h⟩ := bind_eq_ok h
    obtain ⟨o, h3, h⟩ := bind_eq_ok h
    have := h1 _ _ _ h2
    cases o with
    | none =>
      obtain ⟨r3, h4, h⟩ := bind_eq_ok h
      cases h; simpa using this
    | some r2 =>
      obtain ⟨⟨rows', r3⟩, h4, h⟩ := bind_eq_ok h
      cases h
      intro x hx
      rcases List.mem_cons.1 hx with rfl | hx
      · exact this
      · exact loop_shape h1 f h4 x hx

theorem rows_shape {E : Env} {cols : List Col} {list : Option (List Nat)} (hd : DefaultsOk E cols) (hl : Sorted list) {ct : Content} {f : Nat} {s r : Bytes} {rows : List (List V)}
    (h : importRows E cols list ct f s = .ok (rows, r)) : ∀ row ∈ rows, Shape E cols list row := by
  cases ct with
  | csv =>
    simp only [importRows, importCsv] at h
    split at h
    · cases h
    · exact eof_shape (fun s r row => row_shape hd hl) f h
  | jsonl => exact eof_shape (fun s r row => json_shape hd hl) f h
  | json =>
    simp only [importRows, importJson] at h
    obtain ⟨r1, h1, h⟩ := bind_eq_ok h
    exact loop_shape (fun s r row => json_shape hd hl) f h

theorem columns_sorted {cols : List Col} {spec : Bytes} {list : Option (List Nat)} (h : setColumns cols spec = .ok list) : Sorted list := by
  unfold setColumns at h
  split at h
  · cases h; intro l e; cases e
  · obtain ⟨l, h1, h⟩ := bind_eq_ok h
    cases h
    intro x e
    cases e
    rcases loop_spec _ _ _ _ h1 with ⟨rfl, -⟩ | ⟨-, p, q, -, h2, -⟩
    · exact .nil
    · exact (spec_sorted h2).1

end Verif.Import
