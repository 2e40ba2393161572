import Verif.Insert.Rows
/-!
# What any text INSERT takes gives: rows of the table's shape (for C94)
-/
set_option autoImplicit false
set_option linter.unusedVariables false
namespace Verif.Insert
open Verif Verif.Json.Text Verif.Parse.Lex

/-- a value is NULL, a variable of the type, or a value of the type -/
inductive HasTy (E : Env) : Ty → V → Prop
  | null (ty : Ty) : HasTy E ty .null
  | var {ty : Ty} {n : Bytes} : E.vars n = some ty → HasTy E ty (.ref n)
  | bool (b : Bool) : HasTy E .bool (.bool b)
  | int (i : Int) : HasTy E .int (.int i)
  | dbl (x : Nat) : HasTy E .dbl (.dbl x)
  | str (s : Bytes) : HasTy E .str (.str s)
  | json (d : Bytes) : HasTy E .json (.json d)
  | stamp (v : Int) : HasTy E .stamp (.stamp v)
  | interval (iv : Func.Iv) : HasTy E .interval (.interval iv)
  | date (j : Int) : HasTy E .date (.date j)
  | vec (l : List Nat) : HasTy E .vec (.vec l)
  | uuid (u : Codec.Uuid) : HasTy E .uuid (.uuid u)

/-- a cell of a row a statement takes: of the type of its column, NULL only where it may be. (Columns that were dropped have NULL.) -/
def CellOk (E : Env) (c : Col) (v : V) : Prop :=
  HasTy E c.ty v ∧ (v = .null → c.notNull = false ∨ c.identity = true ∨ c.stored = true ∨ c.dropped = true)

/-- the row has a cell for each column -/
def RowOk (E : Env) (cols : List Col) (row : List V) : Prop :=
  row.length = cols.length ∧ ∀ (i : Nat) (c : Col) (v : V), cols[i]? = some c → row[i]? = some v → CellOk E c v

theorem bind_eq_ok {α β : Type} {x : Res α} {f : α → Res β} {b : β} (h : (x >>= f) = .ok b) : ∃ a, x = .ok a ∧ f a = .ok b := by
  cases x with
  | error e => cases h
  | ok a => exact ⟨a, rfl, h⟩

theorem fits_of_validate {c : Col} {v : V} (h : validate c v = .ok ()) : Fits c v := by
  intro hv
  subst hv
  unfold validate at h
  by_cases hs : c.stored = true
  · exact .inr (.inr hs)
  · by_cases hn : c.notNull = true ∧ c.identity = false
    · simp [hs, hn] at h
    · by_cases h1 : c.notNull = true
      · refine .inr (.inl ?_)
        cases hi : c.identity with
        | true => rfl
        | false => exact absurd ⟨h1, hi⟩ hn
      · exact .inl (by simpa using h1)

theorem parseTyped_ty {E : Env} {c : Col} {s : Bytes} {t : LTok} {r r' : Bytes} {v : V} (h : parseTyped E c s t r = .ok (v, r')) : HasTy E c.ty v := by
  unfold parseTyped at h
  cases hty : c.ty <;> simp only [hty] at h
  · split at h
    · cases h; exact .bool _
    · split at h
      · cases h; exact .bool _
      · cases h
  · obtain ⟨⟨m, t1, r1⟩, h1, h⟩ := bind_eq_ok h
    cases t1 <;> simp only [reduceCtorEq] at h
    · cases h; exact .int _
    · split at h
      · cases h; exact .int _
      · cases h
  · obtain ⟨⟨m, t1, r1⟩, h1, h⟩ := bind_eq_ok h
    cases t1 <;> simp only [reduceCtorEq] at h
    · cases h; exact .dbl _
    · cases h; exact .dbl _
  · cases t <;> simp only [reduceCtorEq] at h
    cases h; exact .str _
  · obtain ⟨x, h1, h⟩ := bind_eq_ok h
    cases h; exact .json _
  · split at h
    · cases h; exact .stamp _
    · split at h
      · cases h; exact .stamp _
      · obtain ⟨⟨t1, r1⟩, h1, h⟩ := bind_eq_ok h
        cases t1 <;> simp only [reduceCtorEq] at h
        obtain ⟨x, h2, h⟩ := bind_eq_ok h
        obtain ⟨y, h3, h⟩ := bind_eq_ok h
        cases h; exact .stamp _
  · obtain ⟨⟨t1, r1⟩, h1, h⟩ := bind_eq_ok h
    cases t1 <;> simp only [reduceCtorEq] at h
    obtain ⟨x, h2, h⟩ := bind_eq_ok h
    cases h; exact .interval _
  · split at h
    · obtain ⟨x, h2, h⟩ := bind_eq_ok h
      cases h; exact .date _
    · obtain ⟨⟨t1, r1⟩, h1, h⟩ := bind_eq_ok h
      cases t1 <;> simp only [reduceCtorEq] at h
      obtain ⟨x, h2, h⟩ := bind_eq_ok h
      cases h; exact .date _
  · obtain ⟨x, h1, h⟩ := bind_eq_ok h
    cases h; exact .vec _
  · obtain ⟨⟨t1, r1⟩, h1, h⟩ := bind_eq_ok h
    cases t1 <;> simp only [reduceCtorEq] at h
    split at h
    · cases h; exact .uuid _
    · cases h

theorem parseValue_ty {E : Env} {c : Col} {s r : Bytes} {v : V} (h : parseValue E c s = .ok (v, r)) : HasTy E c.ty v := by
  unfold parseValue at h
  obtain ⟨⟨t, r1⟩, h1, h⟩ := bind_eq_ok h
  simp only at h
  split at h
  · cases h; exact .null _
  · split at h
    · split at h
      · rename_i hv
        cases h; exact .var hv
      · cases h
    · exact parseTyped_ty h

/-- the defaults of the columns are of their types -/
def DefaultsOk (E : Env) (cols : List Col) : Prop := ∀ c ∈ cols, HasTy E c.ty c.dflt

theorem valueDefault_ty {E : Env} {c : Col} (h : HasTy E c.ty c.dflt) : HasTy E c.ty (valueDefault c) := by
  unfold valueDefault
  split
  · exact .null _
  · exact h

theorem cellOk_of {E : Env} {c : Col} {v : V} (h : HasTy E c.ty v) (hf : validate c v = .ok ()) : CellOk E c v :=
  ⟨h, fun hv => by rcases fits_of_validate hf hv with h | h | h <;> simp [h]⟩

theorem parseItem_ok {E : Env} {c : Col} (hd : HasTy E c.ty c.dflt) {s r : Bytes} {v : V} (h : parseItem E c s = .ok (v, r)) : CellOk E c v := by
  unfold parseItem at h
  obtain ⟨o, h1, h⟩ := bind_eq_ok h
  cases o with
  | some r1 =>
    obtain ⟨u, h2, h⟩ := bind_eq_ok h
    cases h
    exact cellOk_of (valueDefault_ty hd) h2
  | none =>
    obtain ⟨⟨v1, r1⟩, h2, h⟩ := bind_eq_ok h
    obtain ⟨u, h3, h⟩ := bind_eq_ok h
    cases h
    exact cellOk_of (parseValue_ty h2) h3

theorem rowOk_nil (E : Env) : RowOk E [] [] := ⟨rfl, by simp⟩

theorem rowOk_cons {E : Env} {c : Col} {cs : List Col} {v : V} {row : List V} (h : CellOk E c v) (hr : RowOk E cs row) : RowOk E (c :: cs) (v :: row) := by
  refine ⟨by simp [hr.1], ?_⟩
  intro i c' v' h1 h2
  cases i with
  | zero =>
    simp only [List.getElem?_cons_zero, Option.some.injEq] at h1 h2
    subst h1 h2; exact h
  | succ i =>
    simp only [List.getElem?_cons_succ] at h1 h2
    exact hr.2 i c' v' h1 h2

theorem rowLoop_ok {E : Env} : ∀ {cols : List Col} (hd : DefaultsOk E cols) {s r : Bytes} {row : List V}, rowLoop E cols s = .ok (row, r) → RowOk E cols row
  | [], _, s, r, row, h => by cases h; exact rowOk_nil E
  | c :: cs, hd, s, r, row, h => by
    have hd' : DefaultsOk E cs := fun x hx => hd x (List.mem_cons_of_mem _ hx)
    unfold rowLoop at h
    split at h
    · rename_i hdr
      obtain ⟨⟨l, r1⟩, h1, h⟩ := bind_eq_ok h
      cases h
      exact rowOk_cons ⟨.null _, fun _ => .inr (.inr (.inr hdr))⟩ (rowLoop_ok hd' h1)
    · obtain ⟨⟨v, r1⟩, h1, h⟩ := bind_eq_ok h
      obtain ⟨r2, h2, h⟩ := bind_eq_ok h
      obtain ⟨⟨l, r3⟩, h3, h⟩ := bind_eq_ok h
      cases h
      exact rowOk_cons (parseItem_ok (hd c (List.mem_cons_self ..)) h1) (rowLoop_ok hd' h3)

theorem rowListLoop_ok {E : Env} : ∀ {i : Nat} {cols : List Col} {list : List Nat} (hd : DefaultsOk E cols) {s r : Bytes} {row : List V}, rowListLoop E i cols list s = .ok (row, r) → RowOk E cols row
  | i, [], list, _, s, r, row, h => by unfold rowListLoop at h; cases h; exact rowOk_nil E
  | i, c :: cs, list, hd, s, r, row, h => by
    have hd' : DefaultsOk E cs := fun x hx => hd x (List.mem_cons_of_mem _ hx)
    have hc := hd c (List.mem_cons_self ..)
    unfold rowListLoop at h
    obtain ⟨o, h1, h⟩ := bind_eq_ok h
    cases o with
    | some r1 =>
      obtain ⟨u, h2, h⟩ := bind_eq_ok h
      obtain ⟨⟨l, r2⟩, h3, h⟩ := bind_eq_ok h
      cases h
      exact rowOk_cons (cellOk_of (valueDefault_ty hc) h2) (rowListLoop_ok hd' h3)
    | none =>
      simp only at h
      split at h
      · obtain ⟨⟨v, r1⟩, h2, h⟩ := bind_eq_ok h
        obtain ⟨r2, h3, h⟩ := bind_eq_ok h
        obtain ⟨u, h4, h⟩ := bind_eq_ok h
        obtain ⟨⟨l, r3⟩, h5, h⟩ := bind_eq_ok h
        cases h
        exact rowOk_cons (cellOk_of (parseValue_ty h2) h4) (rowListLoop_ok hd' h5)
      · obtain ⟨u, h2, h⟩ := bind_eq_ok h
        obtain ⟨⟨l, r2⟩, h3, h⟩ := bind_eq_ok h
        cases h
        exact rowOk_cons (cellOk_of (valueDefault_ty hc) h2) (rowListLoop_ok hd' h3)

theorem parseOne_ok {E : Env} {cols : List Col} (hd : DefaultsOk E cols) {list : Option (List Nat)} {s r : Bytes} {row : List V} (h : parseOne E cols list s = .ok (row, r)) : RowOk E cols row := by
  unfold parseOne at h
  cases list with
  | none =>
    simp only [parseRow] at h
    obtain ⟨s1, h1, h⟩ := bind_eq_ok h
    obtain ⟨⟨l, r1⟩, h2, h⟩ := bind_eq_ok h
    obtain ⟨r2, h3, h⟩ := bind_eq_ok h
    cases h
    exact rowLoop_ok hd h2
  | some ls =>
    simp only [parseRowList] at h
    obtain ⟨s1, h1, h⟩ := bind_eq_ok h
    obtain ⟨⟨l, r1⟩, h2, h⟩ := bind_eq_ok h
    obtain ⟨r2, h3, h⟩ := bind_eq_ok h
    cases h
    exact rowListLoop_ok hd h2

theorem parseRows_ok {E : Env} {cols : List Col} (hd : DefaultsOk E cols) {list : Option (List Nat)} : ∀ {f : Nat} {s r : Bytes} {rows : List (List V)}, parseRows E cols list f s = .ok (rows, r) → ∀ row ∈ rows, RowOk E cols row
  | 0, s, r, rows, h => by cases h
  | f + 1, s, r, rows, h => by
    unfold parseRows at h
    obtain ⟨⟨row, r1⟩, h1, h⟩ := bind_eq_ok h
    obtain ⟨o, h2, h⟩ := bind_eq_ok h
    have hrow := parseOne_ok hd h1
    cases o with
    | none =>
      cases h
      intro x hx
      simp only [List.mem_singleton] at hx
      subst hx; exact hrow
    | some r2 =>
      obtain ⟨⟨l, r3⟩, h3, h⟩ := bind_eq_ok h
      cases h
      intro x hx
      rcases List.mem_cons.1 hx with rfl | hx
      · exact hrow
      · exact parseRows_ok hd h3 x hx

theorem defaults_ok {E : Env} : ∀ {cols : List Col} (hd : DefaultsOk E cols) {row : List V}, defaults cols = .ok row → RowOk E cols row
  | [], _, row, h => by cases h; exact rowOk_nil E
  | c :: cs, hd, row, h => by
    unfold defaults at h
    obtain ⟨u, h1, h⟩ := bind_eq_ok h
    obtain ⟨l, h2, h⟩ := bind_eq_ok h
    cases h
    exact rowOk_cons (cellOk_of (valueDefault_ty (hd c (List.mem_cons_self ..))) h1) (defaults_ok (fun x hx => hd x (List.mem_cons_of_mem _ hx)) h2)

theorem generate_ok {E : Env} {cols : List Col} (hd : DefaultsOk E cols) : ∀ {n : Nat} {rows : List (List V)}, generate cols n = .ok rows → ∀ row ∈ rows, RowOk E cols row
  | 0, rows, h => by cases h; simp
  | n + 1, rows, h => by
    unfold generate at h
    obtain ⟨row, h1, h⟩ := bind_eq_ok h
    obtain ⟨l, h2, h⟩ := bind_eq_ok h
    cases h
    intro x hx
    rcases List.mem_cons.1 hx with rfl | hx
    · exact defaults_ok hd h1
    · exact generate_ok hd h2 x hx

theorem parseInsert_ok {E : Env} {cols : List Col} (hd : DefaultsOk E cols) {s r : Bytes} {rows : List (List V)} (h : parseInsert E cols s = .ok (rows, r)) : ∀ row ∈ rows, RowOk E cols row := by
  unfold parseInsert at h
  obtain ⟨o, h1, h⟩ := bind_eq_ok h
  cases o with
  | some r1 =>
    obtain ⟨⟨t, r2⟩, h2, h⟩ := bind_eq_ok h
    cases t <;> simp only [reduceCtorEq] at h
    obtain ⟨rs, h3, h⟩ := bind_eq_ok h
    cases h
    exact generate_ok hd h3
  | none =>
    obtain ⟨o, h2, h⟩ := bind_eq_ok h
    cases o with
    | some r1 =>
      obtain ⟨⟨l, r2⟩, h3, h⟩ := bind_eq_ok h
      obtain ⟨r3, h4, h⟩ := bind_eq_ok h
      exact parseRows_ok hd h
    | none =>
      obtain ⟨r3, h4, h⟩ := bind_eq_ok h
      exact parseRows_ok hd h

end Verif.Insert
