import Verif.Import.Model
/-!
# What the text of an import says
-/
set_option autoImplicit false
namespace Verif.Import
open Verif Verif.Json.Text Verif.Parse.Lex Verif.Insert

/-- values by position: a literal for each column that is not dropped, in order -/
inductive Given (E : Env) : List Col → List Bytes → List V → Prop
  | nil : Given E [] [] []
  | dropped {c : Col} {cs : List Col} {ws : List Bytes} {row : List V} : c.dropped = true → Given E cs ws row → Given E (c :: cs) ws (.null :: row)
  | item {c : Col} {cs : List Col} {w : Bytes} {ws : List Bytes} {v : V} {row : List V} : c.dropped = false → Lit E c.ty w v → Given E cs ws row →
      Given E (c :: cs) (w :: ws) (v :: row)

/-- `"key": literal` for the column the key names, in any case -/
inductive Member (E : Env) (cols : List Col) : Bytes → Nat → V → Prop
  | mk {k kq b b' w : Bytes} {i : Nat} {c : Col} {v : V} : Quoted k kq → Named cols k i → cols[i]? = some c → Blank b → Blank b' → Lit E c.ty w v →
      Member E cols (kq ++ (b ++ 58 :: (b' ++ w))) i v

inductive Members (E : Env) (cols : List Col) : List Bytes → List (Nat × V) → Prop
  | nil : Members E cols [] []
  | cons {m : Bytes} {ms : List Bytes} {i : Nat} {v : V} {l : List (Nat × V)} : Member E cols m i v → Members E cols ms l → Members E cols (m :: ms) ((i, v) :: l)

/-- the row of an object: the value of a key in its column, defaults in the columns without a key -/
structure ByName (cols : List Col) (l : List (Nat × V)) (row : List V) : Prop where
  width : row.length = cols.length
  named : ∀ (i : Nat) (v : V), (i, v) ∈ l → row[i]? = some v
  other : ∀ (i : Nat) (c : Col) (v : V), (∀ x, (i, x) ∉ l) → cols[i]? = some c → row[i]? = some v → Default c v

/-- a record of JSON: an array of the values in order (of the listed columns), an object of the values by name, or, for a list of one column, the document itself -/
inductive Record (E : Env) (cols : List Col) : Option (List Nat) → Bytes → List V → Prop
  | array {t : Bytes} {ws : List Bytes} {row : List V} : Listed ws t → Given E cols ws row → Record E cols none (91 :: (t ++ [93])) row
  | arrayOf {l : List Nat} {t : Bytes} {ws : List Bytes} {row : List V} : Listed ws t → FillList E cols l ws row → Record E cols (some l) (91 :: (t ++ [93])) row
  | object {t : Bytes} {ms : List Bytes} {l : List (Nat × V)} {row : List V} : Listed ms t → Members E cols ms l → (l.map Prod.fst).Nodup → ByName cols l row →
      Record E cols none (123 :: (t ++ [125])) row
  | document {i : Nat} {w : Bytes} {row : List V} : FillList E cols [i] [123 :: w] row → Record E cols (some [i]) (123 :: w) row

inductive Records (R : Bytes → List V → Prop) : List Bytes → List (List V) → Prop
  | nil : Records R [] []
  | cons {t : Bytes} {ts : List Bytes} {row : List V} {rows : List (List V)} : R t row → Records R ts rows → Records R (t :: ts) (row :: rows)

/-- a line of CSV: the values in order (of the listed columns) -/
inductive Line (E : Env) (cols : List Col) : Option (List Nat) → Bytes → List V → Prop
  | all {t : Bytes} {ws : List Bytes} {row : List V} : Listed ws t → Given E cols ws row → Line E cols none t row
  | listed {l : List Nat} {t : Bytes} {ws : List Bytes} {row : List V} : Listed ws t → FillList E cols l ws row → Line E cols (some l) t row

/-- lines: records one after the other, a newline between them -/
inductive Lines (R : Bytes → List V → Prop) : Bytes → List (List V) → Prop
  | one {t : Bytes} {row : List V} : R t row → Lines R t [row]
  | more {t x : Bytes} {row : List V} {rows : List (List V)} : R t row → Lines R x rows → Lines R (t ++ 10 :: x) (row :: rows)

/-- a record of JSON with white space and comments around it -/
inductive Spaced (R : Bytes → List V → Prop) : Bytes → List V → Prop
  | mk {b t b' : Bytes} {row : List V} : Blank b → R t row → Blank b' → Spaced R (b ++ (t ++ b')) row

/-- the text of a request: the rows it says -/
inductive Body (E : Env) (cols : List Col) (list : Option (List Nat)) : Content → Bytes → List (List V) → Prop
  | csv {x : Bytes} {rows : List (List V)} : Lines (Line E cols list) x rows → Body E cols list .csv x rows
  | jsonl {x : Bytes} {rows : List (List V)} : Lines (Spaced (Record E cols list)) x rows → Body E cols list .jsonl x rows
  | json {b t b' : Bytes} {ts : List Bytes} {rows : List (List V)} : Blank b → ts ≠ [] → Listed ts t → Records (Record E cols list) ts rows → Blank b' →
      Body E cols list .json (b ++ 91 :: (t ++ 93 :: b')) rows

/-- NULL is not given where it may not be; a list leaves the columns that are not listed to the check on storing -/
def Checked (cols : List Col) (list : Option (List Nat)) (row : List V) : Prop :=
  ∀ (i : Nat) (c : Col), cols[i]? = some c → row[i]? = some .null → (∀ l, list = some l → i ∈ l) → c.notNull = false ∨ c.identity = true ∨ c.stored = true

/-- the list of columns a request has: names of columns in the order of the table -/
inductive Spec (cols : List Col) : Bytes → List Nat → Prop
  | one {n : Bytes} {i : Nat} : n ≠ [] → 44 ∉ n → Named cols n i → Spec cols n [i]
  | more {n s : Bytes} {i j : Nat} {l : List Nat} : n ≠ [] → 44 ∉ n → Named cols n i → Spec cols s (j :: l) → i < j → Spec cols (n ++ 44 :: s) (i :: j :: l)

/-- the last column of the table has not been dropped -/
def LastLive (cols : List Col) : Prop := ∀ c, cols.getLast? = some c → c.dropped = false

end Verif.Import
