import Verif.Insert.Model
import Verif.Parse.PropsLex
import Verif.Json.PropsText
/-!
# What an INSERT … VALUES says

The texts of literals by column type, of lists and rows, and which value each column of a row gets.
-/
set_option autoImplicit false
namespace Verif.Insert
open Verif Verif.Json.Text Verif.Parse.Lex

/-- a word of the language, in any case -/
def Word (k : String) (w : Bytes) : Prop := w.map lower = strBytes k

/-- digits, a point, digits -/
def RealText (x : Bytes) : Prop := ∃ n ds, n < 2 ^ 63 ∧ (∀ c ∈ ds, 48 ≤ c ∧ c ≤ 57) ∧ x = decDigits n ++ 46 :: ds

/-- a number: its sign, its digits, its text; white space may stand after the minus -/
inductive Num : Bool → LTok → Bytes → Prop
  | int {n : Nat} : n < 2 ^ 63 → Num false (.int n) (decDigits n)
  | real {x : Bytes} : RealText x → Num false (.real x) x
  | neg {t : LTok} {b w : Bytes} : (∀ c ∈ b, isSpace c = true) → Num false t w → Num true t (45 :: (b ++ w))

def signed (m : Bool) (n : Nat) : Int := if m then -(n : Int) else n

/-- a string in quotes that it does not contain, without `\` -/
inductive Quoted : Bytes → Bytes → Prop
  | mk {q : Nat} {s : Bytes} : q = 34 ∨ q = 39 → Utf8 s → q ∉ s → 92 ∉ s → Quoted s (q :: (s ++ [q]))

/-- `k` or nothing, before a literal -/
inductive Maybe (k : String) : Bytes → Prop
  | none : Maybe k []
  | some {w b : Bytes} : Word k w → Blank b → Maybe k (w ++ b)

/-- items separated by commas, with white space and comments around them -/
inductive Listed : List Bytes → Bytes → Prop
  | nil {b : Bytes} : Blank b → Listed [] b
  | one {b w b' : Bytes} : Blank b → Blank b' → Listed [w] (b ++ (w ++ b'))
  | more {b w b' t : Bytes} {ws : List Bytes} : Blank b → Blank b' → ws ≠ [] → Listed ws t → Listed (w :: ws) (b ++ (w ++ (b' ++ 44 :: t)))

/-- a component of a vector -/
inductive Comp (E : Env) : Bytes → Nat → Prop
  | int {m : Bool} {n : Nat} {w : Bytes} : Num m (.int n) w → Comp E w (E.fltOfInt m n)
  | real {m : Bool} {x w : Bytes} : Num m (.real x) w → Comp E w (E.fltOfReal m x)

inductive Comps (E : Env) : List Bytes → List Nat → Prop
  | nil : Comps E [] []
  | cons {w : Bytes} {x : Nat} {ws : List Bytes} {l : List Nat} : Comp E w x → Comps E ws l → Comps E (w :: ws) (x :: l)

/-- a literal for a column of a type: its text and its value -/
inductive Lit (E : Env) : Ty → Bytes → V → Prop
  | null {ty : Ty} {w : Bytes} : Word "null" w → Lit E ty w .null
  | var {ty : Ty} {n : Bytes} : Ident n → (∀ k ∈ kwNames, n.map lower ≠ strBytes k) → E.vars n = some ty → Lit E ty n (.ref n)
  | true {w : Bytes} : Word "true" w → Lit E .bool w (.bool true)
  | false {w : Bytes} : Word "false" w → Lit E .bool w (.bool false)
  | int {m : Bool} {n : Nat} {w : Bytes} : Num m (.int n) w → Lit E .int w (.int (signed m n))
  | intReal {m : Bool} {x w : Bytes} {i : Int} : Num m (.real x) w → E.intOfReal m x = some i → Lit E .int w (.int i)
  | dblInt {m : Bool} {n : Nat} {w : Bytes} : Num m (.int n) w → Lit E .dbl w (.dbl (E.dblOfInt (signed m n)))
  | dbl {m : Bool} {x w : Bytes} : Num m (.real x) w → Lit E .dbl w (.dbl (E.dblOfReal m x))
  | str {s w : Bytes} : Quoted s w → Lit E .str w (.str s)
  | json {v : Json.J} {p : Bool} {d : Nat} : TextOK v → v ≠ .null → Lit E .json (textOf E.libc p d v) (.json (encP v))
  | now {w : Bytes} : Word "current_timestamp" w → Lit E .stamp w (.stamp E.time)
  | unix {n : Nat} : n < 2 ^ 63 → Lit E .stamp (decDigits n) (.stamp n)
  | stamp {pre s w : Bytes} {ts : Func.Ts} {v : Int} : Maybe "timestamp" pre → Quoted s w → Func.tsSet s = .ok ts → Func.tsGetUnix ts E.tz = .ok v →
      Lit E .stamp (pre ++ w) (.stamp v)
  | interval {pre s w : Bytes} {iv : Func.Iv} : Maybe "interval" pre → Quoted s w → Func.ivSet s = .ok iv → Lit E .interval (pre ++ w) (.interval iv)
  | today {w : Bytes} {j : Int} : Word "current_date" w → Func.tsDate E.time = .ok j → Lit E .date w (.date j)
  | date {pre s w : Bytes} {j : Int} : Maybe "date" pre → Quoted s w → Func.dateSet s = .ok j → Lit E .date (pre ++ w) (.date j)
  | vec {pre t : Bytes} {ws : List Bytes} {l : List Nat} : Maybe "vector" pre → Listed ws t → Comps E ws l → Lit E .vec (pre ++ 91 :: (t ++ [93])) (.vec l)
  | uuid {pre s w : Bytes} {u : Codec.Uuid} : Maybe "uuid" pre → Quoted s w → Codec.uuidSet ⟨0, 0, 0, 0, 0, 0⟩ s = some u → Lit E .uuid (pre ++ w) (.uuid u)

/-- the value of a column that is not given: none for an identity, the default else -/
inductive Default (c : Col) : V → Prop
  | identity : c.identity = true → Default c .null
  | dflt : c.identity = false → Default c c.dflt

/-- DEFAULT or a literal -/
inductive Item (E : Env) (c : Col) : Bytes → V → Prop
  | dflt {w : Bytes} {v : V} : Word "default" w → Default c v → Item E c w v
  | lit {w : Bytes} {v : V} : Lit E c.ty w v → Item E c w v

/-- no column list: the items are for the columns that are not dropped, in order -/
inductive Fill (E : Env) : List Col → List Bytes → List V → Prop
  | nil : Fill E [] [] []
  | dropped {c : Col} {cs : List Col} {ws : List Bytes} {row : List V} : c.dropped = true → Fill E cs ws row → Fill E (c :: cs) ws (.null :: row)
  | item {c : Col} {cs : List Col} {w : Bytes} {ws : List Bytes} {v : V} {row : List V} : c.dropped = false → Item E c w v → Fill E cs ws row →
      Fill E (c :: cs) (w :: ws) (v :: row)

/-- a column list: item `k` is a literal for the column that is `k`-th in the list, every other column has its default -/
structure FillList (E : Env) (cols : List Col) (list : List Nat) (ws : List Bytes) (row : List V) : Prop where
  width : row.length = cols.length
  count : ws.length = list.length
  listed : ∀ (k i : Nat) (c : Col) (w : Bytes) (v : V), list[k]? = some i → ws[k]? = some w → cols[i]? = some c → row[i]? = some v → Lit E c.ty w v
  other : ∀ (i : Nat) (c : Col) (v : V), i ∉ list → cols[i]? = some c → row[i]? = some v → Default c v

/-- a row may have NULL in a column -/
def Allowed (cols : List Col) (row : List V) : Prop :=
  ∀ (i : Nat) (c : Col), cols[i]? = some c → row[i]? = some .null → c.notNull = false ∨ c.identity = true ∨ c.stored = true

/-- (item, …), (item, …): the rows of the text; `R`: what the items of a row give -/
inductive Rows (R : List Bytes → List V → Prop) : Bytes → List (List V) → Prop
  | one {b t : Bytes} {ws : List Bytes} {row : List V} : Blank b → Listed ws t → R ws row → Rows R (b ++ 40 :: (t ++ [41])) [row]
  | more {b t b' x : Bytes} {ws : List Bytes} {row : List V} {rows : List (List V)} : Blank b → Listed ws t → R ws row → Blank b' → Rows R x rows →
      Rows R (b ++ 40 :: (t ++ 41 :: (b' ++ 44 :: x))) (row :: rows)

/-- the text after the rows: the end, or something else than a comma -/
inductive Ends : Bytes → Prop
  | eof {b : Bytes} : Blank b → Ends b
  | tok {b w r : Bytes} {t : LTok} : Blank b → Writes w t → CanFollow t r → t ≠ .sym 44 → Ends (b ++ (w ++ r))

/-- DROP COLUMN takes the constraints of the column away, table_mgr_alter.c:402-410 -/
def Clean (cols : List Col) : Prop := ∀ c ∈ cols, c.dropped = true → c.notNull = false ∧ c.identity = false ∧ c.stored = false ∧ c.dflt = .null

/-- a name and the column it names: the first one, not dropped, with this name in any case -/
def Named (cols : List Col) (n : Bytes) (i : Nat) : Prop :=
  ∃ c, cols[i]? = some c ∧ c.dropped = false ∧ c.name.map lower = n.map lower ∧
    ∀ j d, j < i → cols[j]? = some d → d.dropped = true ∨ d.name.map lower ≠ n.map lower

/-- the names of a column list and their columns -/
inductive Names (cols : List Col) : List Bytes → List Nat → Prop
  | nil : Names cols [] []
  | cons {w n : Bytes} {i : Nat} {ws : List Bytes} {l : List Nat} : Writes w (.name n) → Named cols n i → Names cols ws l → Names cols (w :: ws) (i :: l)

/-! ## where rows go -/

/-- a row as it is stored: the values as given, and the next number of the sequence for an identity that is NULL -/
inductive Numbered {S : Type} (draw : S → Int × S) (cols : List Col) (row : List V) (st : S) : List V → S → Prop
  | given : (∀ (i : Nat) (c : Col), cols[i]? = some c → c.identity = true → row[i]? ≠ some V.null) → Numbered draw cols row st row st
  | drawn {i : Nat} {c : Col} : cols[i]? = some c → c.identity = true → row[i]? = some .null → Numbered draw cols row st (row.set i (.int (draw st).1)) (draw st).2

/-- the rows in order -/
inductive NumberedAll {S : Type} (draw : S → Int × S) (cols : List Col) : List (List V) → S → List (List V) → S → Prop
  | nil {st : S} : NumberedAll draw cols [] st [] st
  | cons {row row' : List V} {rows rows' : List (List V)} {st st' st'' : S} : Numbered draw cols row st row' st' → NumberedAll draw cols rows st' rows' st'' →
      NumberedAll draw cols (row :: rows) st (row' :: rows') st''

end Verif.Insert
