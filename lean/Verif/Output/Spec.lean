import Verif.Output.Model
/-!
# Specification of a response body: the JSON grammar of RFC 8259, and the document a result stands for

`Doc N v t`: the text `t` is a JSON text (RFC 8259, sections 2-7) for the value `v`. `N r t` says that `t` is the number text of the
real `r` (the value of a decimal text is not modelled). Nothing here refers to the printing functions of the server.
-/
set_option autoImplicit false
namespace Verif.Output
open Verif Verif.Json

/-- RFC 8259, section 2: ws -/
def Ws (w : Bytes) : Prop := ∀ c ∈ w, c = 32 ∨ c = 9 ∨ c = 10 ∨ c = 13

/-- RFC 8259, section 7: the two-character escapes, letter and character -/
def escapes : List (Nat × Nat) := [(34, 34), (92, 92), (47, 47), (98, 8), (102, 12), (110, 10), (114, 13), (116, 9)]

/-- RFC 8259, section 7, and RFC 3629 for the characters over 127: one character of a string, its UTF-8 bytes and its text (`\u` is left out) -/
inductive Chr : Bytes → Bytes → Prop
  | ascii {a : Nat} : 32 ≤ a → a < 128 → a ≠ 34 → a ≠ 92 → Chr [a] [a]
  | esc {x c : Nat} : (x, c) ∈ escapes → Chr [c] [92, x]
  | two {a b : Nat} : 0xC2 ≤ a → a ≤ 0xDF → 0x80 ≤ b → b ≤ 0xBF → Chr [a, b] [a, b]
  | three {a b c : Nat} : 0xE0 ≤ a → a ≤ 0xEF → (if a = 0xE0 then 0xA0 else 0x80) ≤ b → b ≤ (if a = 0xED then 0x9F else 0xBF) →
      0x80 ≤ c → c ≤ 0xBF → Chr [a, b, c] [a, b, c]
  | four {a b c d : Nat} : 0xF0 ≤ a → a ≤ 0xF4 → (if a = 0xF0 then 0x90 else 0x80) ≤ b → b ≤ (if a = 0xF4 then 0x8F else 0xBF) →
      0x80 ≤ c → c ≤ 0xBF → 0x80 ≤ d → d ≤ 0xBF → Chr [a, b, c, d] [a, b, c, d]

/-- the characters between the quotes -/
inductive Chrs : Bytes → Bytes → Prop
  | nil : Chrs [] []
  | cons {x y s t : Bytes} : Chr x y → Chrs s t → Chrs (x ++ s) (y ++ t)

def Digits (t : Bytes) : Prop := t ≠ [] ∧ ∀ c ∈ t, 48 ≤ c ∧ c ≤ 57
/-- RFC 8259, section 6: int, without the minus -/
def IntPart (t : Bytes) : Prop := t = [48] ∨ (Digits t ∧ t.head? ≠ some 48)
/-- RFC 8259, section 6: number -/
def IsNumber (t : Bytes) : Prop :=
  ∃ minus int frac exp, t = minus ++ int ++ frac ++ exp ∧ (minus = [] ∨ minus = [45]) ∧ IntPart int ∧
    (frac = [] ∨ ∃ d, frac = 46 :: d ∧ Digits d) ∧
    (exp = [] ∨ ∃ e s d, exp = e :: s ++ d ∧ (e = 101 ∨ e = 69) ∧ (s = [] ∨ s = [43] ∨ s = [45]) ∧ Digits d)
/-- the value of decimal digits -/
def digitsVal (t : Bytes) : Nat := t.foldl (fun v c => v * 10 + (c - 48)) 0
/-- the number text of an integer -/
def IntIs (i : Int) (t : Bytes) : Prop := ∃ d, IntPart d ∧ ((t = d ∧ i = digitsVal d) ∨ (t = 45 :: d ∧ i = -(digitsVal d : Int)))

mutual
inductive Doc (N : Nat → Bytes → Prop) : J → Bytes → Prop
  | null : Doc N .null [110, 117, 108, 108]
  | true : Doc N (.bool true) [116, 114, 117, 101]
  | false : Doc N (.bool false) [102, 97, 108, 115, 101]
  | int {i : Int} {t : Bytes} : IntIs i t → Doc N (.int i) t
  | real {r : Nat} {t : Bytes} : N r t → IsNumber t → Doc N (.real r) t
  | str {s t : Bytes} : Chrs s t → Doc N (.str s) ([34] ++ t ++ [34])
  | arr0 {w : Bytes} : Ws w → Doc N (.arr []) ([91] ++ w ++ [93])
  | arr {l : List J} {t : Bytes} : Elems N l t → Doc N (.arr l) ([91] ++ t ++ [93])
  | obj0 {w : Bytes} : Ws w → Doc N (.obj []) ([123] ++ w ++ [125])
  | obj {l : List (Bytes × J)} {t : Bytes} : Members N l t → Doc N (.obj l) ([123] ++ t ++ [125])
/-- value *( "," value ) -/
inductive Elems (N : Nat → Bytes → Prop) : List J → Bytes → Prop
  | one {v : J} {w t w' : Bytes} : Ws w → Doc N v t → Ws w' → Elems N [v] (w ++ t ++ w')
  | more {v : J} {l : List J} {w t w' u : Bytes} : Ws w → Doc N v t → Ws w' → Elems N l u → Elems N (v :: l) (w ++ t ++ w' ++ [44] ++ u)
/-- member *( "," member ) -/
inductive Members (N : Nat → Bytes → Prop) : List (Bytes × J) → Bytes → Prop
  | one {k : Bytes} {v : J} {w kt w1 w2 t w' : Bytes} : Ws w → Chrs k kt → Ws w1 → Ws w2 → Doc N v t → Ws w' →
      Members N [(k, v)] (w ++ [34] ++ kt ++ [34] ++ w1 ++ [58] ++ w2 ++ t ++ w')
  | more {k : Bytes} {v : J} {l : List (Bytes × J)} {w kt w1 w2 t w' u : Bytes} : Ws w → Chrs k kt → Ws w1 → Ws w2 → Doc N v t → Ws w' →
      Members N l u → Members N ((k, v) :: l) (w ++ [34] ++ kt ++ [34] ++ w1 ++ [58] ++ w2 ++ t ++ w' ++ [44] ++ u)
end

/-- the JSON value a cell stands for -/
inductive Means : Cell → J → Prop
  | null : Means .null .null
  | true {i : Int} : i > 0 → Means (.bool i) (.bool true)
  | false {i : Int} : i ≤ 0 → Means (.bool i) (.bool false)
  | int {i : Int} : Means (.int i) (.int i)
  | dbl {r : Nat} : Means (.dbl r) (.real r)
  | str {s : Bytes} : Means (.str s) (.str s)
  /-- a stored document; its reals as they are stored (C01) -/
  | json {v : J} : WF v → Means (.json (enc v)) (stored v)
  /-- dates, timestamps, intervals and uuids are strings (C71, C74, C75 and C33 say which) -/
  | date {j : Int} {t : Bytes} : Func.dateGet j = .ok t → Means (.date j) (.str t)
  | stamp {v : Int} {off : Option Int} {t : Bytes} : Func.tsGet v off = .ok t → Means (.stamp v off) (.str t)
  | interval {iv : Func.Iv} : Means (.interval iv) (.str (Func.ivGet iv))
  | vec {l : List Nat} : Means (.vec l) (.arr (l.map J.real))
  | uuid {u : Codec.Uuid} : Means (.uuid u) (.str (Codec.uuidGet u))

/-- the cells of a row, in the order of the columns -/
inductive Cells : List Cell → List J → Prop
  | nil : Cells [] []
  | cons {c : Cell} {v : J} {l : List Cell} {vs : List J} : Means c v → Cells l vs → Cells (c :: l) (v :: vs)

/-- the document of one row: an object with the names of the columns, or with the minimal format an array; of one column only the value -/
inductive RowDoc (minimal : Bool) (names : List Bytes) : List Cell → J → Prop
  | obj {l : List Cell} {vs : List J} : minimal = false → Cells l vs → vs.length = names.length → RowDoc minimal names l (.obj (names.zip vs))
  | arr {l : List Cell} {vs : List J} : minimal = true → Cells l vs → vs.length = names.length → 2 ≤ vs.length → RowDoc minimal names l (.arr vs)
  | one {c : Cell} {v : J} : minimal = true → names.length = 1 → Means c v → RowDoc minimal names [c] v

inductive RowDocs (minimal : Bool) (names : List Bytes) : List (List Cell) → List J → Prop
  | nil : RowDocs minimal names [] []
  | cons {r : List Cell} {v : J} {l : List (List Cell)} {vs : List J} :
      RowDoc minimal names r v → RowDocs minimal names l vs → RowDocs minimal names (r :: l) (v :: vs)

/-- the document of a result: the array of its rows; the values of an expression are one row -/
inductive ResultDoc (minimal : Bool) (names : List Bytes) : Result → J → Prop
  | store {rows : List (List Cell)} {vs : List J} : RowDocs minimal names rows vs → ResultDoc minimal names (.store rows) (.arr vs)
  | values {row : List Cell} {v : J} : RowDoc minimal names row v → ResultDoc minimal names (.values row) (.arr [v])

/-- bytes that are the UTF-8 of characters JSON can hold without `\u`: everything but the control characters without an escape of their own -/
def Printable (s : Bytes) : Prop := ∃ t, Chrs s t

mutual
/-- values with printable strings only, and reals whose text `N` is a number -/
def Clean (num : Nat → Prop) : J → Prop
  | .null | .bool _ | .int _ => True
  | .real r => num r
  | .str s => Printable s
  | .arr l => CleanList num l
  | .obj l => CleanFields num l
def CleanList (num : Nat → Prop) : List J → Prop
  | [] => True
  | v :: t => Clean num v ∧ CleanList num t
def CleanFields (num : Nat → Prop) : List (Bytes × J) → Prop
  | [] => True
  | (k, v) :: t => Printable k ∧ Clean num v ∧ CleanFields num t
end

/-- a column name: non-empty, of characters over the space other than the quote and the backslash (the lexer gives letters, digits, `_` and `$`) -/
def NameOk (k : Bytes) : Prop := ∀ c ∈ k, 32 ≤ c ∧ c < 128 ∧ c ≠ 34 ∧ c ≠ 92

end Verif.Output
