import Verif.Parse.Lex
/-!
# What a statement is (C100), in terms of the tokens of the SQL lexer (C80)
-/
set_option autoImplicit false
namespace Verif.Cli
open Verif Verif.Json.Text Verif.Parse.Lex

/-- the token is the given keyword -/
def IsKw (t : LTok) (w : String) : Prop := ∃ i, t = .kw i ∧ kwNames[i]? = some w

/-- the keywords that open and close blocks -/
def blockWords : List String := ["begin", "if", "for", "while", "case", "end"]

/-- the last character of the text that was read: `s` without `r` -/
def lastOf (s r : Bytes) : Option Nat := (s.take (s.length - r.length)).getLast?

/-- white space or ';' -/
def delim (c : Nat) : Bool := isSpace c ∨ c = 59

/-- the word read from `s`, with `r` left, has white space or ';' on both sides (`p` is the character before `s`) -/
def Delimited (p : Option Nat) (s r : Bytes) : Prop := ((∀ c, p = some c → delim c = true) ∨ skipBlank (s.length + 1) s ≠ s) ∧ ∃ d r', r = d :: r' ∧ delim d = true

/-- no comment before the next token -/
def NoComment (s : Bytes) : Prop := isComment (s.dropWhile isSpace) = false

/-- `Ends ic lv p s r`: the statement that `s` goes on with ends before `r`. `lv` blocks are open (BEGIN, IF, FOR, WHILE), and in them `ic` CASE expressions. The end is the first ';'
outside of all of them; what is a ';' or a keyword is what the SQL lexer says. Keywords of blocks have white space or ';' on both sides. -/
inductive Ends : Nat → Nat → Option Nat → Bytes → Bytes → Prop
  | stop {p : Option Nat} {s r : Bytes} : lexNext true s = .ok (.sym 59, r) → Ends 0 0 p s r
  | semi {lv : Nat} {p : Option Nat} {s r t : Bytes} : lexNext true s = .ok (.sym 59, r) → Ends 0 (lv + 1) (some 59) r t → Ends 0 (lv + 1) p s t
  | other {ic lv : Nat} {p : Option Nat} {s r t : Bytes} {k : LTok} : lexNext true s = .ok (k, r) → k ≠ .eof → k ≠ .sym 59 → (∀ w ∈ blockWords, ¬ IsKw k w) →
      Ends ic lv (lastOf s r) r t → Ends ic lv p s t
  | open_ {lv : Nat} {p : Option Nat} {s r t : Bytes} {k : LTok} {w : String} : lexNext true s = .ok (k, r) → w ∈ ["begin", "for", "while"] → IsKw k w → Delimited p s r →
      Ends 0 (lv + 1) (lastOf s r) r t → Ends 0 lv p s t
  | case_ {ic lv : Nat} {p : Option Nat} {s r t : Bytes} {k : LTok} : lexNext true s = .ok (k, r) → IsKw k "case" → Delimited p s r → Ends (ic + 1) lv (lastOf s r) r t → Ends ic lv p s t
  | endCase {ic lv : Nat} {p : Option Nat} {s r t : Bytes} {k : LTok} : lexNext true s = .ok (k, r) → IsKw k "end" → Delimited p s r → Ends ic lv (lastOf s r) r t → Ends (ic + 1) lv p s t
  | end_ {lv : Nat} {p : Option Nat} {s r t : Bytes} {k : LTok} : lexNext true s = .ok (k, r) → IsKw k "end" → Delimited p s r → Ends 0 lv (lastOf s r) r t → Ends 0 (lv + 1) p s t
  /-- IF condition THEN ... END -/
  | if_ {lv : Nat} {p : Option Nat} {s r r2 t : Bytes} {k k2 : LTok} : lexNext true s = .ok (k, r) → IsKw k "if" → Delimited p s r →
      lexNext true r = .ok (k2, r2) → k2 ≠ .eof → k2 ≠ .sym 59 → ¬ IsKw k2 "exists" → ¬ IsKw k2 "not" → Ends 0 (lv + 1) (lastOf s r) r t → Ends 0 lv p s t
  /-- IF EXISTS -/
  | ifExists {ic lv : Nat} {p : Option Nat} {s r r2 t : Bytes} {k k2 : LTok} : lexNext true s = .ok (k, r) → IsKw k "if" → Delimited p s r →
      lexNext true r = .ok (k2, r2) → IsKw k2 "exists" → NoComment r → Delimited (lastOf s r) r r2 → Ends ic lv (lastOf r r2) r2 t → Ends ic lv p s t
  /-- IF NOT EXISTS -/
  | ifNotExists {ic lv : Nat} {p : Option Nat} {s r r2 r3 t : Bytes} {k k2 k3 : LTok} : lexNext true s = .ok (k, r) → IsKw k "if" → Delimited p s r →
      lexNext true r = .ok (k2, r2) → IsKw k2 "not" → NoComment r → Delimited (lastOf s r) r r2 → lexNext true r2 = .ok (k3, r3) → IsKw k3 "exists" → Ends ic lv (lastOf r2 r3) r3 t → Ends ic lv p s t
  /-- END IF; -/
  | ifSemi {ic lv : Nat} {p : Option Nat} {s r r2 t : Bytes} {k : LTok} : lexNext true s = .ok (k, r) → IsKw k "if" → Delimited p s r →
      lexNext true r = .ok (.sym 59, r2) → NoComment r → Ends ic lv (lastOf s r) r t → Ends ic lv p s t

/-- white space only -/
def blank (s : Bytes) : Bool := s.all isSpace

/-- a text made of statements, the list of them; they begin where the one before ended. A statement does not begin with '#'. -/
inductive Stmts : Bytes → List Bytes → Prop
  | nil {s : Bytes} : blank s = true → Stmts s []
  | cons {b r : Bytes} {bs : List Bytes} : Ends 0 0 none (b ++ r) r → (skipBlank ((b ++ r).length + 1) (b ++ r)).headD 0 ≠ 35 → Stmts r bs → Stmts (b ++ r) (b :: bs)

/-- without the white space at the start -/
def strip (s : Bytes) : Bytes := s.dropWhile isSpace

end Verif.Cli
