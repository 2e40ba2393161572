import Verif.Parse.Props
import Verif.Parse.PropsLex
/-!
# Text to trees (C80)
-/
set_option linter.unusedSimpArgs false
set_option linter.unusedVariables false
namespace Verif.Parse
open Verif Verif.Json.Text Verif.Parse.Lex

/-- the place of a keyword -/
def kwIdx (k : String) : Nat := kwNames.findIdx (· == k)

/-- what the expression parser sees in a token: priority_map and the cases of parse_expr.c:22-66. Names and strings are numbered by `nm` and `st`;
AT TIMEZONE, methods and the tokens of other expressions are left out. -/
def tokOf (nm st : Bytes → Nat) : LTok → Tok
  | .int v => .int v
  | .name s => .name (nm s)
  | .str raw _ => .val (st raw)
  | .sym c =>
    if c = 40 then .lp else if c = 41 then .rp else if c = 91 then .lb else if c = 93 then .rb else if c = 44 then .comma
    else if c = 61 then .op .eq else if c = 62 then .op .gt else if c = 60 then .op .lt
    else if c = 124 then .op .bor else if c = 94 then .op .xor else if c = 38 then .op .band
    else if c = 43 then .op .add else if c = 45 then .op .sub else if c = 42 then .op .mul else if c = 47 then .op .div else if c = 37 then .op .mod
    else if c = 126 then .tilde else .stop
  | .cat => .op .cat
  | .neq => .op .neq
  | .gte => .op .gte
  | .lte => .op .lte
  | .shl => .op .shl
  | .shr => .op .shr
  | .kw i =>
    if i = kwIdx "and" then .op .and else if i = kwIdx "or" then .op .or else if i = kwIdx "not" then .not
    else if i = kwIdx "between" then .between else if i = kwIdx "is" then .is else if i = kwIdx "like" then .like
    else if i = kwIdx "in" then .inn else if i = kwIdx "any" then .any else if i = kwIdx "all" then .all else .stop
  | _ => .stop

/-- lex the text and parse the expression -/
def readText (nm st : Bytes → Nat) (s : Bytes) : Res (Ast × List Tok) :=
  (lexAll (s.length + 1) s).bind fun l => parseExpr (l.map (tokOf nm st))

/-- **C80** a text whose tokens spell an expression is read as the tree they spell, whatever the white space and comments between them -/
theorem C80_expression {s : Bytes} {l : List LTok} {e : Ast} (nm st : Bytes → Nat) (h : Text s l) (he : Spells (l.map (tokOf nm st)) e) :
    readText nm st s = .ok (e, []) := by
  unfold readText
  rw [C80_text h _ (by omega)]
  have := C79_read_partial _ e [] he (.inl rfl)
  rw [List.append_nil] at this
  exact this

/-! ## Every tree has a text -/

/-- how an operator is written -/
def BinOp.word : BinOp → Bytes
  | .or => strBytes "OR" | .and => strBytes "and"
  | .eq => [61] | .neq => [60, 62] | .gte => [62, 61] | .lte => [60, 61] | .gt => [62] | .lt => [60]
  | .bor => [124] | .xor => [94] | .band => [38] | .shl => [60, 60] | .shr => [62, 62]
  | .add => [43] | .sub => [45] | .cat => [124, 124] | .mul => [42] | .div => [47] | .mod => [37]

/-- names and strings behind the numbers of a tree -/
structure Dict where
  name : Nat → Bytes
  str : Nat → Bytes

/-- names are identifiers and no keywords, strings are UTF-8 -/
def Dict.Ok (d : Dict) : Prop := (∀ n, Ident (d.name n) ∧ ∀ k ∈ kwNames, (d.name n).map lower ≠ strBytes k) ∧ ∀ n, Utf8 (d.str n)

/-- the text of a tree: a space after every token, parentheses around every operator -/
def Tree.text (d : Dict) : Tree → Bytes
  | .val n => 34 :: (escape (d.str n) ++ [34, 32])
  | .name n => d.name n ++ [32]
  | .int n => decDigits n ++ [32]
  | .un .not t => [40, 32] ++ strBytes "not " ++ [40, 32] ++ t.text d ++ [41, 32, 41, 32]
  | .un .neg t => [40, 32, 45, 32, 40, 32] ++ t.text d ++ [41, 32, 41, 32]
  | .un .tilde t => [40, 32, 126, 32, 40, 32] ++ t.text d ++ [41, 32, 41, 32]
  | .bin o l r => [40, 32] ++ l.text d ++ o.word ++ [32] ++ r.text d ++ [41, 32]

/-- integers that fit -/
def Tree.Fits : Tree → Prop
  | .int n => n < 2 ^ 63
  | .un _ t => t.Fits
  | .bin _ l r => l.Fits ∧ r.Fits
  | _ => True

def BinOp.ltok : BinOp → LTok
  | .or => .kw (kwIdx "or") | .and => .kw (kwIdx "and")
  | .eq => .sym 61 | .neq => .neq | .gte => .gte | .lte => .lte | .gt => .sym 62 | .lt => .sym 60
  | .bor => .sym 124 | .xor => .sym 94 | .band => .sym 38 | .shl => .shl | .shr => .shr
  | .add => .sym 43 | .sub => .sym 45 | .cat => .cat | .mul => .sym 42 | .div => .sym 47 | .mod => .sym 37

def UnOp.ltok : UnOp → LTok
  | .not => .kw (kwIdx "not") | .neg => .sym 45 | .tilde => .sym 126

/-- the tokens of a tree -/
def Tree.ltoks (d : Dict) : Tree → List LTok
  | .val n => [.str (escape (d.str n)) (hasEscape (d.str n))]
  | .name n => [.name (d.name n)]
  | .int n => [.int n]
  | .un u t => .sym 40 :: u.ltok :: .sym 40 :: (t.ltoks d ++ [.sym 41, .sym 41])
  | .bin o l r => .sym 40 :: (l.ltoks d ++ o.ltok :: (r.ltoks d ++ [.sym 41]))

theorem text_space {r : Bytes} {l : List LTok} (h : Text r l) : Text (32 :: r) l := by
  cases h with
  | nil hb => exact .nil (.space rfl hb)
  | cons hb hw hc ht => rw [← List.cons_append]; exact .cons (.space rfl hb) hw hc ht

theorem follow_space (t : LTok) (r : Bytes) : CanFollow t (32 :: r) := by
  cases t with
  | sym c =>
    refine ⟨?_, by omega⟩
    intro p hp
    have : p.2.1 ≠ 32 := by
      revert p; decide
    omega
  | int v => refine ⟨by omega, by omega, by omega, by omega⟩
  | kw i => exact ⟨by decide, by omega⟩
  | name s => exact ⟨by decide, by omega⟩
  | compound s => exact ⟨by decide, by omega⟩
  | _ => trivial

/-- a token and a space -/
theorem text_tok {w r : Bytes} {t : LTok} {l : List LTok} (hw : Writes w t) (h : Text r l) : Text (w ++ 32 :: r) (t :: l) :=
  .cons (b := []) .nil hw (follow_space t r) (text_space h)

theorem BinOp.writes (o : BinOp) : Writes o.word o.ltok := by
  cases o
  case or => exact .kw (k := "or") (by decide +kernel) (by decide +kernel)
  case and => exact .kw (k := "and") (by decide +kernel) (by decide +kernel)
  all_goals first
    | exact .sym _ (by decide)
    | exact .pair (by simp [pairs, BinOp.ltok])

theorem Tree.isText (d : Dict) (hd : d.Ok) : ∀ (t : Tree) (r : Bytes) (l : List LTok), t.Fits → Text r l → Text (t.text d ++ r) (t.ltoks d ++ l)
  | .val n, r, l, _, h => by
    have := text_tok (.escaped (hd.2 n)) h
    simpa [Tree.text, Tree.ltoks] using this
  | .name n, r, l, _, h => by
    have := text_tok (.name (hd.1 n).1 (hd.1 n).2) h
    simpa [Tree.text, Tree.ltoks] using this
  | .int n, r, l, hf, h => by
    have := text_tok (.int n hf) h
    simpa [Tree.text, Tree.ltoks] using this
  | .un u t, r, l, hf, h => by
    have c1 := text_tok (.sym 41 (by decide)) (text_tok (.sym 41 (by decide)) h)
    have c2 := text_tok (.sym 40 (by decide)) (Tree.isText d hd t _ _ hf c1)
    have hn : Writes (strBytes "not") (.kw (kwIdx "not")) := .kw (k := "not") (by decide +kernel) (by decide +kernel)
    cases u with
    | not => 
      have c3 := text_tok (.sym 40 (by decide)) (text_tok hn c2)
      simpa [Tree.text, Tree.ltoks, UnOp.ltok, strBytes] using c3
    | neg =>
      have c3 := text_tok (.sym 40 (by decide)) (text_tok (.sym 45 (by decide)) c2)
      simpa [Tree.text, Tree.ltoks, UnOp.ltok] using c3
    | tilde =>
      have c3 := text_tok (.sym 40 (by decide)) (text_tok (.sym 126 (by decide)) c2)
      simpa [Tree.text, Tree.ltoks, UnOp.ltok] using c3
  | .bin o a b, r, l, hf, h => by
    have c1 := Tree.isText d hd b _ _ hf.2 (text_tok (.sym 41 (by decide)) h)
    have c2 := Tree.isText d hd a _ _ hf.1 (text_tok o.writes c1)
    have c3 := text_tok (.sym 40 (by decide)) c2
    simpa [Tree.text, Tree.ltoks] using c3

theorem BinOp.back (nm st : Bytes → Nat) (o : BinOp) : tokOf nm st o.ltok = .op o := by cases o <;> rfl

theorem UnOp.back (nm st : Bytes → Nat) (u : UnOp) : tokOf nm st u.ltok = u.tok := by cases u <;> rfl

theorem Tree.back (d : Dict) (nm st : Bytes → Nat) (hn : ∀ n, nm (d.name n) = n) (hs : ∀ n, st (escape (d.str n)) = n) :
    ∀ t : Tree, (t.ltoks d).map (tokOf nm st) = t.full
  | .val n => by simp [Tree.ltoks, Tree.full, tokOf, hs]
  | .name n => by simp [Tree.ltoks, Tree.full, tokOf, hn]
  | .int n => by simp [Tree.ltoks, Tree.full, tokOf]
  | .un u t => by
    have h1 : tokOf nm st (.sym 40) = .lp := rfl
    have h2 : tokOf nm st (.sym 41) = .rp := rfl
    simp [Tree.ltoks, Tree.full, parens, h1, h2, UnOp.back, Tree.back d nm st hn hs t]
  | .bin o a b => by
    have h1 : tokOf nm st (.sym 40) = .lp := rfl
    have h2 : tokOf nm st (.sym 41) = .rp := rfl
    simp [Tree.ltoks, Tree.full, parens, h1, h2, BinOp.back, Tree.back d nm st hn hs a, Tree.back d nm st hn hs b]

/-- **C80** every tree of names, strings, integers below 2^63 and operators, written as text, is read back as this tree -/
theorem C80_roundtrip (d : Dict) (hd : d.Ok) (nm st : Bytes → Nat) (hn : ∀ n, nm (d.name n) = n) (hs : ∀ n, st (escape (d.str n)) = n)
    (t : Tree) (ht : t.Fits) : readText nm st (t.text d) = .ok (t.ast, []) := by
  have h1 := Tree.isText d hd t [] [] ht (.nil .nil)
  rw [List.append_nil, List.append_nil] at h1
  refine C80_expression nm st h1 ?_
  rw [Tree.back d nm st hn hs]
  exact t.full_gr 0 .fin

/-- names `_`, `_a`, `_aa`, ... and strings of quotes meet the hypotheses -/
example : ∃ (d : Dict) (nm st : Bytes → Nat), d.Ok ∧ (∀ n, nm (d.name n) = n) ∧ ∀ n, st (escape (d.str n)) = n := by
  have hr : ∀ n, escape (List.replicate n 34) = (List.replicate n [92, 34]).flatten := by
    intro n
    induction n with
    | zero => rfl
    | succ n ih => simp [List.replicate_succ, escape, escapeChar, ih]
  refine ⟨⟨fun n => 95 :: List.replicate n 97, fun n => List.replicate n 34⟩, fun s => s.length - 1, fun s => s.length / 2, ⟨?_, ?_⟩, ?_, ?_⟩
  · intro n
    refine ⟨⟨⟨95, _, rfl, by decide⟩, ?_⟩, ?_⟩
    · intro c hc
      simp only [List.mem_cons] at hc
      rcases hc with rfl | hc
      · decide
      · rw [(List.mem_replicate.1 hc).2]; decide
    · intro k hk e
      obtain ⟨-, -, -, h4, -⟩ := kwNames_dec k hk
      rw [← e] at h4
      exact h4 rfl
  · intro n
    induction n with
    | zero => exact .nil
    | succ n ih => exact .one (by decide) ih
  · intro n; simp
  · intro n; simp [hr]

end Verif.Parse
