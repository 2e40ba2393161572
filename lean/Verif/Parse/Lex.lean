import Verif.Json.TextModel
import Verif.Func.Interval
/-!
# The lexer: compiler/parser/lex.c, keyword.c

Text is a byte list; a position is the rest of the text. strtod takes the longest decimal number; its value (and the range error) is left out:
a real token is the text it was read from. The bytes after the end of the text are taken not to continue a number.
-/
set_option linter.unusedVariables false
namespace Verif.Parse.Lex
open Verif Verif.Json.Text Verif.Func

/-- tokens, keyword.h:20-60 -/
inductive LTok where
  | eof
  | int (v : Nat)
  | real (text : Bytes)
  | sym (c : Nat)
  | method | assign | cat | arrow | neq | gte | lte | shl | shr
  | name (s : Bytes)
  | compound (s : Bytes)
  | compoundStar (s : Bytes)
  | kw (i : Nat)
  | str (raw : Bytes) (escape : Bool)
deriving DecidableEq, Repr

/-- the names of `keywords[]`, keyword.c:20-210, in order -/
def kwNames : List String :=
  ["and", "add", "any", "all", "alter", "asc", "avg", "as", "at", "always", "begin", "between", "by", "break",
   "current_timestamp", "current_date", "cast", "case", "call", "conflict", "count", "commit", "create", "checkpoint", "cascade",
   "column", "continue", "delete", "declare", "distinct", "do", "drop", "desc", "debug", "default", "date", "database", "extract",
   "else", "elsif", "end", "error", "explain", "exists", "expire", "extended", "execute", "false", "from", "for", "function",
   "group", "generate", "generated", "having", "is", "in", "insert", "into", "interval", "inner", "if", "index", "include",
   "identity", "join", "key", "like", "loop", "limit", "left", "local", "logged", "lock", "min", "max", "null", "not", "nothing",
   "or", "on", "offset", "order", "outer", "out", "profile", "partitions", "partition", "pool", "primary", "pause", "right",
   "returning", "return", "replace", "rename", "replica", "repl", "replication", "random", "resolve", "resolved", "resume",
   "select", "self", "set", "show", "sum", "start", "stop", "subscribe", "switch", "secret", "stored", "storage", "true",
   "timestamp", "timezone", "then", "to", "table", "truncate", "token", "tier", "update", "uuid", "unset", "use", "user",
   "unique", "using", "uri", "unsubscribe", "unlogged", "values", "vector", "view", "when", "where", "while", "with", "watch",
   "workers"]

/-- keywords_alpha, keyword.c:212-240: where the keywords of a letter start -/
def kwAlpha : List (Option Nat) :=
  [some 0, some 10, some 14, some 27, some 37, some 47, some 51, some 54, some 55, some 65, some 66, some 67, some 74, some 76, some 79, some 85, none, some 91, some 103, some 115, some 124, some 134, some 137, none, none, none]

def strBytes (s : String) : Bytes := s.toList.map Char.toNat

/-- tolower in the C locale -/
def lower (c : Nat) : Nat := if 65 ≤ c ∧ c ≤ 90 then c + 32 else c

/-- str_is_case, str.h:139-143 -/
def isCase (name kw : Bytes) : Bool := name.length = kw.length ∧ name.map lower = kw.map lower

/-- the loop of lex_keyword_match, lex.c:148-156: up to the end of the table or the next letter -/
def kwScan (name : Bytes) (ref : Nat) : Nat → List Bytes → Option Nat
  | _, [] => none
  | i, k :: t => if k.headD 0 ≠ ref then none else if isCase name k then some i else kwScan name ref (i + 1) t

/-- lex_keyword_match, lex.c:141-158, for a table of keywords -/
def kwMatchIn (alpha : List (Option Nat)) (words : List Bytes) (name : Bytes) : Option Nat :=
  (alpha[lower (name.headD 0) - 97]?.getD none).elim none fun i => kwScan name (lower (name.headD 0)) i (words.drop i)

def kwMatch (name : Bytes) : Option Nat := kwMatchIn kwAlpha (kwNames.map strBytes) name

/-- ispunct in the C locale -/
def isPunct (c : Nat) : Bool := (33 ≤ c ∧ c ≤ 47) ∨ (58 ≤ c ∧ c ≤ 64) ∨ (91 ≤ c ∧ c ≤ 96) ∨ (123 ≤ c ∧ c ≤ 126)

/-- the comment at a position, lex.c:205-213: up to the end of the line -/
def isComment : Bytes → Bool
  | 45 :: 45 :: _ => true
  | _ => false

/-- white space and comments, lex.c:195-216 -/
def skipBlank : Nat → Bytes → Bytes
  | 0, s => s
  | f + 1, s =>
    let s := s.dropWhile isSpace
    if isComment s then skipBlank f (s.dropWhile (fun c => decide (c ≠ 10))) else s

/-- how much strtod takes: digits, a fraction, an exponent -/
def realTake (s : Bytes) : Bytes × Bytes :=
  let d := s.takeWhile isDigit
  let r := s.dropWhile isDigit
  let (p, r) := if r.headD 0 = 46 then (46 :: (r.drop 1).takeWhile isDigit, (r.drop 1).dropWhile isDigit) else ([], r)
  let e := r.drop 1
  let sg := if e.headD 0 = 43 ∨ e.headD 0 = 45 then e.take 1 else []
  let e := if e.headD 0 = 43 ∨ e.headD 0 = 45 then e.drop 1 else e
  if (r.headD 0 = 101 ∨ r.headD 0 = 69) ∧ isDigit (e.headD 0) then (d ++ p ++ r.take 1 ++ sg ++ e.takeWhile isDigit, e.dropWhile isDigit)
  else (d ++ p, r)

/-- an integer or a real, lex.c:219-254; json_parser.c reads digits in the same way -/
def lexNumber (s : Bytes) : Res (LTok × Bytes) :=
  match digitLoop 0 s with
  | .int v r => .ok (.int v.toNat, r)
  | .err => .error .err
  | .real => .ok (.real (realTake s).1, (realTake s).2)

/-- the symbols of two characters, lex.c:268-311 -/
def twoChar (a b : Nat) : Option LTok :=
  if a = 58 ∧ b = 58 then some .method
  else if a = 58 ∧ b = 61 then some .assign
  else if a = 124 ∧ b = 124 then some .cat
  else if a = 45 ∧ b = 62 then some .arrow
  else if a = 60 ∧ b = 62 then some .neq
  else if a = 62 ∧ b = 61 then some .gte
  else if a = 60 ∧ b = 61 then some .lte
  else if a = 60 ∧ b = 60 then some .shl
  else if a = 62 ∧ b = 62 then some .shr
  else none

/-- a symbol, lex.c:257-316 -/
def lexSymbol (a : Nat) (r : Bytes) : LTok × Bytes :=
  match r with
  | [] => (.sym a, [])
  | b :: r' => match twoChar a b with
    | some t => (t, r')
    | none => (.sym a, b :: r')

/-- the characters of a name, lex.c:329-335 -/
def isNameChar (c : Nat) : Bool := c = 95 ∨ c = 46 ∨ c = 36 ∨ isAlpha c ∨ isDigit c

/-- two dots in a row, lex.c:337-340 -/
def twoDots : Bytes → Bool
  | 46 :: 46 :: _ => true
  | _ :: t => twoDots t
  | [] => false

/-- a keyword or a name, lex.c:319-375; `on`: keywords_enable -/
def lexName (on : Bool) (s : Bytes) : Res (LTok × Bytes) :=
  let wrapped : Bool := s.headD 0 = 96
  let s := if wrapped then s.drop 1 else s
  let n := s.takeWhile isNameChar
  let r := s.dropWhile isNameChar
  if twoDots n then .error .err
  else if 46 ∈ n ∧ n.getLast? = some 46 ∧ r.headD 0 ≠ 42 then .error .err
  else
    let star : Bool := 46 ∈ n ∧ n.getLast? = some 46
    let tok := if star then .compoundStar (n ++ [42]) else if 46 ∈ n then .compound n else .name n
    let r := if star then r.drop 1 else r
    if wrapped then (if r.headD 0 ≠ 96 then .error .err else .ok (tok, r.drop 1))
    else if ¬ 46 ∈ n ∧ n.headD 0 ≠ 95 ∧ on then
      match kwMatch n with
      | some k => .ok (.kw k, r)
      | none => .ok (tok, r)
    else .ok (tok, r)

/-- the loop over a string, lex.c:385-405: as json_string_read, but a line may end in it -/
def strLoop (q : Nat) : Nat → Bool → Bytes → Bool → Bytes → Res (Bytes × Bytes × Bool)
  | 0, _, _, _, _ => .error .ub
  | f + 1, slash, acc, esc, s =>
    match s with
    | [] => .error .err
    | c :: r =>
      if c = q ∧ slash = false then .ok (acc, r, esc)
      else if c = q then strLoop q f false (acc ++ [c]) esc r
      else
        match utf8Next s with
        | none => .error .err
        | some r' => strLoop q f (if c = 92 then !slash else false) (acc ++ s.take (s.length - r'.length)) (if c = 92 then true else esc) r'

/-- a string, lex.c:378-414 -/
def lexString (q : Nat) (r : Bytes) : Res (LTok × Bytes) :=
  (strLoop q (r.length + 1) false [] false r).bind fun x => .ok (.str x.1 x.2.2, x.2.1)

/-- lex_next without the backlog, lex.c:182-420 -/
def lexNext (on : Bool) (s : Bytes) : Res (LTok × Bytes) :=
  let s := skipBlank (s.length + 1) s
  match s with
  | [] => .ok (.eof, [])
  | c :: r =>
    if isDigit c then lexNumber (c :: r)
    else if isPunct c ∧ c ≠ 34 ∧ c ≠ 39 ∧ c ≠ 96 ∧ c ≠ 95 then .ok (lexSymbol c r)
    else if isAlpha c ∨ c = 95 ∨ c = 96 then lexName on (c :: r)
    else if c = 34 ∨ c = 39 then lexString c r
    else .error .err

/-- all tokens up to the end of the text -/
def lexAll : Nat → Bytes → Res (List LTok)
  | 0, _ => .error .ub
  | f + 1, s =>
    (lexNext true s).bind fun x =>
      if x.1 = .eof then .ok [] else (lexAll f x.2).bind fun l => .ok (x.1 :: l)

/-- the string a literal stands for: emit_string and encode_string_unescape -/
def strValue (raw : Bytes) (escape : Bool) : Res Bytes := if escape then unescape false raw else .ok raw

end Verif.Parse.Lex
