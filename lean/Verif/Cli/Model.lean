import Verif.Parse.Lex
/-!
# The statements of the command line client

runtime/lib/separator.h and the loop of main_console, main/main/main_cli.c:68-126: lines are put into a buffer, and the buffer is cut into the statements that are sent.

Text is a list of bytes. A position in the buffer is the character before it and the rest. isspace, strncasecmp: as in the C locale.
Loops over the text take a bound that is larger than the number of characters left.
-/
set_option autoImplicit false
set_option linter.unusedVariables false
namespace Verif.Cli
open Verif Verif.Json.Text Verif.Parse.Lex

/-- a position: `self->pos[-1]`, if there is one, and the text up to `self->end` -/
structure Cur where
  prev : Option Nat
  rest : Bytes
deriving DecidableEq, Repr

/-- the loop over white space, separator.h:65-66 -/
def skipSpace : Option Nat → Bytes → Cur
  | p, [] => ⟨p, []⟩
  | p, x :: r => if isSpace x then skipSpace (some x) r else ⟨p, x :: r⟩

/-- the loop up to the end of the line, separator.h:75-76, 86-87 -/
def skipLine : Option Nat → Bytes → Cur
  | p, [] => ⟨p, []⟩
  | p, x :: r => if x ≠ 10 then skipLine (some x) r else ⟨p, x :: r⟩

/-- separator_skip, separator.h:61-80; true is an empty rest -/
def skip (c : Cur) : Cur :=
  let c1 := skipSpace c.prev c.rest
  if isComment c1.rest then skipLine c1.prev c1.rest else c1

/-- the loop of separator_skip_string, separator.h:98-113, after the first quote -/
def skipString (q : Nat) : Bool → Option Nat → Bytes → Cur
  | _, p, [] => ⟨p, []⟩
  | slash, p, x :: r =>
    if x = q then (if slash then skipString q false (some x) r else ⟨some x, r⟩)
    else skipString q (if x = 92 then !slash else false) (some x) r

/-- white space or ';' -/
def isDelim (c : Nat) : Bool := isSpace c ∨ c = 59

/-- separator_match, separator.h:117-137 -/
def matchKw (c : Cur) (kw : Bytes) : Option Cur :=
  if (c.prev.all isDelim) ∧ kw.length + 1 ≤ c.rest.length ∧ (c.rest.take kw.length).map lower = kw ∧ isDelim (c.rest.getD kw.length 0) then
    some ⟨(c.rest.take kw.length).getLast?, c.rest.drop kw.length⟩
  else none

/-- SeparatorToken, separator.h:16-26 -/
inductive Tok where
  | eof | begin_ | if_ | case_ | for_ | while_ | end_ | semicolon
deriving DecidableEq, Repr

/-- the words of the switch of separator_next, separator.h:150-198 -/
def wordOf (x : Nat) : Option (Tok × Bytes) :=
  if x = 98 ∨ x = 66 then some (.begin_, strBytes "begin")
  else if x = 105 ∨ x = 73 then some (.if_, strBytes "if")
  else if x = 99 ∨ x = 67 then some (.case_, strBytes "case")
  else if x = 102 ∨ x = 70 then some (.for_, strBytes "for")
  else if x = 119 ∨ x = 87 then some (.while_, strBytes "while")
  else if x = 101 ∨ x = 69 then some (.end_, strBytes "end")
  else none

/-- what follows IF, separator.h:160-174: the token, or where to go on -/
def afterIf (c : Cur) : Tok × Cur ⊕ Cur :=
  let c := skip c
  if c.rest = [] then .inl (.eof, c)
  else if c.rest.headD 0 = 59 then .inr c
  else
    match matchKw c (strBytes "exists") with
    | some c' => .inr c'
    | none =>
      match matchKw c (strBytes "not") with
      | some c' => .inr c'
      | none => .inl (.if_, c)

/-- what separator_next does at a character, separator.h:148-212: the token, or where to go on -/
def at_ (c : Cur) (x : Nat) (r : Bytes) : Tok × Cur ⊕ Cur :=
  if x = 59 then .inl (.semicolon, ⟨some x, r⟩)
  else if x = 39 ∨ x = 34 then (if (skipString x false (some x) r).rest = [] then .inl (.eof, skipString x false (some x) r) else .inr (skipString x false (some x) r))
  else
    match wordOf x with
    | none => .inr ⟨some x, r⟩
    | some (t, kw) =>
      match matchKw c kw with
      | none => .inr ⟨some x, r⟩
      | some c' => if t = .if_ then afterIf c' else .inl (t, c')

/-- separator_next, separator.h:139-216 -/
def next : Nat → Cur → Tok × Cur
  | 0, c => (.eof, c)
  | f + 1, c =>
    let c := skip c
    match c.rest with
    | [] => (.eof, c)
    | x :: r =>
      match at_ c x r with
      | .inl t => t
      | .inr c' => next f c'

/-- the loop of separator_read, separator.h:262-298; none: more data -/
def readLoop : Nat → Nat → Nat → Cur → Option Cur
  | 0, _, _, _ => none
  | f + 1, inCase, level, c =>
    let t := next (c.rest.length + 1) c
    match t.1 with
    | .begin_ | .if_ | .for_ | .while_ => readLoop f inCase (level + 1) t.2
    | .case_ => readLoop f (inCase + 1) level t.2
    | .end_ => if inCase > 0 then readLoop f (inCase - 1) level t.2 else if level = 0 then some t.2 else readLoop f inCase (level - 1) t.2
    | .semicolon => if level = 0 then some t.2 else readLoop f inCase level t.2
    | .eof => none

/-- where separator_read stops, separator.h:219-302; none: more data -/
def readPos (buf : Bytes) : Option Cur :=
  let c := skip ⟨none, buf⟩
  if c.rest.headD 0 = 35 ∧ c.rest ≠ [] then some (skipLine c.prev c.rest)
  else readLoop (c.rest.length + 1) 0 0 c

/-- separator_read and separator_advance, separator.h:219-330: the block and what stays in the buffer -/
def read (buf : Bytes) : Option (Bytes × Bytes) :=
  if buf = [] then none
  else if (skip ⟨none, buf⟩).rest = [] then some ([], [])
  else (readPos buf).map fun c => (buf.take (buf.length - c.rest.length), c.rest)

/-- the loop of main_console for one line, main_cli.c:118-123: the blocks and the buffer left -/
def drain : Nat → Bytes → List Bytes × Bytes
  | 0, buf => ([], buf)
  | f + 1, buf =>
    match read buf with
    | none => ([], buf)
    | some (b, rest) => let r := drain f rest; (b :: r.1, r.2)

/-- separator_write, separator.h:46-50, and the loop for the line -/
def line (buf l : Bytes) : List Bytes × Bytes := drain (buf.length + l.length + 2) (buf ++ l ++ [10])

/-- all lines; main_execute does nothing with an empty block, main_cli.c:17-18 -/
def lines : Bytes → List Bytes → List Bytes × Bytes
  | buf, [] => ([], buf)
  | buf, l :: ls => let a := line buf l; let b := lines a.2 ls; (a.1.filter (fun x => x ≠ []) ++ b.1, b.2)

/-- a session of the client: what is sent, main_cli.c:96-126; at the end what is left is sent as it is -/
def session (ls : List Bytes) : List Bytes :=
  let r := lines [] ls
  r.1 ++ (if r.2 = [] then [] else [r.2])

end Verif.Cli
