import Verif.Common
import Verif.Json.TextModel
/-!
# HTTP framing: runtime/os/readahead.h and server/http/http.c

The socket is the list of byte strings that successive `tcp_read` calls return, so a statement for all lists
holds for every way the network cuts the stream.  TLS and the coroutine scheduler are not modelled.
-/
namespace Verif.Net
open Verif

/-- Readahead, runtime/os/readahead.h:16-22: the buffer, the read position, and the socket -/
structure Conn where
  buf : Bytes
  off : Nat
  net : List Bytes
deriving DecidableEq, Repr

/-- readahead_read, readahead.h:46-67.  The empty string is the return code 0 (end of stream).  The loop is
unrolled: the second turn always finds bytes.  `tcp_read` returning -1 (TLS wants more data) is left out. -/
def raRead (size : Nat) (c : Conn) : Bytes × Conn :=
  if c.off < c.buf.length then
    ((c.buf.drop c.off).take size, { c with off := c.off + min size (c.buf.length - c.off) })
  else match c.net with
    | [] => ([], ⟨[], 0, []⟩)
    | ch :: net => (ch.take size, ⟨ch, min size ch.length, net⟩)

/-- readahead_pushback, readahead.h:69-74 (the assert is an `ub` outcome) -/
def pushback (n : Nat) (c : Conn) : Res Conn :=
  if n ≤ c.off then .ok { c with off := c.off - n } else .error .ub

/-- memmem(start, size, "\r\n\r\n", 4) + 4 as an offset, http.c:99-105 -/
def findEnd : Bytes → Option Nat
  | [] => none
  | x :: t => if [13, 10, 13, 10] <+: x :: t then some 4 else (findEnd t).map (· + 1)

/-- http_read_header, http.c:80-115.  `none` is a clean end of the stream. -/
def headerLoop : Nat → Bytes → Conn → Res (Option Bytes × Conn)
  | 0, _, _ => .error .ub
  | fuel + 1, raw, c =>
    if (raRead 256 c).1 = [] then
      if raw ≠ [] then .error .err else .ok (none, (raRead 256 c).2)
    else
      (findEnd (raw ++ (raRead 256 c).1)).elim
        (if (raw ++ (raRead 256 c).1).length ≥ 512 then .error .err
         else headerLoop fuel (raw ++ (raRead 256 c).1) (raRead 256 c).2)
        fun e => (pushback ((raw ++ (raRead 256 c).1).length - e) (raRead 256 c).2).map fun c' =>
          (some ((raw ++ (raRead 256 c).1).take e), c')

/-- http_read_header; 512 turns always suffice, each adds a byte -/
def readHeader (c : Conn) : Res (Option Bytes × Conn) := headerLoop 513 [] c

/-- `while (*pos != x) pos++`: the bytes before the first `x` and those after it; `none` = ran to the end -/
def cut (x : Nat) : Bytes → Option (Bytes × Bytes)
  | [] => none
  | y :: t => if y = x then some ([], t) else (cut x t).map fun (a, b) => (y :: a, b)

/-- `if (*pos != x) goto error; pos++`: reading at the end of the buffer is `ub` -/
def expect (x : Nat) : Bytes → Res Bytes
  | [] => .error .ub
  | y :: t => if y = x then .ok t else .error .err

/-- http_read after the header has been read: one of the first two fields, http.c:147-165 -/
def field (bs : Bytes) : Res (Bytes × Bytes) :=
  (cut 32 bs).elim (.error .err) fun (a, r) => if a = [] then .error .err else .ok (a, r)

/-- the text up to CR LF, http.c:167-178 and 207-216.  The search for CR has no bound. -/
def line (bs : Bytes) : Res (Bytes × Bytes) :=
  (cut 13 bs).elim (.error .ub) fun (a, r) => (expect 10 r).map fun r' => (a, r')

/-- the loop over the headers, http.c:181-217 -/
def headers : Nat → Bytes → Res (List (Bytes × Bytes))
  | 0, _ => .error .ub
  | _ + 1, [] => .error .ub
  | fuel + 1, x :: t =>
    if x = 13 then (expect 10 t).map fun _ => []
    else (cut 58 (x :: t)).elim (.error .err) fun (name, r) =>
      (expect 32 r).bind fun r => (line r).bind fun (value, r) =>
        (headers fuel r).map fun hs => (name, value) :: hs

/-- the three options and the headers of http_read, http.c:117-223: for a request method, url, version; for a
reply version, code, message -/
structure Head where
  a : Bytes
  b : Bytes
  c : Bytes
  headers : List (Bytes × Bytes)
deriving DecidableEq, Repr, Inhabited

def parseHead (raw : Bytes) : Res Head :=
  (field raw).bind fun (a, r) => (field r).bind fun (b, r) => (line r).bind fun (c, r) =>
    if c = [] then .error .err else (headers (r.length + 1) r).map fun hs => ⟨a, b, c, hs⟩

/-- http_read, http.c:117-224 -/
def httpRead (c : Conn) : Res (Option Head × Conn) :=
  (readHeader c).bind fun (raw, c) =>
    raw.elim (.ok (none, c)) fun raw => (parseHead raw).map fun h => (some h, c)

/-- tolower of strncasecmp in the C locale -/
def lowerC (c : Nat) : Nat := if 65 ≤ c ∧ c ≤ 90 then c + 32 else c

/-- str_is_case, runtime/base/str.h:137-141 -/
def isCase (a b : Bytes) : Bool := a.map lowerC = b.map lowerC

/-- http_find, http.c:45-56 -/
def httpFind (hs : List (Bytes × Bytes)) (name : Bytes) : Option Bytes :=
  (hs.find? fun h => isCase h.1 name).map (·.2)

/-- str_toint, str.h:270-288 with int64_mul_add_overflow; `none` is -1 -/
def toint : Nat → Bytes → Option Nat
  | v, [] => some v
  | v, c :: t => if Json.Text.isDigit c then
      if v * 10 < 2 ^ 63 ∧ v * 10 + (c - 48) < 2 ^ 63 then toint (v * 10 + (c - 48)) t else none
    else none

/-- the loop of http_read_content_limit, http.c:243-258.  `left` is an `int`: the 64 bit difference is cut to 32
bits; a negative value is passed on as a size (`ub`). -/
def contentLoop (readahead len : Nat) : Nat → Bytes → Conn → Res (Bytes × Conn)
  | 0, _, _ => .error .ub
  | fuel + 1, got, c =>
    if (len - got.length) % 2 ^ 32 = 0 then .ok (got, c)
    else if 2 ^ 31 ≤ (len - got.length) % 2 ^ 32 then .error .ub
    else
      if (raRead (min readahead ((len - got.length) % 2 ^ 32)) c).1 = [] then .error .err
      else contentLoop readahead len fuel (got ++ (raRead (min readahead ((len - got.length) % 2 ^ 32)) c).1)
        (raRead (min readahead ((len - got.length) % 2 ^ 32)) c).2

/-- "content-length" -/
def sLength : Bytes := "content-length".toList.map (·.toNat)

/-- http_read_content_limit, http.c:226-262; `none` is the return value true (limit reached).  The readahead size
is 16 kB, server/client/client.c:32. -/
def readContent (limit : Nat) (hs : List (Bytes × Bytes)) (c : Conn) : Res (Option Bytes × Conn) :=
  (httpFind hs sLength).elim (.ok (some [], c)) fun v =>
    (toint 0 v).elim (.error .err) fun len =>
      if len ≥ limit then .ok (none, c)
      else (contentLoop 16384 len (len + 1) [] c).map fun (b, c) => (some b, c)

/-- one turn of frontend_client's loop as far as reading goes, system/frontend/frontend_client.c:119-138 -/
inductive Turn where
  | eof
  | tooLarge
  | request (h : Head) (content : Bytes)
deriving DecidableEq, Repr

def readRequest (limit : Nat) (c : Conn) : Res (Turn × Conn) :=
  (httpRead c).bind fun (h, c) => h.elim (.ok (.eof, c)) fun h =>
    (readContent limit h.headers c).map fun (b, c) =>
      (b.elim .tooLarge fun b => .request h b, c)

/-- how a connection ends: end of stream, 413, or an error -/
inductive End where
  | eof
  | tooLarge
  | error (e : Fail)
deriving DecidableEq, Repr

/-- frontend_client, frontend_client.c:119-186: the requests that are read, in order, and how it ended.  What is
done with a request (authentication, execution, replies) is left out; it does not touch the input. -/
def serve (limit : Nat) : Nat → Conn → List (Head × Bytes) × End
  | 0, _ => ([], .error .ub)
  | fuel + 1, c => match readRequest limit c with
    | .error e => ([], .error e)
    | .ok (.eof, _) => ([], .eof)
    | .ok (.tooLarge, _) => ([], .tooLarge)
    | .ok (.request h b, c) => ((h, b) :: (serve limit fuel c).1, (serve limit fuel c).2)

/-- `%PRIu64` -/
def dec (n : Nat) : Bytes := Json.Text.decDigits n

def str (s : String) : Bytes := s.toList.map (·.toNat)

/-- the fields of an Endpoint used here, server/http/endpoint.h -/
structure Out where
  service : Bytes := []
  db : Bytes := []
  relation : Bytes := []
  columns : Bytes := []
  timezone : Bytes := []
  format : Bytes := []
  token : Bytes := []
  contentType : Bytes := []
  accept : Bytes := []
deriving DecidableEq, Repr

/-- uri_export_arg, server/http/uri.c:418-428: one argument and whether the next is still the first -/
def exportArg (name value : Bytes) (p : Bytes × Bool) : Bytes × Bool :=
  if value = [] then p
  else (p.1 ++ (if p.2 then 63 else 38) :: name ++ [61] ++ value, false)

/-- the target of http_begin_request, http.c:283-308 -/
def target (o : Out) : Bytes :=
  let path := if o.service ≠ [] then str "v1/" ++ o.service
    else if o.db ≠ [] then str "v1/db/" ++ o.db ++ (if o.relation ≠ [] then 47 :: o.relation else [])
    else []
  47 :: path ++ (exportArg (str "format") o.format (exportArg (str "timezone") o.timezone
    (exportArg (str "columns") o.columns ([], true)))).1

/-- http_begin_request + http_end, http.c:267-343 and 381-387.  The literal "Authorization: Bearer " is written with
size 21 of its 22 characters. -/
def beginRequest (o : Out) (size : Nat) : Bytes :=
  str "POST " ++ target o ++ str " HTTP/1.1\r\n"
  ++ (if o.token ≠ [] then (str "Authorization: Bearer ").take 21 ++ o.token ++ str "\r\n" else [])
  ++ (if o.contentType ≠ [] then str "Content-Type: " ++ o.contentType ++ str "\r\n" else [])
  ++ (if size > 0 then str "Content-Length: " ++ dec size ++ str "\r\n" else [])
  ++ (if o.accept ≠ [] then str "Accept: " ++ o.accept ++ str "\r\n" else [])
  ++ str "\r\n"

/-- http_begin_reply + http_end, http.c:345-387 -/
def beginReply (accept msg : Bytes) (size : Nat) : Bytes :=
  str "HTTP/1.1 " ++ msg ++ str "\r\n"
  ++ (if accept ≠ [] then str "Content-Type: " ++ accept ++ str "\r\n" else [])
  ++ (if size > 0 then str "Content-Length: " ++ dec size ++ str "\r\n" else [])
  ++ str "\r\n"

end Verif.Net
