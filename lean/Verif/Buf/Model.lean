/-!
# Buffers

A model of `amelie/runtime/base/buf.h:17-239`: a growing array of bytes.  All other areas of this
model take the content of a buffer to be a list of bytes that a write appends to; here
the allocated block, the position and the `int` arithmetic are those of the code.

`Buf.start` is the begin of the block, `position` and `end` are numbers relative to it.  `int` is 32
bits wide and wraps around (`-fwrapv` or what compilers do; the standard leaves it undefined).
`am_realloc` (`allocator.h:23-30`) keeps the bytes that fit and gives arbitrary others (`junk`); a
negative size becomes a `size_t` above 2^63, which no allocator gives, and ends the process with a
panic (`report.h:42`).  That `realloc` fails for other sizes is not modelled: the process ends.
-/
set_option autoImplicit false

namespace Verif.Buf

/-- `Buf` (`buf.h:17-25`); `mem` is the block from `start` to `end`.  `copied` counts the bytes that
`realloc` has copied so far and is not in the code. -/
structure Buf where
  mem    : List UInt8
  pos    : Nat
  copied : Nat

/-- `buf_init` (`buf.h:27-36`) -/
def Buf.init : Buf := ⟨[], 0, 0⟩

/-- The result of a function: done, the process has ended (`oom`), or bytes outside of the block were
touched. -/
inductive Out where
  | ok (b : Buf)
  | oom
  | wild

def Out.bind (o : Out) (f : Buf → Out) : Out :=
  match o with
  | .ok b => f b
  | .oom  => .oom
  | .wild => .wild

/-- `int` -/
def int32 (x : Int) : Int := (x + 2147483648) % 4294967296 - 2147483648

/-- `am_realloc` to `n` bytes. -/
def realloc (mem : List UInt8) (n : Nat) (junk : Nat → UInt8) : List UInt8 :=
  mem.take n ++ (List.range (n - mem.length)).map junk

/-- `buf_reserve` (`buf.h:81-100`) -/
def Buf.reserve (b : Buf) (size : Nat) (junk : Nat → UInt8) : Out :=
  if int32 ((b.mem.length : Int) - b.pos) ≥ (size : Int) then .ok b
  else
    let actual := int32 (int32 b.pos + size)
    let twice := int32 (int32 b.mem.length * 2)
    let grow := if actual > twice then actual else twice
    if grow < 0 then .oom
    else .ok { mem := realloc b.mem grow.toNat junk, pos := b.pos, copied := b.copied + b.mem.length }

/-- `buf_advance` (`buf.h:102-107`); the assertion is not in release builds -/
def Buf.advance (b : Buf) (size : Nat) : Buf := { b with pos := b.pos + size }

/-- `memcpy` of `data` to offset `off` of the block. -/
def Buf.copyTo (b : Buf) (off : Nat) (data : List UInt8) : Out :=
  if off + data.length ≤ b.mem.length then
    .ok { b with mem := b.mem.take off ++ data ++ b.mem.drop (off + data.length) }
  else .wild

/-- `buf_append` (`buf.h:116-121`) -/
def Buf.append (b : Buf) (data : List UInt8) : Out :=
  (b.copyTo b.pos data).bind fun b => .ok (b.advance data.length)

/-- `buf_write` (`buf.h:167-172`), with `buf_write_buf`, `buf_write_i8` to `buf_write_double` and
`buf_write_str` (`buf.h:174-220`), which call it with the bytes of their argument -/
def Buf.write (b : Buf) (data : List UInt8) (junk : Nat → UInt8) : Out :=
  (b.reserve data.length junk).bind fun b => b.append data

/-- `buf_emplace` (`buf.h:158-165`); the caller fills the place later. -/
def Buf.emplace (b : Buf) (size : Nat) (junk : Nat → UInt8) : Out :=
  (b.reserve size junk).bind fun b => .ok (b.advance size)

/-- `buf_truncate` (`buf.h:109-114`) -/
def Buf.truncate (b : Buf) (size : Nat) : Buf := { b with pos := b.pos - size }

/-- `buf_reset` (`buf.h:75-79`) -/
def Buf.reset (b : Buf) : Buf := { b with pos := 0 }

/-- `buf_vprintf` (`buf.h:222-232`); `text` is the formatted text, `vsnprintf` puts a zero behind
it -/
def Buf.printf (b : Buf) (text : List UInt8) (junk : Nat → UInt8) : Out :=
  (b.reserve (text.length + 1) junk).bind fun b =>
    (b.copyTo b.pos (text ++ [0])).bind fun b => .ok (b.advance text.length)

/-- What a caller does with a buffer. -/
inductive Op where
  | reserve (size : Nat)
  /-- `buf_append` behind a `buf_reserve` of at least that size -/
  | append (data : List UInt8)
  | write (data : List UInt8)
  | emplace (size : Nat)
  /-- bytes at an offset below the position, through `start` -/
  | patch (off : Nat) (data : List UInt8)
  | truncate (size : Nat)
  | reset
  | printf (text : List UInt8)

def Buf.step (b : Buf) (junk : Nat → UInt8) : Op → Out
  | .reserve n    => b.reserve n junk
  | .append d     => b.append d
  | .write d      => b.write d junk
  | .emplace n    => b.emplace n junk
  | .patch off d  => b.copyTo off d
  | .truncate n   => .ok (b.truncate n)
  | .reset        => .ok b.reset
  | .printf t     => b.printf t junk

/-- A history; `junk n` are the bytes that the allocator gives at step `n`. -/
def Buf.run (b : Buf) (junk : Nat → Nat → UInt8) : Nat → List Op → Out
  | _, []        => .ok b
  | n, op :: ops => (b.step (junk n) op).bind fun b => b.run junk (n + 1) ops

/-- The content (`buf_size`, `buf_cstr`, `buf_str`: `buf.h:62-66, 130-156`). -/
def Buf.content (b : Buf) : List UInt8 := b.mem.take b.pos

end Verif.Buf
