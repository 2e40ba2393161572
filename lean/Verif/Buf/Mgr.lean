import Verif.Buf.Spec
/-!
# The buffers of the server

A model of `amelie/runtime/base/buf_cache.h:16-90`, `buf_mgr.h:14-43` and `buf_ref`, `buf_free`
(`buf.h:47-51`, `runtime.h:37-50`): buffers with reference counts in eight caches, shared by all
threads.  Each access to shared memory is a step: the two atomic operations, the two parts under
the spinlock of a cache; what touches only a buffer that nobody else has is one step with
its neighbour.

A token is one reference: what a value, a variable or a message has.  Not modelled: addresses of
freed `Buf` are not used again; more than 2^32 references to one buffer; the end of the process
(`buf_mgr_free`).
-/
set_option autoImplicit false

namespace Verif.Buf

/-- Where a reference is. -/
inductive Tok where
  | none
  /-- in `buf_mgr_create` with cache `k` (`buf_mgr.h:38-43`) -/
  | want (k : Nat)
  /-- `buf_cache_pop` found nothing (`buf_cache.h:79-85`) -/
  | make (k : Nat)
  /-- behind `buf_cache_pop`, before `buf_reset` (`buf_cache.h:74-78`) -/
  | got (b : Nat)
  | has (b : Nat)
  /-- in `buf_free`, behind the decrement to zero (`runtime.h:42-46`) -/
  | dying (b : Nat)
  deriving DecidableEq

/-- The buffer that a reference keeps. -/
def Tok.uses : Tok → Option Nat
  | .got b   => some b
  | .has b   => some b
  | .dying b => some b
  | _        => Option.none

/-- `Buf` with `refs`, the number of references besides the first, and `cache`. -/
structure Cell where
  buf  : Buf
  refs : Nat
  home : Nat

structure Mgr where
  seq   : Nat
  cache : Nat → List Nat
  cell  : Nat → Cell
  next  : Nat
  freed : List Nat
  tok   : Nat → Tok

/-- `buf_mgr_init` (`buf_mgr.h:22-28`) -/
def Mgr.init : Mgr := ⟨0, fun _ => [], fun _ => ⟨Buf.init, 0, 0⟩, 0, [], fun _ => .none⟩

def put {β : Type} (f : Nat → β) (a : Nat) (b : β) : Nat → β := fun x => if x = a then b else f x

/-- `unlikely` (`macro.h:15`): `__builtin_expect(!! (expr), 0)` -/
def unlikely (x : Nat) : Nat := if x ≠ 0 then 1 else 0

/-- `buf_cache_push` (`buf_cache.h:56-68`), as it is written: the comparison is outside of
`unlikely`. -/
def Mgr.push (s : Mgr) (b : Nat) : Mgr :=
  if unlikely (s.cell b).buf.mem.length ≥ 32 * 1024 then { s with freed := b :: s.freed }
  else { s with cache := put s.cache (s.cell b).home (b :: s.cache (s.cell b).home) }

/-- One step of the server. -/
inductive Step : Mgr → Mgr → Prop
  /-- `atomic_u64_inc(&self->seq) % 8` (`buf_mgr.h:41`) -/
  | want (s : Mgr) (t : Nat) (h : s.tok t = .none) :
      Step s { s with seq := s.seq + 1, tok := put s.tok t (.want (s.seq % 8)) }
  /-- `buf_cache_pop` (`buf_cache.h:45-54`) -/
  | pop (s : Mgr) (t k b : Nat) (rest : List Nat) (h : s.tok t = .want k)
      (hc : s.cache k = b :: rest) :
      Step s { s with cache := put s.cache k rest, tok := put s.tok t (.got b) }
  | empty (s : Mgr) (t k : Nat) (h : s.tok t = .want k) (hc : s.cache k = []) :
      Step s { s with tok := put s.tok t (.make k) }
  /-- `buf_cache.h:80-85` -/
  | make (s : Mgr) (t k : Nat) (h : s.tok t = .make k) :
      Step s { s with
        next := s.next + 1
        cell := put s.cell s.next ⟨Buf.init, 0, k⟩
        tok  := put s.tok t (.has s.next) }
  /-- `buf_cache.h:76-77`; `buf_reserve` of size zero does nothing (`runtime.h:33`) -/
  | reset (s : Mgr) (t b : Nat) (h : s.tok t = .got b) :
      Step s { s with
        cell := put s.cell b { s.cell b with buf := (s.cell b).buf.reset }
        tok  := put s.tok t (.has b) }
  /-- any operation of `buf.h` on the bytes -/
  | write (s : Mgr) (t b : Nat) (h : s.tok t = .has b) (junk : Nat → UInt8) (op : Op) (x : Buf)
      (ho : (s.cell b).buf.step junk op = .ok x) :
      Step s { s with cell := put s.cell b { s.cell b with buf := x } }
  /-- `buf_ref` (`buf.h:47-51`) by one who has a reference -/
  | ref (s : Mgr) (t u b : Nat) (h : s.tok t = .has b) (hu : s.tok u = .none)
      (small : (s.cell b).refs + 1 < 4294967296) :
      Step s { s with
        cell := put s.cell b { s.cell b with refs := (s.cell b).refs + 1 }
        tok  := put s.tok u (.has b) }
  /-- `atomic_u32_dec(&self->refs)` (`runtime.h:41`), which gives the value before -/
  | dec (s : Mgr) (t b : Nat) (h : s.tok t = .has b) :
      Step s { s with
        cell := put s.cell b { s.cell b with refs := ((s.cell b).refs + 4294967295) % 4294967296 }
        tok  := put s.tok t (if (s.cell b).refs = 0 then .dying b else .none) }
  /-- `runtime.h:43-44` -/
  | push (s : Mgr) (t b : Nat) (h : s.tok t = .dying b) :
      Step s (Mgr.push { s with
        cell := put s.cell b { s.cell b with refs := 0 }
        tok  := put s.tok t .none } b)

inductive Reach : Mgr → Prop
  | init : Reach Mgr.init
  | step (s t : Mgr) (r : Reach s) (h : Step s t) : Reach t

end Verif.Buf
