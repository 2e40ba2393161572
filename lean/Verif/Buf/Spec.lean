import Verif.Buf.Model
/-!
# Buffers: what they mean

A buffer is a text: a list of bytes, some of which are not known yet (places that were made
and not filled).  No capacities and no positions.
-/
set_option autoImplicit false

namespace Verif.Buf

/-- A byte that was written, or a place that was not filled. -/
abbrev Text := List (Option UInt8)

def known (d : List UInt8) : Text := d.map some

/-- `Means op t room t' room'`: what an operation does with a text; `room` is how many bytes may
be appended without asking for room. -/
inductive Means : Op → Text → Nat → Text → Nat → Prop
  | reserve (n : Nat) (t : Text) (room : Nat) : Means (.reserve n) t room t (max room n)
  | append (d : List UInt8) (t : Text) (room : Nat) (h : d.length ≤ room) :
      Means (.append d) t room (t ++ known d) (room - d.length)
  | write (d : List UInt8) (t : Text) (room : Nat) :
      Means (.write d) t room (t ++ known d) (room - d.length)
  | emplace (n : Nat) (t : Text) (room : Nat) :
      Means (.emplace n) t room (t ++ List.replicate n none) (room - n)
  | patch (a b c : Text) (d : List UInt8) (room : Nat) (h : b.length = d.length) :
      Means (.patch a.length d) (a ++ b ++ c) room (a ++ known d ++ c) room
  | truncate (a b : Text) (room : Nat) : Means (.truncate b.length) (a ++ b) room a room
  | reset (t : Text) (room : Nat) : Means .reset t room [] room
  | printf (d : List UInt8) (t : Text) (room : Nat) :
      Means (.printf d) t room (t ++ known d) (room - d.length)

/-- The most bytes that the text has or asks for. -/
def Op.most (t : Text) : Op → Nat
  | .reserve n   => t.length + n
  | .append d    => t.length + d.length
  | .write d     => t.length + d.length
  | .emplace n   => t.length + n
  | .printf d    => t.length + d.length + 1
  | _            => t.length

/-- A history of operations that never has or asks for more than `m` bytes. -/
inductive History (m : Nat) : List Op → Text → Nat → Text → Nat → Prop
  | nil (t : Text) (r : Nat) : History m [] t r t r
  | cons (op : Op) (ops : List Op) (t t' t'' : Text) (r r' r'' : Nat) (h : Means op t r t' r')
      (small : op.most t ≤ m) (rest : History m ops t' r' t'' r'') :
      History m (op :: ops) t r t'' r''

/-- The bytes agree with the text where it is known. -/
def Agrees (bytes : List UInt8) (t : Text) : Prop :=
  bytes.length = t.length ∧ ∀ (i : Nat) (x : UInt8), t[i]? = some (some x) → bytes[i]? = some x

end Verif.Buf
