import Verif.Bits

/-!
# Serial bit streams

A serial line is a sequence of bits `Nat → Bool`, earliest first.  TMDS words are sent
least significant bit first.
-/

namespace Verif.Spec.Serial

/-- The ten bits starting at position `p`, as a word. -/
def wordAt (bits : Nat → Bool) (p : Nat) : BitVec 10 := ofBits 10 fun j => bits (p + j)

/-- What a deserialiser hands over at clock `t`: the bits `10 t .. 10 t + 9`. -/
def deserialised (bits : Nat → Bool) (t : Nat) : BitVec 10 := wordAt bits (10 * t)

/-- The serial stream carrying the words `w 0, w 1, ...` after `k` other bits. -/
def serialise (k : Nat) (lead : Nat → Bool) (w : Nat → BitVec 10) (p : Nat) : Bool :=
  if p < k then lead p else (w ((p - k) / 10)).getLsbD ((p - k) % 10)

end Verif.Spec.Serial
