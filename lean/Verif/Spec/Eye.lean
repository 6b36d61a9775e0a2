import Verif.Model.DataCapture
import Verif.Spec.Stream
import Verif.Bits

/-!
# Where in the bit a receiver samples

A serial line carries bits `Nat → Bool`, earliest first.  The slave samples half a bit after the master
(datacapture.py:222-243).  If the master samples in the first half of a bit, which is too early, both see
the same bit; if it samples in the second half, which is too late, the slave sees the next bit.
-/

namespace Verif.Spec.Eye

open DataCapture Spec.Stream

/-- The eight bits starting at position `p`. -/
def chunk (line : Nat → Bool) (p : Nat) : BitVec 8 := ofBits 8 fun j => line (p + j)

/-- From instant `q` on the master samples all bits of `line` from position `p` on, eight per clock, in the
first half (`late = false`) or in the second half (`late = true`) of each bit. -/
def Samples (late : Bool) (line : Nat → Bool) (x : Nat → S7.In) (q p : Nat) : Prop :=
  ∀ t, (x (q + t)).pixEdge = true →
    (x (q + t)).mdata = chunk line (p + 8 * countIn (fun u => (x u).pixEdge) q t) ∧
    (x (q + t)).sdata = chunk line (p + 8 * countIn (fun u => (x u).pixEdge) q t + if late then 1 else 0)

/-- Nowhere are nine successive bits equal. -/
def ShortRuns (line : Nat → Bool) : Prop := ∀ p, ∃ j, j < 8 ∧ line (p + j) ≠ line (p + j + 1)

/-- Number of groups of eight bits among the first `m`, from position `p` on, that differ from the group
after them. -/
def changes (line : Nat → Bool) (p m : Nat) : Nat :=
  countIn (fun k => decide (chunk line (p + 8 * k) ≠ chunk line (p + 8 * (k + 1)))) 0 m

end Verif.Spec.Eye
