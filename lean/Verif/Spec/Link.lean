import Verif.Spec.Serial
import Verif.Spec.Stream

/-!
# A serial link

The positive conductor of a differential pair carries bits `Nat → Bool`, earliest first.  A pad
marked `inverted` is wired to the pair with its two conductors exchanged.
-/

namespace Verif.Spec.Link

open Spec.Stream

/-- The bit on the pair when the pad shows `b`, and the bit at the pad when the pair carries `b`. -/
def swapped (inverted b : Bool) : Bool := b ^^ inverted

/-- The bits `line` at the far end, `D` bits later; `lead` is what is there before. -/
def delayed (D : Nat) (lead line : Nat → Bool) (p : Nat) : Bool :=
  if p < D then lead p else line (p - D)

/-- `fast` ticks twice per tick of `slow`, and `e` times before the first tick of `slow`. -/
def TwoPer (fast slow : Nat → Bool) (e : Nat) : Prop :=
  ∀ t, slow t = true → countIn fast 0 t = 2 * countIn slow 0 t + e

/-- The clock lane: every ten bits, five ones and then five zeros. -/
def clockLine (p : Nat) : Bool := decide (p % 10 < 5)

end Verif.Spec.Link
