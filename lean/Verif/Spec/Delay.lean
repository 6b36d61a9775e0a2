/-!
# Specification of a software-controlled delay line

A tap count from 0 to 31, which software sets to 0, increases or decreases, modulo 32.
-/

namespace Verif.Spec.Delay

/-- What one write asks of one delay line: `rst` first, then up before down. -/
def command (rst up down : Bool) (taps : Nat) : Nat :=
  if rst then 0 else if up then (taps + 1) % 32 else if down then (taps + 31) % 32 else taps

/-- The tap count that software expects when the writes up to instant `t` have been carried out;
`write u` says whether there is a write at instant `u`. -/
def expected (write rst up down : Nat → Bool) : Nat → Nat
  | 0 => 0
  | t + 1 => if write t then command (rst t) (up t) (down t) (expected write rst up down t)
      else expected write rst up down t

end Verif.Spec.Delay
