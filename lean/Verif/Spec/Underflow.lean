import Verif.Model.UnderflowCdc
import Verif.Spec.Stream

/-!
# Specification vocabulary for the underflow count
-/

namespace Verif.Spec.Underflow

open Verif.Output Verif.Spec.Stream

/-- The counter at instant `t`, after reset at instant 0. -/
def run (i : Nat → UnderflowCdc.In) (t : Nat) : UnderflowCdc.State :=
  trace UnderflowCdc.step UnderflowCdc.reset i t

/-- Edges of the two clocks. -/
def sys (i : Nat → UnderflowCdc.In) (t : Nat) : Bool := (i t).sysEdge
def cd (i : Nat → UnderflowCdc.In) (t : Nat) : Bool := (i t).cdEdge

/-- At instant `t` the clock of the port has an edge and the output has no pixel to hand over. -/
def stalled (i : Nat → UnderflowCdc.In) (t : Nat) : Bool := (i t).cdEdge && !(i t).valid

/-- Software asks for the count at instant `t`. -/
def asks (i : Nat → UnderflowCdc.In) (t : Nat) : Bool := (i t).sysEdge && (i t).update

/-- The counter is off until instant `w`: since reset, or for two edges of the system clock followed by one of
the clock of the port. -/
def OffUntil (i : Nat → UnderflowCdc.In) (w : Nat) : Prop :=
  ∃ o p, o ≤ p ∧ p ≤ w ∧ (∀ t, o ≤ t → t < w → (i t).enable = false) ∧
    (o = 0 ∨ 2 ≤ countIn (sys i) o (p - o) ∧ 1 ≤ countIn (cd i) p (w - p))

/-- The second edge of the system clock from instant `w` on is at instant `s`. -/
def SecondEdge (i : Nat → UnderflowCdc.In) (w s : Nat) : Prop :=
  w ≤ s ∧ (i s).sysEdge = true ∧ countIn (sys i) w (s - w) = 1

/-- Software asks for the count at instant `u`, not within three clocks of the port after an earlier request,
and does not ask again before instant `t`, which is at least three clocks of the port later. -/
structure Request (i : Nat → UnderflowCdc.In) (u t : Nat) : Prop where
  asked : asks i u = true
  before : ∃ q, q ≤ u ∧ (∀ v, q ≤ v → v < u → asks i v = false) ∧
    (q = 0 ∨ 3 ≤ countIn (cd i) q (u - q))
  after : ∀ v, u < v → v < t → asks i v = false
  long : 3 ≤ countIn (cd i) (u + 1) (t - (u + 1))

end Verif.Spec.Underflow
