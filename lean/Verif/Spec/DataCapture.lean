/-!
# Specification of the phase-error accumulator
-/

namespace Verif.Spec.Phase

/-- The running total that starts at `mid` and changes by `ev 0, ev 1, ...`. -/
def total (mid : Int) (ev : Nat → Int) : Nat → Int
  | 0 => mid
  | t + 1 => total mid ev t + ev t

/-- The total reaches the value `v` within the first `t` steps, and up to then has stayed strictly
between 0 and `top`. -/
def Reaches (mid top : Int) (ev : Nat → Int) (t : Nat) (v : Int) : Prop :=
  ∃ k, k ≤ t ∧ total mid ev k = v ∧ ∀ j, j < k → 0 < total mid ev j ∧ total mid ev j < top

end Verif.Spec.Phase
