import Verif.Model.Status
import Verif.Spec.Receiver
import Verif.Spec.Stream

/-!
# Specification vocabulary for the status registers
-/

namespace Verif.Spec.Status

open Verif.Status Verif.VideoOut Verif.Spec.Receiver Verif.Spec.Stream

/-- A status register of `w` bits at instant `t`: `src t` is the value in the pixel clock domain,
`edge t` says whether the system clock has an edge, `old t` which bits are sampled too early. -/
def register {w : Nat} (src : Nat → BitVec w) (edge : Nat → Bool) (old : Nat → BitVec w) (t : Nat) :
    Multi w :=
  trace (fun s u => Multi.step s (edge u) (src u) (src (u + 1)) (old u)) (Multi.reset w) id t

/-- The receiver with its status registers at instant `t`. -/
abbrev status (y : Nat → In) (t : Nat) : State := trace step reset y t

/-- From clock `c` on the transmitter sends a picture of constant size, `H` pixels by `V` lines, for
ever. -/
structure ConstantSize (x : Nat → Phy) (pv : Bool) (H V c : Nat) : Prop where
  lines : ∀ b n, c ≤ b → 0 < n → (x b).de = false → (∀ u, u < n → (x (b + 1 + u)).de = true) →
    (x (b + 1 + n)).de = false → n = H
  frames : ∀ b n, c ≤ b → FrameSync x pv b = true → (∀ u, u < n → FrameSync x pv (b + 1 + u) = false) →
    FrameSync x pv (b + 1 + n) = true → countIn (lineEnd x) (b + 1) n = V
  more_lines : ∀ T, ∃ b, T ≤ b ∧ LineEnd x b
  more_frames : ∀ T, ∃ b, T ≤ b ∧ FrameSync x pv b = true

end Verif.Spec.Status
