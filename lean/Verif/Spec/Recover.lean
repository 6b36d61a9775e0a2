import Verif.Spec.Cdc
import Verif.Spec.Rate

/-!
# Specification vocabulary for an HDMI input whose clock has been away
-/

namespace Verif.Spec.Cdc

open Verif.Capture Verif.Spec.Frame Verif.Spec.Stream Verif.Spec.CaptureCdc

variable {σ : Type} {n w : Nat} (E : Extractor σ w) (nslots aw al : Nat)
  (f0 : GrayFifo.State n (Word w)) (y : Nat → HdmiCdc.In n w)

/-- The reset of the pixel clock domain is over at instant `S`: the last pixel clock before was a reset,
and there is none any more. -/
structure ClockBack (S : Nat) : Prop where
  reset : 0 < S ∧ (y (S - 1)).pixEdge = true ∧ (y (S - 1)).pixRst = true
  over : ∀ t, S ≤ t → (y t).pixRst = false

/-- From instant `S` until instant `T` software has loaded no slot and no transfer is in progress.  From `Q`
until `T` (as between two pictures) no word is captured, for at least `2 ^ (n + 1) + 2` system clocks, up to
`A`, and two more pixel clocks. -/
structure Drains (S Q A T : Nat) : Prop where
  order : S ≤ Q ∧ Q ≤ A ∧ A ≤ T
  idle : ∀ t, S ≤ t → t < T → (hdmiCdc E nslots aw al f0 y t).cap.dma.fsm = .waitSof ∧
    ∀ k, ((hdmiCdc E nslots aw al f0 y t).cap.dma.slots k).valid = false
  quiet : ∀ t, Q ≤ t → t < T → offers E (hdmiCdc E nslots aw al f0 y t).cap.frame = false
  read : 2 ^ (n + 1) + 2 ≤ countIn (fun u => (y u).sysEdge) Q (A - Q)
  write : 2 ≤ countIn (fun u => (y u).pixEdge) A (T - A)

end Verif.Spec.Cdc
