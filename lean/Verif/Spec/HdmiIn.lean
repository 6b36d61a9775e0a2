import Verif.Model.HdmiIn
import Verif.Model.HdmiMode
import Verif.Spec.Receiver
import Verif.Spec.Capture

/-!
# Specification vocabulary for the HDMI input with memory port
-/

namespace Verif.Spec.HdmiIn

open Verif.HdmiIn Verif.VideoOut

variable {σ : Type} {w : Nat}

/-- The video of a transmitter whose vertical sync is idle at `pv`, with the sync made active-high:
what an ideal receiver without latency would hand to the frame extractor. -/
def sent (pv : Bool) (x : Nat → Phy) (n : Nat) : Frame.In :=
  { valid_i := true, vsync := (x n).vsync ^^ pv, de := (x n).de, r := (x n).r, g := (x n).g
    b := (x n).b }

/-- All lines after clock `c` have an even number of pixels. -/
def EvenLines (c : Nat) (V : Nat → Frame.In) : Prop :=
  ∀ u, c < u → (V u).de = true → Spec.Frame.lineOffset V u % 2 = 0 → (V (u + 1)).de = true

/-- HDMI input at instant `t`. -/
abbrev hdmiIn (E : Capture.Extractor σ w) (depth nslots aw al : Nat) (y : Nat → In) (t : Nat) :
    State σ w := trace (step E depth nslots aw al) (reset E) y t

/-- Inputs of its capture path at instant `t`. -/
def captureIn (E : Capture.Extractor σ w) (depth nslots aw al : Nat) (y : Nat → In) (t : Nat) :
    Capture.In := capIn (hdmiIn E depth nslots aw al y t).rx (y t)

/-- HDMI input with `hdmi=True` at instant `t`; `dvimode` is what software has written to that register. -/
abbrev hdmiMode (E : Capture.Extractor σ w) (depth nslots aw al : Nat) (y : Nat → In)
    (dvimode : Nat → Bool) (t : Nat) : HdmiMode.State σ w :=
  trace (HdmiMode.step E depth nslots aw al) (HdmiMode.reset E) (fun u => (y u, dvimode u)) t

/-- Inputs of its capture path at instant `t`. -/
def modeCaptureIn (E : Capture.Extractor σ w) (depth nslots aw al : Nat) (y : Nat → In)
    (dvimode : Nat → Bool) (t : Nat) : Capture.In :=
  HdmiMode.capIn (hdmiMode E depth nslots aw al y dvimode t).rx (y t)

/-- The clocks keep running, and again and again there is a system clock at which the FIFO shows what
it holds and the memory takes a word, and one at which no write data is in transit. -/
structure AliveIn (y : Nat → In) : Prop where
  pix : ∀ T, ∃ u, T ≤ u ∧ (y u).pixEdge = true
  bus : ∀ T, ∃ u, T ≤ u ∧ (y u).sysEdge = true ∧ (y u).rok = true ∧ (y u).busReady = true
  drained : ∀ T, ∃ u, T ≤ u ∧ (y u).sysEdge = true ∧ (y u).wdataValid = false

/-- From instant `T0` on software makes no slot LOADED. -/
def LoadsNoneIn (y : Nat → In) (T0 : Nat) : Prop :=
  ∀ t n v, T0 ≤ t → (y t).sysEdge = true → ((y t).sw n).status = some v → v.getLsbD 0 = false

end Verif.Spec.HdmiIn
