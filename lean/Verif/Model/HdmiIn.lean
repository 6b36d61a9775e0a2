import Verif.Model.Receiver
import Verif.Model.Capture

/-!
# HDMI input with memory port

Model of `HDMIIn` in DVI mode with a memory port (litevideo/input/__init__.py:46-154): the receiver
in the pixel clock domain and the capture path to memory.  One step is one instant at which the
pixel clock, the system clock or both have an edge.
-/

namespace Verif.HdmiIn

/-- What happens at one instant: clock edges, the captured words of the three lanes during this
pixel clock, and the remaining inputs of the capture path. -/
structure In where
  pixEdge : Bool
  raw : Receiver.In
  wok : Bool
  sysEdge : Bool
  rok : Bool
  busReady : Bool
  wdataValid : Bool
  frame_size : Nat
  sw : Nat → Dma.SlotWrite

/-- Registers. -/
structure State (σ : Type) (w : Nat) where
  rx : Receiver.State
  cap : Capture.State σ w

variable {σ : Type} {w : Nat}

/-- Reset state. -/
def reset (E : Capture.Extractor σ w) : State σ w :=
  { rx := Receiver.reset, cap := Capture.reset E }

/-- Inputs of `FrameExtraction` (__init__.py:142-149). -/
def frameIn (s : Receiver.State) : Frame.In :=
  { valid_i := s.pol.valid_o, vsync := Analysis.SyncPolarity.vsync s.pol
    de := Analysis.SyncPolarity.de s.pol, r := s.pol.r, g := s.pol.g, b := s.pol.b }

/-- Inputs of the capture path. -/
def capIn (s : Receiver.State) (x : In) : Capture.In :=
  { pixEdge := x.pixEdge, video := frameIn s, wok := x.wok, sysEdge := x.sysEdge, rok := x.rok
    busReady := x.busReady, wdataValid := x.wdataValid, frame_size := x.frame_size, sw := x.sw }

/-- One instant. -/
def step (E : Capture.Extractor σ w) (depth nslots aw al : Nat) (s : State σ w) (x : In) :
    State σ w :=
  { rx := if x.pixEdge then Receiver.step s.rx x.raw else s.rx
    cap := Capture.step E depth nslots aw al s.cap (capIn s.rx x) }

end Verif.HdmiIn
