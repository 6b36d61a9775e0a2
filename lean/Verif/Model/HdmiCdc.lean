import Verif.Model.HdmiIn
import Verif.Model.CaptureCdc

/-!
# HDMI input with memory port, with the circuit of its FIFO

Like `Model/HdmiIn`, but with the asynchronous FIFO circuit instead of a queue, and with the reset of the
pixel clock domain.
-/

namespace Verif.HdmiCdc

open Capture (Extractor Word)

/-- What happens at one instant: clock edges, the reset of the pixel clock domain, the captured words of
the three lanes during this pixel clock, and the remaining inputs of the capture path. -/
structure In (n w : Nat) where
  pixEdge : Bool
  pixRst : Bool
  raw : Receiver.In
  sysEdge : Bool
  busReady : Bool
  wdataValid : Bool
  frame_size : Nat
  sw : Nat → Dma.SlotWrite
  /-- see `GrayFifo.In` -/
  rOld : BitVec (n + 1)
  wOld : BitVec (n + 1)
  clash : Word w

/-- Registers. -/
structure State (σ : Type) (n w : Nat) where
  rx : Receiver.State
  cap : CaptureCdc.State σ n w

variable {σ : Type} {n w : Nat}

/-- Reset state; the FIFO is in state `f`. -/
def start (E : Extractor σ w) (f : GrayFifo.State n (Word w)) : State σ n w :=
  { rx := Receiver.reset, cap := CaptureCdc.start E f }

/-- Inputs of the capture path (__init__.py:142-154). -/
def capIn (s : Receiver.State) (x : In n w) : CaptureCdc.In n w :=
  { pixEdge := x.pixEdge, pixRst := x.pixRst, video := HdmiIn.frameIn s, sysEdge := x.sysEdge
    busReady := x.busReady, wdataValid := x.wdataValid, frame_size := x.frame_size, sw := x.sw
    rOld := x.rOld, wOld := x.wOld, clash := x.clash }

/-- One instant of `HDMIIn` in DVI mode with a memory port (__init__.py:46-154).  All of the receiver is in
the pixel clock domain. -/
def step (E : Extractor σ w) (nslots aw al : Nat) (s : State σ n w) (x : In n w) : State σ n w :=
  { rx := if x.pixEdge then if x.pixRst then Receiver.reset else Receiver.step s.rx x.raw else s.rx
    cap := CaptureCdc.step E nslots aw al s.cap (capIn s.rx x) }

end Verif.HdmiCdc
