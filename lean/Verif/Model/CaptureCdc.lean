import Verif.Model.Capture
import Verif.Model.GrayFifo

/-!
# Capture path with the circuit of its FIFO

Like `Model/Capture`, but with the asynchronous FIFO circuit of `Model/GrayFifo` instead of a queue, and
with the reset of the pixel clock domain.
-/

namespace Verif.CaptureCdc

open Capture (Extractor Word)

/-- What happens at one instant.  `pixRst` is the reset of the pixel clock domain, asserted while the
input clock is not locked and for some clocks more (input/clocking.py:82-85,230-233); the system clock
domain is not reset then. -/
structure In (n w : Nat) where
  pixEdge : Bool
  pixRst : Bool
  video : Frame.In
  sysEdge : Bool
  busReady : Bool
  wdataValid : Bool
  frame_size : Nat
  sw : Nat → Dma.SlotWrite
  /-- see `GrayFifo.In` -/
  rOld : BitVec (n + 1)
  wOld : BitVec (n + 1)
  clash : Word w

/-- Registers of the three parts. -/
structure State (σ : Type) (n w : Nat) where
  frame : σ
  fifo : GrayFifo.State n (Word w)
  dma : Dma.State

variable {σ : Type} {n w : Nat}

/-- Reset state; the FIFO is in state `f`. -/
def start (E : Extractor σ w) (f : GrayFifo.State n (Word w)) : State σ n w :=
  { frame := E.reset, fifo := f, dma := Dma.reset }

/-- Inputs of the DMA (analysis.py:252-255, input/__init__.py:153): the output of the FIFO. -/
def dmaIn (s : State σ n w) (x : In n w) : Dma.In (List (BitVec w)) :=
  { valid := GrayFifo.readable s.fifo, sof := s.fifo.dout.1, pixels := s.fifo.dout.2
    busReady := x.busReady, wdataValid := x.wdataValid, frame_size := x.frame_size, sw := x.sw }

/-- Inputs of the FIFO (analysis.py:237-255). -/
def fifoIn (E : Extractor σ w) (s : State σ n w) (x : In n w) : GrayFifo.In n (Word w) :=
  { writeEdge := x.pixEdge, we := Capture.offers E s.frame, din := Capture.offered E s.frame
    writeRst := x.pixRst, readEdge := x.sysEdge, re := Dma.frameReady s.dma (dmaIn s x)
    rOld := x.rOld, wOld := x.wOld, clash := x.clash }

/-- One instant. -/
def step (E : Extractor σ w) (nslots aw al : Nat) (s : State σ n w) (x : In n w) : State σ n w :=
  { frame :=
      if x.pixEdge then if x.pixRst then E.reset else E.step s.frame x.video else s.frame
    fifo := GrayFifo.step s.fifo (fifoIn E s x)
    dma := if x.sysEdge then Dma.step nslots aw al s.dma (dmaIn s x) else s.dma }

end Verif.CaptureCdc
