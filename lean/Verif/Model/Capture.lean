import Verif.Model.Frame
import Verif.Model.Dma

/-!
# Capture path

Model of the part of `HDMIIn` (litevideo/input/__init__.py:140-154) that moves pixels to memory:
`FrameExtraction` in the pixel clock domain, its asynchronous FIFO, and `DMA` in the system clock
domain.  One step is one instant at which the pixel clock, the system clock or both have an edge.
-/

namespace Verif.Capture

/-- `FrameExtraction` in one of its modes (analysis.py:158,210): its registers `σ`, the width `w` of
an encoded pixel, the number of pixels per memory word, and the packer. -/
structure Extractor (σ : Type) (w : Nat) where
  pf : Nat
  reset : σ
  step : σ → Frame.In → σ
  packer : σ → Frame.Packer.State (BitVec w)

/-- Mode `rgb` (analysis.py:210-233). -/
def rgb (pf : Nat) : Extractor Frame.Rgb.State 32 :=
  { pf := pf, reset := Frame.Rgb.reset, step := Frame.Rgb.step pf, packer := Frame.Rgb.State.packer }

/-- Mode `ycbcr422` (analysis.py:159-209), the default. -/
def ycbcr422 (pf : Nat) : Extractor Frame.Ycbcr422.State 16 :=
  { pf := pf, reset := Frame.Ycbcr422.reset, step := Frame.Ycbcr422.step pf
    packer := Frame.Ycbcr422.State.packer }

/-- A word of the FIFO: start-of-frame bit and pixels (input/common.py, analysis.py:133-151). -/
abbrev Word (w : Nat) := Bool × List (BitVec w)

/-- What happens at one instant: clock edges, the video input during this pixel clock, the flags of
the FIFO (see `AsyncFifo`), and the inputs of the DMA during this system clock. -/
structure In where
  pixEdge : Bool
  video : Frame.In
  wok : Bool
  sysEdge : Bool
  rok : Bool
  busReady : Bool
  wdataValid : Bool
  frame_size : Nat
  sw : Nat → Dma.SlotWrite

/-- Registers of the three parts. -/
structure State (σ : Type) (w : Nat) where
  frame : σ
  fifo : List (Word w)
  dma : Dma.State

variable {σ : Type} {w : Nat}

/-- Reset state. -/
def reset (E : Extractor σ w) : State σ w := { frame := E.reset, fifo := [], dma := Dma.reset }

/-- Inputs of the DMA (analysis.py:252-255, input/__init__.py:153): the head of the FIFO. -/
def dmaIn (s : State σ w) (x : In) : Dma.In (List (BitVec w)) :=
  { valid := x.rok && !s.fifo.isEmpty
    sof := (s.fifo.head?.getD (false, [])).1
    pixels := (s.fifo.head?.getD (false, [])).2
    busReady := x.busReady, wdataValid := x.wdataValid, frame_size := x.frame_size, sw := x.sw }

/-- A word is offered to the FIFO during this pixel clock (analysis.py:196,220,243). -/
def offers (E : Extractor σ w) (s : σ) : Bool := (E.packer s).cur_word_valid

/-- The word that is offered (analysis.py:241-250). -/
def offered (E : Extractor σ w) (s : σ) : Word w :=
  ((E.packer s).sof, Frame.Packer.word E.pf (E.packer s))

/-- Inputs of the FIFO (analysis.py:237-255). -/
def fifoIn (E : Extractor σ w) (s : State σ w) (x : In) : AsyncFifo.In (Word w) :=
  { push := x.pixEdge && offers E s.frame
    data := offered E s.frame
    wok := x.wok
    pop := x.sysEdge && Dma.frameReady s.dma (dmaIn s x)
    rok := x.rok }

/-- One instant. -/
def step (E : Extractor σ w) (depth nslots aw al : Nat) (s : State σ w) (x : In) : State σ w :=
  { frame := if x.pixEdge then E.step s.frame x.video else s.frame
    fifo := AsyncFifo.step depth s.fifo (fifoIn E s x)
    dma := if x.sysEdge then Dma.step nslots aw al s.dma (dmaIn s x) else s.dma }

end Verif.Capture
