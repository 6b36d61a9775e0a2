import Verif.Model.CaptureCdc
import Verif.Spec.GrayFifo
import Verif.Spec.Bandwidth

/-!
# Specification vocabulary for the capture path with the circuit of its FIFO
-/

namespace Verif.Spec.CaptureCdc

open Verif.CaptureCdc Verif.Capture Verif.Spec.Frame Verif.Spec.Stream

variable {σ : Type} {n w : Nat} (E : Extractor σ w) (nslots aw al : Nat)
  (f0 : GrayFifo.State n (Word w)) (x : Nat → CaptureCdc.In n w)

/-- State at instant `t`, from reset, with the FIFO in state `f0`. -/
abbrev circuit (t : Nat) : CaptureCdc.State σ n w :=
  trace (CaptureCdc.step E nslots aw al) (start E f0) x t

/-- The inputs of the capture path with a queue: the same, and the flags of the circuit. -/
def asQueue (t : Nat) : Capture.In :=
  { pixEdge := (x t).pixEdge, video := (x t).video
    wok := GrayFifo.writable (circuit E nslots aw al f0 x t).fifo
    sysEdge := (x t).sysEdge
    rok := GrayFifo.readable (circuit E nslots aw al f0 x t).fifo
    busReady := (x t).busReady, wdataValid := (x t).wdataValid, frame_size := (x t).frame_size
    sw := (x t).sw }

/-- The (address, data) pairs written to memory at instants `t, ..., t + m - 1`. -/
def memWrites (t m : Nat) : List (Nat × List (BitVec w)) :=
  pickIn (fun u => (x u).sysEdge && Dma.writes (circuit E nslots aw al f0 x u).dma
      (CaptureCdc.dmaIn (circuit E nslots aw al f0 x u) (x u)))
    (fun u => Dma.busWord (circuit E nslots aw al f0 x u).dma
      (CaptureCdc.dmaIn (circuit E nslots aw al f0 x u) (x u))) t m

/-- The words that `FrameExtraction` puts in the FIFO at instants `t, ..., t + m - 1`. -/
def captured (t m : Nat) : List (Word w) :=
  pickIn (fun u => (x u).pixEdge && offers E (circuit E nslots aw al f0 x u).frame &&
      GrayFifo.writable (circuit E nslots aw al f0 x u).fifo)
    (fun u => offered E (circuit E nslots aw al f0 x u).frame) t m

end Verif.Spec.CaptureCdc
