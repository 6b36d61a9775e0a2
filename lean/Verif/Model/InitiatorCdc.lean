import Verif.Model.Initiator
import Verif.Model.GrayFifo

/-!
# Frame parameter initiator with the circuit of its FIFO

`Initiator` (output/core.py:14-38) as in `Model/Initiator`, with the asynchronous FIFO of depth 4 as a
circuit (`Model/GrayFifo`) instead of a queue.
-/

namespace Verif.Output.InitiatorCdc

/-- What happens at one instant: edges of the two clocks, the CSRs, `source.ready`, and the uncertainty of
the synchronisers and of the memory. -/
structure In where
  sysEdge : Bool
  enable : Bool
  csr : Params
  cdEdge : Bool
  ready : Bool
  rOld : BitVec 3
  wOld : BitVec 3
  clash : Params

/-- Wiring of the FIFO (core.py:28-38): `sink.valid = enable`, the payload is the CSRs.  The write side is
in the `sys` domain, which is not reset while the core runs. -/
def wire (i : In) : GrayFifo.In 2 Params :=
  { writeEdge := i.sysEdge, we := i.enable, din := i.csr, writeRst := false
    readEdge := i.cdEdge, re := i.ready, rOld := i.rOld, wOld := i.wOld, clash := i.clash }

/-- One instant. -/
def step (s : GrayFifo.State 2 Params) (i : In) : GrayFifo.State 2 Params := GrayFifo.step s (wire i)

end Verif.Output.InitiatorCdc
