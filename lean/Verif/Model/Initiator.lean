import Verif.Model.AsyncFifo
import Verif.Model.Output

/-!
# Frame parameter initiator

Model of `Initiator` (output/core.py:14-38): a 4-deep AsyncFIFO written at every `sys` clock, as
long as `enable` is set, with the current content of all parameter CSRs.
-/

namespace Verif.Output.Initiator

/-- What happens at one instant: edges of the two clocks, the CSRs, the flags of the FIFO and
`source.ready`. -/
structure In where
  sysEdge : Bool
  enable : Bool
  csr : Params
  wok : Bool
  cdEdge : Bool
  ready : Bool
  rok : Bool

/-- FIFO depth (core.py:28). -/
def depth : Nat := 4

/-- Wiring of the FIFO (core.py:34-38): `sink.valid = enable`, the payload is the CSRs. -/
def wire (i : In) : AsyncFifo.In Params :=
  { push := i.sysEdge && i.enable, data := i.csr, wok := i.wok, pop := i.cdEdge && i.ready,
    rok := i.rok }

/-- One instant. -/
def step (q : List Params) (i : In) : List Params := AsyncFifo.step depth q (wire i)

end Verif.Output.Initiator
