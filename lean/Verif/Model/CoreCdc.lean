import Verif.Model.InitiatorCdc

/-!
# Video output core with the circuit of its parameter FIFO

`VideoOutCore` (output/core.py:195-281) without genlock: the initiator of `Model/InitiatorCdc`, whose FIFO
carries the parameter sets from the `sys` clock to the clock `cd` of the DRAM port, and `Model/Output.Core`,
clocked by `cd`.
-/

namespace Verif.Output.CoreCdc

/-- What happens at one instant: edges of the two clocks, the CSRs, `source.ready`, the memory port as in
`Core.In`, and the uncertainty of the FIFO's synchronisers and memory. -/
structure In where
  sysEdge : Bool
  enable : Bool
  csr : Params
  cdEdge : Bool
  ready : Bool
  memReady : Bool
  answer : Bool
  mem : Nat → Nat
  rOld : BitVec 3
  wOld : BitVec 3
  clash : Params

/-- Registers of the initiator's FIFO and of the core. -/
structure State where
  fifo : GrayFifo.State 2 Params
  core : Core.State

/-- Inputs of the timing generator, the DMA reader and the joining logic (core.py:225-241,245-249): the
parameters are the head of the FIFO. -/
def coreIn (s : State) (i : In) : Core.In :=
  { pvalid := GrayFifo.readable s.fifo, p := s.fifo.dout, ready := i.ready, memReady := i.memReady
    answer := i.answer, mem := i.mem }

/-- Inputs of the initiator; `initiator.source.ready` comes from the timing generator (core.py:230). -/
def initiatorIn (s : State) (i : In) : InitiatorCdc.In :=
  { sysEdge := i.sysEdge, enable := i.enable, csr := i.csr, cdEdge := i.cdEdge
    ready := Core.paramsReady s.core (coreIn s i), rOld := i.rOld, wOld := i.wOld, clash := i.clash }

/-- One instant. -/
def step (cfg : Core.Config) (s : State) (i : In) : State :=
  { fifo := InitiatorCdc.step s.fifo (initiatorIn s i)
    core := if i.cdEdge then Core.step cfg s.core (coreIn s i) else s.core }

end Verif.Output.CoreCdc
