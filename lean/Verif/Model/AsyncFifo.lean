import Verif.Machine

/-!
# Clock domain crossing FIFOs

`litex.soc.interconnect.stream.AsyncFIFO` is a dependency (used by output/core.py:28-31 and
input/analysis.py:237-240); its source is not in /repo.  It is modelled as a bounded queue between
two unrelated clocks.  One step is one instant at which the write clock, the read clock or both
have an edge.  The flags of an asynchronous FIFO lag: `wok` and `rok` say whether the write side
already sees free space and the read side already sees data; they are arbitrary inputs, so the
theorems hold for every synchronisation delay.
-/

namespace Verif.AsyncFifo

/-- What happens at one instant. -/
structure In (α : Type) where
  /-- write clock edge with `sink.valid` -/
  push : Bool
  data : α
  /-- the write side sees free space -/
  wok : Bool
  /-- read clock edge with `source.ready` -/
  pop : Bool
  /-- the read side sees data -/
  rok : Bool

/-- `sink.ready`. -/
def sinkReady {α : Type} (depth : Nat) (q : List α) (i : In α) : Bool :=
  i.wok && decide (q.length < depth)

/-- `source.valid`. -/
def sourceValid {α : Type} (q : List α) (i : In α) : Bool := i.rok && !q.isEmpty

/-- One instant. -/
def step {α : Type} (depth : Nat) (q : List α) (i : In α) : List α :=
  let q1 := if sourceValid q i && i.pop then q.tail else q
  if sinkReady depth q i && i.push then q1 ++ [i.data] else q1

end Verif.AsyncFifo
