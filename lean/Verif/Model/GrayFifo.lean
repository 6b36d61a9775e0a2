import Verif.Model.MultiReg

/-!
# Asynchronous FIFO with Gray counters

`stream.AsyncFIFO` (used at input/analysis.py:237-240 and output/core.py:28-31) wraps Migen's
`AsyncFIFO`, whose source is not in /repo: two Gray counters, each carried to the other clock by a
`MultiReg`, and a dual-port memory.  `Model/AsyncFifo` is the queue that this is meant to be; here is
the circuit.  One step is one instant at which the write clock, the read clock or both have an edge.
The depth is `2 ^ n`.

The write clock domain of the capture FIFO is `pix`, whose reset is asserted while the input clock is not
locked (input/clocking.py:82-85,230-233); the read clock domain is `sys`, which is not reset then.
-/

namespace Verif.GrayFifo

open Status (Multi)

variable {α : Type} {n : Nat}

/-- What happens at one instant. -/
structure In (n : Nat) (α : Type) where
  /-- write clock edge, `sink.valid`, the word, and the reset of the write clock domain -/
  writeEdge : Bool
  we : Bool
  din : α
  writeRst : Bool
  /-- read clock edge and `source.ready` -/
  readEdge : Bool
  re : Bool
  /-- bits that a synchroniser takes too early when the other counter changes in the same instant -/
  rOld : BitVec (n + 1)
  wOld : BitVec (n + 1)
  /-- what the read port returns if its address is written in the same instant -/
  clash : α

/-- Registers: `q_binary` of the two Gray counters (`q` is always the Gray code of `q_binary`, they are
loaded together), the two synchronisers, the memory and the output register of its read port. -/
structure State (n : Nat) (α : Type) where
  produce : BitVec (n + 1)
  consume : BitVec (n + 1)
  produce_r : Multi (n + 1)
  consume_w : Multi (n + 1)
  storage : Nat → α
  dout : α

/-- Reset state; `z` is the initial content of the memory. -/
def reset (n : Nat) (z : α) : State n α :=
  { produce := 0, consume := 0, produce_r := Multi.reset _, consume_w := Multi.reset _
    storage := fun _ => z, dout := z }

/-- Gray code (`GrayCounter`). -/
def gray {w : Nat} (x : BitVec w) : BitVec w := x ^^^ (x >>> 1)

/-- `sink.ready` = `writable`: not both upper bits differ and the others agree. -/
def writable (s : State n α) : Bool :=
  let p := gray s.produce
  let c := s.consume_w.status
  p.getLsbD n == c.getLsbD n || p.getLsbD (n - 1) == c.getLsbD (n - 1) ||
    p.setWidth (n - 1) != c.setWidth (n - 1)

/-- `source.valid` = `readable`. -/
def readable (s : State n α) : Bool := gray s.consume != s.produce_r.status

/-- `wrport.we` = `produce.ce`. -/
def writes (s : State n α) (x : In n α) : Bool := x.writeEdge && x.we && writable s

/-- `consume.q_next_binary`. -/
def consumeNext (s : State n α) (x : In n α) : BitVec (n + 1) :=
  if readable s && x.re then s.consume + 1 else s.consume

/-- `produce.q_binary` after this instant.  The reset of the clock domain wins. -/
def produceNext (s : State n α) (x : In n α) : BitVec (n + 1) :=
  if x.writeEdge then
    if x.writeRst then 0 else if x.we && writable s then s.produce + 1 else s.produce
  else s.produce

/-- Memory address: a counter without its highest bit. -/
def address (x : BitVec (n + 1)) : Nat := x.toNat % 2 ^ n

/-- One instant.  The synchronisers have no reset (Migen makes the registers of a `MultiReg`
`reset_less`), the memory neither. -/
def step (s : State n α) (x : In n α) : State n α :=
  { produce := produceNext s x
    consume := if x.readEdge then consumeNext s x else s.consume
    produce_r := s.produce_r.step x.readEdge (gray s.produce) (gray (produceNext s x)) x.rOld
    consume_w := s.consume_w.step x.writeEdge (gray s.consume)
      (gray (if x.readEdge then consumeNext s x else s.consume)) x.wOld
    storage := fun a => if writes s x && decide (a = address s.produce) then x.din else s.storage a
    dout :=
      if x.readEdge then
        if writes s x && decide (address (consumeNext s x) = address s.produce) then x.clash
        else s.storage (address (consumeNext s x))
      else s.dout }

end Verif.GrayFifo
