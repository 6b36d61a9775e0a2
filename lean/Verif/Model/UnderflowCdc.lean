import Verif.Machine
import Verif.Model.BusSync

/-!
# Underflow counter of the output core, with its two clocks

Model of the underflow detection of `VideoOutCore` (output/core.py:258-281) together with the path of its
registers between the `sys` domain, where software writes and reads them, and the domain `cd` of the DRAM
port, where the counter runs.

`MultiReg` is instantiated without a target domain (core.py:262), so both its registers are in the `sys`
domain: the enable that the counter uses is a register of the other clock.  If both clocks have an edge at the
same instant and this register changes there, each bit of the counter sees its old value or its new one:
`early` decides, bit by bit.
-/

namespace Verif.Output.UnderflowCdc

open BusSync (Pulse)

/-- What happens at one instant: an edge of the system clock, the value of `underflow_enable.storage`, a write
to `underflow_update` (`re`), an edge of the clock of the port, `source.valid`; which bits of the counter see
the new value of the enable, and whether the pulse synchroniser catches the new value of its toggle. -/
structure In where
  sysEdge : Bool
  enable : Bool
  update : Bool
  cdEdge : Bool
  valid : Bool
  early : BitVec 32
  pulseEarly : Bool

/-- Registers: the two stages of the `MultiReg` (core.py:262), the `PulseSynchronizer` (core.py:263), the
counter (core.py:261) and `underflow_counter.status`. -/
structure State where
  m0 : Bool
  m1 : Bool
  pulse : Pulse
  counter : BitVec 32
  status : BitVec 32
deriving DecidableEq, Repr

/-- Reset values. -/
def reset : State := { m0 := false, m1 := false, pulse := ⟨false, false, false, false⟩, counter := 0, status := 0 }

/-- Next value of the counter if the enable is seen as `en` (core.py:271-277). -/
def count (en valid : Bool) (c : BitVec 32) : BitVec 32 :=
  if en then if !valid then c + 1 else c else 0

/-- One instant (core.py:262-281). -/
def step (s : State) (i : In) : State :=
  let m1 := if i.sysEdge then s.m0 else s.m1
  { m0 := if i.sysEdge then i.enable else s.m0
    m1 := m1
    pulse := s.pulse.step i.sysEdge i.update i.cdEdge i.pulseEarly
    counter :=
      if i.cdEdge then
        (count m1 i.valid s.counter &&& i.early) ||| (count s.m1 i.valid s.counter &&& ~~~i.early)
      else s.counter
    status := if i.cdEdge && s.pulse.o then s.counter else s.status }

end Verif.Output.UnderflowCdc
