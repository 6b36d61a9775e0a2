import Verif.Machine
import Verif.Model.DataCapture

/-!
# Read-back of the tap counts

Model of the `BusSynchronizer`s of `S7DataCapture` (datacapture.py:365-372).  `BusSynchronizer` is a
Migen library block: a pulse goes from the input domain to the output domain (`_ping`) and back
(`_pong`); the input word is held when the pulse comes back and taken over when it arrives.

One step is one instant at which some of the clocks have an edge.  If both clocks have an edge at the
same instant, a register of one domain that samples a register of the other may catch the old value or
the new one, and each bit of a word by itself: the inputs `early` of a step decide.
-/

namespace Verif.BusSync

/-- A `PulseSynchronizer` (Migen library): toggle, the two `MultiReg` stages, and the last value. -/
structure Pulse where
  toggle : Bool
  m0 : Bool
  m1 : Bool
  last : Bool
deriving DecidableEq, Repr

/-- Output of a `PulseSynchronizer`. -/
def Pulse.o (p : Pulse) : Bool := p.m1 ^^ p.last

/-- Edges of the source and target clocks of a `PulseSynchronizer`; `early`: the new value of the
toggle is caught. -/
def Pulse.step (p : Pulse) (src i dst early : Bool) : Pulse :=
  let toggle := if src && i then !p.toggle else p.toggle
  { toggle := toggle
    m0 := if dst then (if early then toggle else p.toggle) else p.m0
    m1 := if dst then p.m0 else p.m1
    last := if dst then p.m1 else p.last }

/-- What happens at one instant: edges of the input and output clocks, the input word, and which bits
are caught early if both clocks have an edge. -/
structure In where
  iEdge : Bool
  oEdge : Bool
  i : BitVec 5
  early : BitVec 5
  pingEarly : Bool
  pongEarly : Bool

/-- Registers: `starter`, `_ping`, `ping_o`, `_pong`, the count of the `WaitTimer(128)`, `ibuffer`, the
two stages of the `MultiReg` behind it, and `o` (Migen library, instantiated in
datacapture.py:366-367). -/
structure State where
  starter : Bool
  ping : Pulse
  ping_o : Bool
  pong : Pulse
  count : Nat
  ibuffer : BitVec 5
  m0 : BitVec 5
  obuffer : BitVec 5
  o : BitVec 5

/-- Reset state. -/
def reset : State :=
  { starter := true, ping := ⟨false, false, false, false⟩, ping_o := false
    pong := ⟨false, false, false, false⟩, count := 128, ibuffer := 0, m0 := 0, obuffer := 0, o := 0 }

/-- `_ping.i`: the start, the pulse that came back, or the timeout. -/
def pingI (s : State) : Bool := s.starter || s.pong.o || s.count == 0

/-- One instant. -/
def step (s : State) (x : In) : State :=
  let ibuffer := if x.iEdge && s.pong.o then x.i else s.ibuffer
  { starter := if x.iEdge then false else s.starter
    ping := s.ping.step x.iEdge (pingI s) x.oEdge x.pingEarly
    ping_o := if x.oEdge then s.ping.o else s.ping_o
    pong := s.pong.step x.oEdge s.ping_o x.iEdge x.pongEarly
    count :=
      if x.iEdge then (if pingI s then 128 else if s.count == 0 then s.count else s.count - 1)
      else s.count
    ibuffer := ibuffer
    m0 := if x.oEdge then (ibuffer &&& x.early) ||| (s.ibuffer &&& ~~~x.early) else s.m0
    obuffer := if x.oEdge then s.m0 else s.obuffer
    o := if x.oEdge && s.ping_o then s.obuffer else s.o }

end Verif.BusSync

namespace Verif.DataCapture.S7.Delay

/-- What is caught early at one instant, for one of the two synchronisers. -/
structure Race where
  early : BitVec 5
  pingEarly : Bool
  pongEarly : Bool

/-- Delay control, delay lines and the two bus synchronisers (datacapture.py:365-372). -/
structure Readback where
  taps : Taps
  master : BusSync.State
  slave : BusSync.State

/-- After configuration. -/
def readbackReset : Readback := ⟨tapsReset, BusSync.reset, BusSync.reset⟩

/-- One instant: the synchronisers go from `pix1p25x` to `sys` (datacapture.py:366-367). -/
def readbackStep (s : Readback) (x : In × Race × Race) : Readback :=
  let bus := fun (r : Race) (v : BitVec 5) =>
    (⟨x.1.pixEdge, x.1.sysEdge, v, r.early, r.pingEarly, r.pongEarly⟩ : BusSync.In)
  { taps := tapsStep s.taps x.1
    master := BusSync.step s.master (bus x.2.1 s.taps.master)
    slave := BusSync.step s.slave (bus x.2.2 s.taps.slave) }

/-- `_cntvalueout_m.status` (datacapture.py:368-369). -/
def cntvalueoutM (s : Readback) : BitVec 5 := s.master.o

/-- `_cntvalueout_s.status` (datacapture.py:370-371). -/
def cntvalueoutS (s : Readback) : BitVec 5 := s.slave.o

end Verif.DataCapture.S7.Delay
