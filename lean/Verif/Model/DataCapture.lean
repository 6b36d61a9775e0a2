import Verif.Model.Frame

/-!
# Data capture

Model of `litevideo/input/datacapture.py`: everything behind the vendor primitives (input buffers,
delay lines, SERDES) of `S6DataCapture` and `S7DataCapture`.  One step is one instant at which some
of the clocks have an edge.  `PulseSynchronizer` and `MultiReg` are modelled as in `Model/Frame`.
-/

namespace Verif.DataCapture

open Frame.Overflow (Pulse)

/-- `too_late` (datacapture.py:103,408); `n` is `ntbits`. -/
def tooLate (n lateness : Nat) : Bool := decide (lateness = 2 ^ n - 1)

/-- `too_early` (datacapture.py:104,409). -/
def tooEarly (lateness : Nat) : Bool := decide (lateness = 0)

/-- A synchroniser at rest. -/
def Pulse.rest : Pulse := ⟨false, false, false, false⟩

namespace S6

/-- The pulses that a write to `_dly_ctl` gives to the synchronisers (datacapture.py:14,179-185). -/
structure Ctl where
  master_cal : Bool
  master_rst : Bool
  slave_cal : Bool
  slave_rst : Bool
  inc : Bool
  dec : Bool
deriving DecidableEq, Repr

/-- The pulses from `_dly_ctl.re` and `_dly_ctl.r` (datacapture.py:180-185); `none`: `re` is 0. -/
def Ctl.ofWrite : Option (BitVec 6) → Ctl
  | some r => ⟨r.getLsbD 0, r.getLsbD 1, r.getLsbD 2, r.getLsbD 3, r.getLsbD 4, r.getLsbD 5⟩
  | none => ⟨false, false, false, false, false, false⟩

/-- What happens at one instant: clock edges, the delay lines' busy outputs and the phase detector's
outputs at the `pix2x` edge, the five bits of the SERDES, and the CSR writes at the system clock
edge (`ctl` is all 0 if `_dly_ctl` is not written). -/
structure In where
  pix2xEdge : Bool
  pixEdge : Bool
  sysEdge : Bool
  master_busy : Bool
  slave_busy : Bool
  pd_valid : Bool
  pd_incdec : Bool
  dsr2 : BitVec 5
  ctl : Ctl
  phase_reset : Bool

/-- Registers: accumulator and its crossing (datacapture.py:97-113,190-196), delay control
(115-188), deserialiser (198-204). -/
structure State where
  lateness : Nat
  doReset : Pulse
  phase0 : Bool × Bool
  phase : Bool × Bool
  doMasterCal : Pulse
  doMasterRst : Pulse
  doSlaveRst : Pulse
  doSlaveCal : Pulse
  doInc : Pulse
  doDec : Pulse
  master_pending : Bool
  slave_pending : Bool
  masterDoneI : Bool
  slaveDoneI : Bool
  masterDone : Pulse
  slaveDone : Pulse
  sys_master_pending : Bool
  sys_slave_pending : Bool
  dsr : BitVec 10
  d : BitVec 10

/-- Reset state. -/
def reset (n : Nat) : State :=
  { lateness := 2 ^ (n - 1), doReset := Pulse.rest, phase0 := (false, false)
    phase := (false, false), doMasterCal := Pulse.rest, doSlaveCal := Pulse.rest
    doMasterRst := Pulse.rest, doSlaveRst := Pulse.rest
    doInc := Pulse.rest, doDec := Pulse.rest, master_pending := false, slave_pending := false
    masterDoneI := false, slaveDoneI := false, masterDone := Pulse.rest, slaveDone := Pulse.rest
    sys_master_pending := false, sys_slave_pending := false, dsr := 0, d := 0 }

/-- The accumulator at a `pix2x` edge (datacapture.py:106-113). -/
def accumulate (n : Nat) (s : State) (x : In) : Nat :=
  if s.doReset.o then 2 ^ (n - 1)
  else if !x.master_busy && !x.slave_busy && !tooLate n s.lateness && !tooEarly s.lateness then
    (if x.pd_valid && !x.pd_incdec then (s.lateness + 1) % 2 ^ n
     else if x.pd_valid && x.pd_incdec then (s.lateness + 2 ^ n - 1) % 2 ^ n
     else s.lateness)
  else s.lateness

/-- `delay_ce` (datacapture.py:155). -/
def delayCe (s : State) : Bool := s.doInc.o || s.doDec.o

/-- The control inputs of a delay line (`IODELAY2`). -/
structure Pins where
  CAL : Bool
  RST : Bool
  CE : Bool
  INC : Bool
deriving DecidableEq, Repr

/-- The master's control inputs (datacapture.py:46-47,149-156). -/
def masterPins (s : State) : Pins := ⟨s.doMasterCal.o, s.doMasterRst.o, delayCe s, s.doInc.o⟩

/-- The slave's control inputs (datacapture.py:57-58,149-156). -/
def slavePins (s : State) : Pins := ⟨s.doSlaveCal.o, s.doSlaveRst.o, delayCe s, s.doInc.o⟩

/-- One instant.  `inverted`: the pad has an `inverted` attribute (datacapture.py:201-204). -/
def step (n : Nat) (inverted : Bool) (s : State) (x : In) : State :=
  { lateness := if x.pix2xEdge then accumulate n s x else s.lateness
    doReset := s.doReset.step x.sysEdge x.phase_reset x.pix2xEdge
    phase0 := if x.sysEdge then (tooLate n s.lateness, tooEarly s.lateness) else s.phase0
    phase := if x.sysEdge then s.phase0 else s.phase
    doMasterCal := s.doMasterCal.step x.sysEdge x.ctl.master_cal x.pix2xEdge
    doMasterRst := s.doMasterRst.step x.sysEdge x.ctl.master_rst x.pix2xEdge
    doSlaveRst := s.doSlaveRst.step x.sysEdge x.ctl.slave_rst x.pix2xEdge
    doSlaveCal := s.doSlaveCal.step x.sysEdge x.ctl.slave_cal x.pix2xEdge
    doInc := s.doInc.step x.sysEdge x.ctl.inc x.pix2xEdge
    doDec := s.doDec.step x.sysEdge x.ctl.dec x.pix2xEdge
    master_pending :=
      if x.pix2xEdge then
        (if !s.master_pending then s.doMasterCal.o || delayCe s else x.master_busy)
      else s.master_pending
    slave_pending :=
      if x.pix2xEdge then
        (if !s.slave_pending then s.doSlaveCal.o || delayCe s else x.slave_busy)
      else s.slave_pending
    masterDoneI :=
      if x.pix2xEdge then s.master_pending && !x.master_busy else s.masterDoneI
    slaveDoneI :=
      if x.pix2xEdge then s.slave_pending && !x.slave_busy else s.slaveDoneI
    masterDone := s.masterDone.step x.pix2xEdge s.masterDoneI x.sysEdge
    slaveDone := s.slaveDone.step x.pix2xEdge s.slaveDoneI x.sysEdge
    sys_master_pending :=
      if x.sysEdge then
        (if x.ctl.master_cal || x.ctl.inc || x.ctl.dec then true
         else if s.masterDone.o then false else s.sys_master_pending)
      else s.sys_master_pending
    sys_slave_pending :=
      if x.sysEdge then
        (if x.ctl.slave_cal || x.ctl.inc || x.ctl.dec then true
         else if s.slaveDone.o then false else s.sys_slave_pending)
      else s.sys_slave_pending
    dsr := if x.pix2xEdge then x.dsr2 ++ s.dsr.extractLsb' 5 5 else s.dsr
    d := if x.pixEdge then (if inverted then ~~~s.dsr else s.dsr) else s.d }

end S6

namespace S7

/-- `serdes_m_d` (datacapture.py:376-385) from the eight bits of the master SERDES. -/
def masterData (inverted : Bool) (q : BitVec 8) : BitVec 8 := if inverted then ~~~q else q

/-- `serdes_s_d` (datacapture.py:376-385) from the eight bits of the slave SERDES. -/
def slaveData (inverted : Bool) (q : BitVec 8) : BitVec 8 := if inverted then q else ~~~q

/-- What happens at one instant: clock edges, the master and slave samples at the `pix1p25x` edge
(after the polarity correction of datacapture.py:375-385), and `_phase_reset.re`. -/
structure In where
  pixEdge : Bool
  sysEdge : Bool
  mdata : BitVec 8
  sdata : BitVec 8
  phase_reset : Bool

/-- Registers: phase detector (datacapture.py:244-247), accumulator and its crossing (402-418,
442-448).  The gearbox is in `Model/Gearbox`, the delay control in `S7.Delay`, the bus
synchronisers in `Model/BusSync`. -/
structure State where
  mdata_d : BitVec 8
  lateness : Nat
  doReset : Pulse
  phase0 : Bool × Bool
  phase : Bool × Bool

/-- Reset state. -/
def reset (n : Nat) : State :=
  { mdata_d := 0, lateness := 2 ^ (n - 1), doReset := Pulse.rest, phase0 := (false, false)
    phase := (false, false) }

/-- `S7PhaseDetector.inc` (datacapture.py:247,252). -/
def inc (s : State) (x : In) : Bool := decide (s.mdata_d ≠ x.mdata) && decide (x.mdata = x.sdata)

/-- `S7PhaseDetector.dec` (datacapture.py:247,253). -/
def dec (s : State) (x : In) : Bool := decide (s.mdata_d ≠ x.mdata) && decide (x.mdata ≠ x.sdata)

/-- The accumulator at a `pix1p25x` edge (datacapture.py:411-418); of two assignments the last
wins. -/
def accumulate (n : Nat) (s : State) (x : In) : Nat :=
  if s.doReset.o then 2 ^ (n - 1)
  else if !tooLate n s.lateness && !tooEarly s.lateness then
    (if inc s x then (s.lateness + 2 ^ n - 1) % 2 ^ n
     else if dec s x then (s.lateness + 1) % 2 ^ n
     else s.lateness)
  else s.lateness

/-- One instant. -/
def step (n : Nat) (s : State) (x : In) : State :=
  { mdata_d := if x.pixEdge then x.mdata else s.mdata_d
    lateness := if x.pixEdge then accumulate n s x else s.lateness
    doReset := s.doReset.step x.sysEdge x.phase_reset x.pixEdge
    phase0 := if x.sysEdge then (tooLate n s.lateness, tooEarly s.lateness) else s.phase0
    phase := if x.sysEdge then s.phase0 else s.phase }

/-! The delay control (datacapture.py:420-440). -/
namespace Delay

/-- A write to `_dly_ctl` (datacapture.py:434-440): the register's bits when it is written. -/
structure Ctl where
  rst : Bool
  master_inc : Bool
  master_dec : Bool
  slave_inc : Bool
  slave_dec : Bool
deriving DecidableEq

/-- Clock edges and the CSR write at the system clock edge (`ctl` is all 0 if `_dly_ctl` is not
written). -/
structure In where
  pixEdge : Bool
  sysEdge : Bool
  ctl : Ctl

/-- The five pulse synchronisers (datacapture.py:421-425). -/
structure State where
  doRst : Pulse
  doMasterInc : Pulse
  doMasterDec : Pulse
  doSlaveInc : Pulse
  doSlaveDec : Pulse

/-- Reset state. -/
def reset : State := ⟨Pulse.rest, Pulse.rest, Pulse.rest, Pulse.rest, Pulse.rest⟩

/-- One instant. -/
def step (s : State) (x : In) : State :=
  { doRst := s.doRst.step x.sysEdge x.ctl.rst x.pixEdge
    doMasterInc := s.doMasterInc.step x.sysEdge x.ctl.master_inc x.pixEdge
    doMasterDec := s.doMasterDec.step x.sysEdge x.ctl.master_dec x.pixEdge
    doSlaveInc := s.doSlaveInc.step x.sysEdge x.ctl.slave_inc x.pixEdge
    doSlaveDec := s.doSlaveDec.step x.sysEdge x.ctl.slave_dec x.pixEdge }

/-- Inputs of one delay line. -/
structure Line where
  ld : Bool
  ce : Bool
  inc : Bool
deriving DecidableEq, Repr

/-- Inputs of the master delay line (datacapture.py:290-302,427-429). -/
def master (s : State) : Line :=
  { ld := s.doRst.o, ce := s.doMasterInc.o || s.doMasterDec.o, inc := s.doMasterInc.o }

/-- Inputs of the slave delay line (datacapture.py:331-343,427,430-431). -/
def slave (s : State) : Line :=
  { ld := s.doRst.o, ce := s.doSlaveInc.o || s.doSlaveDec.o, inc := s.doSlaveInc.o }

/-- The tap count (`CNTVALUEOUT`) of an `IDELAYE2` with `IDELAY_TYPE="VARIABLE"` and
`IDELAY_VALUE=0` at an edge of its clock `C` (vendor primitive, assumed; datacapture.py:290-307,
331-348): `LD` loads the initial value, otherwise `CE` moves by one tap, up if `INC`; the count has 5
bits and wraps. -/
def tap (l : Line) (v : BitVec 5) : BitVec 5 :=
  if l.ld then 0 else if l.ce then (if l.inc then v + 1 else v - 1) else v

/-- Delay control with its two delay lines. -/
structure Taps where
  ctl : State
  master : BitVec 5
  slave : BitVec 5

/-- After configuration. -/
def tapsReset : Taps := ⟨reset, 0, 0⟩

/-- One instant. -/
def tapsStep (s : Taps) (x : In) : Taps :=
  { ctl := step s.ctl x
    master := if x.pixEdge then tap (Delay.master s.ctl) s.master else s.master
    slave := if x.pixEdge then tap (Delay.slave s.ctl) s.slave else s.slave }

end Delay

end S7
end Verif.DataCapture
