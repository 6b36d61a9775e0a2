import Verif.Machine

/-!
# EDID slave

Model of `EDID` (litevideo/input/edid.py:30-258): an I2C slave that serves a read-only memory.  One
step is one system clock.  The two-register synchronisers (`MultiReg`) and the registered memory
port are dependencies; the former are modelled as two registers, the latter as a register that
loads `mem[adr]`.
-/

namespace Verif.Edid

/-- FSM states (edid.py:181-253). -/
inductive Fsm where
  | waitStart
  | rcvAddress
  | ackAddress0
  | ackAddress1
  | ackAddress2
  | rcvOffset
  | ackOffset0
  | ackOffset1
  | ackOffset2
  | read
  | ackRead
deriving DecidableEq, Repr

/-- Registers behind the sampling stage: `counter`, `din` (edid.py:121-133), `is_read` (138-140),
`offset_counter` (142-150), `rdport.dat_r` (152-154), `data_bit`, `data_drv` (155-177), the FSM and
`_sda_drv_reg` (60). -/
structure Core where
  counter : Nat
  din : BitVec 8
  is_read : Bool
  offset : Nat
  dat_r : BitVec 8
  data_bit : Bool
  data_drv : Bool
  fsm : Fsm
  drv_reg : Bool
deriving DecidableEq, Repr

/-- Reset state. -/
def Core.reset : Core :=
  { counter := 0, din := 0, is_read := false, offset := 0, dat_r := 0, data_bit := false
    data_drv := false, fsm := .waitStart, drv_reg := false }

/-- `zero_drv` (edid.py:195-232): SDA is pulled low to acknowledge. -/
def zeroDrv : Fsm → Bool
  | .ackAddress1 | .ackAddress2 | .ackOffset1 | .ackOffset2 => true
  | _ => false

/-- `sda_drv` (edid.py:157-164). -/
def Core.sdaDrv (c : Core) : Bool := zeroDrv c.fsm || (c.data_drv && !c.data_bit)

/-- The sampled bus and its previous value (edid.py:92-116). -/
structure Bus where
  scl_i : Bool
  sda_i : Bool
  scl_r : Bool
  sda_r : Bool

/-- `scl_rising` (edid.py:113). -/
def Bus.rising (b : Bus) : Bool := b.scl_i && !b.scl_r

/-- `start` (edid.py:115,119). -/
def Bus.start (b : Bus) : Bool := b.scl_i && !b.sda_i && b.sda_r

/-- `NextState` of the states themselves (edid.py:181-253). -/
def Core.fsmOwn (c : Core) (b : Bus) : Fsm :=
  match c.fsm with
  | .waitStart => .waitStart
  | .rcvAddress =>
    if c.counter = 8 then (if c.din.toNat / 2 = 0x50 then .ackAddress0 else .waitStart)
    else .rcvAddress
  | .ackAddress0 => if !b.scl_i then .ackAddress1 else .ackAddress0
  | .ackAddress1 => if b.scl_i then .ackAddress2 else .ackAddress1
  | .ackAddress2 => if !b.scl_i then (if c.is_read then .read else .rcvOffset) else .ackAddress2
  | .rcvOffset => if c.counter = 8 then .ackOffset0 else .rcvOffset
  | .ackOffset0 => if !b.scl_i then .ackOffset1 else .ackOffset0
  | .ackOffset1 => if b.scl_i then .ackOffset2 else .ackOffset1
  | .ackOffset2 => if !b.scl_i then .rcvAddress else .ackOffset2
  | .read => if !b.scl_i && decide (c.counter = 8) then .ackRead else .read
  | .ackRead => if b.rising then (if b.sda_i then .waitStart else .read) else .ackRead

/-- `update_is_read` (edid.py:182-186). -/
def Core.updateIsRead (c : Core) : Bool :=
  decide (c.fsm = .rcvAddress ∧ c.counter = 8 ∧ c.din.toNat / 2 = 0x50)

/-- `oc_load` (edid.py:210-212). -/
def Core.ocLoad (c : Core) : Bool := decide (c.fsm = .rcvOffset ∧ c.counter = 8)

/-- `oc_inc` (edid.py:244-246). -/
def Core.ocInc (c : Core) (b : Bus) : Bool := decide (c.fsm = .ackRead) && b.rising

/-- `data_drv_en` (edid.py:234-240). -/
def Core.dataDrvEn (c : Core) (b : Bus) : Bool :=
  decide (c.fsm = .read ∧ c.counter ≠ 8) && !b.scl_i

/-- `data_drv_stop` (edid.py:234-237). -/
def Core.dataDrvStop (c : Core) (b : Bus) : Bool :=
  decide (c.fsm = .read ∧ c.counter = 8) && !b.scl_i

/-- One clock edge behind the sampling stage (edid.py:60,121-177,255-258).  `aw` is the width of
`offset_counter`; `mem` is the content of the memory at the addresses of `aw` bits (for a size that
is not a power of two the addresses from `mem_size` on are unspecified).  `hpd_en` is
`_hpd_en.storage`; without an `hpd_en` pad it is to be taken as constantly 1. -/
def Core.step (aw : Nat) (mem : Nat → BitVec 8) (c : Core) (b : Bus) (hpd_en : Bool) : Core :=
  { counter :=
      if b.rising then (if c.counter = 8 then 0 else c.counter + 1)
      else if b.start then 0
      else c.counter
    din := if b.rising && decide (c.counter ≠ 8) then (c.din ++ BitVec.ofBool b.sda_i).setWidth 8
      else c.din
    is_read := if c.updateIsRead then c.din.getLsbD 0 else c.is_read
    offset := if c.ocLoad then c.din.toNat % 2 ^ aw
      else if c.ocInc b then (c.offset + 1) % 2 ^ aw else c.offset
    dat_r := mem c.offset
    data_bit := if c.dataDrvEn b then c.dat_r.getLsbD (7 - c.counter) else c.data_bit
    data_drv := if c.dataDrvEn b then true else if c.dataDrvStop b then false else c.data_drv
    fsm := if !hpd_en then .waitStart else if b.start then .rcvAddress else c.fsmOwn b
    drv_reg := c.sdaDrv }

/-- Inputs during one clock: the SCL pad, the SDA pad as the other parties on the bus leave it
(1 = released), and `_hpd_en`. -/
structure In where
  scl : Bool
  sda : Bool
  hpd_en : Bool

/-- All registers: synchronisers (edid.py:62-83), sampling counter (93-96), sampled bus and the
core. -/
structure State where
  scl0 : Bool
  scl_raw : Bool
  sda0 : Bool
  sda_raw : Bool
  samp_count : Nat
  samp_carry : Bool
  bus : Bus
  core : Core

/-- Reset state. -/
def reset : State :=
  { scl0 := false, scl_raw := false, sda0 := false, sda_raw := false, samp_count := 0
    samp_carry := false
    bus := { scl_i := false, sda_i := false, scl_r := false, sda_r := false }
    core := Core.reset }

/-- SDA on the bus: an open-drain line, low if anyone pulls it low (edid.py:75-83). -/
def sdaBus (s : State) (x : In) : Bool := x.sda && !s.core.drv_reg

/-- One clock edge (edid.py:60-133 and `Core.step`). -/
def step (aw : Nat) (mem : Nat → BitVec 8) (s : State) (x : In) : State :=
  { scl0 := x.scl
    scl_raw := s.scl0
    sda0 := sdaBus s x
    sda_raw := s.sda0
    samp_count := (s.samp_count + 1) % 64
    samp_carry := decide (s.samp_count + 1 = 64)
    bus :=
      { scl_i := if s.samp_carry then s.scl_raw else s.bus.scl_i
        sda_i := if s.samp_carry then s.sda_raw else s.bus.sda_i
        scl_r := s.bus.scl_i
        sda_r := s.bus.sda_i }
    core := s.core.step aw mem s.bus x.hpd_en }

/-! Hot plug detection (edid.py:31-32,39-51).  The pad `hpd_en` shows `_hpd_en.storage`. -/
namespace Hpd

/-- The two registers of `MultiReg`; the second one is `_hpd_notif.status`. -/
structure State where
  s0 : Bool
  status : Bool
deriving DecidableEq, Repr

/-- Reset state. -/
def reset : State := { s0 := false, status := false }

/-- One clock edge with the pad `hpd_notif` at `pad`; `inverted` says that the pad has an attribute of that
name (edid.py:40-45). -/
def step (inverted : Bool) (s : State) (pad : Bool) : State :=
  { s0 := if inverted then !pad else pad, status := s.s0 }

/-- What software reads; `hasPad` says that there is an `hpd_notif` pad (edid.py:39-47). -/
def csr (hasPad : Bool) (s : State) : Bool := if hasPad then s.status else true

end Hpd

end Verif.Edid
