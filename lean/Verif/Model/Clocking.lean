import Verif.Machine

/-!
# Clock generator control

Models of the register-level control logic of `S6HDMIOutClocking` (output/hdmi/s6.py:76-102) and of
the reconfiguration ready flags (output/hdmi/s6.py:117-121, output/hdmi/s7.py:126-132,
input/clocking.py:42-46,172-178,214-220).  The clock primitives themselves are not modelled.
-/

namespace Verif.Clocking

/-! Programming interface of the pixel clock generator (s6.py:76-102). -/
namespace Prog

/-- Inputs during one clock: `_send_cmd_data.re`, `_cmd_data.storage`, `_send_go.re`. -/
structure In where
  send : Bool
  data : BitVec 10
  go : Bool

/-- Registers (s6.py:76,79,95). -/
structure State where
  remaining_bits : BitVec 4
  sr : BitVec 10
  busy_counter : BitVec 4

/-- Reset values. -/
def reset : State := { remaining_bits := 0, sr := 0, busy_counter := 0 }

/-- `transmitting` (s6.py:78). -/
def transmitting (s : State) : Bool := s.remaining_bits != 0

/-- `pix_progdata` (s6.py:90). -/
def progdata (s : State) : Bool := transmitting s && s.sr.getLsbD 0

/-- `pix_progen` (s6.py:91). -/
def progen (s : State) (i : In) : Bool := transmitting s || i.go

/-- `busy`, bit 0 of the status register (s6.py:97,105). -/
def busy (s : State) : Bool := s.busy_counter != 0

/-- One clock edge (s6.py:80-88,98-102). -/
def step (s : State) (i : In) : State :=
  { remaining_bits :=
      if i.send then 10 else if transmitting s then s.remaining_bits - 1 else s.remaining_bits
    sr := if i.send then i.data else if transmitting s then s.sr >>> 1 else s.sr
    busy_counter :=
      if i.send then 13 else if busy s then s.busy_counter - 1 else s.busy_counter }

end Prog

/-! Reconfiguration ready flag. -/
namespace Drdy

/-- Inputs during one clock: `read.re | write.re` and the primitive's `DRDY`. -/
structure In where
  access : Bool
  drdy : Bool

/-- One clock edge of the status bit. -/
def step (s : Bool) (i : In) : Bool := if i.access then false else if i.drdy then true else s

end Drdy
end Verif.Clocking
