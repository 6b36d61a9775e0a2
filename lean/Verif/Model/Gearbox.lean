import Verif.Machine
import Verif.Bits

/-!
# Gearbox

`S7DataCapture` changes from 8 bits per `pix1p25x` clock to 10 bits per pixel clock with Migen's
`Gearbox(8, "pix1p25x", 10, "pix")` (litevideo/input/datacapture.py:387-392).  Migen is not in
`/repo`; this is the assumed behaviour of that class: a ring of 80 bits (twice the least common
multiple of the widths), written in ten chunks starting with chunk 5 and read in eight chunks
starting with chunk 0, both pointers released from reset together, the output registered.  One step
is one instant at which some of the two clocks have an edge.
-/

namespace Verif.Gearbox

/-- Clock edges, and the eight bits at the write edge. -/
structure In where
  wEdge : Bool
  rEdge : Bool
  i : BitVec 8

/-- Registers; bit `p` of the ring is `ring p`, for `p < 80`. -/
structure State where
  wr : Nat
  rd : Nat
  ring : Nat → Bool
  o : BitVec 10

/-- Reset state. -/
def reset : State := { wr := 5, rd := 0, ring := fun _ => false, o := 0 }

/-- One instant (datacapture.py:388; Migen's `Gearbox`). -/
def step (s : State) (x : In) : State :=
  { wr := if x.wEdge then (if s.wr = 9 then 0 else s.wr + 1) else s.wr
    rd := if x.rEdge then (if s.rd = 7 then 0 else s.rd + 1) else s.rd
    ring := if x.wEdge then fun p => if p / 8 = s.wr then x.i.getLsbD (p % 8) else s.ring p
      else s.ring
    o := if x.rEdge then ofBits 10 fun j => s.ring (10 * s.rd + j) else s.o }

end Verif.Gearbox
