import Verif.Machine
import Verif.Model.Decoding
import Verif.Model.Frame

/-!
# Word error rate counter

Model of `litevideo/input/wer.py`, class `WER`: first the pixel clock domain, then the transfer to the
system clock domain (`Sys`).
-/

namespace Verif.Wer

/-- Registers (wer.py:28,35,41,47,51-52,55-57).  Counters of `period_bits` bits
are natural numbers reduced modulo `2 ^ period_bits` at every assignment. -/
structure State where
  data_r : BitVec 9
  transition_count : Nat
  is_control : Bool
  is_error : Bool
  period_counter : Nat
  period_done : Bool
  wer_counter : Nat
  wer_counter_r : Nat
  wer_counter_r_updated : Bool
deriving DecidableEq, Repr

/-- Reset values. -/
def reset : State :=
  { data_r := 0, transition_count := 0, is_control := false, is_error := false,
    period_counter := 0, period_done := false, wer_counter := 0,
    wer_counter_r := 0, wer_counter_r_updated := false }

/-- `reduce(add, transitions)` (wer.py:33-36). -/
def transitions (w : BitVec 9) : Nat :=
  ((List.range 8).map fun i => (w.getLsbD i ^^ w.getLsbD (i + 1)).toNat).sum

/-- `reduce(or_, [data_r == ct ...])` (wer.py:42): a 9-bit signal compared with
10-bit constants, as integers. -/
def isControl (w : BitVec 9) : Bool :=
  (List.range 4).any fun k => w.toNat == (Decoding.controlToken k).toNat

/-- One pixel-clock edge (wer.py:29-66). -/
def step (bits : Nat) (s : State) (data : BitVec 10) : State :=
  let next := (s.period_counter + 1) % 2 ^ (bits + 1)
  { data_r := data.extractLsb' 0 9
    transition_count := transitions s.data_r % 16
    is_control := isControl s.data_r
    is_error := decide (s.transition_count > 4) && !s.is_control
    period_counter := next % 2 ^ bits
    period_done := decide (next / 2 ^ bits % 2 = 1)
    wer_counter_r_updated := s.period_done
    wer_counter_r := if s.period_done then s.wer_counter else s.wer_counter_r
    wer_counter :=
      if s.period_done then 0
      else if s.is_error then (s.wer_counter + 1) % 2 ^ bits
      else s.wer_counter }

/-! The transfer to the system clock domain and the register interface (wer.py:68-75).  One step is
one instant at which some of the clocks have an edge. -/
namespace Sys

open Frame.Overflow (Pulse)

/-- Clock edges, the word at the pixel clock edge, `_update.re` at the system clock edge. -/
structure In where
  pixEdge : Bool
  sysEdge : Bool
  data : BitVec 10
  update : Bool

/-- Registers: the pixel domain, `ps_counter`, `wer_counter_sys`, `_value.status`. -/
structure State where
  pix : Wer.State
  ps : Pulse
  counter : Nat
  value : Nat

/-- Reset values. -/
def reset : State := ⟨Wer.reset, ⟨false, false, false, false⟩, 0, 0⟩

/-- One instant (wer.py:69-75).  `wer_counter_r` is read by the system clock without a synchroniser
of its own. -/
def step (bits : Nat) (s : State) (x : In) : State :=
  { pix := if x.pixEdge then Wer.step bits s.pix x.data else s.pix
    ps := s.ps.step x.pixEdge s.pix.wer_counter_r_updated x.sysEdge
    counter := if x.sysEdge && s.ps.o then s.pix.wer_counter_r else s.counter
    value := if x.sysEdge && x.update then s.counter else s.value }

end Sys

end Verif.Wer
