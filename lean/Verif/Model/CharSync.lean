import Verif.Machine
import Verif.Bits
import Verif.Model.Decoding

/-!
# Character synchroniser

Model of `litevideo/input/charsync.py`, class `CharSync` (pixel clock domain; the two
status CSRs are resynchronised copies of `synced` and `word_sel` and are not modelled).
-/

namespace Verif

/-- Migen's `bits_for(n)` for `n >= 0`: bits needed to hold the value `n`. -/
def bitsFor (n : Nat) : Nat := if n = 0 then 1 else Nat.log2 n + 1

namespace CharSync

/-- Registers (charsync.py:15-16,23,28-29,37-39). -/
structure State where
  raw_data1 : BitVec 10
  found_control : Bool
  control_position : Nat
  control_counter : Nat
  previous_control_position : Nat
  word_sel : Nat
  synced : Bool
  data : BitVec 10
deriving DecidableEq, Repr

/-- Reset values. -/
def reset : State :=
  { raw_data1 := 0, found_control := false, control_position := 0, control_counter := 0,
    previous_control_position := 0, word_sel := 0, synced := false, data := 0 }

/-- `raw = Cat(raw_data1, raw_data)` (charsync.py:25-26). -/
def rawOf (s : State) (raw_data : BitVec 10) : BitVec 20 := raw_data ++ s.raw_data1

/-- `raw[i:i+10]` is a control token (charsync.py:32). -/
def matchAt (raw : BitVec 20) (i : Nat) : Bool :=
  (List.range 4).any fun k => raw.extractLsb' i 10 == Decoding.controlToken k

/-- `found_control`, `control_position` after the statements of charsync.py:30-35:
executed for `i = 0..9` in order, so the last matching position wins. -/
def search (raw : BitVec 20) (pos : Nat) : Bool × Nat :=
  (List.range 10).foldl (init := (false, pos)) fun acc i =>
    if matchAt raw i then (true, i) else acc

/-- One pixel-clock edge (charsync.py:24-59).  `req` is `required_controls`;
`control_counter` is a signal of `bits_for(required_controls-1)` bits. -/
def step (req : Nat) (s : State) (raw_data : BitVec 10) : State :=
  let raw := rawOf s raw_data
  let hit := s.found_control && s.control_position == s.previous_control_position
  let lock := hit && s.control_counter == req - 1
  { raw_data1 := raw_data
    found_control := (search raw s.control_position).1
    control_position := (search raw s.control_position).2
    control_counter :=
      if hit then
        if lock then 0 else (s.control_counter + 1) % 2 ^ bitsFor (req - 1)
      else 0
    synced := if lock then true else s.synced
    word_sel := if lock then s.control_position else s.word_sel
    previous_control_position := s.control_position
    data := (raw >>> s.word_sel).setWidth 10 }

end CharSync
end Verif
