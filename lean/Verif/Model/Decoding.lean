import Verif.Machine
import Verif.Bits

/-!
# TMDS channel decoder

Model of `litevideo/input/decoding.py`, class `Decoding`.
-/

namespace Verif.Decoding

/-- `control_tokens[i]` of `litevideo/input/common.py:1-10`. -/
def controlToken (i : Nat) : BitVec 10 :=
  match i with
  | 0 => 0b1101010100#10
  | 1 => 0b0010101011#10
  | 2 => 0b0101010100#10
  | _ => 0b1010101011#10

/-- Registers: `output` record (`channel_layout`, common.py:12) and `valid_o`
(decoding.py:40-41). -/
structure State where
  raw : BitVec 10
  d   : BitVec 8
  c   : BitVec 2
  de  : Bool
  valid_o : Bool
deriving DecidableEq, Repr

/-- Reset values. -/
def reset : State := { raw := 0, d := 0, c := 0, de := false, valid_o := false }

/-- Inputs `valid_i`, `input` (decoding.py:38-39). -/
structure In where
  valid_i : Bool
  input : BitVec 10

/-- `output.d` (decoding.py:52-56).  `~self.input[8]` inside an xor assigned to
one bit is the complement of that bit. -/
def dataOf (w : BitVec 10) : BitVec 8 :=
  ofBits 8 fun i =>
    if i = 0 then w.getLsbD 0 ^^ w.getLsbD 9
    else (w.getLsbD i ^^ w.getLsbD (i - 1)) ^^ !w.getLsbD 8

/-- One pixel-clock edge (decoding.py:45-57).  The assignments for the four
tokens are executed in order, a later match overriding an earlier one. -/
def step (s : State) (i : In) : State :=
  let r : Bool × BitVec 2 :=
    (List.range 4).foldl (init := (true, s.c)) fun acc k =>
      if i.input = controlToken k then (false, BitVec.ofNat 2 k) else acc
  { raw := i.input
    d := dataOf i.input
    c := r.2
    de := r.1
    valid_o := i.valid_i }

end Verif.Decoding
