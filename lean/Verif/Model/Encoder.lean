import Verif.Machine
import Verif.Bits

/-!
# TMDS encoder

Model of `litevideo/output/hdmi/encoder.py`, class `Encoder`.
-/

namespace Verif.Encoder

/-- `control_tokens[c]` (encoder.py:6). -/
def controlToken (c : BitVec 2) : BitVec 10 :=
  match c.toNat with
  | 0 => 0b1101010100#10
  | 1 => 0b0010101011#10
  | 2 => 0b0101010100#10
  | _ => 0b1010101011#10

/-- Inputs `d`, `c`, `de` (encoder.py:11-13). -/
structure In where
  d  : BitVec 8
  c  : BitVec 2
  de : Bool
deriving DecidableEq, Repr

/-- Registers of the four pipeline stages (encoder.py:15,20-21,28,40-42,50,55-56).
`c1 c2 c3`/`de1 de2 de3` are the three copies created by the loop of lines 54-58.
`cnt` is a 6-bit signed signal, kept as its bit pattern. -/
structure State where
  d     : BitVec 8
  n1d   : BitVec 4
  q_m   : BitVec 9
  q_m_r : BitVec 9
  n0q_m : BitVec 4
  n1q_m : BitVec 4
  c1 : BitVec 2
  c2 : BitVec 2
  c3 : BitVec 2
  de1 : Bool
  de2 : Bool
  de3 : Bool
  cnt : BitVec 6
  out : BitVec 10
deriving DecidableEq, Repr

/-- Reset values: Migen's default 0 for every register. -/
def reset : State :=
  { d := 0, n1d := 0, q_m := 0, q_m_r := 0, n0q_m := 0, n1q_m := 0,
    c1 := 0, c2 := 0, c3 := 0, de1 := false, de2 := false, de3 := false,
    cnt := 0, out := 0 }

/-- `reduce(add, [x[i] for i in range(8)])` assigned to a 4-bit signal
(encoder.py:23, 45). -/
def sum8 {n : Nat} (x : BitVec n) : BitVec 4 :=
  BitVec.ofNat 4 ((List.range 8).map (fun i => (x.getLsbD i).toNat)).sum

/-- `reduce(add, [~x[i] for i in range(8)])` assigned to a 4-bit signal
(encoder.py:44).  In Migen `~b` of a bit `b` is the integer `-1 - b`; only the
truncation to 4 bits makes the sum the number of zeros. -/
def sumNot8 {n : Nat} (x : BitVec n) : BitVec 4 :=
  BitVec.ofInt 4 ((List.range 8).map (fun i => -1 - ((x.getLsbD i).toNat : Int))).sum

/-- `q_m8_n` (encoder.py:30). -/
def q_m8_n (n1d : BitVec 4) (d : BitVec 8) : Bool :=
  (n1d.toNat > 4) || ((n1d.toNat == 4) && !d.getLsbD 0)

/-- `curval` after loop iteration `i` (encoder.py:31-35). -/
def curval (d : BitVec 8) (n : Bool) : Nat → Bool
  | 0 => d.getLsbD 0
  | i + 1 => (curval d n i ^^ d.getLsbD (i + 1)) ^^ n

/-- The nine bits assigned to `q_m` (encoder.py:31-37). -/
def qmNext (n1d : BitVec 4) (d : BitVec 8) : BitVec 9 :=
  let n := q_m8_n n1d d
  ofBits 9 fun i => if i < 8 then curval d n i else !n

/-- Assembles `out` from `out[9]`, `out[8]` and `out[:8]`. -/
def mkOut (b9 b8 : Bool) (lo : BitVec 8) : BitVec 10 :=
  BitVec.ofBool b9 ++ (BitVec.ofBool b8 ++ lo)

/-- Stage 4 (encoder.py:60-88): next `out` and next `cnt`. -/
def stage4 (s : State) : BitVec 10 × BitVec 6 :=
  let q8 := s.q_m_r.getLsbD 8
  let lo := s.q_m_r.extractLsb' 0 8
  let cnt := s.cnt.toInt
  let n1 : Int := s.n1q_m.toNat
  let n0 : Int := s.n0q_m.toNat
  if s.de3 then
    if s.cnt == 0 || s.n1q_m == s.n0q_m then
      if q8 then
        (mkOut (!q8) q8 lo, BitVec.ofInt 6 (cnt + n1 - n0))
      else
        (mkOut (!q8) q8 (~~~ lo), BitVec.ofInt 6 (cnt + n0 - n1))
    else
      if (!s.cnt.getLsbD 5 && decide (n1 > n0)) || (s.cnt.getLsbD 5 && decide (n0 > n1)) then
        (mkOut true q8 (~~~ lo), BitVec.ofInt 6 (cnt + 2 * (q8.toNat : Int) + n0 - n1))
      else
        (mkOut false q8 lo, BitVec.ofInt 6 (cnt - 2 * ((!q8).toNat : Int) + n1 - n0))
  else
    (controlToken s.c3, 0)

/-- One clock edge of `Encoder` (all `self.sync` statements, encoder.py:22-88). -/
def step (s : State) (i : In) : State :=
  { d := i.d
    n1d := sum8 i.d
    q_m := qmNext s.n1d s.d
    q_m_r := s.q_m
    n0q_m := sumNot8 s.q_m
    n1q_m := sum8 s.q_m
    c1 := i.c, c2 := s.c1, c3 := s.c2
    de1 := i.de, de2 := s.de1, de3 := s.de2
    cnt := (stage4 s).2
    out := (stage4 s).1 }

end Verif.Encoder
