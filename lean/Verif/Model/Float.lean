import Verif.Num
import Verif.Model.PipelinedActor

/-!
# Half-precision arithmetic

Models of `litevideo/float_arithmetic/common.py`, `floatmult.py` and `floatadd.py`.
Unsigned signals are natural numbers below `2^width`; an assignment reduces modulo `2^width`.
-/

namespace Verif.Float16

/-- Migen's `bits_for(n)`. -/
def bitsFor (n : Nat) : Nat := if n = 0 then 1 else Nat.log2 n + 1

/-- `LeadOne(dw)` (float_arithmetic/common.py:12-22): the statements are executed for
`j = 0..dw-1`, a later one overriding; `leadone` is a `Signal(max=dw)` defaulting to 0. -/
def leadOne (dw : Nat) (datai : Nat) : Nat :=
  (List.range dw).foldl (init := 0) fun acc j =>
    if datai.testBit j then (dw - j - 1) % 2 ^ bitsFor (dw - 1) else acc

/-- `x[10:15]`. -/
def expOf (x : Nat) : Nat := x / 2 ^ 10 % 2 ^ 5
/-- `x[:10]`. -/
def fracOf (x : Nat) : Nat := x % 2 ^ 10

/-- `in_layout(16)` (float_arithmetic/common.py:5-6). -/
structure Pair where
  in1 : Nat
  in2 : Nat
deriving DecidableEq, Repr

/-- Mantissa with hidden bit (floatmult.py:74-79, floatadd.py:77-91). -/
def mantOf (x : Nat) : Nat := if expOf x = 0 then fracOf x else fracOf x + 2 ^ 10

/-- Exponent, 1 for subnormals (same lines). -/
def exp1Of (x : Nat) : Nat := if expOf x = 0 then (expOf x + 1) % 2 ^ 5 else expOf x

namespace Mult

/-- Registers of `FloatMultDatapath` (floatmult.py:43-158).  The delayed copies of the inputs
(lines 31-37) are never read.  The signs (lines 53-54) are never read. -/
structure State where
  in1_mant : Nat
  in2_mant : Nat
  in1_exp1 : Nat
  in2_exp1 : Nat
  out_status1 : Nat
  out_mult : Nat
  out_exp : Int
  out_status2 : Nat
  one_ptr : Nat
  out_status3 : Nat
  out_mult3 : Nat
  out_exp3 : Int
  out_exp_adjust : Int
  out_mult_shift : Nat
  out_status4 : Nat
  out : Nat
deriving DecidableEq

/-- Reset values. -/
def reset : State :=
  { in1_mant := 0, in2_mant := 0, in1_exp1 := 0, in2_exp1 := 0, out_status1 := 0, out_mult := 0,
    out_exp := 0, out_status2 := 0, one_ptr := 0, out_status3 := 0, out_mult3 := 0, out_exp3 := 0,
    out_exp_adjust := 0, out_mult_shift := 0, out_status4 := 0, out := 0 }

/-- A right shift by a signal: a negative amount is, in the generated Verilog, a huge unsigned
one. -/
def shr (x : Nat) (n : Int) : Nat := if 0 ≤ n then x / 2 ^ n.toNat else 0

/-- One enabled clock edge (floatmult.py:62-157). -/
def step (s : State) (x : Pair) : State :=
  { -- stage 1 (floatmult.py:73-97)
    in1_mant := mantOf x.in1
    in1_exp1 := exp1Of x.in1
    in2_mant := mantOf x.in2
    in2_exp1 := exp1Of x.in2
    out_status1 :=
      if expOf x.in1 = 0 ∧ fracOf x.in1 = 0 then 0
      else if expOf x.in2 = 0 ∧ fracOf x.in2 = 0 then 0
      else 3
    -- stage 2 (floatmult.py:105-109)
    out_mult := s.in1_mant * s.in2_mant % 2 ^ 22
    out_exp := wrapS 7 ((s.in1_exp1 : Int) + s.in2_exp1 - 15)
    out_status2 := s.out_status1
    -- stage 3 (floatmult.py:118-130)
    out_status3 := s.out_status2
    out_mult3 := s.out_mult
    out_exp3 := s.out_exp
    one_ptr := leadOne 22 s.out_mult % 2 ^ 5
    -- stage 4 (floatmult.py:138-147): note `out_mult`, not `out_mult3`
    out_status4 := s.out_status3
    out_exp_adjust :=
      if s.out_exp3 - s.one_ptr < 1 then 0 else wrapS 7 (s.out_exp3 + 1 - s.one_ptr)
    out_mult_shift :=
      if s.out_exp3 - s.one_ptr < 1 then shr s.out_mult (0 - s.out_exp3) * 2 % 2 ^ 22
      else s.out_mult * 2 ^ (s.one_ptr + 1) % 2 ^ 22
    -- stage 5 (floatmult.py:151-157)
    out :=
      if s.out_status4 = 0 then 0
      else if s.out_status4 = 3 then
        s.out_mult_shift / 2 ^ 12 + (s.out_exp_adjust % 2 ^ 5).toNat * 2 ^ 10
      else s.out }

/-- `FloatMultDatapath.latency` (floatmult.py:26). -/
def latency : Nat := 5

/-- The datapath as used by the `FloatMult` actor (floatmult.py:159-171). -/
def datapath : PipelinedActor.Datapath State Pair Nat :=
  { step := step, out := State.out, init := reset }

end Mult

namespace Add

/-- Registers of `FloatAddDatapath` (floatadd.py:47-170) that reach the output; `out_status1`,
`out_2`, `out_3`, `out_4` and the delayed inputs and signs are never used. -/
structure State where
  in1_minus_in2_exp : Int
  in1_frac_stage1 : Nat
  in2_frac_stage1 : Nat
  in1_exp_stage1 : Nat
  in2_exp_stage1 : Nat
  in1_frac_stage2 : Nat
  in2_frac_stage2 : Nat
  in1_minus_in2_exp_stage2 : Nat
  in1_plus_in2_frac : Nat
  in1_plus_in2_sign : Nat
  in1_minus_in2_exp_stage3 : Nat
  out_frac_stage4 : Nat
  out_exp_stage4 : Nat
  out_sign_stage4 : Nat
  out : Nat
deriving DecidableEq

/-- Reset values. -/
def reset : State :=
  { in1_minus_in2_exp := 0, in1_frac_stage1 := 0, in2_frac_stage1 := 0, in1_exp_stage1 := 0,
    in2_exp_stage1 := 0, in1_frac_stage2 := 0, in2_frac_stage2 := 0,
    in1_minus_in2_exp_stage2 := 0, in1_plus_in2_frac := 0, in1_plus_in2_sign := 0,
    in1_minus_in2_exp_stage3 := 0, out_frac_stage4 := 0, out_exp_stage4 := 0,
    out_sign_stage4 := 0, out := 0 }

/-- One enabled clock edge (floatadd.py:65-170). -/
def step (s : State) (x : Pair) : State :=
  let leadone := leadOne 12 s.in1_plus_in2_frac % 2 ^ 4
  { -- stage 1 (floatadd.py:101-110): the difference uses `in2_exp`, not `in2_exp1`
    in1_minus_in2_exp := wrapS 6 ((exp1Of x.in1 : Int) - expOf x.in2)
    in1_frac_stage1 := mantOf x.in1
    in2_frac_stage1 := mantOf x.in2
    in1_exp_stage1 := exp1Of x.in1
    in2_exp_stage1 := exp1Of x.in2
    -- stage 2 (floatadd.py:121-133); bit 5 is the sign of the 6-bit difference
    in2_frac_stage2 :=
      if 0 ≤ s.in1_minus_in2_exp then s.in2_frac_stage1 / 2 ^ s.in1_minus_in2_exp.toNat
      else s.in2_frac_stage1
    in1_frac_stage2 :=
      if 0 ≤ s.in1_minus_in2_exp then s.in1_frac_stage1
      else s.in1_frac_stage1 / 2 ^ (-s.in1_minus_in2_exp).toNat
    in1_minus_in2_exp_stage2 :=
      if 0 ≤ s.in1_minus_in2_exp then s.in1_exp_stage1 else s.in2_exp_stage1
    -- stage 3 (floatadd.py:142-146)
    in1_plus_in2_frac := (s.in1_frac_stage2 + s.in2_frac_stage2) % 2 ^ 12
    in1_plus_in2_sign := (s.in1_frac_stage2 + s.in2_frac_stage2) / 2 ^ 12 % 2
    in1_minus_in2_exp_stage3 := s.in1_minus_in2_exp_stage2
    -- stage 4 (floatadd.py:150-165)
    out_frac_stage4 := s.in1_plus_in2_frac * 2 ^ leadone % 2 ^ 12
    out_exp_stage4 := (((s.in1_minus_in2_exp_stage3 : Int) - leadone + 1) % 2 ^ 5).toNat
    out_sign_stage4 := s.in1_plus_in2_sign
    -- stage 5 (floatadd.py:169-171)
    out := s.out_frac_stage4 / 2 % 2 ^ 10 + s.out_exp_stage4 * 2 ^ 10
      + s.out_sign_stage4 * 2 ^ 15 }

/-- `FloatAddDatapath.latency` (floatadd.py:19). -/
def latency : Nat := 5

/-- The datapath as used by the `FloatAdd` actor (floatadd.py:174-186). -/
def datapath : PipelinedActor.Datapath State Pair Nat :=
  { step := step, out := State.out, init := reset }

end Add
end Verif.Float16
