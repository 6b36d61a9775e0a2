/-!
# IEEE 754 half-precision values

A half float is a 16-bit pattern: sign (bit 15), exponent (bits 10-14), fraction (bits 0-9).
All non-negative finite half floats are multiples of `2^-24`; `halfVal w` is the value of
pattern `w` in units of `2^-24`.
-/

namespace Verif.Spec.Half

/-- Value of a pattern, sign ignored, in units of `2^-24`: subnormal `f * 2^-24`, normal
`(1024+f) * 2^(e-25)`. -/
def halfVal (w : Nat) : Nat :=
  if w / 1024 % 32 = 0 then w % 1024
  else (1024 + w % 1024) * 2 ^ (w / 1024 % 32 - 1)

/-- Non-negative, finite. -/
def Finite (w : Nat) : Prop := w < 0x7C00

/-- Positive, finite and not subnormal. -/
def PosNormal (w : Nat) : Prop := 0x0400 ≤ w ∧ w < 0x7C00

/-- `w` is the real number `S * 2^-24` rounded toward zero: the largest half float not above
it.  (`w + 1` is the next larger half float, see `halfVal_lt_succ` in Props/Float.lean.) -/
def RoundDown (S w : Nat) : Prop := Finite w ∧ halfVal w ≤ S ∧ S < halfVal (w + 1)

/-- Same for a number given in units of `2^-48`. -/
def RoundDown48 (P w : Nat) : Prop :=
  Finite w ∧ halfVal w * 2 ^ 24 ≤ P ∧ P < halfVal (w + 1) * 2 ^ 24

end Verif.Spec.Half
