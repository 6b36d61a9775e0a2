import Verif.Model.Csc

/-!
# Colour conversion formulas, in exact integer arithmetic

XAPP930/XAPP931 equations with each product divided by the coefficient scale and rounded
toward minus infinity (`/` on `Int` with a positive divisor), then clamped.
(The comments in rgb2ycbcr.py:48-49 swap `r` and `b`; the equation implemented, and the
one of XAPP930, is `cb = cc*(b-y)`, `cr = cd*(r-y)`.)
-/

namespace Verif.Spec.Csc

open Verif.Csc

/-- `x` limited to `[0, hi]`. -/
def clamp (hi x : Int) : Int := max 0 (min hi x)

/-- Luma before the offset. -/
def luma (K : Nat) (ca cb : Int) (x : Rgb) : Int :=
  (ca * (x.r - x.g) + cb * (x.b - x.g)) / 2 ^ K + x.g

/-- RGB to YCbCr with `w`-bit outputs and coefficients scaled by `2^K`. -/
def rgb2ycbcr (w K : Nat) (ca cb cc cd : Int) (x : Rgb) : Ycbcr :=
  { y := clamp (2 ^ w - 1) (luma K ca cb x + 2 ^ (w - 4))
    cb := clamp (2 ^ w - 1) (cc * (x.b - luma K ca cb x) / 2 ^ K + 2 ^ (w - 1))
    cr := clamp (2 ^ w - 1) (cd * (x.r - luma K ca cb x) / 2 ^ K + 2 ^ (w - 1)) }

/-- YCbCr to RGB with `w`-bit outputs and coefficients scaled by `2^K`. -/
def ycbcr2rgb (w K : Nat) (a b c d : Int) (x : Ycbcr) : Rgb :=
  let y := x.y - 2 ^ (w - 4)
  let u := x.cb - 2 ^ (w - 1)
  let v := x.cr - 2 ^ (w - 1)
  { r := clamp (2 ^ w - 1) (y + a * v / 2 ^ K)
    g := clamp (2 ^ w - 1) (y + b * u / 2 ^ K + c * v / 2 ^ K)
    b := clamp (2 ^ w - 1) (y + d * u / 2 ^ K) }

/-- A pixel whose components fit in `w` bits. -/
def RgbFits (w : Nat) (x : Rgb) : Prop :=
  (0 ≤ x.r ∧ x.r < 2 ^ w) ∧ (0 ≤ x.g ∧ x.g < 2 ^ w) ∧ (0 ≤ x.b ∧ x.b < 2 ^ w)

/-- A YCbCr pixel whose components fit in `w` bits. -/
def YcbcrFits (w : Nat) (x : Ycbcr) : Prop :=
  (0 ≤ x.y ∧ x.y < 2 ^ w) ∧ (0 ≤ x.cb ∧ x.cb < 2 ^ w) ∧ (0 ≤ x.cr ∧ x.cr < 2 ^ w)

end Verif.Spec.Csc
