import Verif.Model.VideoOut
import Verif.Spec.Csc

/-!
# Specification of the video link and of the ycbcr422 path
-/

namespace Verif.Spec.VideoOut

open Verif.VideoOut

/-- What a DVI receiver makes of the three decoded lanes: lane 0 is blue and carries hsync and
vsync as control bits 0 and 1, lane 1 is green, lane 2 is red. -/
structure Received where
  de : Bool
  hsync : Bool
  vsync : Bool
  r : BitVec 8
  g : BitVec 8
  b : BitVec 8

/-- See `Received`. -/
def received (l0 l1 l2 : Decoding.State) : Received :=
  { de := l0.de, hsync := l0.c.getLsbD 0, vsync := l0.c.getLsbD 1, r := l2.d, g := l1.d, b := l0.d }

/-- Byte `k` of a memory word. -/
def byte (k : Nat) (w : Nat) : Nat := w / 256 ^ k % 256

/-- An `n`-bit digital-to-analogue converter input `v` stands for the 8-bit value `c`, to its precision. -/
def Shows {n : Nat} (v : BitVec n) (c : Nat) : Prop :=
  v.toNat * 2 ^ (8 - n) ≤ c ∧ c < (v.toNat + 1) * 2 ^ (8 - n)

/-- The 4:4:4 pixel for position `k` of a line whose 4:2:2 words are `w 0, w 1, ...`: luma in the
low byte, Cb in the high byte of even words, Cr in the high byte of odd words. -/
def pixel444 (w : Nat → BitVec 16) (k : Nat) : Csc.Ycbcr :=
  { y := (byte 0 (w k).toNat : Int)
    cb := (byte 1 (w (2 * (k / 2))).toNat : Int)
    cr := (byte 1 (w (2 * (k / 2) + 1)).toNat : Int) }

/-- RGB of a YCbCr pixel, as documented, with the default coefficients (1.5308, -0.1483, -0.3703,
1.8142 as multiples of 1/64; see C24). -/
def rgbOf (x : Csc.Ycbcr) : Csc.Rgb := Csc.ycbcr2rgb 8 6 98 (-9) (-23) 116 x

/-- At clock `T` the core starts a line of `n` active clocks, all valid, followed by at least two
blanking clocks. -/
structure Line (x : Nat → Beat 16) (T n : Nat) : Prop where
  start : (x T).de = true
  before : T = 0 ∨ (x (T - 1)).de = false
  valid : ∀ k, k < n → (x (T + k)).valid = true
  high : ∀ k, k < n → (x (T + k)).de = true
  low : ∀ k, n ≤ k → k < n + 2 → (x (T + k)).de = false

end Verif.Spec.VideoOut
