import Verif.Spec.HdmiIn
import Verif.Spec.Output

/-!
# Specification vocabulary for pictures sent from a frame buffer to a memory
-/

namespace Verif.Spec.Loop

open Verif.Output Verif.Spec.Output Verif.VideoOut

/-- Modes a display has: at least 15 pixels per line and 25 clocks per line, front porch before the
horizontal sync pulse, and the vertical sync pulse after the last active line. -/
structure RealMode (p : Params) : Prop extends ValidMode p where
  wide : 15 ≤ p.hres
  long : 24 ≤ p.hscan
  hporch : p.hres < p.hsync_start
  lines : 1 ≤ p.vres
  vporch : p.vres ≤ p.vsync_start

/-- Colour of a pixel: red, green, blue. -/
abbrev Colour := BitVec 8 × BitVec 8 × BitVec 8

/-- From pixel number `m0` on, pixel number `m` of mode `p` enters the physical layer at clock
`m + d0`; frame number `F` shows the picture `film F`, its pixels numbered in raster order. -/
structure Film (p : Params) (x : Nat → Phy) (m0 d0 : Nat) (film : Nat → Nat → Colour) : Prop where
  de : ∀ m, m0 ≤ m → (x (m + d0)).de = isActive p m
  hsync : ∀ m, m0 ≤ m → (x (m + d0)).hsync = isHsync p m
  vsync : ∀ m, m0 ≤ m → (x (m + d0)).vsync = isVsync p m
  rgb : ∀ m, m0 ≤ m → isActive p m = true →
    ((x (m + d0)).r, (x (m + d0)).g, (x (m + d0)).b) =
      film (frame p m) (line p m * p.hres + col p m)

/-- The same with the picture `pic` in all frames. -/
abbrev Raster (p : Params) (x : Nat → Phy) (m0 d0 : Nat) (pic : Nat → Colour) : Prop :=
  Film p x m0 d0 fun _ => pic

/-- Frame number `j` is on its way between the instants `T0` and `e` of a receiver that gets the video up
to `lag` clocks later: at `T0` it has not been received completely, and before `e` it has begun.  `pix`
tells at which instants the pixel clock ticks. -/
def OnItsWay (p : Params) (pix : Nat → Bool) (d0 lag T0 e j : Nat) : Prop :=
  Stream.countIn pix 0 T0 ≤ (j + 1) * frameLen p + d0 + lag ∧
  j * frameLen p + d0 < Stream.countIn pix 0 (e + 1)

/-- A colour as the 32-bit pixel `0x00RRGGBB`. -/
def rgb24 (c : Colour) : Nat := (c.1.toNat * 256 + c.2.1.toNat) * 256 + c.2.2.toNat

/-- A colour in YCbCr. -/
def ycc (c : Colour) : Csc.Ycbcr :=
  Spec.Csc.rgb2ycbcr 8 8 46 15 141 166 ⟨(c.1.toNat : Int), (c.2.1.toNat : Int), (c.2.2.toNat : Int)⟩

/-- Pixel `q` of a picture in 4:2:2: luma in the low byte, and in the high byte the mean Cb of the
pair of pixels it belongs to, if it is the first of the pair, or the mean Cr if it is the second. -/
def pic422 (pic : Nat → Colour) (q : Nat) : Nat :=
  if q % 2 = 0 then
    (ycc (pic q)).y.toNat + 256 * (((ycc (pic q)).cb + (ycc (pic (q + 1))).cb) / 2).toNat
  else
    (ycc (pic q)).y.toNat + 256 * (((ycc (pic (q - 1))).cr + (ycc (pic q)).cr) / 2).toNat

end Verif.Spec.Loop
