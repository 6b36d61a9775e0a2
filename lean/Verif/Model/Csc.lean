import Verif.Num
import Verif.Model.PipelinedActor

/-!
# Colour space converters

Models of `litevideo/csc/common.py`, `litevideo/csc/rgb2ycbcr.py` and
`litevideo/csc/ycbcr2rgb.py`.
-/

namespace Verif.Csc

/-- `coef(value, cw) = int(value * 2**cw)` (common.py:18-19) for the real number
`num/den`; Python's `int` truncates toward zero.  Simplification: `value` is the exact
rational, not its nearest double (same integer for every `cw` up to 40). -/
def coef (num den : Int) (cw : Nat) : Int := Int.tdiv (num * 2 ^ cw) den

/-- `saturate(i, o, minimum, maximum)` for a `w`-bit unsigned `o` (common.py:6-15). -/
def saturate (w : Nat) (i minimum maximum : Int) : Int :=
  if i > maximum then wrapU w maximum
  else if i < minimum then wrapU w minimum
  else wrapU w i

/-- `rgb_layout` (common.py:21-22). -/
structure Rgb where
  r : Int
  g : Int
  b : Int
deriving DecidableEq, Repr

/-- `ycbcr444_layout` (common.py:27-28). -/
structure Ycbcr where
  y : Int
  cb : Int
  cr : Int
deriving DecidableEq, Repr

namespace Rgb2Ycbcr

/-- Constructor parameters and the integers of `rgb2ycbcr_coefs` (rgb2ycbcr.py:10-22,29,35). -/
structure Params where
  rgb_w : Nat
  ycbcr_w : Nat
  coef_w : Nat
  ca : Int
  cb : Int
  cc : Int
  cd : Int

/-- The parameters built from the coefficients of rgb2ycbcr.py:12-15. -/
def params (rgb_w ycbcr_w coef_w : Nat) : Params :=
  { rgb_w, ycbcr_w, coef_w,
    ca := coef 1819 10000 coef_w, cb := coef 618 10000 coef_w,
    cc := coef 5512 10000 coef_w, cd := coef 6495 10000 coef_w }

/-- Registers of `RGB2YCbCrDatapath` (rgb2ycbcr.py:38-126).  Of the eight delayed copies of
the input only the first four are ever read, so `d5..d8` are omitted. -/
structure State where
  d1 : Rgb
  d2 : Rgb
  d3 : Rgb
  d4 : Rgb
  r_minus_g : Int
  b_minus_g : Int
  ca_mult_rg : Int
  cb_mult_bg : Int
  carg_plus_cbbg : Int
  yraw : Int
  b_minus_yraw : Int
  r_minus_yraw : Int
  yraw_r0 : Int
  cc_mult_ryraw : Int
  cd_mult_byraw : Int
  yraw_r1 : Int
  y : Int
  cb : Int
  cr : Int
  source : Ycbcr

/-- Reset values. -/
def reset : State :=
  { d1 := ⟨0,0,0⟩, d2 := ⟨0,0,0⟩, d3 := ⟨0,0,0⟩, d4 := ⟨0,0,0⟩, r_minus_g := 0, b_minus_g := 0,
    ca_mult_rg := 0, cb_mult_bg := 0, carg_plus_cbbg := 0, yraw := 0, b_minus_yraw := 0,
    r_minus_yraw := 0, yraw_r0 := 0, cc_mult_ryraw := 0, cd_mult_byraw := 0, yraw_r1 := 0,
    y := 0, cb := 0, cr := 0, source := ⟨0,0,0⟩ }

/-- One enabled clock edge (rgb2ycbcr.py:38-126). -/
def step (p : Params) (s : State) (x : Rgb) : State :=
  let w := p.rgb_w
  let cw := p.coef_w
  { d1 := x, d2 := s.d1, d3 := s.d2, d4 := s.d3
    -- stage 1
    r_minus_g := wrapS (w + 1) (x.r - x.g)
    b_minus_g := wrapS (w + 1) (x.b - x.g)
    -- stage 2
    ca_mult_rg := wrapS (w + cw + 1) (s.r_minus_g * p.ca)
    cb_mult_bg := wrapS (w + cw + 1) (s.b_minus_g * p.cb)
    -- stage 3
    carg_plus_cbbg := wrapS (w + cw + 9) (s.ca_mult_rg + s.cb_mult_bg)
    -- stage 4
    yraw := wrapS (w + 3) (sliceFrom (w + cw + 9) cw s.carg_plus_cbbg + s.d3.g)
    -- stage 5
    b_minus_yraw := wrapS (w + 4) (s.d4.b - s.yraw)
    r_minus_yraw := wrapS (w + 4) (s.d4.r - s.yraw)
    yraw_r0 := s.yraw
    -- stage 6
    cc_mult_ryraw := wrapS (w + cw + 4) (s.b_minus_yraw * p.cc)
    cd_mult_byraw := wrapS (w + cw + 4) (s.r_minus_yraw * p.cd)
    yraw_r1 := s.yraw_r0
    -- stage 7
    y := wrapS (w + 3) (s.yraw_r1 + 2 ^ (p.ycbcr_w - 4))
    cb := wrapS (w + 4) (sliceFrom (w + cw + 4) cw s.cc_mult_ryraw + 2 ^ (p.ycbcr_w - 1))
    cr := wrapS (w + 4) (sliceFrom (w + cw + 4) cw s.cd_mult_byraw + 2 ^ (p.ycbcr_w - 1))
    -- stage 8
    source :=
      { y := saturate p.ycbcr_w s.y 0 (2 ^ p.ycbcr_w - 1)
        cb := saturate p.ycbcr_w s.cb 0 (2 ^ p.ycbcr_w - 1)
        cr := saturate p.ycbcr_w s.cr 0 (2 ^ p.ycbcr_w - 1) } }

/-- `RGB2YCbCrDatapath.latency` (rgb2ycbcr.py:27). -/
def latency : Nat := 8

/-- The datapath as used by the `RGB2YCbCr` actor (rgb2ycbcr.py:129-142). -/
def datapath (p : Params) : PipelinedActor.Datapath State Rgb Ycbcr :=
  { step := step p, out := State.source, init := reset }

end Rgb2Ycbcr

namespace Ycbcr2Rgb

/-- Constructor parameters and the integers of `ycbcr2rgb_coefs` (ycbcr2rgb.py:9-30,36,42). -/
structure Params where
  ycbcr_w : Nat
  rgb_w : Nat
  coef_w : Nat
  acoef : Int
  bcoef : Int
  ccoef : Int
  dcoef : Int

/-- The parameters built from the coefficients of ycbcr2rgb.py:10-29, as exact rationals:
`1/cd`, `-cb/(cc*(1-ca-cb))`, `-ca/(cd*(1-ca-cb))`, `1/cc`. -/
def params (ycbcr_w rgb_w coef_w : Nat) : Params :=
  { ycbcr_w, rgb_w, coef_w,
    acoef := coef 10000 6495 (coef_w - 2),
    bcoef := coef (-(618 * 10000)) (5512 * 7563) (coef_w - 2),
    ccoef := coef (-(1819 * 10000)) (6495 * 7563) (coef_w - 2),
    dcoef := coef 10000 5512 (coef_w - 2) }

/-- Registers of `YCbCr2RGBDatapath` (ycbcr2rgb.py:45-104); of the delayed copies only the
first is read. -/
structure State where
  d1 : Ycbcr
  cb_minus_coffset : Int
  cr_minus_coffset : Int
  y_minus_yoffset : Int
  cr_mult_a : Int
  cb_mult_b : Int
  cr_mult_c : Int
  cb_mult_d : Int
  r : Int
  g : Int
  b : Int
  source : Rgb

/-- Reset values. -/
def reset : State :=
  { d1 := ⟨0,0,0⟩, cb_minus_coffset := 0, cr_minus_coffset := 0, y_minus_yoffset := 0,
    cr_mult_a := 0, cb_mult_b := 0, cr_mult_c := 0, cb_mult_d := 0, r := 0, g := 0, b := 0,
    source := ⟨0,0,0⟩ }

/-- One enabled clock edge (ycbcr2rgb.py:45-104). -/
def step (p : Params) (s : State) (x : Ycbcr) : State :=
  let w := p.ycbcr_w
  let cw := p.coef_w
  { d1 := x
    -- stage 1
    cb_minus_coffset := wrapS (w + 1) (x.cb - 2 ^ (p.rgb_w - 1))
    cr_minus_coffset := wrapS (w + 1) (x.cr - 2 ^ (p.rgb_w - 1))
    -- stage 2
    y_minus_yoffset := wrapS (w + 1) (s.d1.y - 2 ^ (p.rgb_w - 4))
    cr_mult_a := wrapS (w + cw + 4) (s.cr_minus_coffset * p.acoef)
    cb_mult_b := wrapS (w + cw + 4) (s.cb_minus_coffset * p.bcoef)
    cr_mult_c := wrapS (w + cw + 4) (s.cr_minus_coffset * p.ccoef)
    cb_mult_d := wrapS (w + cw + 4) (s.cb_minus_coffset * p.dcoef)
    -- stage 3
    r := wrapS (w + 4) (s.y_minus_yoffset + sliceFrom (w + cw + 4) (cw - 2) s.cr_mult_a)
    g := wrapS (w + 4) (s.y_minus_yoffset + sliceFrom (w + cw + 4) (cw - 2) s.cb_mult_b
            + sliceFrom (w + cw + 4) (cw - 2) s.cr_mult_c)
    b := wrapS (w + 4) (s.y_minus_yoffset + sliceFrom (w + cw + 4) (cw - 2) s.cb_mult_d)
    -- stage 4
    source :=
      { r := saturate p.rgb_w s.r 0 (2 ^ p.rgb_w - 1)
        g := saturate p.rgb_w s.g 0 (2 ^ p.rgb_w - 1)
        b := saturate p.rgb_w s.b 0 (2 ^ p.rgb_w - 1) } }

/-- `YCbCr2RGBDatapath.latency` (ycbcr2rgb.py:34). -/
def latency : Nat := 4

/-- The datapath as used by the `YCbCr2RGB` actor (ycbcr2rgb.py:107-120). -/
def datapath (p : Params) : PipelinedActor.Datapath State Ycbcr Rgb :=
  { step := step p, out := State.source, init := reset }

end Ycbcr2Rgb
end Verif.Csc
