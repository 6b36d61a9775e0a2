import Verif.Model.Float
import Verif.Model.Csc

/-!
# 8-bit pixels and half floats

Models of `litevideo/csc/rgb2rgb16f.py` and `litevideo/csc/rgb16f2rgb.py`.
-/

namespace Verif.RgbFloat

open Float16

/-- `lut` (rgb2rgb16f.py:16-49). -/
def lut : List Nat := [
    0, 7168, 8192, 8704, 9216, 9472, 9728, 9984, 10240, 10368, 10496, 10624,
    10752, 10880, 11008, 11136, 11264, 11328, 11392, 11456, 11520, 11584, 11648, 11712,
    11776, 11840, 11904, 11968, 12032, 12096, 12160, 12224, 12288, 12320, 12352, 12384,
    12416, 12448, 12480, 12512, 12544, 12576, 12608, 12640, 12672, 12704, 12736, 12768,
    12800, 12832, 12864, 12896, 12928, 12960, 12992, 13024, 13056, 13088, 13120, 13152,
    13184, 13216, 13248, 13280, 13312, 13328, 13344, 13360, 13376, 13392, 13408, 13424,
    13440, 13456, 13472, 13488, 13504, 13520, 13536, 13552, 13568, 13584, 13600, 13616,
    13632, 13648, 13664, 13680, 13696, 13712, 13728, 13744, 13760, 13776, 13792, 13808,
    13824, 13840, 13856, 13872, 13888, 13904, 13920, 13936, 13952, 13968, 13984, 14000,
    14016, 14032, 14048, 14064, 14080, 14096, 14112, 14128, 14144, 14160, 14176, 14192,
    14208, 14224, 14240, 14256, 14272, 14288, 14304, 14320, 14336, 14344, 14352, 14360,
    14368, 14376, 14384, 14392, 14400, 14408, 14416, 14424, 14432, 14440, 14448, 14456,
    14464, 14472, 14480, 14488, 14496, 14504, 14512, 14520, 14528, 14536, 14544, 14552,
    14560, 14568, 14576, 14584, 14592, 14600, 14608, 14616, 14624, 14632, 14640, 14648,
    14656, 14664, 14672, 14680, 14688, 14696, 14704, 14712, 14720, 14728, 14736, 14744,
    14752, 14760, 14768, 14776, 14784, 14792, 14800, 14808, 14816, 14824, 14832, 14840,
    14848, 14856, 14864, 14872, 14880, 14888, 14896, 14904, 14912, 14920, 14928, 14936,
    14944, 14952, 14960, 14968, 14976, 14984, 14992, 15000, 15008, 15016, 15024, 15032,
    15040, 15048, 15056, 15064, 15072, 15080, 15088, 15096, 15104, 15112, 15120, 15128,
    15136, 15144, 15152, 15160, 15168, 15176, 15184, 15192, 15200, 15208, 15216, 15224,
    15232, 15240, 15248, 15256, 15264, 15272, 15280, 15288, 15296, 15304, 15312, 15320,
    15328, 15336, 15344, 15352]

/-- `lookup_table(pix_val)` (rgb2rgb16f.py:11-50); an index outside the list raises an error in
Python, here it is never used outside `0..255`. -/
def lookupTable (pix : Nat) : Nat := lut.getD pix 0

namespace Lut

/-- Register of `PIX2PIXFLUT` (rgb2rgb16f.py:53-78); the delayed copy of the input is never
read. -/
structure State where
  pixf : Nat
deriving DecidableEq

/-- One enabled clock edge: the 256 `If` statements of rgb2rgb16f.py:77-78 in order, a later
match overriding; without a match the register is kept. -/
def step (s : State) (pix : Nat) : State :=
  { pixf := (List.range 256).foldl (init := s.pixf) fun acc j =>
      if pix = j then lookupTable j else acc }

/-- `PIX2PIXFLUT.latency` (rgb2rgb16f.py:60). -/
def latency : Nat := 1

end Lut

namespace ToFloat

/-- Registers of `PIX2PIXFDatapath` (rgb2rgb16f.py:80-126). -/
structure State where
  lshift : Nat
  frac_val : Nat
  pixf : Nat
deriving DecidableEq

/-- One enabled clock edge (rgb2rgb16f.py:109-126).  `LeadOne` is 12 bits wide, its input the
8-bit pixel; `pixf[15]` is set to 1. -/
def step (s : State) (pix : Nat) : State :=
  { lshift := leadOne 12 pix % 2 ^ 4
    frac_val := pix % 2 ^ 7 * 2 ^ 3
    pixf := s.frac_val * 2 ^ s.lshift % 2 ^ 10
      + ((15 - 1 - (s.lshift : Int)) % 2 ^ 5).toNat * 2 ^ 10 + 1 * 2 ^ 15 }

/-- `PIX2PIXFDatapath.latency` (rgb2rgb16f.py:87). -/
def latency : Nat := 2

/-- Reset values. -/
def reset : State := { lshift := 0, frac_val := 0, pixf := 0 }

end ToFloat

namespace FromFloat

/-- Registers of `PIXF2PIXDatapath` (rgb16f2rgb.py:37-50); `exp` is never used. -/
structure State where
  frac : Nat
  exp_offset : Nat
  pix : Nat
deriving DecidableEq

/-- One enabled clock edge (rgb16f2rgb.py:41-50), 8-bit pixels.  `frac >> exp_offset` is an
11-bit value, its slice `[3:]` has 8 bits. -/
def step (s : State) (pixf : Nat) : State :=
  { exp_offset := ((15 - (expOf pixf : Int) - 1) % 2 ^ 5).toNat
    frac := fracOf pixf + 2 ^ 10
    pix := s.frac / 2 ^ s.exp_offset / 2 ^ 3 % 2 ^ 8 }

/-- `PIXF2PIXDatapath.latency` (rgb16f2rgb.py:17). -/
def latency : Nat := 2

/-- Reset values. -/
def reset : State := { frac := 0, exp_offset := 0, pix := 0 }

/-- The single-channel datapath. -/
def datapath : PipelinedActor.Datapath State Nat Nat :=
  { step := step, out := State.pix, init := reset }

end FromFloat

/-- Three values, one per colour (`rgb_layout`, `rgb16f_layout`). -/
structure Triple (α : Type) where
  r : α
  g : α
  b : α
deriving DecidableEq, Repr

/-- Three copies of a datapath sharing one clock enable: the `for name in ["r","g","b"]` loops
of rgb2rgb16f.py:135-140 and rgb16f2rgb.py:60-65.  `PipelinedActor.__init__` is called once per
colour there, which builds three identical valid chains driving the same signals; modelled as
one. -/
def triple {σ ι ο : Type} (D : PipelinedActor.Datapath σ ι ο) :
    PipelinedActor.Datapath (Triple σ) (Triple ι) (Triple ο) :=
  { step := fun s x => ⟨D.step s.r x.r, D.step s.g x.g, D.step s.b x.b⟩
    out := fun s => ⟨D.out s.r, D.out s.g, D.out s.b⟩
    init := ⟨D.init, D.init, D.init⟩ }

/-- Datapath of `RGB2RGB16f` (rgb2rgb16f.py:128-140). -/
def rgb2rgb16f : PipelinedActor.Datapath (Triple ToFloat.State) (Triple Nat) (Triple Nat) :=
  triple { step := ToFloat.step, out := ToFloat.State.pixf, init := ToFloat.reset }

/-- Datapath of `RGB16f2RGB` (rgb16f2rgb.py:53-65). -/
def rgb16f2rgb : PipelinedActor.Datapath (Triple FromFloat.State) (Triple Nat) (Triple Nat) :=
  triple FromFloat.datapath

end Verif.RgbFloat
