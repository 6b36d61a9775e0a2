import Verif.Machine
import Verif.Model.ChanSync

/-!
# Input analysis: sync polarity and resolution

Models of `SyncPolarity` and `ResolutionDetection` (litevideo/input/analysis.py).
-/

namespace Verif.Analysis

/-! `SyncPolarity` (analysis.py:12-71). -/
namespace SyncPolarity

/-- Inputs during one clock: `valid_i`, the three channels, and `de_int`, which is driven
externally if `hdmi` (analysis.py:33-36) and is `data_in0.de` otherwise (`dviIn`). -/
structure In where
  valid_i : Bool
  data_in0 : ChanSync.Word
  data_in1 : ChanSync.Word
  data_in2 : ChanSync.Word
  de_int : Bool

/-- Input in DVI mode: `de_int` is channel 0's data-enable (analysis.py:36). -/
def dviIn (valid : Bool) (d0 d1 d2 : ChanSync.Word) : In :=
  { valid_i := valid, data_in0 := d0, data_in1 := d1, data_in2 := d2, de_int := d0.de }

/-- Registers (analysis.py:19-25,38-41).  The copies `c0`, `c1`, `c2` of the raw words
(analysis.py:67-71) belong to another clock domain and are modelled in `Model/RawCopies`. -/
structure State where
  valid_o : Bool
  r : BitVec 8
  g : BitVec 8
  b : BitVec 8
  de_r : Bool
  c_polarity : BitVec 2
  c_out : BitVec 2
deriving DecidableEq, Repr

/-- Reset values. -/
def reset : State :=
  { valid_o := false, r := 0, g := 0, b := 0, de_r := false, c_polarity := 0, c_out := 0 }

/-- `de` (analysis.py:44). -/
def de (s : State) : Bool := s.de_r

/-- `hsync` (analysis.py:45). -/
def hsync (s : State) : Bool := s.c_out.getLsbD 0

/-- `vsync` (analysis.py:46). -/
def vsync (s : State) : Bool := s.c_out.getLsbD 1

/-- `de_rising` (analysis.py:47); in spite of its name it marks the end of active video. -/
def deRising (s : State) (x : In) : Bool := s.de_r && !x.de_int

/-- One clock edge (analysis.py:50-64). -/
def step (s : State) (x : In) : State :=
  { valid_o := x.valid_i
    r := x.data_in2.d
    g := x.data_in1.d
    b := x.data_in0.d
    de_r := x.de_int
    c_polarity := if deRising s x then x.data_in0.c else s.c_polarity
    c_out := if deRising s x then 0 else x.data_in0.c ^^^ s.c_polarity }

end SyncPolarity

/-! `ResolutionDetection` (analysis.py:74-130).  The status registers are copies of
`hcounter_st`, `vcounter_st` made through `MultiReg` (analysis.py:107,130). -/
namespace Resolution

/-- Inputs during one clock (analysis.py:76-78). -/
structure In where
  valid_i : Bool
  vsync : Bool
  de : Bool

/-- Registers (analysis.py:86,92,100,110,115,123). -/
structure State where
  de_r : Bool
  hcounter : Nat
  hcounter_st : Nat
  vsync_r : Bool
  vcounter : Nat
  vcounter_st : Nat
deriving DecidableEq, Repr

/-- Reset values. -/
def reset : State :=
  { de_r := false, hcounter := 0, hcounter_st := 0, vsync_r := false, vcounter := 0,
    vcounter_st := 0 }

/-- `pn_de` (analysis.py:89). -/
def pnDe (s : State) (x : In) : Bool := !x.de && s.de_r

/-- `p_vsync` (analysis.py:113). -/
def pVsync (s : State) (x : In) : Bool := x.vsync && !s.vsync_r

/-- One clock edge (analysis.py:88-129). -/
def step (nbits : Nat) (s : State) (x : In) : State :=
  { de_r := x.de
    hcounter := if x.valid_i && x.de then (s.hcounter + 1) % 2 ^ nbits else 0
    hcounter_st :=
      if x.valid_i then (if pnDe s x then s.hcounter else s.hcounter_st) else 0
    vsync_r := x.vsync
    vcounter :=
      if x.valid_i && pVsync s x then 0
      else if pnDe s x then (s.vcounter + 1) % 2 ^ nbits
      else s.vcounter
    vcounter_st :=
      if x.valid_i then (if pVsync s x then s.vcounter else s.vcounter_st) else 0 }

end Resolution
end Verif.Analysis
