import Verif.Model.Output
import Verif.Model.Encoder
import Verif.Model.Decoding
import Verif.Model.Resample

/-!
# Video output: routing, physical layer inputs and the ycbcr422 conversion path

Models of `litevideo/output/__init__.py`, the PHYs of `litevideo/output/hdmi/s6.py`, `s7.py` and
the VGA PHY of `litevideo/output/driver.py`.  Serializer, buffer and clock primitives are vendor
blocks and are not modelled: a TMDS lane is the sequence of 10-bit words given to its serializer.
-/

namespace Verif.VideoOut

/-- `core.source` during one clock (`video_out_layout`, output/common.py:35-38). -/
structure Beat (dw : Nat) where
  valid : Bool
  data : BitVec dw
  de : Bool
  hsync : Bool
  vsync : Bool

/-- `driver.sink` in the rgb and ycbcr422 modes (`phy_layout`, output/common.py:45-48). -/
structure Phy where
  de : Bool
  hsync : Bool
  vsync : Bool
  r : BitVec 8
  g : BitVec 8
  b : BitVec 8
deriving DecidableEq

/-- rgb mode wiring (output/__init__.py:51-57); `core.source.data` has 24 bits (core.py:188-192). -/
def rgbPhy (x : Beat 24) : Phy :=
  { de := x.de, hsync := x.hsync, vsync := x.vsync
    r := x.data.extractLsb' 0 8
    g := x.data.extractLsb' 8 8
    b := x.data.extractLsb' 16 8 }

/-- raw mode wiring (output/__init__.py:44-50; s7.py:151-157, s6.py:256-262): the three words given
to the serializers.  (`phy_layout("raw")` declares `c2` one bit too wide, common.py:43; the extra
bit is 0 and is dropped again by the 10-bit `es2.data`.) -/
def rawWords (x : Beat 32) : BitVec 10 × BitVec 10 × BitVec 10 :=
  (x.data.extractLsb' 0 10, x.data.extractLsb' 10 10, x.data.extractLsb' 20 10)

/-- Input of the encoder of lane 0, 1 or 2 (s7.py:158-170, s6.py:263-275). -/
def lane (k : Nat) (x : Phy) : Encoder.In :=
  match k with
  | 0 => { d := x.b, c := BitVec.ofBool x.vsync ++ BitVec.ofBool x.hsync, de := x.de }
  | 1 => { d := x.g, c := 0, de := x.de }
  | _ => { d := x.r, c := 0, de := x.de }

/-- The bits handed to the serializer when the pad is marked `inverted` (s7.py:23-27,
s6.py:204-207). -/
def padWord (inverted : Bool) (w : BitVec 10) : BitVec 10 := if inverted then ~~~w else w

/-! `VGAPHY` (output/driver.py:21-36). -/
namespace Vga

/-- Component pads of `n` bits: `sink.r[8-len(pads.r):]` (driver.py:32-34). -/
def component (n : Nat) (x : BitVec 8) : BitVec n := x.extractLsb' (8 - n) n

/-- `pads.hsync_n`, `pads.vsync_n` (driver.py:30-31). -/
def syncN (s : Bool) : Bool := !s

/-- The connector pads; the components may have different numbers of bits. -/
structure Pads (nr ng nb : Nat) where
  hsync_n : Bool
  vsync_n : Bool
  r : BitVec nr
  g : BitVec ng
  b : BitVec nb
  psave_n : Bool
deriving DecidableEq

/-- Wiring of the pads (driver.py:28-36).  `sink.de` is not used. -/
def pads (nr ng nb : Nat) (x : Phy) : Pads nr ng nb :=
  { hsync_n := syncN x.hsync, vsync_n := syncN x.vsync, r := component nr x.r
    g := component ng x.g, b := component nb x.b, psave_n := true }

end Vga

/-! The ycbcr422 path (output/__init__.py:58-96). -/
namespace Path422

/-- The three timing signals (`frame_timing_layout`, output/common.py:27-31). -/
structure Timing where
  de : Bool
  hsync : Bool
  vsync : Bool
deriving DecidableEq, Repr

/-- Registers: `de_r`, `core_source_valid_d`, `core_source_data_d`, the resampler, the colour
space converter and the `TimingDelay` chains (newest first). -/
structure State where
  de_r : Bool
  valid_d : Bool
  data_d : BitVec 16
  up : Csc.To444.State
  csc : PipelinedActor.State Csc.Ycbcr2Rgb.State
  delay : List Timing

/-- `ycbcr2rgb.latency` and `ycbcr422to444.latency` added up (output/__init__.py:61,
ycbcr422to444.py:18). -/
def delayLatency : Nat := 2 + Csc.Ycbcr2Rgb.latency

/-- Datapath of `YCbCr2RGB()` with its default widths (ycbcr2rgb.py:107). -/
def datapath : PipelinedActor.Datapath Csc.Ycbcr2Rgb.State Csc.Ycbcr Csc.Rgb :=
  Csc.Ycbcr2Rgb.datapath (Csc.Ycbcr2Rgb.params 8 8 8)

/-- Reset state. -/
def reset : State :=
  { de_r := false, valid_d := false, data_d := 0, up := Csc.To444.reset
    csc := PipelinedActor.reset datapath Csc.Ycbcr2Rgb.latency
    delay := List.replicate delayLatency ⟨false, false, false⟩ }

/-- `TimingDelay` (output/__init__.py:21-27): shift in the current timing. -/
def shift (l : List Timing) (x : Timing) : List Timing := (x :: l).dropLast

/-- `ycbcr422to444.sink` payload: `data_d[:8]`, `data_d[8:]` (output/__init__.py:80-81). -/
def upSink (d : BitVec 16) : Csc.Ycbcr422 :=
  { y := ((d.extractLsb' 0 8).toNat : Int), cb_cr := ((d.extractLsb' 8 8).toNat : Int) }

/-- One clock edge (output/__init__.py:65-96).  The PHYs keep `driver.sink.ready` at 1.  The
payload of an empty resampler FIFO, a don't-care, is modelled as 0. -/
def step (s : State) (x : Beat 16) : State :=
  { de_r := x.de
    valid_d := x.valid
    data_d := x.data
    up := Csc.To444.step s.up
      { reset := x.de && !s.de_r, valid := s.valid_d, px := upSink s.data_d
        ready := PipelinedActor.pipeCe s.csc true }
    csc := PipelinedActor.step datapath s.csc
      { valid := Csc.To444.sourceValid s.up, data := Csc.To444.sourceData s.up, ready := true }
    delay := shift s.delay ⟨x.de, x.hsync, x.vsync⟩ }

/-- `driver.sink` timing: the ends of the `TimingDelay` chains. -/
def timing (s : State) : Timing := s.delay.getLastD ⟨false, false, false⟩

/-- `driver.sink.r/g/b`. -/
def rgb (s : State) : Csc.Rgb := datapath.out s.csc.dp

end Path422
end Verif.VideoOut
