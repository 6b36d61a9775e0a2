import Verif.Model.HdmiIn
import Verif.Model.Terc4

/-!
# HDMI input with `hdmi=True`

Model of `HDMIIn` with `hdmi=True` and a memory port (litevideo/input/__init__.py:46-154): the lanes and
`ChanSync` as in `Model/Receiver`, then the path with `DecodeTERC4` (`Model/Terc4`), the resolution
detector and the capture path.
-/

namespace Verif.HdmiMode

/-- Registers in the pixel clock domain (__init__.py:52-122,133-138). -/
structure Rx where
  lane0 : Receiver.Lane
  lane1 : Receiver.Lane
  lane2 : Receiver.Lane
  chan : ChanSync.State
  path : Terc4.Path
  res : Analysis.Resolution.State

/-- Reset state. -/
def Rx.reset : Rx :=
  { lane0 := Receiver.Lane.reset, lane1 := Receiver.Lane.reset, lane2 := Receiver.Lane.reset
    chan := ChanSync.reset, path := Terc4.Path.reset, res := Analysis.Resolution.reset }

/-- Inputs of `ChanSync` (__init__.py:76-83).  Only channels 0, 1, 2 exist. -/
def Rx.chanIn (s : Rx) : ChanSync.In :=
  { valid_i := s.lane0.decod.valid_o && s.lane1.decod.valid_o && s.lane2.decod.valid_o
    data_in := fun i => match i with
      | 0 => s.lane0.word
      | 1 => s.lane1.word
      | _ => s.lane2.word }

/-- Inputs of the path (__init__.py:88-94,111-122); `dvimode` is `decode_terc4.dvimode.storage`. -/
def Rx.pathIn (s : Rx) (dvimode : Bool) : Terc4.In :=
  { valid_i := s.chan.chan_synced, data_in0 := ChanSync.dataOut s.chan 0
    data_in1 := ChanSync.dataOut s.chan 1, data_in2 := ChanSync.dataOut s.chan 2
    dvimode := dvimode }

/-- Inputs of `ResolutionDetection` (__init__.py:133-138). -/
def Rx.resIn (s : Rx) : Analysis.Resolution.In :=
  { valid_i := s.path.pol.valid_o, vsync := Analysis.SyncPolarity.vsync s.path.pol
    de := Analysis.SyncPolarity.de s.path.pol }

/-- One pixel clock edge, with the parameters of `Receiver.step`. -/
def Rx.step (s : Rx) (x : Receiver.In × Bool) : Rx :=
  { lane0 := s.lane0.step x.1.raw0
    lane1 := s.lane1.step x.1.raw1
    lane2 := s.lane2.step x.1.raw2
    chan := ChanSync.step 3 8 s.chan s.chanIn
    path := Terc4.Path.step s.path (s.pathIn x.2)
    res := Analysis.Resolution.step 11 s.res s.resIn }

/-- Registers of the whole input. -/
structure State (σ : Type) (w : Nat) where
  rx : Rx
  cap : Capture.State σ w

variable {σ : Type} {w : Nat}

/-- Reset state. -/
def reset (E : Capture.Extractor σ w) : State σ w := { rx := Rx.reset, cap := Capture.reset E }

/-- Inputs of `FrameExtraction` (__init__.py:142-149). -/
def frameIn (s : Rx) : Frame.In :=
  { valid_i := s.path.pol.valid_o, vsync := Analysis.SyncPolarity.vsync s.path.pol
    de := Analysis.SyncPolarity.de s.path.pol, r := s.path.pol.r, g := s.path.pol.g
    b := s.path.pol.b }

/-- Inputs of the capture path. -/
def capIn (s : Rx) (x : HdmiIn.In) : Capture.In :=
  { pixEdge := x.pixEdge, video := frameIn s, wok := x.wok, sysEdge := x.sysEdge, rok := x.rok
    busReady := x.busReady, wdataValid := x.wdataValid, frame_size := x.frame_size, sw := x.sw }

/-- One instant; `x.2` is the `dvimode` bit. -/
def step (E : Capture.Extractor σ w) (depth nslots aw al : Nat) (s : State σ w)
    (x : HdmiIn.In × Bool) : State σ w :=
  { rx := if x.1.pixEdge then Rx.step s.rx (x.1.raw, x.2) else s.rx
    cap := Capture.step E depth nslots aw al s.cap (capIn s.rx x.1) }

end Verif.HdmiMode
