import Verif.Machine
import Verif.Model.Decoding
import Verif.Model.ChanSync
import Verif.Model.Analysis

/-!
# HDMI period decoding

Model of `DecodeTERC4Channel`, `DecodeTERC4` (litevideo/input/decoding.py:59-336) and of the way
`HDMIIn` connects them when `hdmi=True` (litevideo/input/__init__.py:30-43,87-122).

Everything is clocked by the pixel clock: `HDMIIn` renames the default domain of `DecodeTERC4` to
`pix` (__init__.py:89).
-/

namespace Verif.Terc4

/-- `data_gb_tokens[0]` (decoding.py:9). -/
def dataGuard : BitVec 10 := 0b0100110011#10

/-- `video_gb_tokens[channel]` (decoding.py:11-15). -/
def videoGuard (channel : Nat) : BitVec 10 :=
  match channel with
  | 0 => 0b1011001100#10
  | 1 => 0b0100110011#10
  | _ => 0b1011001100#10

/-- `terc4_tokens` (decoding.py:17-34). -/
def terc4Tokens : List (BitVec 10) :=
  [0b1010011100#10, 0b1001100011#10, 0b1011100100#10, 0b1011100010#10, 0b0101110001#10,
   0b0100011110#10, 0b0110001110#10, 0b0100111100#10, 0b1011001100#10, 0b0100111001#10,
   0b0110011100#10, 0b1011000110#10, 0b1010001110#10, 0b1001110001#10, 0b0101100011#10,
   0b1011000011#10]

/-! `DecodeTERC4Channel` (decoding.py:61-180). -/
namespace Channel

/-- The register `decval` (decoding.py:59,63). -/
structure State where
  c : BitVec 2
  de : Bool
  dgb : Bool
  vgb : Bool
  c_valid : Bool
  d : BitVec 4
deriving DecidableEq, Repr

/-- Reset values. -/
def reset : State := { c := 0, de := false, dgb := false, vgb := false, c_valid := false, d := 0 }

/-- `decval.d`: the position of the word in the TERC4 table; unchanged for other words
(decoding.py:69-72).  A later match would override an earlier one; the words are distinct. -/
def nibble (old : BitVec 4) (w : BitVec 10) : BitVec 4 :=
  terc4Tokens.zipIdx.foldl (init := old) fun acc p => if w = p.1 then BitVec.ofNat 4 p.2 else acc

/-- One clock edge (decoding.py:69-180).  The branch for channel 1 differs from the others in
setting both guard flags for either guard word (decoding.py:155-166). -/
def step (channel : Nat) (s : State) (valid : Bool) (raw : BitVec 10) : State :=
  let d := nibble s.d raw
  if valid then
    if raw = Decoding.controlToken 0 then
      { c := 0, de := false, dgb := false, vgb := false, c_valid := true, d := d }
    else if raw = Decoding.controlToken 1 then
      { c := 1, de := false, dgb := false, vgb := false, c_valid := true, d := d }
    else if raw = Decoding.controlToken 2 then
      { c := 2, de := false, dgb := false, vgb := false, c_valid := true, d := d }
    else if raw = Decoding.controlToken 3 then
      { c := 3, de := false, dgb := false, vgb := false, c_valid := true, d := d }
    else if raw = dataGuard then
      { c := 0, de := false, dgb := true, vgb := decide (channel = 1), c_valid := false, d := d }
    else if raw = videoGuard channel then
      { c := 0, de := false, dgb := decide (channel = 1), vgb := true, c_valid := false, d := d }
    else { c := s.c, de := true, dgb := false, vgb := false, c_valid := false, d := d }
  else { c := 0, de := false, dgb := false, vgb := false, c_valid := false, d := d }

end Channel

/-- States of the FSM (decoding.py:235-336). -/
inductive Fsm where
  | init | preamT4 | goingT4 | terc4 | leaveT4 | preamVid | goingVid | video
deriving DecidableEq, Repr

/-- Inputs during one clock (decoding.py:185-188,196): the channels and the `dvimode` CSR. -/
structure In where
  valid_i : Bool
  data_in0 : ChanSync.Word
  data_in1 : ChanSync.Word
  data_in2 : ChanSync.Word
  dvimode : Bool

/-- Registers: the three channel decoders, the FSM, `de_r`, and the two stages of the `MultiReg`
behind `dvimode_bit` (decoding.py:196-202,211-221). -/
structure State where
  ch0 : Channel.State
  ch1 : Channel.State
  ch2 : Channel.State
  fsm : Fsm
  de_r : Bool
  dvi0 : Bool
  dvi1 : Bool
deriving DecidableEq, Repr

/-- Reset state. -/
def reset : State :=
  { ch0 := Channel.reset, ch1 := Channel.reset, ch2 := Channel.reset, fsm := .init,
    de_r := false, dvi0 := false, dvi1 := false }

/-- `ctl_code` (decoding.py:223-225): channel 1 in the low bits. -/
def ctlCode (s : State) : BitVec 4 := s.ch2.c ++ s.ch1.c

/-- `all_vgb` (decoding.py:231). -/
def allVgb (s : State) : Bool := s.ch0.vgb && s.ch1.vgb && s.ch2.vgb

/-- `any_cvalid` (decoding.py:232). -/
def anyCvalid (s : State) : Bool := s.ch0.c_valid || s.ch1.c_valid || s.ch2.c_valid

/-- `c2c1_dgb` (decoding.py:233). -/
def c2c1Dgb (s : State) : Bool := s.ch2.dgb && s.ch1.dgb

/-- Next FSM state (decoding.py:235-336). -/
def nextFsm (s : State) : Fsm :=
  match s.fsm with
  | .init =>
    if allVgb s then .goingVid else if ctlCode s = 0b0101#4 then .preamT4
    else if ctlCode s = 0b0001#4 then .preamVid else .init
  | .preamT4 =>
    if allVgb s then .goingVid else if c2c1Dgb s then .goingT4
    else if ctlCode s = 0b0101#4 then .preamT4 else .init
  | .goingT4 => if c2c1Dgb s then .goingT4 else .terc4
  | .terc4 =>
    if anyCvalid s then .init else if allVgb s then .goingVid
    else if c2c1Dgb s then .leaveT4 else .terc4
  | .leaveT4 => if c2c1Dgb s then .leaveT4 else .init
  | .preamVid =>
    if ctlCode s = 0b0001#4 then .preamVid else if allVgb s then .goingVid else .init
  | .goingVid => if allVgb s then .goingVid else .video
  | .video => if anyCvalid s then .init else .video

/-- `de_hdmi` (decoding.py:235-336). -/
def deHdmi (s : State) : Bool := decide (s.fsm = .video)

/-- `encoding_terc4` (decoding.py:235-336). -/
def encodingTerc4 (s : State) : Bool :=
  decide (s.fsm = .goingT4) || decide (s.fsm = .terc4) || decide (s.fsm = .leaveT4)

/-- `encrypting_data` (decoding.py:235-336). -/
def encryptingData (s : State) : Bool := decide (s.fsm = .terc4)

/-- `encrypting_video` (decoding.py:235-336). -/
def encryptingVideo (s : State) : Bool := decide (s.fsm = .video)

/-- `de_o` (decoding.py:203-209). -/
def deO (s : State) : Bool := if s.dvi1 then s.de_r else deHdmi s

/-- One clock edge. -/
def step (s : State) (x : In) : State :=
  { ch0 := Channel.step 0 s.ch0 x.valid_i x.data_in0.raw
    ch1 := Channel.step 1 s.ch1 x.valid_i x.data_in1.raw
    ch2 := Channel.step 2 s.ch2 x.valid_i x.data_in2.raw
    fsm := nextFsm s
    de_r := x.data_in0.de
    dvi0 := x.dvimode
    dvi1 := s.dvi0 }

/-! ## The HDMI path of `HDMIIn` -/

/-- Registers of the path: `DecodeTERC4`, the three `TimingDelayChannel(1)` (one register per
field) and `SyncPolarity` (__init__.py:87-122). -/
structure Path where
  dec : State
  delay0 : ChanSync.Word
  delay1 : ChanSync.Word
  delay2 : ChanSync.Word
  pol : Analysis.SyncPolarity.State

/-- Reset state. -/
def Path.reset : Path :=
  { dec := Terc4.reset, delay0 := .zero, delay1 := .zero, delay2 := .zero,
    pol := Analysis.SyncPolarity.reset }

/-- Inputs of `SyncPolarity` (__init__.py:97-98,117-122): the delayed channels, the undelayed
`chan_synced`, and `de_o`. -/
def Path.polIn (s : Path) (x : In) : Analysis.SyncPolarity.In :=
  { valid_i := x.valid_i, data_in0 := s.delay0, data_in1 := s.delay1, data_in2 := s.delay2,
    de_int := deO s.dec }

/-- One clock edge. -/
def Path.step (s : Path) (x : In) : Path :=
  { dec := Terc4.step s.dec x
    delay0 := x.data_in0
    delay1 := x.data_in1
    delay2 := x.data_in2
    pol := Analysis.SyncPolarity.step s.pol (s.polIn x) }

end Verif.Terc4
