import Verif.Model.CharSync
import Verif.Model.Wer
import Verif.Model.ChanSync
import Verif.Model.Analysis

/-!
# Receiver

Model of `HDMIIn` in DVI mode (`hdmi=False`, litevideo/input/__init__.py:46-139) from the output of
the data capture blocks to the resolution detector, in the pixel clock domain.
-/

namespace Verif.Receiver

/-- The blocks of one lane (__init__.py:52-73): character synchroniser, word error rate counter and
decoder. -/
structure Lane where
  charsync : CharSync.State
  wer : Wer.State
  decod : Decoding.State

/-- Reset state. -/
def Lane.reset : Lane :=
  { charsync := CharSync.reset, wer := Wer.reset, decod := Decoding.reset }

/-- One clock edge of a lane (__init__.py:61-73) with the default `required_controls=8`
(charsync.py:13) and `period_bits=24` (wer.py:19); `raw` is `cap.d`. -/
def Lane.step (s : Lane) (raw : BitVec 10) : Lane :=
  { charsync := CharSync.step 8 s.charsync raw
    wer := Wer.step 24 s.wer s.charsync.data
    decod := Decoding.step s.decod ⟨s.charsync.synced, s.charsync.data⟩ }

/-- `decoding.output`, a record of `channel_layout`. -/
def Lane.word (s : Lane) : ChanSync.Word :=
  { raw := s.decod.raw, d := s.decod.d, c := s.decod.c, de := s.decod.de }

/-- Inputs during one clock: `cap.d` of the three lanes. -/
structure In where
  raw0 : BitVec 10
  raw1 : BitVec 10
  raw2 : BitVec 10

/-- Registers of the receiver. -/
structure State where
  lane0 : Lane
  lane1 : Lane
  lane2 : Lane
  chan : ChanSync.State
  pol : Analysis.SyncPolarity.State
  res : Analysis.Resolution.State

/-- Reset state. -/
def reset : State :=
  { lane0 := Lane.reset, lane1 := Lane.reset, lane2 := Lane.reset, chan := ChanSync.reset
    pol := Analysis.SyncPolarity.reset, res := Analysis.Resolution.reset }

/-- Inputs of `ChanSync` (__init__.py:76-83).  Only channels 0, 1, 2 exist. -/
def chanIn (s : State) : ChanSync.In :=
  { valid_i := s.lane0.decod.valid_o && s.lane1.decod.valid_o && s.lane2.decod.valid_o
    data_in := fun i => match i with
      | 0 => s.lane0.word
      | 1 => s.lane1.word
      | _ => s.lane2.word }

/-- Inputs of `SyncPolarity` (__init__.py:125-131). -/
def polIn (s : State) : Analysis.SyncPolarity.In :=
  Analysis.SyncPolarity.dviIn s.chan.chan_synced (ChanSync.dataOut s.chan 0)
    (ChanSync.dataOut s.chan 1) (ChanSync.dataOut s.chan 2)

/-- Inputs of `ResolutionDetection` (__init__.py:133-138). -/
def resIn (s : State) : Analysis.Resolution.In :=
  { valid_i := s.pol.valid_o, vsync := Analysis.SyncPolarity.vsync s.pol
    de := Analysis.SyncPolarity.de s.pol }

/-- One clock edge; `ChanSync` with its defaults `nchan=3`, `depth=8` (chansync.py:46),
`ResolutionDetection` with `nbits=11` (analysis.py:75). -/
def step (s : State) (x : In) : State :=
  { lane0 := s.lane0.step x.raw0
    lane1 := s.lane1.step x.raw1
    lane2 := s.lane2.step x.raw2
    chan := ChanSync.step 3 8 s.chan (chanIn s)
    pol := Analysis.SyncPolarity.step s.pol (polIn s)
    res := Analysis.Resolution.step 11 s.res (resIn s) }

end Verif.Receiver
