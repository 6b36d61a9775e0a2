import Verif.Model.Receiver
import Verif.Model.MultiReg

/-!
# Status registers of the receiver

The status CSRs that `CharSync`, `ChanSync` and `ResolutionDetection` export through Migen's
`MultiReg` (input/charsync.py:18-19,54-57, chansync.py:50,95, analysis.py:80-81,107,130), together
with the receiver in whose pixel clock domain they originate.  One step is one instant at which the
pixel clock, the system clock or both have an edge.
-/

namespace Verif.Status

/-- What happens at one instant: clock edges, the captured words of the three lanes, and for each
status register the bits that are sampled too early. -/
structure In where
  pixEdge : Bool
  raw : Receiver.In
  sysEdge : Bool
  hres : BitVec 11
  vres : BitVec 11
  chan : BitVec 1
  synced : Nat → BitVec 1
  ctl_pos : Nat → BitVec 4

/-- The receiver and its status registers (`_hres`, `_vres`, `_channels_synced`, and per lane
`_char_synced` and `_ctl_pos`). -/
structure State where
  rx : Receiver.State
  hres : Multi 11
  vres : Multi 11
  chan : Multi 1
  synced : Nat → Multi 1
  ctl_pos : Nat → Multi 4

/-- Reset state. -/
def reset : State :=
  { rx := Receiver.reset, hres := Multi.reset 11, vres := Multi.reset 11, chan := Multi.reset 1
    synced := fun _ => Multi.reset 1, ctl_pos := fun _ => Multi.reset 4 }

/-- `hcounter_st` (analysis.py:100). -/
def hresOf (s : Receiver.State) : BitVec 11 := BitVec.ofNat 11 s.res.hcounter_st

/-- `vcounter_st` (analysis.py:123). -/
def vresOf (s : Receiver.State) : BitVec 11 := BitVec.ofNat 11 s.res.vcounter_st

/-- `chan_synced` (chansync.py:48). -/
def chanOf (s : Receiver.State) : BitVec 1 := BitVec.ofBool s.chan.chan_synced

/-- Lane `i`; only lanes 0, 1, 2 exist. -/
def laneOf (s : Receiver.State) (i : Nat) : Receiver.Lane :=
  match i with
  | 0 => s.lane0
  | 1 => s.lane1
  | _ => s.lane2

/-- `synced` of lane `i` (charsync.py:15). -/
def syncedOf (s : Receiver.State) (i : Nat) : BitVec 1 := BitVec.ofBool (laneOf s i).charsync.synced

/-- `word_sel` of lane `i` (charsync.py:39). -/
def posOf (s : Receiver.State) (i : Nat) : BitVec 4 := BitVec.ofNat 4 (laneOf s i).charsync.word_sel

/-- One instant. -/
def step (s : State) (x : In) : State :=
  let rx := if x.pixEdge then Receiver.step s.rx x.raw else s.rx
  { rx := rx
    hres := s.hres.step x.sysEdge (hresOf s.rx) (hresOf rx) x.hres
    vres := s.vres.step x.sysEdge (vresOf s.rx) (vresOf rx) x.vres
    chan := s.chan.step x.sysEdge (chanOf s.rx) (chanOf rx) x.chan
    synced := fun i => (s.synced i).step x.sysEdge (syncedOf s.rx i) (syncedOf rx i) (x.synced i)
    ctl_pos := fun i => (s.ctl_pos i).step x.sysEdge (posOf s.rx i) (posOf rx i) (x.ctl_pos i) }

end Verif.Status
