import Verif.Model.Csc

/-!
# Chroma resampling

Models of `litevideo/csc/ycbcr444to422.py` and `litevideo/csc/ycbcr422to444.py`.
-/

namespace Verif.Csc

/-- `ycbcr422_layout` (csc/common.py:30-31). -/
structure Ycbcr422 where
  y : Int
  cb_cr : Int
deriving DecidableEq, Repr

namespace To422

/-- Input of `YCbCr444to422Datapath`: `sink` and `first` (ycbcr444to422.py:22-24). -/
structure In where
  px : Ycbcr
  first : Bool

/-- Registers (ycbcr444to422.py:29-49,62-70).  The third delayed copy is never read and is
omitted. -/
structure State where
  d1 : Ycbcr
  d2 : Ycbcr
  parity : Bool
  cb_sum : Int
  cr_sum : Int
  source : Ycbcr422
deriving DecidableEq

/-- Reset values. -/
def reset : State :=
  { d1 := ⟨0,0,0⟩, d2 := ⟨0,0,0⟩, parity := false, cb_sum := 0, cr_sum := 0, source := ⟨0,0⟩ }

/-- One enabled clock edge (ycbcr444to422.py:28-70).  `cb_mean`, `cr_mean` are
`cb_sum[1:]`, `cr_sum[1:]`. -/
def step (dw : Nat) (s : State) (x : In) : State :=
  { d1 := x.px, d2 := s.d1
    parity := x.first || !s.parity
    cb_sum := if s.parity then wrapU (dw + 1) (x.px.cb + s.d1.cb) else s.cb_sum
    cr_sum := if s.parity then wrapU (dw + 1) (x.px.cr + s.d1.cr) else s.cr_sum
    source :=
      if s.parity then { y := s.d2.y, cb_cr := sliceFrom (dw + 1) 1 s.cr_sum }
      else { y := s.d2.y, cb_cr := sliceFrom (dw + 1) 1 s.cb_sum } }

/-- `YCbCr444to422Datapath.latency` (ycbcr444to422.py:19). -/
def latency : Nat := 3

/-- The datapath as used by the `YCbCr444to422` actor (ycbcr444to422.py:73-86), which leaves
`first` unconnected (0). -/
def datapath (dw : Nat) : PipelinedActor.Datapath State Ycbcr Ycbcr422 :=
  { step := fun s x => step dw s ⟨x, false⟩, out := State.source, init := reset }

end To422

namespace To444

/-- Inputs of `YCbCr422to444` during one clock (ycbcr422to444.py:20-21), and the `reset`
added by `ResetInserter` (line 9). -/
structure In where
  reset : Bool
  valid : Bool
  px : Ycbcr422
  ready : Bool

/-- State: contents of the three 4-deep FIFOs (oldest first) and the two parity bits
(ycbcr422to444.py:25-28,31,51).  The FIFOs are LiteX `SyncFIFO`s, assumed to be queues whose
`sink.ready` is "not full" and `source.valid` is "not empty". -/
structure State where
  y : List Int
  cb : List Int
  cr : List Int
  parity_in : Bool
  parity_out : Bool
deriving DecidableEq

/-- Reset state. -/
def reset : State := { y := [], cb := [], cr := [], parity_in := false, parity_out := false }

/-- `sink.ready` (ycbcr422to444.py:39,45). -/
def sinkReady (s : State) : Bool :=
  if !s.parity_in then decide (s.y.length < 4) && decide (s.cb.length < 4)
  else decide (s.y.length < 4) && decide (s.cr.length < 4)

/-- `source.valid` (ycbcr422to444.py:54-56). -/
def sourceValid (s : State) : Bool := !s.y.isEmpty && !s.cb.isEmpty && !s.cr.isEmpty

/-- `source.y`, `source.cb`, `source.cr` (ycbcr422to444.py:57-59), meaningful when
`sourceValid`. -/
def sourceData (s : State) : Ycbcr :=
  { y := s.y.headD 0, cb := s.cb.headD 0, cr := s.cr.headD 0 }

/-- One clock edge (ycbcr422to444.py:30-63). -/
def step (s : State) (i : In) : State :=
  if i.reset then reset else
  let push := i.valid && sinkReady s
  let pop := sourceValid s && i.ready
  let y1 := if pop then s.y.tail else s.y
  let cb1 := if pop && s.parity_out then s.cb.tail else s.cb
  let cr1 := if pop && s.parity_out then s.cr.tail else s.cr
  { y := if push then y1 ++ [i.px.y] else y1
    cb := if push && !s.parity_in then cb1 ++ [i.px.cb_cr] else cb1
    cr := if push && s.parity_in then cr1 ++ [i.px.cb_cr] else cr1
    parity_in := if push then !s.parity_in else s.parity_in
    parity_out := if pop then !s.parity_out else s.parity_out }

end To444

/-! The two converters connected as in csc/test/ycbcr_resampling_tb.py:20-32. -/
namespace Chain

/-- Input of the chain. -/
structure In where
  valid : Bool
  px : Ycbcr
  ready : Bool

/-- Both states. -/
structure State where
  down : PipelinedActor.State To422.State
  up : To444.State

/-- Reset state. -/
def reset (dw : Nat) : State :=
  { down := PipelinedActor.reset (To422.datapath dw) To422.latency, up := To444.reset }

/-- One clock edge. -/
def step (dw : Nat) (s : State) (i : In) : State :=
  { down := PipelinedActor.step (To422.datapath dw) s.down ⟨i.valid, i.px, To444.sinkReady s.up⟩
    up := To444.step s.up ⟨false, PipelinedActor.sourceValid s.down,
      (To422.datapath dw).out s.down.dp, i.ready⟩ }

/-- `sink.ready` of the chain. -/
def sinkReady (s : State) : Bool := PipelinedActor.pipeCe s.down (To444.sinkReady s.up)

end Chain
end Verif.Csc
