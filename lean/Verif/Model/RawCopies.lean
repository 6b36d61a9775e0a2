import Verif.Model.HdmiMode

/-!
# Copies of the received words

Model of the outputs `c0`, `c1`, `c2` of `SyncPolarity` (litevideo/input/analysis.py:26-28,66-71), which
are registers of the clock domain `pix_o`.  That domain has the pixel clock itself
(input/clocking.py:86,223) or, with `split_clocking`, the clock of a second MMCM (clocking.py:178-211).
-/

namespace Verif.RawCopies

/-- What happens at one instant: edges of the two clocks, and the inputs of the receiver at a pixel clock
edge. -/
structure In (ι : Type) where
  pixEdge : Bool
  pixoEdge : Bool
  rx : ι

/-- The receiver and the copies `c0`, `c1`, `c2`. -/
structure State (σ : Type) where
  rx : σ
  c : Nat → BitVec 10

/-- Reset state. -/
def reset {σ : Type} (rx : σ) : State σ := { rx := rx, c := fun _ => 0 }

/-- One instant (analysis.py:67-71); `data` are the inputs `data_in0`, `data_in1`, `data_in2` of
`SyncPolarity`. -/
def step {σ ι : Type} (rxStep : σ → ι → σ) (data : σ → Nat → ChanSync.Word) (s : State σ) (x : In ι) :
    State σ :=
  { rx := if x.pixEdge then rxStep s.rx x.rx else s.rx
    c := if x.pixoEdge then fun i => (data s.rx i).raw else s.c }

/-- `data_in0`, `data_in1`, `data_in2` with `hdmi=False` (__init__.py:125-131). -/
def dataDvi (s : Receiver.State) (i : Nat) : ChanSync.Word := ChanSync.dataOut s.chan i

/-- `data_in0`, `data_in1`, `data_in2` with `hdmi=True` (__init__.py:117-120). -/
def dataHdmi (s : HdmiMode.Rx) (i : Nat) : ChanSync.Word :=
  match i with
  | 0 => s.path.delay0
  | 1 => s.path.delay1
  | _ => s.path.delay2

end Verif.RawCopies
