import Verif.Machine

/-!
# LiteX `PipelinedActor`

`litex.soc.interconnect.stream.PipelinedActor` is a dependency of litevideo (used by
csc/rgb2ycbcr.py:129-142, csc/ycbcr2rgb.py:107-120, csc/ycbcr444to422.py:73-86,
csc/rgb16f2rgb.py:53-65, csc/rgb2rgb16f.py:128-140, float_arithmetic/floatmult.py and
floatadd.py).  Its source is not in /repo; the behaviour assumed here is

    valid = sink.valid
    for i in range(latency):
        valid_n = Signal(); sync += If(pipe_ce, valid_n.eq(valid)); valid = valid_n
    pipe_ce = source.ready | ~valid ; sink.ready = pipe_ce ; source.valid = valid

Each converter connects the clock enable of its datapath to `pipe_ce` and its payloads to
the datapath's, which is what `step` does with an arbitrary datapath `dp`.
-/

namespace Verif.PipelinedActor

/-- A clocked datapath with a payload input and a payload output. -/
structure Datapath (σ ι ο : Type) where
  step : σ → ι → σ
  out  : σ → ο
  init : σ

/-- Registers: the `valid_n` chain (newest first) and the datapath registers. -/
structure State (σ : Type) where
  valid : List Bool
  dp : σ

/-- Inputs during one clock: `sink.valid`, the sink payload, `source.ready`. -/
structure In (ι : Type) where
  valid : Bool
  data  : ι
  ready : Bool

/-- Reset state for a given latency. -/
def reset {σ ι ο : Type} (D : Datapath σ ι ο) (latency : Nat) : State σ :=
  { valid := List.replicate latency false, dp := D.init }

/-- `source.valid`: the last element of the chain. -/
def sourceValid {σ : Type} (s : State σ) : Bool := s.valid.getLastD false

/-- `pipe_ce = source.ready | ~valid`; also `sink.ready`. -/
def pipeCe {σ : Type} (s : State σ) (ready : Bool) : Bool := ready || !sourceValid s

/-- One clock edge. -/
def step {σ ι ο : Type} (D : Datapath σ ι ο) (s : State σ) (i : In ι) : State σ :=
  if pipeCe s i.ready then
    { valid := (i.valid :: s.valid).dropLast, dp := D.step s.dp i.data }
  else s

end Verif.PipelinedActor
