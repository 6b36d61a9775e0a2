import Verif.Model.CoreCdc
import Verif.Spec.Output
import Verif.Spec.InitiatorCdc

/-!
# Specification vocabulary for mode changes
-/

namespace Verif.Spec.CoreCdc

open Verif.Output Verif.Spec.Stream Verif.Spec.Output

/-- The output core at instant `t`; its parameter FIFO starts in `f0`. -/
def run (cfg : Core.Config) (f0 : GrayFifo.State 2 Params) (i : Nat → CoreCdc.In) (t : Nat) :
    CoreCdc.State := trace (CoreCdc.step cfg) ⟨f0, Core.reset⟩ i t

/-- `source.valid`, `source.de`, `source.hsync` and `source.vsync` at instant `t`. -/
def valid (cfg : Core.Config) (f0 : GrayFifo.State 2 Params) (i : Nat → CoreCdc.In) (t : Nat) : Bool :=
  Core.valid (run cfg f0 i t).core (CoreCdc.coreIn (run cfg f0 i t) (i t))
def de (cfg : Core.Config) (f0 : GrayFifo.State 2 Params) (i : Nat → CoreCdc.In) (t : Nat) : Bool :=
  Core.de (run cfg f0 i t).core (CoreCdc.coreIn (run cfg f0 i t) (i t))
def hsync (cfg : Core.Config) (f0 : GrayFifo.State 2 Params) (i : Nat → CoreCdc.In) (t : Nat) : Bool :=
  (run cfg f0 i t).core.timing.hsync
def vsync (cfg : Core.Config) (f0 : GrayFifo.State 2 Params) (i : Nat → CoreCdc.In) (t : Nat) : Bool :=
  (run cfg f0 i t).core.timing.vsync

/-- A pixel (active or blanking) is transferred at instant `t`. -/
def beat (cfg : Core.Config) (f0 : GrayFifo.State 2 Params) (i : Nat → CoreCdc.In) (t : Nat) : Bool :=
  (i t).cdEdge && valid cfg f0 i t && (i t).ready

/-- From instant `T` on the output is the raster of mode `P`: after `n + 1` transfers pixel `n` is on the
output.  The sync outputs are those of the mode from their first pulse on. -/
def Raster (cfg : Core.Config) (f0 : GrayFifo.State 2 Params) (i : Nat → CoreCdc.In) (P : Params) (T : Nat) :
    Prop :=
  ∀ u n, T ≤ u → countIn (beat cfg f0 i) T (u - T) = n + 1 →
    de cfg f0 i u = isActive P n ∧
    (P.hsync_start ≤ n → hsync cfg f0 i u = isHsync P n) ∧
    (P.vsync_start * lineLen P ≤ n → vsync cfg f0 i u = isVsync P n)

/-- The pixel clock runs, and the driver takes pixels, the memory accepts commands and the memory answers
at some of its edges, again and again. -/
structure Live (i : Nat → CoreCdc.In) : Prop where
  ready : ∀ T, ∃ u, T ≤ u ∧ (i u).cdEdge = true ∧ (i u).ready = true
  memReady : ∀ T, ∃ u, T ≤ u ∧ (i u).cdEdge = true ∧ (i u).memReady = true
  answer : ∀ T, ∃ u, T ≤ u ∧ (i u).cdEdge = true ∧ (i u).answer = true

/-- The scan registers are 12 bits wide (`hbits`, `vbits`, output/common.py:5-6). -/
def Narrow (i : Nat → CoreCdc.In) : Prop := ∀ u, (i u).csr.hscan < 2 ^ 12 ∧ (i u).csr.vscan < 2 ^ 12

/-- The system clock has five edges in any stretch of time in which the pixel clock has as many edges as a
frame of `P` has pixels, less three. -/
def Refills (i : Nat → CoreCdc.In) (P : Params) : Prop :=
  ∀ a m, frameLen P ≤ countIn (fun u => (i u).cdEdge) a m + 3 → 5 ≤ countIn (fun u => (i u).sysEdge) a m

/-- A parameter set is available to the core at instant `t`. -/
def available (cfg : Core.Config) (f0 : GrayFifo.State 2 Params) (i : Nat → CoreCdc.In) (t : Nat) : Bool :=
  GrayFifo.readable (run cfg f0 i t).fifo

/-- `source.data` at instant `t`. -/
def data (cfg : Core.Config) (f0 : GrayFifo.State 2 Params) (i : Nat → CoreCdc.In) (t : Nat) : Nat :=
  Core.data (run cfg f0 i t).core

/-- The memory reader has finished the buffer that it was reading, and the words have been discarded. -/
structure Drained (s : Core.State) : Prop where
  idle : s.reader.fsm = .idle
  pending : s.pending = []
  fifo : s.fifo = []

end Verif.Spec.CoreCdc
