import Verif.Model.OutputReset
import Verif.Spec.CoreCdc

/-!
# Specification vocabulary for the reset of the output's pixel clock domain
-/

namespace Verif.Spec.OutputReset

open Verif.Output Verif.Spec.Stream Verif.Spec.Output

/-- The output core at instant `t`, started in `s0`. -/
def run (cfg : Core.Config) (s0 : CoreCdc.State) (y : Nat → OutputReset.In) (t : Nat) : CoreCdc.State :=
  trace (OutputReset.step cfg) s0 y t

/-- `source.valid`, `source.de`, `source.hsync` and `source.vsync` at instant `t`. -/
def valid (cfg : Core.Config) (s0 : CoreCdc.State) (y : Nat → OutputReset.In) (t : Nat) : Bool :=
  Core.valid (run cfg s0 y t).core (CoreCdc.coreIn (run cfg s0 y t) (y t).toIn)
def de (cfg : Core.Config) (s0 : CoreCdc.State) (y : Nat → OutputReset.In) (t : Nat) : Bool :=
  Core.de (run cfg s0 y t).core (CoreCdc.coreIn (run cfg s0 y t) (y t).toIn)
def hsync (cfg : Core.Config) (s0 : CoreCdc.State) (y : Nat → OutputReset.In) (t : Nat) : Bool :=
  (run cfg s0 y t).core.timing.hsync
def vsync (cfg : Core.Config) (s0 : CoreCdc.State) (y : Nat → OutputReset.In) (t : Nat) : Bool :=
  (run cfg s0 y t).core.timing.vsync

/-- A pixel (active or blanking) is transferred at instant `t`. -/
def beat (cfg : Core.Config) (s0 : CoreCdc.State) (y : Nat → OutputReset.In) (t : Nat) : Bool :=
  (y t).cdEdge && valid cfg s0 y t && (y t).ready

/-- The frame ends at instant `t`: the core takes the parameter set with which it has shown this frame. -/
def frameEnds (cfg : Core.Config) (s0 : CoreCdc.State) (y : Nat → OutputReset.In) (t : Nat) : Bool :=
  (y t).cdEdge && !(y t).rst && GrayFifo.readable (run cfg s0 y t).fifo &&
    Core.paramsReady (run cfg s0 y t).core (CoreCdc.coreIn (run cfg s0 y t) (y t).toIn)

/-- The parameter set in use at instant `t`. -/
def setAt (cfg : Core.Config) (s0 : CoreCdc.State) (y : Nat → OutputReset.In) (t : Nat) : Params :=
  (run cfg s0 y t).fifo.dout

/-- The core has a parameter set at instant `t`; it sends nothing otherwise. -/
def available (cfg : Core.Config) (s0 : CoreCdc.State) (y : Nat → OutputReset.In) (t : Nat) : Bool :=
  GrayFifo.readable (run cfg s0 y t).fifo

/-- From instant `T` on the output is the raster of mode `P`, as in `Spec.CoreCdc.Raster`. -/
def Raster (cfg : Core.Config) (s0 : CoreCdc.State) (y : Nat → OutputReset.In) (P : Params) (T : Nat) : Prop :=
  ∀ u n, T ≤ u → countIn (beat cfg s0 y) T (u - T) = n + 1 →
    de cfg s0 y u = isActive P n ∧
    (P.hsync_start ≤ n → hsync cfg s0 y u = isHsync P n) ∧
    (P.vsync_start * lineLen P ≤ n → vsync cfg s0 y u = isVsync P n)

/-- The reset is held from instant `A` to instant `R`: it is asserted at every edge of the pixel clock
there, and it lasts for an edge of the pixel clock, nine edges of the system clock with `enable` set, and two
more edges of the pixel clock. -/
structure Held (y : Nat → OutputReset.In) (A R : Nat) : Prop where
  asserted : ∀ u, A ≤ u → u < R → (y u).cdEdge = true → (y u).rst = true
  long : ∃ B C, A ≤ B ∧ B ≤ C ∧ C ≤ R ∧
    1 ≤ countIn (fun u => (y u).cdEdge) A (B - A) ∧
    9 ≤ countIn (fun u => (y u).sysEdge && (y u).enable) B (C - B) ∧
    2 ≤ countIn (fun u => (y u).cdEdge) C (R - C)

/-- There is no reset from instant `R` on. -/
def Released (y : Nat → OutputReset.In) (R : Nat) : Prop := ∀ u, R ≤ u → (y u).rst = false

end Verif.Spec.OutputReset
