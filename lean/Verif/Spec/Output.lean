import Verif.Model.Output
import Verif.Spec.Stream

/-!
# Specification of raster timing

Pixels are numbered `n = 0, 1, 2, ...` in scan order over all frames.
-/

namespace Verif.Spec.Output

open Verif.Output

/-- Parameter sets a display mode can have: active area and sync pulses lie inside the scan. -/
structure ValidMode (p : Params) : Prop where
  hres : p.hres ≤ p.hscan
  vres : p.vres ≤ p.vscan
  hs : p.hsync_start < p.hsync_end
  he : p.hsync_end ≤ p.hscan
  vs : p.vsync_start < p.vsync_end
  ve : p.vsync_end ≤ p.vscan
  hbits : p.hscan < 2 ^ 12
  vbits : p.vscan < 2 ^ 12

/-- Clocks per line. -/
def lineLen (p : Params) : Nat := p.hscan + 1
/-- Clocks per frame. -/
def frameLen (p : Params) : Nat := (p.vscan + 1) * (p.hscan + 1)

/-- Column of pixel `n`. -/
def col (p : Params) (n : Nat) : Nat := n % lineLen p
/-- Line of pixel `n`. -/
def line (p : Params) (n : Nat) : Nat := n / lineLen p % (p.vscan + 1)
/-- Frame of pixel `n`. -/
def frame (p : Params) (n : Nat) : Nat := n / lineLen p / (p.vscan + 1)

/-- Pixel `n` is in the active rectangle. -/
def isActive (p : Params) (n : Nat) : Bool := decide (col p n < p.hres) && decide (line p n < p.vres)
/-- Pixel `n` is in the horizontal sync pulse. -/
def isHsync (p : Params) (n : Nat) : Bool :=
  decide (p.hsync_start ≤ col p n) && decide (col p n < p.hsync_end)
/-- Pixel `n` is in the vertical sync pulse. -/
def isVsync (p : Params) (n : Nat) : Bool :=
  decide (p.vsync_start ≤ line p n) && decide (line p n < p.vsync_end)
/-- Pixel `n` is the last of its frame. -/
def isLast (p : Params) (n : Nat) : Bool :=
  decide (col p n = p.hscan) && decide (line p n = p.vscan)

/-- Number of active pixels among `0 .. n-1`. -/
def activeBefore (p : Params) (n : Nat) : Nat := Stream.countIn (isActive p) 0 n

/-- Modes with non-empty active area and front porches (every real display mode). -/
structure DisplayMode (p : Params) : Prop extends ValidMode p where
  hres_pos : 0 < p.hres
  vres_pos : 0 < p.vres
  hsync_pos : 0 < p.hsync_start
  vsync_pos : 0 < p.vsync_start

/-- First pixel number of frame `f` when frame `g` uses mode `P g`. -/
def frameStart (P : Nat → Params) : Nat → Nat
  | 0 => 0
  | f + 1 => frameStart P f + frameLen (P f)

/-- The word addresses of a frame buffer described by `p`, in order: `length` words from `base`,
both given in bytes, for words of `2^shift` bytes and `aw`-bit word addresses. -/
def bufferAddresses (aw shift : Nat) (p : Params) : List Nat :=
  (List.range (p.length / 2 ^ shift % 2 ^ aw)).map
    fun k => (p.base / 2 ^ shift % 2 ^ aw + k) % 2 ^ aw

end Verif.Spec.Output

/-! Observations of a run. -/

namespace Verif.Output.Timing

open Spec.Stream

/-- Parameter sets consumed before clock `t`. -/
def pops (i : Nat → In) (t : Nat) : Nat :=
  countIn (fun u => sinkReady (trace step reset i u) (i u).ready) 0 t

end Verif.Output.Timing

namespace Verif.Output.DmaReader

open Spec.Stream

/-- Inputs of the reader during one clock. -/
structure In where
  valid : Bool
  p : Params
  ready : Bool

/-- Registers at clock `t`. -/
def run (aw shift : Nat) (i : Nat → In) (t : Nat) : State :=
  trace (fun s x => step aw shift s x.valid x.p x.ready) reset i t

/-- Parameter sets accepted before clock `t`. -/
def pops (aw shift : Nat) (i : Nat → In) (t : Nat) : Nat :=
  countIn (fun u => sinkReady aw shift (run aw shift i u) (i u).p (i u).ready) 0 t

/-- Addresses accepted before clock `t`. -/
def reads (aw shift : Nat) (i : Nat → In) (t : Nat) : List Nat :=
  transferred (fun u => requests (run aw shift i u) && (i u).ready)
    (fun u => address aw shift (run aw shift i u) (i u).p) t

/-- Inputs of the reader with genlock during one clock. -/
structure GIn where
  valid : Bool
  p : Params
  ready : Bool
  vsync : Bool

/-- Registers of the reader with genlock at clock `t`; `d` is the `delay_base` CSR. -/
def grun (aw shift d : Nat) (i : Nat → GIn) (t : Nat) : GenlockState :=
  trace (fun s x => genlockStep aw shift s x.valid x.p x.ready x.vsync d) genlockReset i t

/-- Parameter sets accepted before clock `t`. -/
def gpops (aw shift d : Nat) (i : Nat → GIn) (t : Nat) : Nat :=
  countIn (fun u => sinkReady aw shift (grun aw shift d i u).reader (i u).p (i u).ready) 0 t

/-- Addresses accepted before clock `t`. -/
def greads (aw shift d : Nat) (i : Nat → GIn) (t : Nat) : List Nat :=
  transferred (fun u => requests (grun aw shift d i u).reader && (i u).ready)
    (fun u => address aw shift (grun aw shift d i u).reader (i u).p) t

/-- Rising edges of the genlock vsync before clock `t`. -/
def rises (i : Nat → GIn) (t : Nat) : Nat :=
  countIn (fun u => (i u).vsync && !(decide (0 < u) && (i (u - 1)).vsync)) 0 t

end Verif.Output.DmaReader

namespace Verif.Output.Core

open Spec.Stream

/-- Beats transferred before clock `t`. -/
def beats (cfg : Config) (i : Nat → In) (t : Nat) : Nat :=
  countIn (fun u => valid (trace (step cfg) reset i u) (i u) && (i u).ready) 0 t

/-- Parameter sets consumed before clock `t`. -/
def pops (cfg : Config) (i : Nat → In) (t : Nat) : Nat :=
  countIn (fun u => paramsReady (trace (step cfg) reset i u) (i u)) 0 t

end Verif.Output.Core
