import Verif.Machine
import Mathlib.Data.Rat.Defs

/-!
# Clock generators

The parameters with which the PLLs, MMCMs and the DCM are instantiated (litevideo/input/clocking.py,
litevideo/output/hdmi/s6.py, s7.py), and the reset synchronisers of the receiver's clock domains.  The
primitives are assumed to work as documented: the oscillator of a PLL or MMCM runs at the rate of the
input times the multiplier over the input divider, and each output divides it by its own divider.  Jitter
and the time it takes to lock are not modelled.
-/

namespace Verif.ClockTree

/-- Parameters of a PLL or MMCM: `CLKFBOUT_MULT(_F)`, `DIVCLK_DIVIDE` and the `CLKOUTn_DIVIDE(_F)`. -/
structure Pll where
  mult : Nat
  divclk : Nat
  div : Nat → Nat

/-- Rate of the oscillator, for an input of rate `f`. -/
def Pll.vco (p : Pll) (f : ℚ) : ℚ := f * p.mult / p.divclk

/-- Rate of output `n`. -/
def Pll.out (p : Pll) (f : ℚ) (n : Nat) : ℚ := p.vco f / p.div n

/-- `S6Clocking`: outputs 0, 1, 2 are pix10x, pix2x, pix (input/clocking.py:47-69,71-77);
`DIVCLK_DIVIDE` has its default 1. -/
def s6In : Pll :=
  { mult := 10, divclk := 1, div := fun n => match n with | 0 => 1 | 1 => 5 | _ => 10 }

/-- `S7Clocking`: outputs 0, 1, 2 are pix, pix1p25x, pix5x (input/clocking.py:140-170). -/
def s7In : Pll :=
  { mult := 5, divclk := 1, div := fun n => match n with | 0 => 5 | 1 => 4 | _ => 1 }

/-- The second PLL of `S7Clocking` with `split_clocking`, fed with pix: outputs 0 and 2 are pix_o and
pix5x_o (input/clocking.py:188-212). -/
def s7Split : Pll :=
  { mult := 10, divclk := 1, div := fun n => match n with | 0 => 10 | _ => 2 }

/-- `S6HDMIOutClocking`, fed by the DCM: outputs 0, 1, 2 are pix10x, pix2x, pix
(output/hdmi/s6.py:122-150). -/
def s6Out : Pll :=
  { mult := 10, divclk := 1, div := fun n => match n with | 0 => 1 | 1 => 5 | _ => 10 }

/-- `S7HDMIOutClocking`, fed with 100 MHz: outputs 0, 1 are pix, pix5x (output/hdmi/s7.py:100-126).
Software may reprogram it. -/
def s7Out : Pll :=
  { mult := 30, divclk := 2, div := fun n => match n with | 0 => 10 | _ => 2 }

/-- Rate of `CLKFX` of the DCM, fed with 50 MHz, for the multiplier and divider it was programmed with
(output/hdmi/s6.py:45-72); these are 2 and 4 in the beginning (s6.py:61-62). -/
def dcm (m d : Nat) : ℚ := 50000000 * m / d

/-- `clkfx_md_max` (output/hdmi/s6.py:43). -/
def mdMax (max_pix_clk : ℚ) : ℚ := max (2 / 4) (max_pix_clk / 50000000)

/-- Rising edges of an output with divider `d` and phase `φ`.  One instant is one period of the
oscillator. -/
def rises (d φ t : Nat) : Bool := t % d == φ

/-- `AsyncResetSynchronizer` (input/clocking.py:82-85,232-239): two registers that are set while the
reset is active and otherwise shift a 0 at each edge of the clock; the second one is the reset of the
domain. -/
structure ResetSync where
  first : Bool
  rst : Bool

namespace ResetSync

/-- Initial value of the registers. -/
def reset : ResetSync := ⟨true, true⟩

/-- One instant: the PLL's `locked` output and an edge of the clock. -/
def step (s : ResetSync) (x : Bool × Bool) : ResetSync :=
  if !x.1 then ⟨true, true⟩ else if x.2 then ⟨false, s.first⟩ else s

end ResetSync

/-- Edges of a clock with divider `d` and phase `φ` at which its domain is not in reset, when the PLL is
locked from instant `L` on. -/
def active (d φ L t : Nat) : Bool :=
  rises d φ t && !(trace ResetSync.step ResetSync.reset (fun u => (decide (L ≤ u), rises d φ u)) t).rst

end Verif.ClockTree
