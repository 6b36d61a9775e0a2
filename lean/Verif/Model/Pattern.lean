import Verif.Machine

/-!
# Test pattern generators

Models of `litevideo/output/pattern.py`.  `hbits` is 12 (output/common.py:5), so
`color_bar_parameter_layout` carries a 12-bit `hres`.
-/

namespace Verif.Pattern

/-- The payload of the sources (pattern.py:13,61,89). -/
structure Pixel where
  r : Nat
  g : Nat
  b : Nat
deriving DecidableEq, Repr

/-- Inputs during one clock: `sink.valid`, `sink.hres`, `source.ready`. -/
structure In where
  valid : Bool
  hres : Nat
  ready : Bool

/-- 255 or 0 on the three components (pattern.py:72-80,111-119). -/
def bw (white : Bool) : Pixel := if white then ⟨255, 255, 255⟩ else ⟨0, 0, 0⟩

/-! `ColorBarsPattern` (pattern.py:8-53). -/
namespace ColorBars

/-- The table `color_bar` (pattern.py:35-45). -/
def color : Nat → Pixel
  | 0 => ⟨255, 255, 255⟩
  | 1 => ⟨255, 255, 0⟩
  | 2 => ⟨0, 255, 255⟩
  | 3 => ⟨0, 255, 0⟩
  | 4 => ⟨255, 0, 255⟩
  | 5 => ⟨255, 0, 0⟩
  | 6 => ⟨0, 0, 255⟩
  | _ => ⟨0, 0, 0⟩

/-- Registers (pattern.py:18-19); the source endpoint is registered (lines 22,46-53). -/
structure State where
  pix : Nat
  bar : Nat
  valid : Bool
  px : Pixel

/-- Reset values. -/
def reset : State := { pix := 0, bar := 0, valid := false, px := ⟨0, 0, 0⟩ }

/-- One clock edge (pattern.py:20-32,46-53).  `hres[3:]-1` is compared as an integer, -1 when
`hres < 8`, which no `pix` equals; hence the comparison is written with `pix + 1`. -/
def step (s : State) (i : In) : State :=
  { pix :=
      if i.valid && i.ready then
        if s.pix + 1 = i.hres / 8 then 0 else (s.pix + 1) % 2 ^ 12
      else s.pix
    bar :=
      if i.valid && i.ready then
        if s.pix + 1 = i.hres / 8 then (s.bar + 1) % 2 ^ 3 else s.bar
      else s.bar
    valid := s.valid || i.valid
    px := color s.bar }

end ColorBars

/-! `VerticalLinesPattern` (pattern.py:56-82). -/
namespace VerticalLines

/-- Registers (pattern.py:65) and the registered source endpoint. -/
structure State where
  parity : Bool
  valid : Bool
  px : Pixel

/-- Reset values. -/
def reset : State := { parity := false, valid := false, px := ⟨0, 0, 0⟩ }

/-- One clock edge (pattern.py:66-82). -/
def step (s : State) (i : In) : State :=
  { parity := if i.valid && i.ready then !s.parity else s.parity
    valid := s.valid || i.valid
    px := if i.valid then bw s.parity else s.px }

end VerticalLines

/-! `DotsPattern` (pattern.py:85-120). -/
namespace Dots

/-- Registers (pattern.py:94-95) and the registered source endpoint. -/
structure State where
  h : Nat
  parity : Bool
  valid : Bool
  px : Pixel

/-- Reset values. -/
def reset : State := { h := 0, parity := false, valid := false, px := ⟨0, 0, 0⟩ }

/-- One clock edge (pattern.py:96-120); `h == hres-1` as in `ColorBars.step`. -/
def step (s : State) (i : In) : State :=
  { h :=
      if i.valid && i.ready then
        if s.h + 1 = i.hres then 0 else (s.h + 1) % 2 ^ 12
      else s.h
    parity :=
      if i.valid && i.ready then
        if s.h + 1 = i.hres then s.parity else !s.parity
      else s.parity
    valid := s.valid || i.valid
    px := bw s.parity }

end Dots
end Verif.Pattern
