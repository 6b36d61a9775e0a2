/-!
# What the terminal is documented to show (litevideo/terminal/core.py:9-34)

80 x 30 characters of 8 x 16 pixels.  Two bytes per character (code, colours) from address 0,
the font (16 bytes per character) from address 0x12c0.
-/

namespace Verif.Spec.Terminal

/-- The 16 colours of the VGA palette, as red, green, blue. -/
def vgaPalette (i : Nat) : BitVec 8 × BitVec 8 × BitVec 8 :=
  match i with
  | 0 => (0x00, 0x00, 0x00)
  | 1 => (0x00, 0x00, 0xaa)
  | 2 => (0x00, 0xaa, 0x00)
  | 3 => (0x00, 0xaa, 0xaa)
  | 4 => (0xaa, 0x00, 0x00)
  | 5 => (0xaa, 0x00, 0xaa)
  | 6 => (0xaa, 0x55, 0x00)
  | 7 => (0xaa, 0xaa, 0xaa)
  | 8 => (0x55, 0x55, 0x55)
  | 9 => (0x55, 0x55, 0xff)
  | 10 => (0x55, 0xff, 0x55)
  | 11 => (0x55, 0xff, 0xff)
  | 12 => (0xff, 0x55, 0x55)
  | 13 => (0xff, 0x55, 0xff)
  | 14 => (0xff, 0xff, 0x55)
  | _ => (0xff, 0xff, 0xff)

/-- Address of the character at column `col`, row `row`; its colours are in the next byte. -/
def charAddr (col row : Nat) : Nat := 2 * (80 * row + col)

/-- Address of line `l` of the glyph of character `ch`. -/
def glyphAddr (ch l : Nat) : Nat := 0x12c0 + 16 * ch + l

/-- Colour of pixel `(x, y)` of a screen with memory contents `m`. -/
def pixelColour (m : Nat → BitVec 8) (x y : Nat) : BitVec 8 × BitVec 8 × BitVec 8 :=
  let ch := m (charAddr (x / 8) (y / 16))
  let colours := m (charAddr (x / 8) (y / 16) + 1)
  let row := m (glyphAddr ch.toNat (y % 16))
  if row.getLsbD (7 - x % 8) then vgaPalette (colours.toNat % 16)
  else vgaPalette (colours.toNat / 16)

/-- An array of bytes: its contents after the writes `wr 0, ..., wr (n-1)`, each being nothing or a
pair of address and value. -/
def array (init : Nat → BitVec 8) (wr : Nat → Option (Nat × BitVec 8)) : Nat → Nat → BitVec 8
  | 0 => init
  | n + 1 => fun a =>
    match wr n with
    | some (a', v) => if a = a' then v else array init wr n a
    | none => array init wr n a

end Verif.Spec.Terminal
