import Verif.Model.Pattern
import Verif.Spec.Stream

/-!
# Specification of the test patterns

Pixels are numbered `0, 1, 2, ...` in scan order; pixel `n` of an image `hres` pixels wide is at
column `n % hres` of line `n / hres`.
-/

namespace Verif.Spec.Pattern

open Verif.Pattern

/-- The eight bars: white, yellow, cyan, green, magenta, red, blue, black. -/
def bars : List Pixel :=
  [⟨255, 255, 255⟩, ⟨255, 255, 0⟩, ⟨0, 255, 255⟩, ⟨0, 255, 0⟩,
   ⟨255, 0, 255⟩, ⟨255, 0, 0⟩, ⟨0, 0, 255⟩, ⟨0, 0, 0⟩]

/-- Black and white pixels. -/
def black : Pixel := ⟨0, 0, 0⟩
/-- See `black`. -/
def white : Pixel := ⟨255, 255, 255⟩

/-- Pixel `n` of bars `hres / 8` pixels wide. -/
def barPixel (hres n : Nat) : Pixel := bars.getD (n / (hres / 8) % 8) black

/-- Pixel `n` of vertical lines one pixel wide. -/
def linePixel (n : Nat) : Pixel := if n % 2 = 1 then white else black

/-- Pixel `n` of a checkerboard. -/
def dotPixel (hres n : Nat) : Pixel := if (n % hres + n / hres) % 2 = 1 then white else black

end Verif.Spec.Pattern
