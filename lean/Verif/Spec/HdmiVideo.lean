import Verif.Model.Frame
import Verif.Spec.Hdmi

/-!
# Specification vocabulary for the video of an HDMI source
-/

namespace Verif.Spec.HdmiVideo

open Verif.Spec.Hdmi (Phase Triple LastPixel)
open Verif.Spec.Tmds (decodeByte)

variable (ph : Nat → Phase) (w : Nat → Triple) (c : Nat → BitVec 2) (pv : Bool)

/-- The video of an HDMI source that sends the words `w` and the sync levels `c`, with a vertical sync that is
idle at `pv`: what an ideal receiver without latency would hand to the frame extractor. -/
def ideal (n : Nat) : Frame.In :=
  { valid_i := true, vsync := (c n).getLsbD 1 ^^ pv, de := decide (ph n = .pixel)
    r := decodeByte (w n).c2, g := decodeByte (w n).c1, b := decodeByte (w n).c0 }

/-- The levels of the last control word up to word `n`. -/
def lastLevels : Nat → BitVec 2
  | 0 => c 0
  | n + 1 => if ph (n + 1) = .control then c (n + 1) else lastLevels n

/-- The same source with the colours one word early, so that each line lacks its first pixel and ends with the
byte of a control word, and with the sync of the last control word, one word early too. -/
def shifted (n : Nat) : Frame.In :=
  { valid_i := true, vsync := (lastLevels ph c (n + 1)).getLsbD 1 ^^ pv, de := decide (ph n = .pixel)
    r := decodeByte (w (n + 1)).c2, g := decodeByte (w (n + 1)).c1, b := decodeByte (w (n + 1)).c0 }

/-- Word `le` is the last pixel of a line, and from there on the vertical sync is at `pv` in the second word after
every line. -/
structure IdleSync (le : Nat) : Prop where
  ends : LastPixel ph le
  idle : ∀ e, le ≤ e → LastPixel ph e → (c (e + 2)).getLsbD 1 = pv

end Verif.Spec.HdmiVideo
