import Verif.Model.Frame
import Verif.Spec.Stream
import Verif.Spec.Csc

/-!
# Specification vocabulary for frame extraction
-/

namespace Verif.Spec.Frame

open Verif.Spec.Stream

/-- The complete groups of `n` consecutive elements of a list, in order; an incomplete last group
is dropped. -/
def groups {α : Type} (n : Nat) (l : List α) : List (List α) :=
  (List.range (l.length / n)).map fun k => (l.drop (k * n)).take n

/-- The elements `x u` with `p u`, for `u` in `[t, t + n)`, in order. -/
def pickIn {α : Type} (p : Nat → Bool) (x : Nat → α) (t : Nat) : Nat → List α
  | 0 => []
  | n + 1 => pickIn p x t n ++ (if p (t + n) then [x (t + n)] else [])

/-- A memory word as a list of pixels, the most significant first. -/
def msFirst {α : Type} (w : List α) : List α := w.reverse

/-- A list of Booleans of which exactly the first is set. -/
def firstOnly : List Bool → Prop
  | [] => True
  | b :: l => b = true ∧ ∀ x ∈ l, x = false

/-- The first, third, fifth, ... element of a list. -/
def everyOther {α : Type} : List α → List α
  | [] => []
  | [a] => [a]
  | a :: _ :: l => a :: everyOther l

/-- Position of the pixel of clock `u` in its line: the number of consecutive clocks with
data-enable just before `u`. -/
def lineOffset (x : Nat → Verif.Frame.In) : Nat → Nat
  | 0 => 0
  | u + 1 => if (x u).de then lineOffset x u + 1 else 0

/-- The pixel of clock `u` in YCbCr. -/
def ycc (x : Nat → Verif.Frame.In) (u : Nat) : Verif.Csc.Ycbcr :=
  Verif.Spec.Csc.rgb2ycbcr 8 8 46 15 141 166
    ⟨((x u).r.toNat : Int), ((x u).g.toNat : Int), ((x u).b.toNat : Int)⟩

/-- The 4:2:2 value of the pixel of clock `u`: luma in the low byte; in the high byte the mean Cb
of the pair if it is the first of a pair of its line, and the mean Cr if it is the second. -/
def pixel422 (x : Nat → Verif.Frame.In) (u : Nat) : Nat :=
  if lineOffset x u % 2 = 0 then
    (ycc x u).y.toNat + 256 * (((ycc x u).cb + (ycc x (u + 1)).cb) / 2).toNat
  else
    (ycc x u).y.toNat + 256 * (((ycc x (u - 1)).cr + (ycc x u).cr) / 2).toNat

/-- Every active line is followed by at least `n` clocks of blanking. -/
def BlankingAtLeast (n : Nat) (x : Nat → Verif.Frame.In) : Prop :=
  ∀ u, (x u).de = true → (x (u + 1)).de = false → ∀ i, i < n → (x (u + 1 + i)).de = false

/-- The same for the lines that end at clock `c` or later. -/
def BlankingFrom (c n : Nat) (x : Nat → Verif.Frame.In) : Prop :=
  ∀ u, c ≤ u → (x u).de = true → (x (u + 1)).de = false → ∀ i, i < n → (x (u + 1 + i)).de = false

end Verif.Spec.Frame
