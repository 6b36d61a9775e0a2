import Verif.Model.Receiver
import Verif.Model.VideoOut
import Verif.Spec.ChanSync
import Verif.Spec.Serial

/-!
# Specification vocabulary for the receiver

A transmitter sends, at its clock `n`, what enters its physical layer as `x n`.  The three TMDS
lanes arrive with delays of `k i` bits; the first `k i` bits are arbitrary.
-/

namespace Verif.Spec.Receiver

open Verif.VideoOut

/-- A receiver that has just been switched on can rely on the transmitter from `n0` on: ten clocks
of blanking (`n0` to `n0 + 9`), no isolated blanking clock, and later a complete line of at least
15 pixels, `f` to `g - 1`. -/
structure Training (x : Nat → Phy) (n0 f g : Nat) : Prop where
  blank : ∀ n, n0 ≤ n → n ≤ n0 + 9 → (x n).de = false
  iso : ∀ n, n0 ≤ n → (x (n + 1)).de = false → (x n).de = false ∨ (x (n + 2)).de = false
  later : n0 + 25 ≤ f
  before : (x (f - 1)).de = false
  active : ∀ n, f ≤ n → n < g → (x n).de = true
  ends : (x g).de = false
  long : f + 15 ≤ g

/-- The counters of the receiver hold values that fit their width: three bits for the token counters
of the character synchronisers and for the two pointers of each buffer of the channel synchroniser.
All other registers and the memories may hold anything. -/
structure Registers (s : Receiver.State) : Prop where
  counter0 : s.lane0.charsync.control_counter ≤ 7
  counter1 : s.lane1.charsync.control_counter ≤ 7
  counter2 : s.lane2.charsync.control_counter ≤ 7
  pointers : Spec.ChanSync.InRange 3 8 s.chan

/-- Active video ends after clock `n`. -/
def LineEnd (x : Nat → Phy) (n : Nat) : Prop := (x n).de = true ∧ (x (n + 1)).de = false

/-- From the line that ends at `e` on, the transmitter's syncs behave as in every standard video
timing: they do not change during active video, and they are at their idle levels `ph`, `pv` when a
line ends. -/
structure StandardSyncs (x : Nat → Phy) (ph pv : Bool) (e : Nat) : Prop where
  ends : LineEnd x e
  idle : ∀ n, e ≤ n → LineEnd x n → (x (n + 1)).hsync = ph ∧ (x (n + 1)).vsync = pv
  hold : ∀ n, e ≤ n → (x (n + 1)).de = true →
    (x (n + 1)).hsync = (x n).hsync ∧ (x (n + 1)).vsync = (x n).vsync

/-- The vertical sync pulse starts at clock `n + 1`. -/
def FrameSync (x : Nat → Phy) (pv : Bool) (n : Nat) : Bool :=
  (x n).vsync == pv && (x (n + 1)).vsync != pv

/-- `LineEnd` as a test. -/
def lineEnd (x : Nat → Phy) (n : Nat) : Bool := (x n).de && !(x (n + 1)).de

end Verif.Spec.Receiver
