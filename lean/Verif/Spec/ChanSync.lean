import Verif.Model.ChanSync

/-!
# Specification vocabulary for channel synchronisation

One source emits, on every channel at once, a sequence of words; the word with index `n` on
channel `i` is `w i n`.  Data-enable is common to all channels.  The channels are skewed: at clock
`t` channel `i` receives the word with index `t + a i`, so a larger `a i` means an earlier channel.
-/

namespace Verif.Spec.ChanSync

open Verif.ChanSync

/-- A skewed multi-channel source. -/
structure Source where
  /-- the word with a given index on a given channel -/
  w : Nat → Nat → Word
  /-- common data-enable -/
  de : Nat → Bool
  /-- how far each channel is ahead -/
  a : Nat → Nat
  common : ∀ i n, (w i n).de = de n

/-- The inputs a source produces, together with any `valid_i`. -/
def Source.input (S : Source) (valid : Nat → Bool) (t : Nat) : In :=
  { valid_i := valid t, data_in := fun i => S.w i (t + S.a i) }

/-- Buffers with their pointers in range, any content: every state the hardware can be in. -/
def InRange (nchan depth : Nat) (s : State) : Prop :=
  ∀ i, i < nchan → (s.buf i).produce < depth ∧ (s.buf i).consume < depth

/-- How many clocks ago the word at the output of a buffer was received (1 to `depth`). -/
def age (depth : Nat) (b : Buffer.State) : Nat :=
  if b.consume < b.produce then b.produce - b.consume else b.produce + depth - b.consume

/-- All channels show, at clock `t`, their word with index `n`. -/
def AlignedOn (S : Source) (nchan depth t n : Nat) (s : State) : Prop :=
  ∀ i, i < nchan → n + age depth (s.buf i) = t + S.a i

/-- State of the channel synchroniser at clock `t`, started in state `s0` and fed by `S`. -/
abbrev chanSync (nchan depth : Nat) (s0 : State) (S : Source) (valid : Nat → Bool) (t : Nat) :
    State := trace (step nchan depth) s0 (S.input valid) t

end Verif.Spec.ChanSync
