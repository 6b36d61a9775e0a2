import Verif.Machine

/-!
# Two-register synchronisers

Migen's `MultiReg` (a dependency; used throughout /repo for status registers, e.g.
input/charsync.py:54-57, chansync.py:95, analysis.py:107,130,269).
-/

namespace Verif.Status

/-- A `MultiReg` of `w` bits: two registers of the destination clock.  The second one is the output,
e.g. the status register. -/
structure Multi (w : Nat) where
  s0 : BitVec w
  status : BitVec w
deriving DecidableEq

/-- Reset values. -/
def Multi.reset (w : Nat) : Multi w := ⟨0, 0⟩

/-- What the first register takes when the source changes from `before` to `after` in the very
instant of the destination clock edge: every bit is either the old or the new one, as `old` says. -/
def sample {w : Nat} (before after old : BitVec w) : BitVec w :=
  (before &&& old) ||| (after &&& ~~~old)

/-- One instant of a `MultiReg`; `edge` says whether the destination clock has an edge. -/
def Multi.step {w : Nat} (s : Multi w) (edge : Bool) (before after old : BitVec w) : Multi w :=
  if edge then ⟨sample before after old, s.s0⟩ else s

end Verif.Status
