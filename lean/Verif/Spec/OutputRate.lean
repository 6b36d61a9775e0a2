import Verif.Spec.Output

/-!
# Specification vocabulary for the memory bandwidth of the output core
-/

namespace Verif.Output.Core

open Spec.Stream Verif.Spec.Output

variable (cfg : Config) (i : Nat → In)

/-- State at clock `t`. -/
abbrev core (t : Nat) : State := trace (step cfg) reset i t

/-- A read command is accepted at clock `u`. -/
def accepts (u : Nat) : Bool := DmaReader.requests (core cfg i u).reader && dmaReady cfg (core cfg i u) (i u)

/-- An outstanding command is answered at clock `u`. -/
def answers (u : Nat) : Bool := (i u).answer && !(core cfg i u).pending.isEmpty

/-- The memory answers every command within `L` clocks: as many commands have been answered before
clock `t + L` as have been accepted before clock `t`. -/
def AnswersWithin (L : Nat) : Prop :=
  ∀ t, countIn (accepts cfg i) 0 t ≤ countIn (answers cfg i) 0 (t + L)

/-- During the time of one line the memory refuses commands at no more than `r` clocks. -/
def RefusesAtMost (p : Params) (r : Nat) : Prop :=
  ∀ t, countIn (fun u => !(i u).memReady) t (lineLen p) ≤ r

end Verif.Output.Core
