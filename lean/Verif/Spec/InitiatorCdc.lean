import Verif.Model.InitiatorCdc
import Verif.Spec.Stream

/-!
# Specification vocabulary for the initiator with its FIFO circuit
-/

namespace Verif.Spec.InitiatorCdc

open Verif.Output Verif.Spec.Stream

/-- The FIFO circuit of the initiator at instant `t`. -/
def initiator (f0 : GrayFifo.State 2 Params) (i : Nat → InitiatorCdc.In) (t : Nat) :
    GrayFifo.State 2 Params := trace InitiatorCdc.step f0 i t

/-- The initiator offers a set to the core at instant `t`: `source.valid`. -/
def offered (f0 : GrayFifo.State 2 Params) (i : Nat → InitiatorCdc.In) (t : Nat) : Bool :=
  GrayFifo.readable (initiator f0 i t)

/-- The core takes a set at instant `t`. -/
def takes (f0 : GrayFifo.State 2 Params) (i : Nat → InitiatorCdc.In) (t : Nat) : Bool :=
  (i t).cdEdge && (i t).ready && offered f0 i t

/-- The set that the core takes at instant `t`. -/
def setAt (f0 : GrayFifo.State 2 Params) (i : Nat → InitiatorCdc.In) (t : Nat) : Params :=
  (initiator f0 i t).dout

/-- The sets that the core has taken before instant `t`. -/
def sets (f0 : GrayFifo.State 2 Params) (i : Nat → InitiatorCdc.In) (t : Nat) : List Params :=
  transferred (takes f0 i) (setAt f0 i) t

/-- The parameter registers that the initiator has put into the FIFO before instant `t`: all of them, as
they are at a `sys` edge with `enable` set and room in the FIFO. -/
def snapshots (f0 : GrayFifo.State 2 Params) (i : Nat → InitiatorCdc.In) (t : Nat) : List Params :=
  transferred (fun u => (i u).sysEdge && (i u).enable && GrayFifo.writable (initiator f0 i u))
    (fun u => (i u).csr) t

/-- A clock that does not stop. -/
def Runs (edge : Nat → Bool) : Prop := ∀ T, ∃ u, T ≤ u ∧ edge u = true

/-- A core that is offered a set takes one some time later (at the end of its frame). -/
def Consumes (f0 : GrayFifo.State 2 Params) (i : Nat → InitiatorCdc.In) : Prop :=
  ∀ T, offered f0 i T = true → ∃ u, T ≤ u ∧ takes f0 i u = true

end Verif.Spec.InitiatorCdc
