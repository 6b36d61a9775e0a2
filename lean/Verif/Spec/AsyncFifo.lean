import Verif.Model.AsyncFifo
import Verif.Spec.Stream

/-!
# What goes into and out of a FIFO
-/

namespace Verif.AsyncFifo

open Spec.Stream

/-- Elements accepted before instant `t`. -/
def written {α : Type} (depth : Nat) (i : Nat → In α) (t : Nat) : List α :=
  transferred (fun u => (i u).push && sinkReady depth (trace (step depth) [] i u) (i u))
    (fun u => (i u).data) t

/-- Elements delivered before instant `t`: heads of the queue at the read edges. -/
def readOut {α : Type} (depth : Nat) (i : Nat → In α) (t : Nat) : List α :=
  (transferred (fun u => (i u).pop && sourceValid (trace (step depth) [] i u) (i u))
    (fun u => (trace (step depth) [] i u).head?.toList) t).flatten

end Verif.AsyncFifo
