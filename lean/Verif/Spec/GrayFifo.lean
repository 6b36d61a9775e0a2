import Verif.Model.GrayFifo
import Verif.Model.AsyncFifo
import Verif.Spec.Stream

/-!
# Specification vocabulary for the asynchronous FIFO

The specification is the bounded queue of `Model/AsyncFifo`.
-/

namespace Verif.GrayFifo

open Spec.Stream

variable {α : Type} {n : Nat}

/-- The circuit at instant `t`, started in `s0`. -/
abbrev fifo (s0 : State n α) (x : Nat → In n α) (t : Nat) : State n α := trace step s0 x t

/-- What the queue is given: the words and requests at the ports of the circuit, and the flags that the
circuit shows. -/
def queueIn (s0 : State n α) (x : Nat → In n α) (t : Nat) : AsyncFifo.In α :=
  { push := (x t).writeEdge && (x t).we, data := (x t).din, wok := writable (fifo s0 x t)
    pop := (x t).readEdge && (x t).re, rok := readable (fifo s0 x t) }

/-- The queue of depth `2 ^ n`, empty at first. -/
def queue (s0 : State n α) (x : Nat → In n α) (t : Nat) : List α :=
  trace (AsyncFifo.step (2 ^ n)) [] (queueIn s0 x) t

/-- A word enters the circuit at instant `t`. -/
def enters (s0 : State n α) (x : Nat → In n α) (t : Nat) : Bool :=
  (x t).writeEdge && (x t).we && writable (fifo s0 x t)

/-- A word leaves the circuit at instant `t`. -/
def leaves (s0 : State n α) (x : Nat → In n α) (t : Nat) : Bool :=
  (x t).readEdge && (x t).re && readable (fifo s0 x t)

/-- The words that enter before instant `t`. -/
def given (s0 : State n α) (x : Nat → In n α) (t : Nat) : List α :=
  transferred (enters s0 x) (fun u => (x u).din) t

/-- The words that leave before instant `t`. -/
def taken (s0 : State n α) (x : Nat → In n α) (t : Nat) : List α :=
  transferred (leaves s0 x) (fun u => (fifo s0 x u).dout) t

/-- Nothing is in the circuit: the counters agree and the synchronisers show them. -/
def Settled (s : State n α) : Prop :=
  s.consume = s.produce ∧ s.produce_r = ⟨gray s.produce, gray s.produce⟩ ∧
    s.consume_w = ⟨gray s.produce, gray s.produce⟩

end Verif.GrayFifo
