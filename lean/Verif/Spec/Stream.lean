import Verif.Model.PipelinedActor

/-!
# Specification vocabulary for valid/ready streams
-/

namespace Verif.Spec.Stream

/-- The elements `x 0, ..., x (t-1)` transferred at the clocks where `fire` holds, in order. -/
def transferred {α : Type} (fire : Nat → Bool) (x : Nat → α) : Nat → List α
  | 0 => []
  | t + 1 => transferred fire x t ++ (if fire t then [x t] else [])

/-- Number of clocks in `[t, t+n)` at which `p` holds. -/
def countIn (p : Nat → Bool) (t : Nat) : Nat → Nat
  | 0 => 0
  | n + 1 => countIn p t n + (if p (t + n) then 1 else 0)

open PipelinedActor

/-- A datapath computes `f` with latency `L`: the output after feeding `x` and then any
`L-1` further payloads is `f x`, whatever the datapath contained before. -/
def Computes {σ ι ο : Type} (D : Datapath σ ι ο) (L : Nat) (f : ι → ο) : Prop :=
  ∀ (s : σ) (x : ι) (later : List ι), later.length + 1 = L →
    D.out (later.foldl D.step (D.step s x)) = f x

end Verif.Spec.Stream

namespace Verif.Spec.Stream

open PipelinedActor

variable {σ ι ο : Type}

/-- Payloads accepted by the actor before clock `t`: those present at a clock where
`sink.valid` and `sink.ready` are both 1. -/
def accepted (D : Datapath σ ι ο) (L : Nat) (i : Nat → In ι) (t : Nat) : List ι :=
  transferred (fun u => (i u).valid && pipeCe (trace (step D) (reset D L) i u) (i u).ready)
    (fun u => (i u).data) t

/-- Payloads delivered by the actor before clock `t`: those present at a clock where
`source.valid` and `source.ready` are both 1. -/
def delivered (D : Datapath σ ι ο) (L : Nat) (i : Nat → In ι) (t : Nat) : List ο :=
  transferred (fun u => sourceValid (trace (step D) (reset D L) i u) && (i u).ready)
    (fun u => D.out (trace (step D) (reset D L) i u).dp) t

/-- A datapath computes `f` with latency `L` for operands that it is fed twice. -/
def ComputesHeld (D : Datapath σ ι ο) (L : Nat) (f : ι → ο) : Prop :=
  ∀ (s : σ) (x : ι) (later : List ι), later.length + 2 = L →
    D.out (later.foldl D.step (D.step (D.step s x) x)) = f x

/-- The producer leaves each payload on the sink for one more enabled clock after it was accepted: at the
first clock with `sink.ready` after a transfer, the payload of the transfer is still there (valid or not). -/
def Held (D : Datapath σ ι ο) (L : Nat) (i : Nat → In ι) : Prop :=
  let enabled := fun u => pipeCe (trace (step D) (reset D L) i u) (i u).ready
  ∀ t u, t < u → (i t).valid = true → enabled t = true → enabled u = true →
    (∀ v, t < v → v < u → enabled v = false) → (i u).data = (i t).data

end Verif.Spec.Stream
