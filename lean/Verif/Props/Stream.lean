import Verif.Proofs.PipelinedActor

/-!
# C29: pipelined actors are loss-free streams (generic part)

Instances for the converters are in the files of those converters.
-/

namespace Verif.Props

open PipelinedActor Spec.Stream

variable {σ ι ο : Type}

/-- **C29** For every datapath that computes `f` with latency `L`, every payload sequence and
every valid/ready schedule: what has been delivered is the image under `f` of a prefix of
what has been accepted, and at most `L` items are missing. -/
theorem C29_in_order_lossless (D : Datapath σ ι ο) (L : Nat) (hL : 1 ≤ L) (f : ι → ο)
    (hD : Computes D L f) (i : Nat → In ι) (t : Nat) :
    delivered D L i t <+: (accepted D L i t).map f ∧
    (accepted D L i t).length ≤ (delivered D L i t).length + L := by
  have h := flow D L i f hL hD t
  have h1 : delivered D L i t ++ (inflight D L i t).map f = (accepted D L i t).map f := h
  refine ⟨⟨_, h1⟩, ?_⟩
  have h2 := congrArg List.length h1
  simp only [List.length_append, List.length_map] at h2
  have := inflight_length D L i hL t
  omega

/-- **C29** Everything accepted before `t` has been delivered once the consumer has been
ready for `L` clocks (consecutive or not) after `t`. -/
theorem C29_drains (D : Datapath σ ι ο) (L : Nat) (hL : 1 ≤ L) (f : ι → ο)
    (hD : Computes D L f) (i : Nat → In ι) (t n : Nat)
    (h : L ≤ countIn (fun u => (i u).ready) t n) :
    (accepted D L i t).map f <+: delivered D L i (t + n) := by
  have h1 := drain D L i hL t n h
  have h2 : (accepted D L i t).length ≤ (delivered D L i (t + n)).length := h1
  have h3 := (C29_in_order_lossless D L hL f hD i (t + n)).1
  have h4 : (accepted D L i t).map f <+: (accepted D L i (t + n)).map f := by
    apply List.IsPrefix.map
    clear h h1 h2 h3
    induction n with
    | zero => exact List.prefix_rfl
    | succ n ih => exact ih.trans (List.prefix_append _ _)
  exact List.prefix_of_prefix_length_le h4 h3 (by simpa using h2)

/-- **C29** Stream protocol: an offered output is held until it is taken. -/
theorem C29_stable (D : Datapath σ ι ο) (L : Nat) (i : Nat → In ι) (t : Nat)
    (hv : sourceValid (trace (step D) (reset D L) i t) = true) (hr : (i t).ready = false) :
    sourceValid (trace (step D) (reset D L) i (t + 1)) = true ∧
    D.out (trace (step D) (reset D L) i (t + 1)).dp =
      D.out (trace (step D) (reset D L) i t).dp := by
  have h := stable D L i t hv hr
  have h' : trace (step D) (reset D L) i (t + 1) = trace (step D) (reset D L) i t := h
  rw [h']
  exact ⟨hv, rfl⟩

/-- A one-register datapath, to show the hypotheses can be met. -/
example : Computes (σ := Nat) (ι := Nat) (ο := Nat) ⟨fun _ x => x + 1, id, 0⟩ 1 (· + 1) := by
  intro s x later h
  match later, h with
  | [], _ => rfl

end Verif.Props
