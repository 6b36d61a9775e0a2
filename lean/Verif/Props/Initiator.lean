import Verif.Proofs.AsyncFifo
import Verif.Model.Initiator

/-!
# C62, C63: how register writes reach the output core
-/

namespace Verif.Props

open Verif.Output Spec.Stream

/-- The parameter sets pushed by the initiator before instant `t`: a snapshot of all CSRs at every
`sys` edge with `enable` set and room in the FIFO. -/
def snapshots (i : Nat → Initiator.In) (t : Nat) : List Params :=
  transferred (fun u => (i u).sysEdge && (i u).enable &&
      AsyncFifo.sinkReady Initiator.depth (trace Initiator.step [] i u) (Initiator.wire (i u)))
    (fun u => (i u).csr) t

/-- The parameter sets the core has received before instant `t`. -/
def receivedSets (i : Nat → Initiator.In) (t : Nat) : List Params :=
  (transferred (fun u => (i u).cdEdge && (i u).ready &&
      AsyncFifo.sourceValid (trace Initiator.step [] i u) (Initiator.wire (i u)))
    (fun u => (trace Initiator.step [] i u).head?.toList) t).flatten

theorem initiator_queue (i : Nat → Initiator.In) (t : Nat) : trace Initiator.step [] i t =
    trace (AsyncFifo.step Initiator.depth) [] (fun u => Initiator.wire (i u)) t := by
  induction t with
  | zero => rfl
  | succ t ih => rw [trace_succ, trace_succ, ih]; rfl

theorem snapshots_eq (i : Nat → Initiator.In) (t : Nat) : snapshots i t =
    AsyncFifo.written Initiator.depth (fun u => Initiator.wire (i u)) t := by
  unfold snapshots AsyncFifo.written
  simp only [initiator_queue]
  rfl

theorem receivedSets_eq (i : Nat → Initiator.In) (t : Nat) : receivedSets i t =
    AsyncFifo.readOut Initiator.depth (fun u => Initiator.wire (i u)) t := by
  unfold receivedSets AsyncFifo.readOut
  simp only [initiator_queue]
  rfl

theorem written_mem {α : Type} (depth : Nat) (i : Nat → AsyncFifo.In α) (t : Nat) (x : α)
    (h : x ∈ AsyncFifo.written depth i t) : ∃ u, u < t ∧ (i u).push = true ∧ x = (i u).data := by
  unfold AsyncFifo.written at h
  induction t with
  | zero => simp [transferred] at h
  | succ t ih =>
    simp only [transferred, List.mem_append] at h
    rcases h with h | h
    · obtain ⟨u, h1, h2⟩ := ih h
      exact ⟨u, by omega, h2⟩
    · split at h
      · rename_i hc
        rw [Bool.and_eq_true] at hc
        simp only [List.mem_singleton] at h
        exact ⟨t, by omega, hc.1, h⟩
      · simp at h

/-- **C62** Every parameter set the core receives is a snapshot of the CSRs, taken at one `sys`
edge while enabled; snapshots are received in the order taken, none is skipped, and at most four
are waiting.  For every relation of the two clocks and every FIFO flag delay. -/
theorem C62_snapshots (i : Nat → Initiator.In) (t : Nat) :
    receivedSets i t <+: snapshots i t ∧
    (snapshots i t).length ≤ (receivedSets i t).length + 4 ∧
    (∀ x ∈ snapshots i t, ∃ u, u < t ∧ (i u).sysEdge = true ∧ (i u).enable = true ∧
      x = (i u).csr) := by
  obtain ⟨h1, h2⟩ := AsyncFifo.conserve Initiator.depth (fun u => Initiator.wire (i u)) t
  rw [snapshots_eq, receivedSets_eq]
  refine ⟨⟨_, h1.symm⟩, ?_, fun x hx => ?_⟩
  · have := congrArg List.length h1
    simp only [List.length_append] at this
    simp only [this]
    have : Initiator.depth = 4 := rfl
    omega
  · obtain ⟨u, h3, h4, h5⟩ := written_mem _ _ t x hx
    simp only [Initiator.wire, Bool.and_eq_true] at h4 h5
    exact ⟨u, h3, h4.1, h4.2, h5⟩

theorem written_from {α : Type} (depth : Nat) (i : Nat → AsyncFifo.In α) (t n : Nat) (P : α)
    (hP : ∀ u, t ≤ u → (i u).data = P) :
    ∃ k, AsyncFifo.written depth i (t + n) = AsyncFifo.written depth i t ++ List.replicate k P := by
  induction n with
  | zero => exact ⟨0, by simp⟩
  | succ n ih =>
    obtain ⟨k, hk⟩ := ih
    have hw : AsyncFifo.written depth i (t + n + 1) = AsyncFifo.written depth i (t + n) ++
      (if (i (t + n)).push && AsyncFifo.sinkReady depth (trace (AsyncFifo.step depth) [] i (t + n))
        (i (t + n)) then [(i (t + n)).data] else []) := rfl
    rw [← Nat.add_assoc, hw, hk]
    split
    · refine ⟨k + 1, ?_⟩
      rw [hP _ (Nat.le_add_right _ _), List.append_assoc, List.replicate_succ']
    · exact ⟨k, by simp⟩

/-- **C62** Once software has finished an update (the CSRs hold `P` from instant `t` on), every set
the core receives after `t`, except the first four at most, is `P`. -/
theorem C62_update_visible (i : Nat → Initiator.In) (t n : Nat) (P : Params)
    (hP : ∀ u, t ≤ u → (i u).csr = P) :
    ∀ k, (receivedSets i t).length + 4 ≤ k → ∀ x, (receivedSets i (t + n))[k]? = some x → x = P := by
  intro k hk x hx
  obtain ⟨h1, h2, -⟩ := C62_snapshots i t
  obtain ⟨h3, -, -⟩ := C62_snapshots i (t + n)
  obtain ⟨m, hm⟩ := written_from Initiator.depth (fun u => Initiator.wire (i u)) t n P
    (fun u hu => hP u hu)
  obtain ⟨rest, hrest⟩ := h3
  have hx2 : (snapshots i (t + n))[k]? = some x := by
    rw [← hrest, List.getElem?_append_left]
    · exact hx
    · exact (List.getElem?_eq_some_iff.1 hx).1
  have hx3 : (snapshots i t ++ List.replicate m P)[k]? = some x := by
    have : snapshots i (t + n) = snapshots i t ++ List.replicate m P := by
      rw [snapshots_eq, snapshots_eq]; exact hm
    rw [← this]; exact hx2
  rw [List.getElem?_append_right (by omega)] at hx3
  exact (List.eq_of_mem_replicate (List.mem_of_getElem? hx3))

/-- C63: software that changes a mode by writing the CSRs one after the other never makes the core
use a set that mixes the two modes (here: `a` before the first write and `b` after the last). -/
def C63_statement : Prop :=
  ∀ (a b : Params) (i : Nat → Initiator.In) (t : Nat),
    (∀ u, u < t → (i u).csr = a) →
    (i t).csr = { a with hres := b.hres } →
    (∀ u, t < u → (i u).csr = b) →
    ∀ u x, x ∈ receivedSets i u → x = a ∨ x = b

/-- **C63** is false of the code: the FIFO samples the CSRs at every clock, so a set taken between
two register writes reaches the core and is used for a whole frame. -/
theorem C63_violated : ¬ C63_statement := by
  intro h
  let a : Params := ⟨640, 656, 752, 799, 480, 490, 492, 524, 0, 4⟩
  let b : Params := ⟨800, 840, 968, 1055, 600, 601, 605, 627, 0, 4⟩
  let i : Nat → Initiator.In := fun u =>
    ⟨true, true, if u < 1 then a else if u = 1 then { a with hres := b.hres } else b, true, true,
      true, true⟩
  have := h a b i 1 (fun u hu => by simp [i, hu]) (by simp [i])
    (fun u hu => by
      have h1 : ¬ u < 1 := by omega
      have h2 : u ≠ 1 := by omega
      simp [i, h1, h2])
    4 { a with hres := b.hres } (by decide +kernel)
  revert this
  decide

/-- **C63**, the part that holds: software that clears `enable` at or before the first write and
sets it after the last one never produces a mixed set. -/
theorem C63_disable_partial (a b : Params) (i : Nat → Initiator.In) (t n : Nat)
    (ha : ∀ u, u < t → (i u).csr = a)
    (hdis : ∀ u, t ≤ u → u < t + n → (i u).enable = false)
    (hb : ∀ u, t + n ≤ u → (i u).csr = b) (u : Nat) (x : Params) (hx : x ∈ receivedSets i u) :
    x = a ∨ x = b := by
  obtain ⟨h1, -, h3⟩ := C62_snapshots i u
  obtain ⟨v, -, -, h5, h6⟩ := h3 x (h1.subset hx)
  by_cases h7 : v < t
  · exact .inl (by rw [h6, ha v h7])
  · by_cases h8 : v < t + n
    · rw [hdis v (by omega) h8] at h5; cases h5
    · exact .inr (by rw [h6, hb v (by omega)])

example :
    let P : Params := ⟨640, 656, 752, 799, 480, 490, 492, 524, 0, 4⟩
    let i : Nat → Initiator.In := fun u => ⟨true, true, { P with base := u }, true, decide (u % 3 = 2), true, true⟩
    ((receivedSets i 9).map Params.base) = [0, 1, 2] ∧ (snapshots i 9).length = 6 := by
  decide +kernel

end Verif.Props
