import Verif.Spec.AsyncFifo

/-!
# FIFO conservation
-/

namespace Verif.AsyncFifo

open Spec.Stream

theorem conserve {α : Type} (depth : Nat) (i : Nat → In α) (t : Nat) :
    written depth i t = readOut depth i t ++ trace (step depth) [] i t ∧
    (trace (step depth) [] i t).length ≤ depth := by
  induction t with
  | zero => exact ⟨rfl, Nat.zero_le _⟩
  | succ t ih =>
    obtain ⟨h1, h2⟩ := ih
    have hw : written depth i (t + 1) = written depth i t ++
      (if (i t).push && sinkReady depth (trace (step depth) [] i t) (i t) then [(i t).data] else []) :=
      rfl
    have hr : readOut depth i (t + 1) = readOut depth i t ++
      (if (i t).pop && sourceValid (trace (step depth) [] i t) (i t) then
        (trace (step depth) [] i t).head?.toList else []) := by
      unfold readOut
      simp only [transferred, List.flatten_append]
      split <;> simp
    rw [hw, hr, h1, trace_succ]
    generalize trace (step depth) [] i t = q at *
    simp only [step, Bool.and_comm (sourceValid q (i t)), Bool.and_comm (sinkReady depth q (i t))]
    have hlen : ((i t).push && sinkReady depth q (i t)) = true → q.length < depth := by
      simp only [sinkReady, Bool.and_eq_true, decide_eq_true_eq]
      exact fun h => h.2.2
    have hne : ((i t).pop && sourceValid q (i t)) = true → q ≠ [] := by
      intro h hq
      simp [sourceValid, hq] at h
    cases hp : ((i t).push && sinkReady depth q (i t)) <;>
      cases ho : ((i t).pop && sourceValid q (i t))
    · simp only [Bool.false_eq_true, if_false, List.append_nil]; exact ⟨trivial, h2⟩
    · cases q with
      | nil => exact absurd rfl (hne ho)
      | cons x xs =>
        simp only [List.length_cons] at h2
        simp; omega
    · have := hlen hp
      simp; omega
    · have := hlen hp
      cases q with
      | nil => exact absurd rfl (hne ho)
      | cons x xs =>
        simp only [List.length_cons] at this
        simp; omega

theorem written_prefix {α : Type} (depth : Nat) (i : Nat → In α) (t n : Nat) :
    written depth i t <+: written depth i (t + n) := by
  induction n with
  | zero => exact List.prefix_refl _
  | succ n ih => exact ih.trans (List.prefix_append _ _)

end Verif.AsyncFifo
