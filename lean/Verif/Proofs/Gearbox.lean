import Verif.Model.Gearbox
import Verif.Spec.Serial
import Verif.Proofs.Gated

/-!
# Gearbox: the ring holds the latest bits
-/

namespace Verif.Gearbox

open Spec.Serial Spec.Stream Gated

/-- The gearbox at instant `t`. -/
def gearbox (x : Nat → In) (t : Nat) : State := trace step reset x t

/-- What is in the ring at position `v`, counting positions without wrapping: 40 zeros and then the
bits written. -/
def written (bits : Nat → Bool) (v : Nat) : Bool := if v < 40 then false else bits (v - 40)

variable {x : Nat → In} {bits : Nat → Bool}

theorem pointers (t : Nat) :
    (gearbox x t).wr = (5 + ticks (fun t => (x t).wEdge) t) % 10 ∧
    (gearbox x t).rd = ticks (fun t => (x t).rEdge) t % 8 := by
  induction t with
  | zero => exact ⟨rfl, rfl⟩
  | succ t ih =>
    obtain ⟨h1, h2⟩ := ih
    constructor
    · show (if (x t).wEdge then (if (gearbox x t).wr = 9 then 0 else (gearbox x t).wr + 1)
        else (gearbox x t).wr) = _
      rw [ticks_succ, h1]
      split <;> (try split) <;> omega
    · show (if (x t).rEdge then (if (gearbox x t).rd = 7 then 0 else (gearbox x t).rd + 1)
        else (gearbox x t).rd) = _
      rw [ticks_succ, h2]
      split <;> (try split) <;> omega

theorem ring_at (hw : ∀ t, (x t).wEdge = true → (x t).i =
      ofBits 8 fun j => bits (8 * ticks (fun t => (x t).wEdge) t + j)) (t : Nat) :
    ∀ v, v < 40 + 8 * ticks (fun t => (x t).wEdge) t → 8 * ticks (fun t => (x t).wEdge) t ≤ v + 40 →
      (gearbox x t).ring (v % 80) = written bits v := by
  induction t with
  | zero =>
    intro v h1 _
    have h1 : v < 40 := h1
    rw [written, if_pos h1]; rfl
  | succ t ih =>
    intro v h1 h2
    have hp := (pointers (x := x) t).1
    rw [ticks_succ] at h1 h2
    show (if (x t).wEdge then fun p => if p / 8 = (gearbox x t).wr then (x t).i.getLsbD (p % 8)
      else (gearbox x t).ring p else (gearbox x t).ring) (v % 80) = _
    by_cases he : (x t).wEdge = true
    · rw [if_pos he] at h1 h2 ⊢
      rw [hp]
      generalize hE : ticks (fun t => (x t).wEdge) t = E at h1 h2 ih hp ⊢
      by_cases hv : v < 40 + 8 * E
      · rw [if_neg (by omega)]
        exact ih v hv (by omega)
      · rw [if_pos (by omega), hw t he, hE, getLsbD_ofBits, decide_eq_true (by omega),
          Bool.true_and, written, if_neg (by omega)]
        congr 1; omega
    · rw [if_neg he] at h1 h2 ⊢
      exact ih v (by omega) (by omega)

/-- The word taken at a read edge, when the writes are neither too late nor too early. -/
theorem word_at (hw : ∀ t, (x t).wEdge = true → (x t).i =
      ofBits 8 fun j => bits (8 * ticks (fun t => (x t).wEdge) t + j)) (t : Nat)
    (hr : (x t).rEdge = true)
    (h1 : 10 * ticks (fun t => (x t).rEdge) t ≤ 8 * ticks (fun t => (x t).wEdge) t + 30)
    (h2 : 8 * ticks (fun t => (x t).wEdge) t ≤ 10 * ticks (fun t => (x t).rEdge) t + 40) :
    (gearbox x (t + 1)).o = wordAt (written bits) (10 * ticks (fun t => (x t).rEdge) t) := by
  show (if (x t).rEdge then ofBits 10 fun j => (gearbox x t).ring (10 * (gearbox x t).rd + j)
    else (gearbox x t).o) = _
  rw [if_pos hr, (pointers (x := x) t).2]
  apply BitVec.eq_of_getLsbD_eq
  intro j hj
  rw [wordAt, getLsbD_ofBits, getLsbD_ofBits, decide_eq_true hj, Bool.true_and, Bool.true_and,
    ← ring_at hw t _ (by omega) (by omega)]
  congr 1; omega

end Verif.Gearbox
