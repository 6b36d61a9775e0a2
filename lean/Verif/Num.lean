/-!
# Fixed-width integer signals

Values of signals of parametric width are kept as integers; an assignment truncates.
-/

namespace Verif

/-- Assignment to an unsigned `w`-bit signal. -/
def wrapU (w : Nat) (x : Int) : Int := x % 2 ^ w

/-- Assignment to a signed `w`-bit signal. -/
def wrapS (w : Nat) (x : Int) : Int := Int.bmod x (2 ^ w)

/-- `x[lo:]` of a `w`-bit signal (signed or not): Migen slices are unsigned. -/
def sliceFrom (w lo : Nat) (x : Int) : Int := (x % 2 ^ w) / 2 ^ lo

theorem two_pow_pos_int (w : Nat) : (0 : Int) < 2 ^ w := by
  have : (0 : Nat) < 2 ^ w := Nat.two_pow_pos w
  exact_mod_cast this

theorem wrapU_of_range {w : Nat} {x : Int} (h1 : 0 ≤ x) (h2 : x < 2 ^ w) : wrapU w x = x :=
  Int.emod_eq_of_lt h1 h2

theorem wrapS_of_range {w : Nat} {x : Int} (h1 : -(2 ^ w) ≤ x) (h2 : x < 2 ^ w) :
    wrapS (w + 1) x = x := by
  unfold wrapS
  have hp := two_pow_pos_int w
  apply Int.bmod_eq_of_le
  · have : ((2 ^ (w + 1) : Nat) : Int) = 2 * 2 ^ w := by push_cast; rw [Int.pow_succ]; omega
    rw [this]; omega
  · have : ((2 ^ (w + 1) : Nat) : Int) = 2 * 2 ^ w := by push_cast; rw [Int.pow_succ]; omega
    rw [this]; omega

theorem wrapS_congr {w : Nat} {x y : Int} (h : (x - y) % 2 ^ w = 0) : wrapS w x = wrapS w y := by
  unfold wrapS
  obtain ⟨k, hk⟩ := Int.dvd_of_emod_eq_zero h
  have e : x = y + ((2 ^ w : Nat) : Int) * k := by push_cast; omega
  rw [e, Int.add_mul_bmod_self_left]

/-- A slice plus an offset, assigned to a signal no wider than the slice, behaves like the
floor division. -/
theorem wrapS_slice_add {w v lo : Nat} (h : v + lo ≤ w) (x y : Int) :
    wrapS v (sliceFrom w lo x + y) = wrapS v (x / 2 ^ lo + y) := by
  apply wrapS_congr
  unfold sliceFrom
  have hlo : (0 : Int) < 2 ^ lo := two_pow_pos_int lo
  -- x = 2^w q + r, and 2^w = 2^lo * 2^(w-lo)
  obtain ⟨d, rfl⟩ : ∃ d, w = lo + (v + d) := ⟨w - lo - v, by omega⟩
  have e : (2 : Int) ^ (lo + (v + d)) = 2 ^ lo * (2 ^ v * 2 ^ d) := by
    rw [Int.pow_add, Int.pow_add]
  have h1 : x % 2 ^ (lo + (v + d)) = x + 2 ^ lo * (-(2 ^ v * 2 ^ d * (x / 2 ^ (lo + (v + d))))) := by
    rw [Int.emod_def, e, Int.mul_neg, Int.mul_assoc]; omega
  rw [h1, Int.add_mul_ediv_left _ _ (by omega)]
  have h2 : x / 2 ^ lo + -(2 ^ v * 2 ^ d * (x / 2 ^ (lo + (v + d)))) + y - (x / 2 ^ lo + y) =
      2 ^ v * (-(2 ^ d * (x / 2 ^ (lo + (v + d))))) := by
    rw [Int.mul_neg, Int.mul_assoc]; omega
  rw [h2]
  exact Int.mul_emod_right _ _

end Verif
