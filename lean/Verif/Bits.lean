/-!
# Words given bit by bit
-/

namespace Verif

/-- The `n`-bit word whose bit `k` is `f k`. -/
def ofBits : (n : Nat) → (Nat → Bool) → BitVec n
  | 0, _ => 0#0
  | n + 1, f => BitVec.cons (f n) (ofBits n f)

theorem getLsbD_ofBits (n : Nat) (f : Nat → Bool) (k : Nat) :
    (ofBits n f).getLsbD k = (decide (k < n) && f k) := by
  induction n with
  | zero => simp [ofBits]
  | succ n ih =>
    simp only [ofBits, BitVec.getLsbD_cons, ih]
    by_cases h : k = n
    · subst h; simp
    · have : (k < n + 1) = (k < n) := by apply propext; omega
      simp [h, this]

end Verif
