import Verif.Spec.Tmds

/-!
# Specification of the word error rate that software reads
-/

namespace Verif.Spec.Wer

open Spec.Tmds

/-- Number of erroneous words among those classified in the period number `k` of `2 ^ bits` pixel
clocks; the word `w n` is classified three clocks after it came, and the words classified at the
boundary of two periods are not counted. -/
def periodErrors (bits : Nat) (w : Nat → BitVec 10) (k : Nat) : Nat :=
  (List.range ((k + 1) * 2 ^ bits)).countP fun n =>
    decide (k * 2 ^ bits < n + 3 ∧ n + 3 < (k + 1) * 2 ^ bits) && isErrorWord (w n)

/-- Number of words with the property `p` among those classified in the period number `k`, when the word
number `m` of a lane comes at the pixel clock `m + L`. -/
def periodCount (bits L : Nat) (p : Nat → Bool) (k : Nat) : Nat :=
  (List.range ((k + 1) * 2 ^ bits)).countP fun n =>
    decide (k * 2 ^ bits < n + 3 ∧ n + 3 < (k + 1) * 2 ^ bits) && p (n - L)

end Verif.Spec.Wer
