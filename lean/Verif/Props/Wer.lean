import Verif.Proofs.Wer
import Verif.Props.Tmds

/-!
# C03 (WER part), C04: word error rate
-/

namespace Verif.Props

open Spec.Tmds

/-- An Encoder never sends a word that counts as an error. -/
theorem encoder_no_error (i : Nat → Encoder.In) (n : Nat) : isErrorWord (encoderOut i n) = false := by
  have htok : ∀ c, isErrorWord (Encoder.controlToken c) = false := by decide +kernel
  match n with
  | 0 => show isErrorWord 0 = false; decide +kernel
  | 1 => exact htok 0
  | 2 => exact htok 0
  | 3 => exact htok 0
  | m + 4 =>
    cases h : (i m).de
    · rcases Encoder.run_out_cases i m with ⟨hde, -⟩ | ⟨-, hw⟩
      · rw [h] at hde; cases hde
      · have hw' : encoderOut i (m+4) = Encoder.controlToken (i m).c := hw
        rw [hw']; exact htok _
    · have := (C03_data_words i m h).2.1
      unfold isErrorWord
      rw [decide_eq_false (by omega), Bool.false_and]

/-- **C03** A WER block of any period width observing an Encoder never counts a word. -/
theorem C03_wer_never_counts (bits : Nat) (i : Nat → Encoder.In) (t : Nat) :
    (trace (Wer.step bits) Wer.reset (encoderOut i) t).wer_counter = 0 ∧
    (trace (Wer.step bits) Wer.reset (encoderOut i) t).wer_counter_r = 0 :=
  (Wer.not_error_of_wer bits (encoderOut i) (encoder_no_error i) t).2

/-- **C04** During the whole period that follows the boundary at clock `(k+1)·2^bits`,
the latched count is the number of erroneous words `n` whose classification (3 clocks
later) falls strictly inside the previous period: `k·2^bits < n+3 < (k+1)·2^bits`.
It is less than `2^bits`, so it never wraps. -/
theorem C04_exact_count (bits : Nat) (w : Nat → BitVec 10) (k t : Nat)
    (h1 : (k + 1) * 2 ^ bits < t) (h2 : t ≤ (k + 2) * 2 ^ bits) :
    (trace (Wer.step bits) Wer.reset w t).wer_counter_r =
      (List.range ((k + 1) * 2 ^ bits)).countP (fun n =>
        decide (k * 2 ^ bits < n + 3 ∧ n + 3 < (k + 1) * 2 ^ bits) && isErrorWord (w n)) ∧
    (trace (Wer.step bits) Wer.reset w t).wer_counter_r < 2 ^ bits := by
  have hP : 0 < 2 ^ bits := Nat.two_pow_pos bits
  have e2 : (k + 2) * 2 ^ bits = (k + 1) * 2 ^ bits + 2 ^ bits := by
    rw [← Nat.succ_mul]
  obtain ⟨r, rfl⟩ : ∃ r, t = (k + 1) * 2 ^ bits + 1 + r := ⟨t - ((k + 1) * 2 ^ bits + 1), by omega⟩
  have hr : r < 2 ^ bits := by omega
  refine ⟨Wer.run_latched_words bits w k r hr, ?_⟩
  have := Wer.run_latched bits w k r hr
  have h3 := Wer.flags_le bits w (k * 2 ^ bits + 1) (2 ^ bits - 1)
  have h4 : (trace (Wer.step bits) Wer.reset w ((k + 1) * 2 ^ bits + 1 + r)).wer_counter_r =
    Wer.flags bits w (k * 2 ^ bits + 1) (2 ^ bits - 1) := this
  omega

/-- No erroneous word from `N` on: every count latched over a period that starts after that is 0. -/
theorem wer_zero (bits : Nat) (w : Nat → BitVec 10) (N m t : Nat)
    (hw : ∀ n, N ≤ n → isErrorWord (w n) = false) (hm : N + 2 ≤ m * 2 ^ bits)
    (h1 : (m + 1) * 2 ^ bits < t) : (trace (Wer.step bits) Wer.reset w t).wer_counter_r = 0 := by
  have hP : 0 < 2 ^ bits := Nat.two_pow_pos bits
  obtain ⟨p, hp1, hp2, hp3⟩ : ∃ p, m ≤ p ∧ (p + 1) * 2 ^ bits < t ∧ t ≤ (p + 2) * 2 ^ bits := by
    have h := Nat.div_add_mod (t - 1) (2 ^ bits)
    have h' := Nat.mod_lt (t - 1) hP
    have hge : m + 1 ≤ (t - 1) / 2 ^ bits := (Nat.le_div_iff_mul_le hP).mpr (by omega)
    refine ⟨(t - 1) / 2 ^ bits - 1, by omega, ?_, ?_⟩
    · rw [show (t - 1) / 2 ^ bits - 1 + 1 = (t - 1) / 2 ^ bits by omega, Nat.mul_comm]; omega
    · rw [show (t - 1) / 2 ^ bits - 1 + 2 = (t - 1) / 2 ^ bits + 1 by omega, Nat.mul_comm,
        Nat.mul_add, Nat.mul_one]
      omega
  rw [(C04_exact_count bits _ p t hp2 hp3).1, List.countP_eq_zero]
  intro n _
  simp only [Bool.and_eq_true, decide_eq_true_eq, not_and, Bool.not_eq_true]
  rintro ⟨ha, -⟩
  have := Nat.mul_le_mul_right (2 ^ bits) hp1
  exact hw n (by omega)

/-- A word that is an error. -/
example : isErrorWord 0b0101010101#10 = true := by decide +kernel

/-- All words wrong: a period of 8 counts 7, not 8, words. -/
example : (trace (Wer.step 3) Wer.reset (fun _ => 0b0101010101#10) 20).wer_counter_r = 7 := by
  decide +kernel

end Verif.Props
