import Verif.Model.Wer
import Verif.Spec.Tmds
import Verif.Proofs.Encoder

/-! Helper lemmas about `WER`. -/

namespace Verif.Wer

open Spec.Tmds

theorem isControl_eq : ∀ w : BitVec 9,
    isControl w = tokens.any fun t => t.setWidth 9 == w := by
  decide +kernel

theorem sum_toNat_eq_countP (l : List Nat) (p : Nat → Bool) :
    (l.map fun i => (p i).toNat).sum = l.countP p := by
  induction l with
  | nil => rfl
  | cons a l ih =>
    simp only [List.map_cons, List.sum_cons, ih, List.countP_cons]
    cases p a <;> simp <;> omega

theorem transitions_eq (w : BitVec 10) :
    transitions (w.extractLsb' 0 9) = transitionsBelow w 9 := by
  unfold transitions transitionsBelow
  rw [sum_toNat_eq_countP]
  apply List.countP_congr
  intro k hk
  have hk : k < 8 := by simpa using hk
  have h1 : k < 9 := by omega
  have h2 : k + 1 < 9 := by omega
  simp only [BitVec.getLsbD_extractLsb', h1, h2, Nat.zero_add, decide_true, Bool.true_and]

theorem transitions_le (w : BitVec 9) : transitions w ≤ 8 := by
  unfold transitions
  rw [sum_toNat_eq_countP]
  exact Nat.le_trans List.countP_le_length (by simp)

abbrev run (b : Nat) (w : Nat → BitVec 10) : Nat → State := trace (step b) reset w

/-- The error flag three clocks after a word. -/
theorem run_is_error (b : Nat) (w : Nat → BitVec 10) (t : Nat) :
    (run b w (t+3)).is_error = isErrorWord (w t) := by
  have h1 : (run b w (t+3)).is_error =
      (decide (transitions ((w t).extractLsb' 0 9) % 16 > 4) &&
        !isControl ((w t).extractLsb' 0 9)) := rfl
  have h2 := transitions_le ((w t).extractLsb' 0 9)
  rw [h1, Nat.mod_eq_of_lt (by omega), transitions_eq, isControl_eq]
  unfold isErrorWord
  congr 1
  rw [List.all_eq_not_any_not]
  congr 1
  congr 1
  funext x
  have : BitVec.setWidth 9 (w t) = (w t).extractLsb' 0 9 := by
    apply BitVec.eq_of_getLsbD_eq; intro i hi; simp [hi]
  rw [this]; simp [bne]

theorem run_is_error_early (b : Nat) (w : Nat → BitVec 10) :
    (run b w 0).is_error = false ∧ (run b w 1).is_error = false ∧
    (run b w 2).is_error = false := by
  refine ⟨rfl, rfl, ?_⟩
  have h1 : (run b w 1).transition_count = transitions 0#9 % 16 := rfl
  have h2 : (run b w 2).is_error =
      (decide ((run b w 1).transition_count > 4) && !(run b w 1).is_control) := rfl
  have h3 : transitions 0#9 = 0 := by decide +kernel
  rw [h2, h1, h3]; rfl

/-- Error flag at clock `u` in terms of the words. -/
theorem run_is_error_all (b : Nat) (w : Nat → BitVec 10) (u : Nat) :
    (run b w u).is_error = (decide (3 ≤ u) && isErrorWord (w (u - 3))) := by
  obtain ⟨h0, h1, h2⟩ := run_is_error_early b w
  match u with
  | 0 => simpa using h0
  | 1 => simpa using h1
  | 2 => simpa using h2
  | t + 3 => rw [run_is_error]; simp

theorem run_period (b : Nat) (w : Nat → BitVec 10) (t : Nat) :
    (run b w t).period_counter = t % 2 ^ b ∧
    (run b w t).period_done = decide (0 < t ∧ t % 2 ^ b = 0) := by
  have hP : 0 < 2 ^ b := Nat.two_pow_pos b
  induction t with
  | zero => refine ⟨by simp [reset], rfl⟩
  | succ t ih =>
    obtain ⟨h1, -⟩ := ih
    have hpc : (run b w (t+1)).period_counter =
        ((run b w t).period_counter + 1) % 2 ^ (b + 1) % 2 ^ b := rfl
    have hpd : (run b w (t+1)).period_done =
        decide (((run b w t).period_counter + 1) % 2 ^ (b + 1) / 2 ^ b % 2 = 1) := rfl
    rw [hpc, hpd, h1, Nat.pow_succ]
    have hlt := Nat.mod_lt t hP
    have hle : (t % 2 ^ b + 1) % (2 ^ b * 2) = t % 2 ^ b + 1 := Nat.mod_eq_of_lt (by omega)
    rw [hle]
    have hmod : (t + 1) % 2 ^ b = (t % 2 ^ b + 1) % 2 ^ b := by rw [Nat.mod_add_mod]
    refine ⟨hmod.symm, ?_⟩
    rw [hmod]
    congr 1
    apply propext
    by_cases hc : t % 2 ^ b + 1 = 2 ^ b
    · rw [hc]; simp [Nat.div_self hP]
    · have h3 : t % 2 ^ b + 1 < 2 ^ b := by omega
      rw [Nat.div_eq_of_lt h3, Nat.mod_eq_of_lt h3]; simp

/-- Number of clocks `u` in `[a, a+r)` with the error flag up. -/
def flags (b : Nat) (w : Nat → BitVec 10) (a r : Nat) : Nat :=
  (List.range r).countP fun m => (run b w (a + m)).is_error

theorem flags_succ (b : Nat) (w : Nat → BitVec 10) (a r : Nat) :
    flags b w a (r+1) = flags b w a r + if (run b w (a + r)).is_error then 1 else 0 := by
  unfold flags
  rw [List.range_succ, List.countP_append]
  simp [List.countP_cons]

theorem flags_le (b : Nat) (w : Nat → BitVec 10) (a r : Nat) : flags b w a r ≤ r := by
  unfold flags
  exact Nat.le_trans List.countP_le_length (by simp)

theorem step_wer (b : Nat) (w : Nat → BitVec 10) (t : Nat) :
    (run b w (t+1)).wer_counter = (if (run b w t).period_done then 0
      else if (run b w t).is_error then ((run b w t).wer_counter + 1) % 2 ^ b
      else (run b w t).wer_counter) ∧
    (run b w (t+1)).wer_counter_r =
      (if (run b w t).period_done then (run b w t).wer_counter else (run b w t).wer_counter_r) :=
  ⟨rfl, rfl⟩

/-- Inside a period the running counter is the number of flags since the boundary. -/
theorem run_counter (b : Nat) (w : Nat → BitVec 10) (k : Nat) :
    ∀ r, r < 2 ^ b →
    (run b w (k * 2 ^ b + 1 + r)).wer_counter = flags b w (k * 2 ^ b + 1) r ∧
    (run b w (k * 2 ^ b + 1 + r)).wer_counter_r = (run b w (k * 2 ^ b + 1)).wer_counter_r := by
  have hP : 0 < 2 ^ b := Nat.two_pow_pos b
  intro r
  induction r with
  | zero =>
    intro _
    refine ⟨?_, rfl⟩
    show (run b w (k * 2 ^ b + 1)).wer_counter = 0
    rw [(step_wer b w (k * 2 ^ b)).1, (run_period b w (k * 2 ^ b)).2]
    by_cases hk : k = 0
    · subst hk; simp; rfl
    · have : 0 < k * 2 ^ b := Nat.mul_pos (by omega) hP
      simp [this]
  | succ r ih =>
    intro hr
    obtain ⟨h1, h2⟩ := ih (by omega)
    obtain ⟨s1, s2⟩ := step_wer b w (k * 2 ^ b + 1 + r)
    have hd : (run b w (k * 2 ^ b + 1 + r)).period_done = false := by
      rw [(run_period b w _).2]
      have : (k * 2 ^ b + 1 + r) % 2 ^ b = 1 + r := by
        rw [Nat.add_assoc, Nat.mul_add_mod_self_right, Nat.mod_eq_of_lt (by omega)]
      simp [this]
    have e : k * 2 ^ b + 1 + (r + 1) = (k * 2 ^ b + 1 + r) + 1 := by omega
    rw [e, s1, s2, hd, h1, h2, flags_succ]
    have := flags_le b w (k * 2 ^ b + 1) r
    refine ⟨?_, rfl⟩
    simp only [Bool.false_eq_true, if_false]
    split
    · exact Nat.mod_eq_of_lt (by omega)
    · simp

theorem run_latched (b : Nat) (w : Nat → BitVec 10) (k : Nat) (r : Nat) (hr : r < 2 ^ b) :
    (run b w ((k + 1) * 2 ^ b + 1 + r)).wer_counter_r = flags b w (k * 2 ^ b + 1) (2 ^ b - 1) := by
  have hP : 0 < 2 ^ b := Nat.two_pow_pos b
  rw [(run_counter b w (k+1) r hr).2, (step_wer b w _).2, (run_period b w _).2]
  have h : 0 < (k + 1) * 2 ^ b ∧ (k + 1) * 2 ^ b % 2 ^ b = 0 :=
    ⟨Nat.mul_pos (by omega) hP, by simp⟩
  rw [if_pos (by simpa using h)]
  have e : (k + 1) * 2 ^ b = k * 2 ^ b + 1 + (2 ^ b - 1) := by
    rw [Nat.add_mul]; omega
  rw [e, (run_counter b w k (2 ^ b - 1) (by omega)).1]

/-- Shifted windows have the same count. -/
theorem countP_window (p : Nat → Bool) (a n : Nat) :
    (List.range n).countP (fun m => p (a + m)) =
    (List.range (a + n)).countP (fun u => decide (a ≤ u) && p u) := by
  induction n with
  | zero =>
    rw [Nat.add_zero]
    symm
    simp only [List.range_zero, List.countP_nil, List.countP_eq_zero, List.mem_range]
    intro x hx; simp; omega
  | succ n ih =>
    rw [← Nat.add_assoc, List.range_succ, List.range_succ, List.countP_append,
      List.countP_append, ih]
    simp [List.countP_cons]

theorem countP_shift3 (p : Nat → Bool) (n : Nat) :
    (List.range (n + 3)).countP (fun u => decide (3 ≤ u) && p u) =
    (List.range n).countP (fun m => p (m + 3)) := by
  rw [Nat.add_comm n 3, ← countP_window p 3 n]
  apply List.countP_congr; intro x _; simp [Nat.add_comm]

/-- The latched value as a count of erroneous words. -/
theorem run_latched_words (b : Nat) (w : Nat → BitVec 10) (k : Nat) (r : Nat) (hr : r < 2 ^ b) :
    (run b w ((k + 1) * 2 ^ b + 1 + r)).wer_counter_r =
    (List.range ((k + 1) * 2 ^ b)).countP (fun n =>
      decide (k * 2 ^ b < n + 3 ∧ n + 3 < (k + 1) * 2 ^ b) && isErrorWord (w n)) := by
  have hP : 0 < 2 ^ b := Nat.two_pow_pos b
  rw [run_latched b w k r hr]
  unfold flags
  rw [countP_window (fun u => (run b w u).is_error)]
  have e : k * 2 ^ b + 1 + (2 ^ b - 1) = (k + 1) * 2 ^ b := by rw [Nat.add_mul]; omega
  rw [e]
  generalize hN : (k + 1) * 2 ^ b = N
  generalize k * 2 ^ b = a
  -- extend the left range by 3: flags beyond are cut by the window
  have h1 : (List.range N).countP (fun u => decide (a + 1 ≤ u) && (run b w u).is_error) =
      (List.range (N + 3)).countP (fun u => decide (3 ≤ u) &&
        (decide (a < u ∧ u < N) && isErrorWord (w (u - 3)))) := by
    have : List.range (N + 3) = List.range N ++ [N, N + 1, N + 2] := by
      rw [List.range_add]; rfl
    rw [this, List.countP_append]
    have hz : [N, N + 1, N + 2].countP (fun u => decide (3 ≤ u) &&
        (decide (a < u ∧ u < N) && isErrorWord (w (u - 3)))) = 0 := by
      rw [List.countP_eq_zero]
      intro u hu
      have : ¬ (a < u ∧ u < N) := by
        simp only [List.mem_cons, List.not_mem_nil, or_false] at hu; omega
      simp [this]
    rw [hz, Nat.add_zero]
    apply List.countP_congr
    intro u hu
    have hu : u < N := by simpa using hu
    rw [run_is_error_all]
    simp only [hu, and_true, Bool.and_eq_true, decide_eq_true_eq]
    constructor
    · rintro ⟨x, y, z⟩; exact ⟨y, by omega, z⟩
    · rintro ⟨x, y, z⟩; exact ⟨by omega, x, z⟩
  rw [h1, countP_shift3 (fun u => decide (a < u ∧ u < N) && isErrorWord (w (u - 3)))]
  simp

theorem not_error_of_wer (b : Nat) (w : Nat → BitVec 10)
    (h : ∀ n, isErrorWord (w n) = false) (t : Nat) :
    (run b w t).is_error = false ∧ (run b w t).wer_counter = 0 ∧
    (run b w t).wer_counter_r = 0 := by
  have he : ∀ t, (run b w t).is_error = false := fun t => by
    rw [run_is_error_all, h]; simp
  refine ⟨he t, ?_⟩
  induction t with
  | zero => exact ⟨rfl, rfl⟩
  | succ t ih =>
    obtain ⟨s1, s2⟩ := step_wer b w t
    rw [s1, s2, he t, ih.1, ih.2]
    simp

end Verif.Wer

/-! ### From any state -/

namespace Verif.Wer

open Spec.Tmds

theorem any_is_error (b : Nat) (s0 : State) (w : Nat → BitVec 10) (t : Nat) :
    (trace (step b) s0 w (t+3)).is_error = isErrorWord (w t) := by
  rw [← run_is_error b w t]
  rfl

theorem any_period (b : Nat) (s0 : State) (w : Nat → BitVec 10) (u : Nat) (hu : 1 ≤ u) :
    ∃ v, u ≤ v ∧ v ≤ u + 2 ^ b ∧ (trace (step b) s0 w v).period_done = true := by
  have hP : 0 < 2 ^ b := Nat.two_pow_pos b
  have e : 2 ^ (b + 1) = 2 * 2 ^ b := by rw [Nat.pow_succ]; omega
  have lt : ∀ u, 1 ≤ u → (trace (step b) s0 w u).period_counter < 2 ^ b := by
    intro u hu
    obtain ⟨m, rfl⟩ : ∃ m, u = m + 1 := ⟨u - 1, by omega⟩
    exact Nat.mod_lt _ hP
  have hc := lt u hu
  -- while the counter does not overflow, it counts
  have up : ∀ j, (trace (step b) s0 w u).period_counter + j < 2 ^ b →
      (trace (step b) s0 w (u + j)).period_counter =
        (trace (step b) s0 w u).period_counter + j := by
    intro j
    induction j with
    | zero => intro _; rfl
    | succ j ih =>
      intro h
      have := ih (by omega)
      show ((trace (step b) s0 w (u + j)).period_counter + 1) % 2 ^ (b + 1) % 2 ^ b = _
      rw [this, Nat.mod_eq_of_lt (a := _ + 1) (by omega), Nat.mod_eq_of_lt (by omega)]
      rfl
  generalize hcc : (trace (step b) s0 w u).period_counter = c at hc up
  have last := up (2 ^ b - 1 - c) (by omega)
  refine ⟨u + (2 ^ b - 1 - c) + 1, by omega, by omega, ?_⟩
  show decide (((trace (step b) s0 w (u + (2 ^ b - 1 - c))).period_counter + 1) % 2 ^ (b + 1)
    / 2 ^ b % 2 = 1) = true
  rw [last, show c + (2 ^ b - 1 - c) + 1 = 2 ^ b by omega, Nat.mod_eq_of_lt (show 2 ^ b < 2 ^ (b + 1) by omega),
    Nat.div_self hP]
  rfl

/-- If no erroneous word comes from clock `N` on, the latched count is zero after two periods. -/
theorem any_zero (b : Nat) (s0 : State) (w : Nat → BitVec 10) (N t : Nat)
    (hw : ∀ n, N ≤ n → isErrorWord (w n) = false) (ht : N + 2 * 2 ^ b + 5 ≤ t) :
    (trace (step b) s0 w t).wer_counter_r = 0 := by
  have E : ∀ u, N + 3 ≤ u → (trace (step b) s0 w u).is_error = false := by
    intro u hu
    have := any_is_error b s0 w (u - 3)
    rw [show u - 3 + 3 = u by omega] at this
    rw [this]; exact hw _ (by omega)
  obtain ⟨v, h1, h2, h3⟩ := any_period b s0 w (N + 3) (by omega)
  have Z : ∀ j, (trace (step b) s0 w (v + 1 + j)).wer_counter = 0 := by
    intro j
    induction j with
    | zero =>
      show (if (trace (step b) s0 w v).period_done then 0 else _) = 0
      rw [h3]; rfl
    | succ j ih =>
      show (if _ then 0 else if (trace (step b) s0 w (v + 1 + j)).is_error then _ else
        (trace (step b) s0 w (v + 1 + j)).wer_counter) = 0
      rw [E _ (by omega), ih]
      split <;> rfl
  obtain ⟨v', g1, g2, g3⟩ := any_period b s0 w (v + 1) (by omega)
  have Z' : ∀ u, v + 1 ≤ u → (trace (step b) s0 w u).wer_counter = 0 := by
    intro u hu
    have := Z (u - (v + 1))
    rwa [show v + 1 + (u - (v + 1)) = u by omega] at this
  have R : ∀ j, (trace (step b) s0 w (v' + 1 + j)).wer_counter_r = 0 := by
    intro j
    induction j with
    | zero =>
      show (if (trace (step b) s0 w v').period_done then (trace (step b) s0 w v').wer_counter
        else _) = 0
      rw [g3]; exact Z' v' (by omega)
    | succ j ih =>
      show (if _ then (trace (step b) s0 w (v' + 1 + j)).wer_counter else
        (trace (step b) s0 w (v' + 1 + j)).wer_counter_r) = 0
      rw [ih, Z' _ (by omega)]
      split <;> rfl
  have := R (t - (v' + 1))
  rwa [show v' + 1 + (t - (v' + 1)) = t by omega] at this

end Verif.Wer
