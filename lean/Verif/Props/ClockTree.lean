import Verif.Model.ClockTree
import Verif.Props.Link
import Mathlib.Tactic.NormNum
import Mathlib.Tactic.Linarith
import Mathlib.Tactic.Ring
import Mathlib.Algebra.Order.Field.Rat

/-!
# C118 - C120: the clocks
-/

namespace Verif.Props

open Verif.ClockTree Verif.Spec.Link Verif.Spec.Serial Verif.Spec.Stream Verif.DataCapture Verif.Gated

/-! ### C118 -/

/-- The registers of the reset synchroniser count the edges since the PLL has locked. -/
theorem sync_at (d φ L t : Nat) :
    let s := trace ResetSync.step ResetSync.reset (fun u => (decide (L ≤ u), rises d φ u)) t
    s.first = decide (countIn (rises d φ) L (t - L) < 1) ∧
    s.rst = decide (countIn (rises d φ) L (t - L) < 2) := by
  induction t with
  | zero => rw [Nat.zero_sub]; exact ⟨rfl, rfl⟩
  | succ t ih =>
    simp only [trace_succ, ResetSync.step] at ih ⊢
    obtain ⟨h1, h2⟩ := ih
    by_cases hL : L ≤ t
    · rw [decide_eq_true hL, show t + 1 - L = t - L + 1 by omega, countIn,
        show L + (t - L) = t by omega]
      by_cases hr : rises d φ t = true
      · simp only [hr, Bool.not_true, Bool.false_eq_true, if_false, if_true, h1]
        constructor
        · simp
        · congr 1
          rw [eq_iff_iff]; omega
      · simp only [hr, Bool.not_true, Bool.false_eq_true, if_false, h1, h2, Nat.add_zero]
        exact ⟨trivial, trivial⟩
    · rw [decide_eq_false hL, show t + 1 - L = 0 by omega]
      exact ⟨rfl, rfl⟩

/-- The domain leaves reset with the third edge. -/
theorem count_active (d φ L t : Nat) :
    countIn (active d φ L) 0 t = countIn (rises d φ) L (t - L) - 2 := by
  induction t with
  | zero => rw [Nat.zero_sub]; rfl
  | succ t ih =>
    rw [countIn, ih, Nat.zero_add, active, (sync_at d φ L t).2]
    by_cases hL : L ≤ t
    · rw [show t + 1 - L = t - L + 1 by omega, countIn, show L + (t - L) = t by omega]
      by_cases hr : rises d φ t = true
      · simp only [hr, Bool.true_and, if_true]
        by_cases h2 : countIn (rises d φ) L (t - L) < 2
        · rw [decide_eq_true h2]; simp; omega
        · rw [decide_eq_false h2]; simp; omega
      · simp only [hr, Bool.false_and, Bool.false_eq_true, if_false, Nat.add_zero]
    · rw [show t + 1 - L = 0 by omega, show t - L = 0 by omega]
      simp [countIn]

theorem count_rises (d φ L t : Nat) (hd : 0 < d) (hφ : φ < d) (hL : L ≤ t) :
    (L + (d - 1 - φ)) / d + countIn (rises d φ) L (t - L) = (t + (d - 1 - φ)) / d := by
  have h1 := count_mod d φ hd hφ t
  have h2 := count_mod d φ hd hφ L
  have h3 := countIn_split (fun t => t % d == φ) 0 L (t - L)
  rw [show L + (t - L) = t by omega, h1, h2, Nat.zero_add] at h3
  exact h3.symm

theorem active_locked {d φ L t : Nat} (h : active d φ L t = true) :
    t % d = φ ∧ L ≤ t ∧ 2 ≤ countIn (rises d φ) L (t - L) := by
  rw [active, (sync_at d φ L t).2, Bool.and_eq_true, Bool.not_eq_true', decide_eq_false_iff_not] at h
  obtain ⟨h1, h2⟩ := h
  refine ⟨by simpa [rises] using h1, ?_, by omega⟩
  rcases Nat.lt_or_ge t L with h3 | h3
  · rw [show t - L = 0 by omega] at h2
    exact absurd (show countIn (rises d φ) L 0 < 2 from by show 0 < 2; omega) h2
  · exact h3

/-- **C118** The clocks of a Spartan-6 receiver: whatever the phases of the outputs and whenever the PLL
locks, each pixel clock sees two `pix2x` clocks. -/
theorem C118_s6_two_per (φ2 φ L : Nat) (h2 : φ2 < s6In.div 1) (h : φ < s6In.div 2) :
    ∃ e, e ≤ 4 ∧ TwoPer (active (s6In.div 1) φ2 L) (active (s6In.div 2) φ L) e := by
  have h2 : φ2 < 5 := h2
  have h : φ < 10 := h
  refine ⟨(φ + (4 - φ2)) / 5 + 2 + 2 * ((L + (9 - φ)) / 10) - (L + (4 - φ2)) / 5, by omega, fun t ht => ?_⟩
  obtain ⟨h3, h4, h5⟩ := active_locked ht
  rw [count_active, count_active]
  have c1 := count_rises (s6In.div 1) φ2 L t (by decide) h2 h4
  have c2 := count_rises (s6In.div 2) φ L t (by decide) h h4
  generalize countIn (rises (s6In.div 1) φ2) L (t - L) = a at *
  generalize countIn (rises (s6In.div 2) φ) L (t - L) = b at *
  have d1 : s6In.div 1 = 5 := rfl
  have d2 : s6In.div 2 = 10 := rfl
  rw [d1] at c1
  rw [d2] at c2 h3
  omega

/-- **C118** The clocks of a 7-series receiver: whatever the phases of the outputs and whenever the MMCM
locks, the two clocks of the gearbox stay in step. -/
theorem C118_s7_in_step (φ1 φ L : Nat) (h1 : φ1 < s7In.div 1) (h : φ < s7In.div 0) :
    InStep (active (s7In.div 1) φ1 L) (active (s7In.div 0) φ L) := by
  have h1 : φ1 < 4 := h1
  have h : φ < 5 := h
  intro t ht
  obtain ⟨h3, h4, h5⟩ := active_locked ht
  rw [count_active, count_active]
  have c1 := count_rises (s7In.div 1) φ1 L t (by decide) h1 h4
  have c2 := count_rises (s7In.div 0) φ L t (by decide) h h4
  generalize countIn (rises (s7In.div 1) φ1) L (t - L) = a at *
  generalize countIn (rises (s7In.div 0) φ) L (t - L) = b at *
  have d1 : s7In.div 1 = 4 := rfl
  have d2 : s7In.div 0 = 5 := rfl
  rw [d1] at c1
  rw [d2] at c2 h3
  omega

/-- **C118** A Spartan-6 capture block with these clocks delivers the serial stream of the pair. -/
theorem C118_s6_received (n : Nat) (inverted : Bool) (x : Nat → DataCapture.S6.In) (φ2 φ L : Nat)
    (h2 : φ2 < s6In.div 1) (h : φ < s6In.div 2)
    (hfast : ∀ t, (x t).pix2xEdge = active (s6In.div 1) φ2 L t)
    (hslow : ∀ t, (x t).pixEdge = active (s6In.div 2) φ L t)
    (k : Nat) (hk : 10 ≤ k) (lead : Nat → Bool) (w : Nat → BitVec 10)
    (hr : S6Receives inverted x (serialise k lead w)) :
    ∃ e lead', e ≤ 4 ∧ ∀ t, (x t).pixEdge = true → (s6 n inverted x t).d =
      deserialised (serialise (k + 20 - 5 * e) lead' w) (countIn (fun t => (x t).pixEdge) 0 t) := by
  obtain ⟨e, he, hc⟩ := C118_s6_two_per φ2 φ L h2 h
  rw [← funext hfast, ← funext hslow] at hc
  obtain ⟨lead', h'⟩ := C89_s6_received n inverted x k lead w hr e (by omega) hc
  exact ⟨e, lead', he, h'⟩

/-- **C118** A 7-series capture block with these clocks delivers the serial stream of the pair. -/
theorem C118_s7_received (inverted : Bool) (x : Nat → S7Samples) (φ1 φ L : Nat)
    (h1 : φ1 < s7In.div 1) (h : φ < s7In.div 0)
    (hfast : ∀ t, (x t).pix1p25xEdge = active (s7In.div 1) φ1 L t)
    (hslow : ∀ t, (x t).pixEdge = active (s7In.div 0) φ L t)
    (k : Nat) (lead : Nat → Bool) (w : Nat → BitVec 10)
    (hr : S7Receives inverted x (serialise k lead w)) :
    ∃ lead', ∀ t, (x t).pixEdge = true → s7Word inverted x t =
      deserialised (serialise (k + 50) lead' w) (countIn (fun t => (x t).pixEdge) 0 t) := by
  have hc := C118_s7_in_step φ1 φ L h1 h
  rw [← funext hfast, ← funext hslow] at hc
  exact C90_s7_received inverted x k lead w hr hc

/-- Hypotheses of C118: a Spartan-6 capture block whose PLL locks at instant 13, and the numbers of
clocks after 200 bits; a 7-series one whose MMCM locks at instant 7. -/
example : 3 < s6In.div 1 ∧ 7 < s6In.div 2 ∧ countIn (active (s6In.div 1) 3 13) 0 200 = 36 ∧
    countIn (active (s6In.div 2) 7 13) 0 200 = 17 ∧ active (s6In.div 2) 7 13 197 = true ∧
    countIn (active (s6In.div 1) 3 13) 0 197 = 2 * countIn (active (s6In.div 2) 7 13) 0 197 + 3 ∧
    2 < s7In.div 1 ∧ 4 < s7In.div 0 ∧ countIn (active (s7In.div 1) 2 7) 0 100 = 21 ∧
    countIn (active (s7In.div 0) 4 7) 0 100 = 17 := by decide +kernel

/-- A Spartan-6 capture block with the clocks of its PLL, receiving the words 0, 1, 2, ... -/
def lockedS6 (t : Nat) : DataCapture.S6.In :=
  { pix2xEdge := active (s6In.div 1) 0 13 t, pixEdge := active (s6In.div 2) 0 13 t, sysEdge := false
    master_busy := false, slave_busy := false, pd_valid := false, pd_incdec := false
    dsr2 := ofBits 5 fun j => swapped true (serialise 12 (fun _ => true) (fun n => BitVec.ofNat 10 n)
      (5 * countIn (active (s6In.div 1) 0 13) 0 t + j))
    ctl := ⟨false, false, false, false, false, false⟩, phase_reset := false }

/-- The 17 bits of delay are the 12 of the line and 5 of the capture block (`e = 3`). -/
example : S6Receives true lockedS6 (serialise 12 (fun _ => true) fun n => BitVec.ofNat 10 n) ∧
    (lockedS6 90).pixEdge = true ∧ (s6 8 true lockedS6 90).d =
      deserialised (serialise 17 (fun _ => true) fun n => BitVec.ofNat 10 n)
        (countIn (fun t => (lockedS6 t).pixEdge) 0 90) := by
  refine ⟨fun t _ => rfl, by decide +kernel, by decide +kernel⟩

/-! ### C119 -/

/-- **C119** In a Spartan-6 receiver the pixel clock has the rate of the source's clock lane, `pix2x`
twice and `pix10x` ten times that rate: one bit per `pix10x` clock, five per `pix2x` clock. -/
theorem C119_s6_in (f : ℚ) : s6In.out f 2 = f ∧ s6In.out f 1 = 2 * f ∧ s6In.out f 0 = 10 * f := by
  refine ⟨?_, ?_, ?_⟩ <;> simp only [Pll.out, Pll.vco, s6In] <;> push_cast <;> ring

/-- **C119** In a 7-series receiver, with and without a separate PLL for the output domains: the pixel
clocks have the rate of the source's clock lane, the 5x clocks, two bits per clock, five times that
rate, and `pix1p25x`, which takes eight bits per clock, the same bit rate. -/
theorem C119_s7_in (f : ℚ) : s7In.out f 0 = f ∧ 8 * s7In.out f 1 = 10 * f ∧ s7In.out f 2 = 5 * f ∧
    s7Split.out (s7In.out f 0) 0 = f ∧ s7Split.out (s7In.out f 0) 2 = 5 * f := by
  refine ⟨?_, ?_, ?_, ?_, ?_⟩ <;> simp only [Pll.out, Pll.vco, s7In, s7Split] <;> push_cast <;> ring

/-- **C119** In a Spartan-6 transmitter, whatever software has programmed into the DCM: `pix2x` and
`pix10x` run at twice and ten times the rate of the pixel clock. -/
theorem C119_s6_out (m d : Nat) : s6Out.out (dcm m d) 2 = 50000000 * m / d ∧
    s6Out.out (dcm m d) 1 = 2 * s6Out.out (dcm m d) 2 ∧
    s6Out.out (dcm m d) 0 = 10 * s6Out.out (dcm m d) 2 := by
  refine ⟨?_, ?_, ?_⟩ <;> simp only [Pll.out, Pll.vco, s6Out, dcm] <;> push_cast <;> ring

/-- **C119** As long as software keeps to the ratio announced to the DCM the pixel clock is at most
`max_pix_clk`, or 25 MHz if that is less. -/
theorem C119_s6_out_max (m d : Nat) (max_pix_clk : ℚ) (h : (m : ℚ) / d ≤ mdMax max_pix_clk) :
    s6Out.out (dcm m d) 2 ≤ max 25000000 max_pix_clk := by
  have h1 : s6Out.out (dcm m d) 2 = 50000000 * (m / d) := by
    rw [(C119_s6_out m d).1, mul_div_assoc]
  rw [h1]
  rcases le_total (2 / 4 : ℚ) (max_pix_clk / 50000000) with h2 | h2
  · rw [mdMax, max_eq_right h2] at h
    refine le_trans ?_ (le_max_right _ _)
    linarith
  · rw [mdMax, max_eq_left h2] at h
    refine le_trans ?_ (le_max_left _ _)
    linarith

/-- **C119** In a 7-series transmitter the 5x clock has five times the rate of the pixel clock, which is
150 MHz until software reprograms it. -/
theorem C119_s7_out (f : ℚ) : s7Out.out f 1 = 5 * s7Out.out f 0 ∧
    s7Out.out 100000000 0 = 150000000 := by
  constructor
  · simp only [Pll.out, Pll.vco, s7Out]; push_cast; ring
  · simp only [Pll.out, Pll.vco, s7Out]; norm_num

/-- Hypothesis of C119: 74.25 MHz from 50 MHz, for a limit of 100 MHz. -/
example : ((297 : Nat) : ℚ) / (200 : Nat) ≤ mdMax 100000000 ∧ dcm 297 200 = 74250000 := by
  constructor
  · refine le_trans ?_ (le_max_right _ _)
    norm_num
  · simp only [dcm]; norm_num

/-! ### C120 -/

/-- The oscillator of an MMCM runs in its range, 600 to 1440 MHz (input/clocking.py:193). -/
def MmcmInRange (v : ℚ) : Prop := 600000000 ≤ v ∧ v ≤ 1440000000

/-- The oscillator of a PLL runs in its range, 800 to 1866 MHz (input/clocking.py:193). -/
def PllInRange (v : ℚ) : Prop := 800000000 ≤ v ∧ v ≤ 1866000000

/-- **C120** (part 1) A 7-series receiver works at each of the rates that `clkin_freq` may have
(input/clocking.py:122), with and without `split_clocking`. -/
def C120_receiver_statement : Prop :=
  ∀ f : ℚ, f = 74250000 ∨ f = 148500000 →
    MmcmInRange (s7In.vco f) ∧ PllInRange (s7Split.vco (s7In.out f 0))

/-- **C120** (part 2) A 7-series transmitter works with the 100 MHz it asks for. -/
def C120_transmitter_statement : Prop := MmcmInRange (s7Out.vco 100000000)

/-- **C120** At 74.25 MHz the receiver's oscillator would run at 371.25 MHz: `clkin_freq` has no influence
on the parameters. -/
theorem C120_receiver_violated : ¬ C120_receiver_statement := by
  intro h
  have := (h 74250000 (.inl rfl)).1.1
  simp only [Pll.vco, s7In] at this
  norm_num at this

/-- **C120** The transmitter's oscillator would run at 1500 MHz. -/
theorem C120_transmitter_violated : ¬ C120_transmitter_statement := by
  intro h
  have := h.2
  simp only [Pll.vco, s7Out] at this
  norm_num at this

/-- **C120** (partial) The rates at which the receiver's MMCM and the second PLL are in their range; 148.5
MHz is one of them. -/
theorem C120_receiver_partial (f : ℚ) :
    (MmcmInRange (s7In.vco f) ↔ 120000000 ≤ f ∧ f ≤ 288000000) ∧
    (PllInRange (s7Split.vco (s7In.out f 0)) ↔ 80000000 ≤ f ∧ f ≤ 186600000) := by
  rw [(C119_s7_in f).1]
  simp only [MmcmInRange, PllInRange, Pll.vco, s7In, s7Split]
  push_cast
  refine ⟨⟨fun h => ⟨?_, ?_⟩, fun h => ⟨?_, ?_⟩⟩, fun h => ⟨?_, ?_⟩, fun h => ⟨?_, ?_⟩⟩ <;>
    linarith [h.1, h.2]

example : MmcmInRange (s7In.vco 148500000) ∧ PllInRange (s7Split.vco (s7In.out 148500000 0)) := by
  obtain ⟨h1, h2⟩ := C120_receiver_partial 148500000
  exact ⟨h1.2 (by norm_num), h2.2 (by norm_num)⟩

end Verif.Props
