import Verif.Spec.Pattern
import Verif.Proofs.Output

/-!
# Invariants of the pattern generators
-/

namespace Verif.Pattern

open Spec.Stream Spec.Pattern

theorem ColorBars.color_eq (k : Nat) (hk : k < 8) : color k = bars.getD k black := by
  match k, hk with
  | 0, _ | 1, _ | 2, _ | 3, _ | 4, _ | 5, _ | 6, _ | 7, _ => rfl

theorem ColorBars.inv (hres : Nat) (h8 : 8 ≤ hres) (hb : hres < 2 ^ 12) (i : Nat → In)
    (hi : ∀ t, (i t).valid = true ∧ (i t).hres = hres) (t : Nat) :
    (trace step reset i t).pix = countIn (fun u => (i u).ready) 0 t % (hres / 8) ∧
    (trace step reset i t).bar = countIn (fun u => (i u).ready) 0 t / (hres / 8) % 8 := by
  have hw : 0 < hres / 8 := by omega
  have hw2 : hres / 8 < 4096 := by omega
  induction t with
  | zero => simp [countIn, reset]
  | succ t ih =>
    obtain ⟨hv, hh⟩ := hi t
    obtain ⟨ih1, ih2⟩ := ih
    simp only [countIn, Nat.zero_add, trace_succ]
    generalize countIn (fun u => (i u).ready) 0 t = n at ih1 ih2 ⊢
    cases hr : (i t).ready
    · simp [step, hv, hr, ih1, ih2]
    · obtain ⟨d1, d2⟩ := Output.divmod_succ n (hres / 8) hw
      have hlt := Nat.mod_lt n hw
      simp only [step, hv, hr, hh, ih1, ih2, Bool.and_self, if_true]
      by_cases hc : n % (hres / 8) + 1 = hres / 8
      · obtain ⟨e1, e2⟩ := d2 hc
        rw [if_pos hc, if_pos hc, e1, e2]
        exact ⟨rfl, by omega⟩
      · obtain ⟨e1, e2⟩ := d1 (by omega)
        rw [if_neg hc, if_neg hc, e1, e2]
        exact ⟨by omega, rfl⟩

theorem VerticalLines.inv (i : Nat → In) (hi : ∀ t, (i t).valid = true) (t : Nat) :
    (trace step reset i t).parity = decide (countIn (fun u => (i u).ready) 0 t % 2 = 1) := by
  induction t with
  | zero => simp [countIn, reset]
  | succ t ih =>
    have hv := hi t
    simp only [countIn, Nat.zero_add, trace_succ]
    generalize countIn (fun u => (i u).ready) 0 t = n at ih ⊢
    cases hr : (i t).ready
    · simp [step, hv, hr, ih]
    · simp only [step, hv, hr, ih, Bool.and_self, if_true]
      rcases Nat.mod_two_eq_zero_or_one n with h | h
      · have : (n + 1) % 2 = 1 := by omega
        simp [h, this]
      · have : (n + 1) % 2 = 0 := by omega
        simp [h, this]

theorem Dots.inv (hres : Nat) (h1 : 1 ≤ hres) (hb : hres < 2 ^ 12) (i : Nat → In)
    (hi : ∀ t, (i t).valid = true ∧ (i t).hres = hres) (t : Nat) :
    (trace step reset i t).h = countIn (fun u => (i u).ready) 0 t % hres ∧
    (trace step reset i t).parity =
      decide ((countIn (fun u => (i u).ready) 0 t % hres +
        countIn (fun u => (i u).ready) 0 t / hres * (hres - 1)) % 2 = 1) := by
  induction t with
  | zero => simp [countIn, reset]
  | succ t ih =>
    obtain ⟨hv, hh⟩ := hi t
    obtain ⟨ih1, ih2⟩ := ih
    simp only [countIn, Nat.zero_add, trace_succ]
    generalize countIn (fun u => (i u).ready) 0 t = n at ih1 ih2 ⊢
    cases hr : (i t).ready
    · simp [step, hv, hr, ih1, ih2]
    · obtain ⟨d1, d2⟩ := Output.divmod_succ n hres h1
      have hlt := Nat.mod_lt n h1
      simp only [step, hv, hr, hh, ih1, ih2, Bool.and_self, if_true]
      by_cases hc : n % hres + 1 = hres
      · obtain ⟨e1, e2⟩ := d2 hc
        rw [if_pos hc, if_pos hc, e1, e2]
        refine ⟨rfl, ?_⟩
        have hs : n % hres = hres - 1 := by omega
        have : (n / hres + 1) * (hres - 1) = n / hres * (hres - 1) + (hres - 1) := by
          rw [Nat.add_mul, Nat.one_mul]
        rw [this, hs]
        congr 2
        omega
      · obtain ⟨e1, e2⟩ := d1 (by omega)
        rw [if_neg hc, if_neg hc, e1, e2]
        refine ⟨by omega, ?_⟩
        generalize n / hres * (hres - 1) = m
        rcases Nat.mod_two_eq_zero_or_one (n % hres + m) with h | h
        · have : (n % hres + 1 + m) % 2 = 1 := by omega
          simp [h, this]
        · have : (n % hres + 1 + m) % 2 = 0 := by omega
          simp [h, this]

theorem bw_eq (b : Prop) [Decidable b] : bw (decide b) = if b then white else black := by
  by_cases h : b <;> simp [bw, h, white, black]

/-- The three sources become valid one clock after the parameters and stay so. -/
theorem valid_all (i : Nat → In) (hi : ∀ t, (i t).valid = true) (t : Nat) :
    (trace ColorBars.step ColorBars.reset i (t + 1)).valid = true ∧
    (trace VerticalLines.step VerticalLines.reset i (t + 1)).valid = true ∧
    (trace Dots.step Dots.reset i (t + 1)).valid = true := by
  simp [trace_succ, ColorBars.step, VerticalLines.step, Dots.step, hi t]

theorem count_ready (i : Nat → In) (hr : ∀ t, (i t).ready = true) (t : Nat) :
    countIn (fun u => (i u).ready) 0 t = t := by
  induction t with
  | zero => rfl
  | succ t ih => rw [countIn, ih]; simp [hr]

end Verif.Pattern
