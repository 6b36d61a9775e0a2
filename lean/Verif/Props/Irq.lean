import Verif.Props.Dma

/-!
# C94: the capture interrupt
-/

namespace Verif.Props

open Verif.Dma Spec.Dma

variable {α : Type}

/-- Bit 1 of the status register after one clock. -/
theorem pending_succ (nslots aw al : Nat) (x : Nat → In α) (n u : Nat) :
    ((dma nslots aw al x (u + 1)).slots n).pending = true ↔
      (Finishes nslots aw al x n u ∧ ¬ WritesPending x n u false ∨ WritesPending x n u true) ∨
      ((dma nslots aw al x u).slots n).pending = true ∧ ¬ WritesPending x n u false := by
  have hs : ((dma nslots aw al x (u + 1)).slots n).status =
      ((x u).sw n).status.getD (if (addressDone (dma nslots aw al x u) (x u) &&
        decide ((dma nslots aw al x u).current_slot = n)) = true then 2#2
        else ((dma nslots aw al x u).slots n).status) := rfl
  have hf : (addressDone (dma nslots aw al x u) (x u) &&
        decide ((dma nslots aw al x u).current_slot = n)) = true ↔ Finishes nslots aw al x n u := by
    simp only [addressDone, Finishes, Bool.and_eq_true, decide_eq_true_eq, Bool.not_eq_true']
    exact and_assoc
  unfold Slot.pending
  rw [hs]
  cases hw : ((x u).sw n).status with
  | some v =>
    have h0 : ∀ b, WritesPending x n u b ↔ v.getLsbD 1 = b := by
      intro b
      unfold WritesPending
      rw [hw]
      constructor
      · rintro ⟨v', h1, h2⟩
        cases h1; exact h2
      · exact fun h => ⟨v, rfl, h⟩
    rw [h0, h0, Option.getD_some]
    cases v.getLsbD 1 <;> simp
  | none =>
    have h0 : ∀ b, ¬ WritesPending x n u b := by
      rintro b ⟨v', h1, -⟩
      rw [hw] at h1; cases h1
    rw [Option.getD_none]
    by_cases hF : Finishes nslots aw al x n u
    · rw [if_pos (hf.2 hF)]
      simp [hF, h0]
    · rw [if_neg (fun h => hF (hf.1 h))]
      simp [hF, h0]

/-- A slot is PENDING exactly if it wants attention. -/
theorem pending_iff (nslots aw al : Nat) (x : Nat → In α) (n t : Nat) :
    ((dma nslots aw al x t).slots n).pending = true ↔ Unserved nslots aw al x n t := by
  induction t with
  | zero =>
    constructor
    · intro h
      exact absurd h (by simp [dma, trace, reset, Slot.pending])
    · rintro ⟨u, hu, -⟩
      exact absurd hu (Nat.not_lt_zero u)
  | succ t ih =>
    rw [pending_succ, ih]
    constructor
    · rintro (h | ⟨⟨u, hu, h1, h2⟩, h3⟩)
      · exact ⟨t, Nat.lt_succ_self t, h, fun v h1 h2 => absurd h1 (by omega)⟩
      · refine ⟨u, by omega, h1, fun v hv hv' => ?_⟩
        rcases Nat.lt_or_eq_of_le (Nat.le_of_lt_succ hv') with h | rfl
        · exact h2 v hv h
        · exact h3
    · rintro ⟨u, hu, h1, h2⟩
      rcases Nat.lt_or_eq_of_le (Nat.le_of_lt_succ hu) with h | rfl
      · exact Or.inr ⟨⟨u, h, h1, fun v hv hv' => h2 v hv (by omega)⟩, h2 t h (Nat.lt_succ_self t)⟩
      · exact Or.inl h1

/-- **C94** At every clock the interrupt is raised exactly if some slot whose interrupt is enabled
has finished (or was marked PENDING by software) and has not been acknowledged since. -/
theorem C94_irq (nslots aw al : Nat) (x : Nat → In α) (enable : Nat → Bool) (t : Nat) :
    irq nslots (dma nslots aw al x t) enable = true ↔
      ∃ n, n < nslots ∧ enable n = true ∧ Unserved nslots aw al x n t := by
  simp only [irq, List.any_eq_true, List.mem_range, Bool.and_eq_true, pending_iff]
  exact ⟨fun ⟨n, h1, h2, h3⟩ => ⟨n, h1, h3, h2⟩, fun ⟨n, h1, h2, h3⟩ => ⟨n, h1, h3, h2⟩⟩

/-- **C94** No frame is forgotten: from the clock after the one at which a slot's transfer is done,
and until software writes that slot's status register, the enabled interrupt is raised. -/
theorem C94_raised (nslots aw al : Nat) (hns : 0 < nslots) (x : Nat → In α)
    (own : Owned nslots aw al x)
    (hN : ∀ t, Begins nslots aw al x t → 1 ≤ wordsOf aw al (x t).frame_size) (e : Nat)
    (hd : addressDone (dma nslots aw al x e) (x e) = true) (enable : Nat → Bool) (j : Nat)
    (hen : enable (dma nslots aw al x e).current_slot = true)
    (hsw : ∀ u, u < j →
      ((x (e + 1 + u)).sw (dma nslots aw al x e).current_slot).status = none) :
    irq nslots (dma nslots aw al x (e + 1 + j)) enable = true := by
  have hf : Finishes nslots aw al x (dma nslots aw al x e).current_slot e := by
    simp only [addressDone, Bool.and_eq_true, decide_eq_true_eq, Bool.not_eq_true'] at hd
    exact ⟨hd.1, hd.2, rfl⟩
  obtain ⟨t, -, -, hv, -, hnv, -, -⟩ := C17_done nslots aw al x own hN e hd
  -- the slot of the transfer is the current one
  have hcur : (dma nslots aw al x e).current_slot = (dma nslots aw al x t).current_slot := by
    by_contra hne
    have h3 := C17_untouched nslots aw al x e (dma nslots aw al x t).current_slot (Or.inr hne)
    rw [own e _ hv] at h3
    rw [h3] at hnv
    exact absurd (hv.symm.trans hnv) (by decide)
  rw [C94_irq]
  refine ⟨_, current_lt nslots aw al hns x e, hen, e, by omega, Or.inl ⟨hf, ?_⟩, ?_⟩
  · rintro ⟨v, h, -⟩
    rw [hcur, own e _ hv] at h; cases h
  · rintro v h1 h2 ⟨w, h, -⟩
    obtain ⟨u, rfl⟩ : ∃ u, v = e + 1 + u := ⟨v - e - 1, by omega⟩
    rw [hsw u (by omega)] at h; cases h

/-- Hypotheses of C94: `twoFrames` finishes slot 0 at clock 8 and slot 1 later; the interrupt of
slot 0 alone follows, and is off before. -/
example : (∀ t, Begins 2 10 2 twoFrames t → 1 ≤ wordsOf 10 2 (twoFrames t).frame_size) ∧
    addressDone (dma 2 10 2 twoFrames 8) (twoFrames 8) = true ∧
    (dma 2 10 2 twoFrames 8).current_slot = 0 ∧
    (∀ u, ((twoFrames (8 + 1 + u)).sw 0).status = none) ∧
    irq 2 (dma 2 10 2 twoFrames 8) (fun n => n = 0) = false ∧
    irq 2 (dma 2 10 2 twoFrames 9) (fun n => n = 0) = true ∧
    irq 2 (dma 2 10 2 twoFrames 9) (fun n => n = 1) = false := by
  refine ⟨fun _ _ => by show 1 ≤ wordsOf 10 2 12; decide, by decide, by decide, fun u => ?_, by decide,
    by decide, by decide⟩
  have : ¬ (8 + 1 + u = 0 ∧ 0 < 2) := by omega
  simp [twoFrames]

/-- Software acknowledges slot 0 at clock 30, reloading it; slot 1 is acknowledged by EMPTY at 31. -/
def served (t : Nat) : In Nat :=
  { twoFrames t with
    sw := fun n =>
      if t = 30 ∧ n = 0 then ⟨some 1, none⟩
      else if t = 31 ∧ n = 1 then ⟨some 0, none⟩ else (twoFrames t).sw n }

example : irq 2 (dma 2 10 2 served 30) (fun _ => true) = true ∧
    irq 2 (dma 2 10 2 served 31) (fun _ => true) = true ∧
    irq 2 (dma 2 10 2 served 32) (fun _ => true) = false := by
  decide +kernel

end Verif.Props
