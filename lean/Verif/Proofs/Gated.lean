import Verif.Machine
import Verif.Spec.Stream
import Verif.Spec.Frame
import Verif.Proofs.Frame422

/-!
# Machines with a clock that does not tick at every instant
-/

namespace Verif.Gated

open Spec.Stream Spec.Frame

variable {α β σ ι : Type}

/-- Number of ticks before instant `t`. -/
abbrev ticks (p : Nat → Bool) (t : Nat) : Nat := countIn p 0 t

theorem ticks_succ (p : Nat → Bool) (t : Nat) :
    ticks p (t + 1) = ticks p t + (if p t then 1 else 0) := by
  show countIn p 0 t + (if p (0 + t) then 1 else 0) = _
  rw [Nat.zero_add]

theorem ticks_mono (p : Nat → Bool) {a b : Nat} (h : a ≤ b) : ticks p a ≤ ticks p b := by
  induction b with
  | zero => rw [Nat.le_zero.1 h]
  | succ b ih =>
    rw [ticks_succ]
    rcases Nat.lt_or_eq_of_le h with h' | rfl
    · have := ih (by omega); omega
    · rw [ticks_succ]

theorem ticks_lt (p : Nat → Bool) {a b : Nat} (hp : p a = true) (h : a < b) :
    ticks p a < ticks p b := by
  have h1 := ticks_succ p a
  rw [hp, if_pos rfl] at h1
  have h2 := ticks_mono p (show a + 1 ≤ b from h)
  omega

theorem ticks_inj (p : Nat → Bool) {a b : Nat} (ha : p a = true) (hb : p b = true)
    (h : ticks p a = ticks p b) : a = b := by
  rcases Nat.lt_trichotomy a b with h' | h' | h'
  · have := ticks_lt p ha h'; omega
  · exact h'
  · have := ticks_lt p hb h'; omega

/-- Every tick number below the current one was some instant. -/
theorem tick_at (p : Nat → Bool) (t k : Nat) (h : k < ticks p t) :
    ∃ u, u < t ∧ p u = true ∧ ticks p u = k := by
  induction t with
  | zero => exact absurd h (Nat.not_lt_zero k)
  | succ t ih =>
    rw [ticks_succ] at h
    by_cases hk : k < ticks p t
    · obtain ⟨u, hu, h1, h2⟩ := ih hk
      exact ⟨u, by omega, h1, h2⟩
    · by_cases hp : p t = true
      · rw [if_pos hp] at h
        exact ⟨t, by omega, hp, by omega⟩
      · rw [if_neg hp] at h; omega

/-- The values at the ticks form a sequence of their own, which may be continued with any `d` if
there are only finitely many ticks. -/
theorem exists_seq (p : Nat → Bool) (y : Nat → α) (d : α) :
    ∃ Y : Nat → α, (∀ t, p t = true → Y (ticks p t) = y t) ∧
      ∀ k, Y k = d ∨ ∃ t, p t = true ∧ ticks p t = k := by
  classical
  refine ⟨fun k => if h : ∃ t, p t = true ∧ ticks p t = k then y h.choose else d,
    fun t ht => ?_, fun k => ?_⟩
  · have hex : ∃ u, p u = true ∧ ticks p u = ticks p t := ⟨t, ht, rfl⟩
    simp only [dif_pos hex]
    rw [ticks_inj p hex.choose_spec.1 ht hex.choose_spec.2]
  · by_cases h : ∃ t, p t = true ∧ ticks p t = k
    · right; exact h
    · left; simp only [dif_neg h]

/-- A machine that moves only at ticks is at instant `t` where the free-running machine is after
that many ticks. -/
theorem trace_ticks (step : σ → ι → σ) (s0 : σ) (p : Nat → Bool) (s : Nat → σ) (Y : Nat → ι)
    (h0 : s 0 = s0) (hs : ∀ t, s (t + 1) = if p t then step (s t) (Y (ticks p t)) else s t)
    (t : Nat) : s t = trace step s0 Y (ticks p t) := by
  induction t with
  | zero => exact h0
  | succ t ih =>
    rw [hs, ticks_succ]
    by_cases hp : p t = true
    · rw [if_pos hp, if_pos hp, trace_succ, ih]
    · rw [if_neg hp, if_neg hp, ih]; rfl

theorem ticks_add (p : Nat → Bool) (a n : Nat) :
    ticks p (a + n) = ticks p a + countIn p a n := by
  induction n with
  | zero => rfl
  | succ n ih =>
    show ticks p (a + n + 1) = _
    rw [ticks_succ, ih, countIn]
    omega

/-- Picking at the ticks is picking from the sequence of ticks. -/
theorem pick_ticks (p q : Nat → Bool) (q' : Nat → Bool) (y : Nat → α) (y' : Nat → α) (a n : Nat)
    (h : ∀ t, t < a + n → p t = true → q t = q' (ticks p t) ∧ y t = y' (ticks p t)) :
    pickIn (fun t => p t && q t) y a n = pickIn q' y' (ticks p a) (countIn p a n) := by
  induction n with
  | zero => rfl
  | succ n ih =>
    rw [pickIn, ih (fun t ht => h t (by omega)), countIn]
    by_cases hp : p (a + n) = true
    · obtain ⟨h1, h2⟩ := h (a + n) (by omega) hp
      rw [if_pos hp]
      show _ = pickIn q' y' (ticks p a) (countIn p a n) ++ _
      rw [hp, Bool.true_and, h1, h2, ticks_add]
    · rw [if_neg hp, Bool.eq_false_iff.2 hp]
      simp

/-- The same when the sequences are related only in the window. -/
theorem pick_ticks' (p q : Nat → Bool) (q' : Nat → Bool) (y : Nat → α) (y' : Nat → α) (a n : Nat)
    (h : ∀ t, a ≤ t → t < a + n → p t = true → q t = q' (ticks p t) ∧ y t = y' (ticks p t)) :
    pickIn (fun t => p t && q t) y a n = pickIn q' y' (ticks p a) (countIn p a n) := by
  induction n with
  | zero => rfl
  | succ n ih =>
    rw [pickIn, ih (fun t h0 ht => h t h0 (by omega)), countIn]
    by_cases hp : p (a + n) = true
    · obtain ⟨h1, h2⟩ := h (a + n) (by omega) (by omega) hp
      rw [if_pos hp]
      show _ = pickIn q' y' (ticks p a) (countIn p a n) ++ _
      rw [hp, Bool.true_and, h1, h2, ticks_add]
    · rw [if_neg hp, Bool.eq_false_iff.2 hp]
      simp

theorem transferred_eq (p : Nat → Bool) (y : Nat → α) (t : Nat) :
    transferred p y t = pickIn p y 0 t := by
  induction t with
  | zero => rfl
  | succ t ih => rw [transferred, pickIn, ih, Nat.zero_add]

/-- The element number `j` of a picked list was picked at some instant `u`, and what follows was
picked from `u` on. -/
theorem pick_at' (p : Nat → Bool) (y : Nat → α) (a P j : Nat) (z : α)
    (h : (pickIn p y a P)[j]? = some z) :
    ∃ u, a ≤ u ∧ u < a + P ∧ p u = true ∧ y u = z ∧
      (pickIn p y a P).drop j = pickIn p y u (a + P - u) := by
  induction P with
  | zero => simp [pickIn] at h
  | succ P ih =>
    rw [pickIn] at h ⊢
    by_cases hj : j < (pickIn p y a P).length
    · rw [List.getElem?_append_left hj] at h
      obtain ⟨u, hu0, hu, h1, h2, h3⟩ := ih h
      refine ⟨u, hu0, by omega, h1, h2, ?_⟩
      rw [List.drop_append_of_le_length (by omega), h3,
        show a + (P + 1) - u = a + P - u + 1 by omega, pickIn, show u + (a + P - u) = a + P by omega]
    · by_cases hp : p (a + P) = true
      · rw [if_pos hp] at h ⊢
        rw [List.getElem?_append_right (by omega)] at h
        have hj' : j = (pickIn p y a P).length := by
          by_contra hne
          rw [List.getElem?_eq_none] at h
          · exact absurd h (by simp)
          · simp only [List.length_cons, List.length_nil]; omega
        subst hj'
        refine ⟨a + P, by omega, by omega, hp, by simpa using h, ?_⟩
        rw [List.drop_left, show a + (P + 1) - (a + P) = 0 + 1 by omega, pickIn, Nat.add_zero,
          if_pos hp]
        rfl
      · rw [if_neg hp, List.append_nil] at h
        rw [List.getElem?_eq_none (by omega)] at h
        exact absurd h (by simp)

end Verif.Gated
