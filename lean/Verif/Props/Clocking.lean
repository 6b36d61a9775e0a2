import Verif.Model.Clocking

/-!
# C50, C55: clock generator control
-/

namespace Verif.Props

open Verif.Clocking

/-- State `j+1` clocks after a command, no other command having been sent since. -/
theorem prog_after (s0 : Prog.State) (i : Nat → Prog.In) (t : Nat) (hs : (i t).send = true) (j : Nat)
    (hno : ∀ k, 0 < k → k ≤ j → (i (t + k)).send = false) :
    (trace Prog.step s0 i (t + j + 1)).remaining_bits = BitVec.ofNat 4 (10 - j) ∧
    (j ≤ 10 → (trace Prog.step s0 i (t + j + 1)).sr = (i t).data >>> j) ∧
    (trace Prog.step s0 i (t + j + 1)).busy_counter = BitVec.ofNat 4 (13 - j) := by
  induction j with
  | zero =>
    rw [Nat.add_zero, trace_succ]
    simp [Prog.step, hs]
  | succ j ih =>
    obtain ⟨h1, h2, h3⟩ := ih (fun k hk hkj => hno k hk (by omega))
    have hn := hno (j + 1) (by omega) (by omega)
    rw [show t + (j + 1) + 1 = (t + j + 1) + 1 by omega, trace_succ]
    have hn' : (i (t + j + 1)).send = false := by rw [← hn]; rfl
    simp only [Prog.step, hn', Bool.false_eq_true, if_false, Prog.transmitting, Prog.busy, h1, h3]
    refine ⟨?_, fun hj => ?_, ?_⟩
    · by_cases hj : j < 10
      · match j, hj with
        | 0, _ | 1, _ | 2, _ | 3, _ | 4, _ | 5, _ | 6, _ | 7, _ | 8, _ | 9, _ => decide
      · rw [show 10 - j = 0 by omega, show 10 - (j + 1) = 0 by omega]; decide
    · have : (BitVec.ofNat 4 (10 - j) != 0) = true := by
        match j, hj with
        | 0, _ | 1, _ | 2, _ | 3, _ | 4, _ | 5, _ | 6, _ | 7, _ | 8, _ | 9, _ => decide
      rw [if_pos this, h2 (by omega), BitVec.shiftRight_add]
    · by_cases hj : j < 13
      · match j, hj with
        | 0, _ | 1, _ | 2, _ | 3, _ | 4, _ | 5, _ | 6, _ | 7, _ | 8, _ | 9, _ | 10, _ | 11, _
        | 12, _ => decide
      · rw [show 13 - j = 0 by omega, show 13 - (j + 1) = 0 by omega]; decide

/-- Before any command everything is idle. -/
theorem prog_idle (i : Nat → Prog.In) (t : Nat) (h : ∀ u, u < t → (i u).send = false) :
    (trace Prog.step Prog.reset i t).remaining_bits = 0 ∧
    (trace Prog.step Prog.reset i t).busy_counter = 0 := by
  induction t with
  | zero => exact ⟨rfl, rfl⟩
  | succ t ih =>
    obtain ⟨h1, h2⟩ := ih (fun u hu => h u (by omega))
    rw [trace_succ]
    simp [Prog.step, h t (by omega), Prog.transmitting, Prog.busy, h1, h2]

/-- The last command before clock `t`, if there is one. -/
theorem last_send (i : Nat → Prog.In) (t : Nat) :
    (∀ u, u < t → (i u).send = false) ∨
    ∃ u, u < t ∧ (i u).send = true ∧ ∀ k, u < k → k < t → (i k).send = false := by
  induction t with
  | zero => left; intro u hu; omega
  | succ t ih =>
    cases hs : (i t).send
    · rcases ih with h | ⟨u, h1, h2, h3⟩
      · left; intro u hu
        by_cases he : u = t
        · rw [he, hs]
        · exact h u (by omega)
      · right
        refine ⟨u, by omega, h2, fun k hk hkt => ?_⟩
        by_cases he : k = t
        · rw [he, hs]
        · exact h3 k hk (by omega)
    · right; exact ⟨t, by omega, hs, fun k hk hkt => by omega⟩

theorem ofNat4_ne_zero (k : Nat) (hk : k < 16) : (BitVec.ofNat 4 k != 0) = decide (0 < k) := by
  have : ∀ k : Fin 16, (BitVec.ofNat 4 k.1 != 0) = decide (0 < k.1) := by decide
  exact this ⟨k, hk⟩

/-- **C50** For every history: busy is reported exactly in the 13 clocks after a command, and
program-enable is high exactly in the 10 clocks after a command and during go pulses. -/
theorem C50_flags (i : Nat → Prog.In) (t : Nat) :
    let s := trace Prog.step Prog.reset i t
    (Prog.busy s = true ↔ ∃ u, u < t ∧ t ≤ u + 13 ∧ (i u).send = true) ∧
    (Prog.progen s (i t) = true ↔
      (i t).go = true ∨ ∃ u, u < t ∧ t ≤ u + 10 ∧ (i u).send = true) := by
  intro s
  rcases last_send i t with h | ⟨u, h1, h2, h3⟩
  · obtain ⟨e1, e2⟩ := prog_idle i t h
    have hb : Prog.busy s = false := by simp [Prog.busy, s, e2]
    have ht : Prog.transmitting s = false := by simp [Prog.transmitting, s, e1]
    refine ⟨?_, ?_⟩
    · rw [hb]
      refine ⟨fun h => (by cases h), fun ⟨u, hu, _, hs⟩ => ?_⟩
      rw [h u hu] at hs; cases hs
    · simp only [Prog.progen, ht, Bool.false_or]
      refine ⟨fun h => .inl h, fun hh => ?_⟩
      rcases hh with hh | ⟨u, hu, _, hs⟩
      · exact hh
      · rw [h u hu] at hs; cases hs
  · obtain ⟨j, rfl⟩ : ∃ j, t = u + j + 1 := ⟨t - u - 1, by omega⟩
    obtain ⟨e1, -, e2⟩ := prog_after Prog.reset i u h2 j
      (fun k hk hkj => h3 (u + k) (by omega) (by omega))
    have hb : Prog.busy s = decide (0 < 13 - j) := by
      simp only [Prog.busy, s]; rw [e2]; exact ofNat4_ne_zero _ (by omega)
    have ht : Prog.transmitting s = decide (0 < 10 - j) := by
      simp only [Prog.transmitting, s]; rw [e1]; exact ofNat4_ne_zero _ (by omega)
    have last : ∀ v, v < u + j + 1 → (i v).send = true → v ≤ u := by
      intro v hv hs
      apply Classical.byContradiction
      intro hc
      rw [h3 v (by omega) hv] at hs; cases hs
    refine ⟨?_, ?_⟩
    · rw [hb, decide_eq_true_eq]
      refine ⟨fun h => ⟨u, by omega, by omega, h2⟩, fun ⟨v, hv, hv2, hs⟩ => ?_⟩
      have := last v hv hs
      omega
    · simp only [Prog.progen, ht, Bool.or_eq_true, decide_eq_true_eq]
      refine ⟨fun h => ?_, fun h => ?_⟩
      · rcases h with h | h
        · exact .inr ⟨u, by omega, by omega, h2⟩
        · exact .inl h
      · rcases h with h | ⟨v, hv, hv2, hs⟩
        · exact .inr h
        · have := last v hv hs
          exact .inl (by omega)

/-- **C50** If software never sends while busy, every command is shifted out complete: bit `k` is
on the data line in the `k`-th clock after it. -/
theorem C50_bits (i : Nat → Prog.In)
    (hresp : ∀ t, (i t).send = true → Prog.busy (trace Prog.step Prog.reset i t) = false)
    (t k : Nat) (hs : (i t).send = true) (hk : k < 10) :
    Prog.progdata (trace Prog.step Prog.reset i (t + k + 1)) = (i t).data.getLsbD k ∧
    Prog.progen (trace Prog.step Prog.reset i (t + k + 1)) (i (t + k + 1)) = true := by
  have hno : ∀ j, 0 < j → j ≤ k → (i (t + j)).send = false := by
    intro j hj hjk
    cases hc : (i (t + j)).send
    · rfl
    · have := hresp (t + j) hc
      rw [((C50_flags i (t + j)).1.2 ⟨t, by omega, by omega, hs⟩)] at this
      cases this
  obtain ⟨e1, e2, -⟩ := prog_after Prog.reset i t hs k hno
  have ht : Prog.transmitting (trace Prog.step Prog.reset i (t + k + 1)) = true := by
    simp only [Prog.transmitting]; rw [e1, ofNat4_ne_zero _ (by omega)]; simp; omega
  refine ⟨?_, by simp [Prog.progen, ht]⟩
  rw [Prog.progdata, ht, e2 (by omega)]
  simp

example :
    let i : Nat → Prog.In := fun t => ⟨decide (t % 20 = 2), 0x155#10, decide (t = 17)⟩
    (List.range 14).map (fun k => Prog.progdata (trace Prog.step Prog.reset i (3 + k))) =
      [true, false, true, false, true, false, true, false, true, false, false, false, false, false] ∧
    Prog.busy (trace Prog.step Prog.reset i 15) = true ∧
    Prog.busy (trace Prog.step Prog.reset i 16) = false := by decide +kernel

/-- The hypothesis of `C50_bits` is met by software that sends every 20 clocks. -/
example : ∀ t, ((fun t => (⟨decide (t % 20 = 2), 0x155#10, false⟩ : Prog.In)) t).send = true →
    Prog.busy (trace Prog.step Prog.reset
      (fun t => (⟨decide (t % 20 = 2), 0x155#10, false⟩ : Prog.In)) t) = false := by
  intro t ht
  cases hb : Prog.busy (trace Prog.step Prog.reset
      (fun t => (⟨decide (t % 20 = 2), 0x155#10, false⟩ : Prog.In)) t)
  · rfl
  · obtain ⟨u, h1, h2, h3⟩ := (C50_flags _ t).1.1 hb
    simp only [decide_eq_true_eq] at ht h3
    omega

/-- **C55** For every history of accesses and ready pulses, the flag reads 1 exactly if the
primitive has reported ready and no access has been started at that clock or since. -/
theorem C55_drdy (i : Nat → Drdy.In) (t : Nat) :
    trace Drdy.step false i t = true ↔
      ∃ u, u < t ∧ (i u).drdy = true ∧ ∀ v, u ≤ v → v < t → (i v).access = false := by
  induction t with
  | zero => simp
  | succ t ih =>
    rw [trace_succ]
    cases ha : (i t).access
    · cases hd : (i t).drdy
      · have e : Drdy.step (trace Drdy.step false i t) (i t) = trace Drdy.step false i t := by
          simp [Drdy.step, ha, hd]
        rw [e, ih]
        constructor
        · rintro ⟨u, h1, h2, h3⟩
          refine ⟨u, by omega, h2, fun v hv hvt => ?_⟩
          by_cases hc : v = t
          · rw [hc, ha]
          · exact h3 v hv (by omega)
        · rintro ⟨u, h1, h2, h3⟩
          have : u ≠ t := by intro hc; rw [hc, hd] at h2; cases h2
          exact ⟨u, by omega, h2, fun v hv hvt => h3 v hv (by omega)⟩
      · have e : Drdy.step (trace Drdy.step false i t) (i t) = true := by
          simp [Drdy.step, ha, hd]
        rw [e]
        refine ⟨fun _ => ⟨t, by omega, hd, fun v hv hvt => ?_⟩, fun _ => rfl⟩
        rw [show v = t by omega, ha]
    · have e : Drdy.step (trace Drdy.step false i t) (i t) = false := by
        simp [Drdy.step, ha]
      rw [e]
      refine ⟨fun h => (by cases h), fun ⟨u, h1, _, h3⟩ => ?_⟩
      have := h3 t (by omega) (by omega)
      rw [ha] at this; cases this

example : trace Drdy.step false (fun t => ⟨decide (t = 3), decide (t = 7)⟩) 9 = true ∧
    trace Drdy.step false (fun t => ⟨decide (t = 3), decide (t = 7)⟩) 7 = false := by decide +kernel

end Verif.Props
