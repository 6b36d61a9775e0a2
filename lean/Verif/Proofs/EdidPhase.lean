import Verif.Proofs.EdidSample

/-!
# EDID: bus phases
-/

namespace Verif.Edid

variable {aw : Nat} {mem : Nat → BitVec 8}

theorem step_low (c : Core) (s r s' : Bool) :
    c.step aw mem ⟨false, s, r, s'⟩ true = quiet aw mem false c := by
  simp [quiet, Core.step, Bus.rising, Bus.start, Core.fsmOwn, Core.ocInc, Core.dataDrvEn,
    Core.dataDrvStop]

theorem settle_quiet (scl : Bool) (c : Core) :
    settle aw mem scl (quiet aw mem scl c) = settle aw mem scl c := by
  unfold settle
  rw [← Function.iterate_succ_apply, Function.iterate_succ_apply']
  exact settle_fixed aw mem scl c

theorem settle_of_fixed {scl : Bool} {c : Core} (h : quiet aw mem scl c = c) :
    settle aw mem scl c = c := iterate_fixed _ _ h _

/-- The sample after a rising edge that is not a START. -/
def rise (aw : Nat) (mem : Nat → BitVec 8) (c : Core) (s : Bool) : Core :=
  settle aw mem true (c.step aw mem ⟨true, s, false, s⟩ true)

theorem step_rise (c : Core) (s s' : Bool) (h : (!s && s') = false) :
    c.step aw mem ⟨true, s, false, s'⟩ true = c.step aw mem ⟨true, s, false, s⟩ true := by
  cases s <;> cases s' <;> first | rfl | exact absurd h (by decide)

/-- While SCL is high and there is no START the drive does not change. -/
theorem sdaDrv_high (c : Core) (b : Bus) (h1 : b.scl_i = true) (h2 : b.start = false) :
    (c.step aw mem b true).sdaDrv = c.sdaDrv := by
  have e1 : c.dataDrvEn b = false := by simp [Core.dataDrvEn, h1]
  have e2 : c.dataDrvStop b = false := by simp [Core.dataDrvStop, h1]
  have hz : zeroDrv (c.fsmOwn b) = zeroDrv c.fsm := by
    unfold Core.fsmOwn
    cases hf : c.fsm <;> simp only [h1] <;> (try split) <;> (try split) <;> simp_all [zeroDrv]
  simp only [Core.sdaDrv, Core.step, h2, e1, e2, Bool.not_true, Bool.false_eq_true, if_false, hz]

/-- While SCL is high a released line stays released. -/
theorem sdaDrv_free (c : Core) (b : Bus) (h1 : b.scl_i = true) (h2 : c.sdaDrv = false) :
    (c.step aw mem b true).sdaDrv = false := by
  cases hs : b.start with
  | false => rw [sdaDrv_high c b h1 hs, h2]
  | true =>
    have e1 : c.dataDrvEn b = false := by simp [Core.dataDrvEn, h1]
    have e2 : c.dataDrvStop b = false := by simp [Core.dataDrvStop, h1]
    unfold Core.sdaDrv at h2
    have h3 : (c.data_drv && !c.data_bit) = false := by
      cases hz : zeroDrv c.fsm with
      | true => rw [hz] at h2; simp at h2
      | false => rw [hz] at h2; exact h2
    simp only [Core.sdaDrv, Core.step, hs, e1, e2, Bool.not_true, Bool.false_eq_true, if_false,
      if_true, h3]
    rfl

theorem drv_reg_of_fixed {scl : Bool} {c : Core} (h : quiet aw mem scl c = c) :
    c.drv_reg = c.sdaDrv := by
  have := congrArg Core.drv_reg h
  exact this.symm

theorem sdaDrv_quiet_high (c : Core) (n : Nat) :
    ((quiet aw mem true)^[n] c).sdaDrv = c.sdaDrv := by
  induction n generalizing c with
  | zero => rfl
  | succ n ih =>
    rw [Function.iterate_succ_apply, ih]
    exact sdaDrv_high c _ rfl rfl

theorem rise_drv (c : Core) (s : Bool) : (rise aw mem c s).drv_reg = c.sdaDrv := by
  unfold rise
  rw [drv_reg_of_fixed (settle_fixed aw mem true _)]
  unfold settle
  rw [sdaDrv_quiet_high, sdaDrv_high c _ rfl]
  cases s <;> rfl

variable {s0 : State} {x : Nat → In}

/-- Number of samples taken from the pads before clock `T`. -/
def taken (T : Nat) : Nat := (T + 1) / 64

/-- From the samples of a low phase on the core has settled. -/
theorem low_phase (k n : Nat)
    (h : ∀ i, i < n + 1 → (samples x (k + i)).1 = false) :
    (probe aw mem s0 x (k + (n + 1))).scl = false ∧
    (probe aw mem s0 x (k + (n + 1))).core = settle aw mem false (probe aw mem s0 x k).core := by
  induction n with
  | zero =>
    refine ⟨h 0 (by omega), ?_⟩
    show settle aw mem (samples x (k + 0)).1 (Core.step aw mem _ ⟨(samples x (k + 0)).1, _, _, _⟩ true) = _
    rw [h 0 (by omega), step_low, settle_quiet]
  | succ n ih =>
    obtain ⟨h1, h2⟩ := ih fun i hi => h i (by omega)
    refine ⟨h (n + 1) (by omega), ?_⟩
    show settle aw mem (samples x (k + (n + 1))).1
      (Core.step aw mem (probe aw mem s0 x (k + (n + 1))).core
        ⟨(samples x (k + (n + 1))).1, _, _, _⟩ true) = _
    rw [h (n + 1) (by omega), step_low, settle_quiet, h2]
    exact settle_of_fixed (settle_fixed aw mem false _)

theorem probe_fixed (h0 : s0.samp_count = 0) (hen : ∀ t, (x t).hpd_en = true) (k : Nat) :
    quiet aw mem (probe aw mem s0 x k).scl (probe aw mem s0 x k).core = (probe aw mem s0 x k).core :=
  (refine_probe h0 hen k).2.2

/-- From the samples of a high phase: a rising edge, then nothing. -/
theorem high_phase (h0 : s0.samp_count = 0) (hen : ∀ t, (x t).hpd_en = true) (k n : Nat) (v : Bool)
    (h : ∀ i, i < n + 1 → samples x (k + i) = (true, v))
    (hl : (probe aw mem s0 x k).scl = false)
    (hs : (probe aw mem s0 x k).sda = (v && !(probe aw mem s0 x k).core.drv_reg)) :
    (probe aw mem s0 x (k + (n + 1))).scl = true ∧
    (probe aw mem s0 x (k + (n + 1))).sda = (probe aw mem s0 x k).sda ∧
    (probe aw mem s0 x (k + (n + 1))).core =
      rise aw mem (probe aw mem s0 x k).core (probe aw mem s0 x k).sda := by
  have hfix := probe_fixed (aw := aw) (mem := mem) h0 hen k
  induction n with
  | zero =>
    have h0 := h 0 (by omega)
    have hst : probe aw mem s0 x (k + (0 + 1)) =
      Probe.step aw mem (probe aw mem s0 x k) (samples x (k + 0)) := rfl
    rw [hst, h0]
    refine ⟨rfl, hs.symm, ?_⟩
    show settle aw mem true (Core.step aw mem _ ⟨true, _, _, _⟩ true) = _
    rw [← hs, hl]
    rfl
  | succ n ih =>
    obtain ⟨h1, h2, h3⟩ := ih fun i hi => h i (by omega)
    have hdrv : (probe aw mem s0 x (k + (n + 1))).core.drv_reg = (probe aw mem s0 x k).core.drv_reg := by
      rw [h3, rise_drv, drv_reg_of_fixed hfix]
    have hst : probe aw mem s0 x (k + (n + 1 + 1)) =
      Probe.step aw mem (probe aw mem s0 x (k + (n + 1))) (samples x (k + (n + 1))) := rfl
    have hsda : (v && !(probe aw mem s0 x (k + (n + 1))).core.drv_reg) = (probe aw mem s0 x k).sda := by
      rw [hdrv, hs]
    rw [hst, h (n + 1) (by omega)]
    refine ⟨rfl, hsda, ?_⟩
    show settle aw mem true (Core.step aw mem _ ⟨true, _, _, _⟩ true) = _
    rw [hsda, h1, h2, step_quiet, settle_quiet, h3]
    exact settle_of_fixed (settle_fixed aw mem true _)

/-- SDA during the low phase, from its second sample on. -/
theorem low_sda (k n : Nat) (v : Bool)
    (h : ∀ i, i < n + 2 → (samples x (k + i)).1 = false)
    (hv : (samples x (k + (n + 1))).2 = v) :
    (probe aw mem s0 x (k + (n + 2))).sda =
      (v && !(settle aw mem false (probe aw mem s0 x k).core).drv_reg) := by
  obtain ⟨-, h2⟩ := low_phase (aw := aw) (mem := mem) (s0 := s0) (x := x) k n (fun i hi => h i (by omega))
  show ((samples x (k + (n + 1))).2 && !(probe aw mem s0 x (k + (n + 1))).core.drv_reg) = _
  rw [h2, hv]

theorem scl_step (t : Nat) : (run aw mem s0 x (t + 1)).bus.scl_i =
    (if (run aw mem s0 x t).samp_carry then (run aw mem s0 x t).scl_raw
      else (run aw mem s0 x t).bus.scl_i) := rfl

/-- The drive between two samples without a START, SCL being high at the second. -/
theorem transit_high (h0 : s0.samp_count = 0) (hen : ∀ t, (x t).hpd_en = true) (k : Nat)
    (h1 : (samples x k).1 = true)
    (h2 : (!(probe aw mem s0 x (k + 1)).sda && (probe aw mem s0 x k).sda) = false)
    (j : Nat) (hj : 1 ≤ j) (hj' : j ≤ 65) :
    (run aw mem s0 x (64 * (k + 1) + j)).core.drv_reg = (probe aw mem s0 x k).core.drv_reg := by
  have hfix := probe_fixed (aw := aw) (mem := mem) h0 hen k
  obtain ⟨i1, i2, -⟩ := refine_probe (aw := aw) (mem := mem) h0 hen k
  obtain ⟨j1, -, -⟩ := refine_probe (aw := aw) (mem := mem) h0 hen (k + 1)
  have hd := drv_reg_of_fixed hfix
  -- buses in between
  have hcar : (run aw mem s0 x (64 * k + 64)).samp_carry = true := by
    rw [show 64 * k + 64 = (64 * k + 63) + 1 by omega, (samp h0 _).2, decide_eq_true_iff]; omega
  have hb1 : (run aw mem s0 x (64 * k + 65)).bus =
      ⟨(samples x k).1, (probe aw mem s0 x (k + 1)).sda, (probe aw mem s0 x k).scl,
        (probe aw mem s0 x k).sda⟩ := by
    have hsda : (run aw mem s0 x (64 * k + 64)).sda_raw = (probe aw mem s0 x (k + 1)).sda := by
      show (_ && !(run aw mem s0 x (64 * k + 62)).core.drv_reg) = _
      rw [i1 62 (by omega) (by omega)]
      rfl
    show (Bus.mk _ _ _ _) = _
    rw [hcar, if_pos rfl, if_pos rfl, hsda, i2]
    rfl
  -- the drive is constant
  have key : ∀ i, i ≤ 60 → (run aw mem s0 x (64 * k + 65 + i)).core.sdaDrv = (probe aw mem s0 x k).core.sdaDrv ∧
      (run aw mem s0 x (64 * k + 65 + i)).core.drv_reg = (probe aw mem s0 x k).core.sdaDrv ∧
      (run aw mem s0 x (64 * k + 65 + i)).bus.scl_i = true ∧
      (run aw mem s0 x (64 * k + 65 + i)).bus.start = false := by
    intro i
    induction i with
    | zero =>
      intro _
      rw [Nat.add_zero, i1 65 (by omega) (by omega), hb1]
      refine ⟨rfl, hd, h1, ?_⟩
      show ((samples x k).1 && !(probe aw mem s0 x (k + 1)).sda && (probe aw mem s0 x k).sda) = false
      rw [Bool.and_assoc, h2, Bool.and_false]
    | succ i ih =>
      intro hi
      obtain ⟨k1, k2, k3, k4⟩ := ih (by omega)
      have hc : (run aw mem s0 x (64 * k + 65 + i)).samp_carry = false := by
        rw [show 64 * k + 65 + i = (64 * k + 64 + i) + 1 by omega, (samp h0 _).2,
          decide_eq_false_iff_not]; omega
      have hcs : (run aw mem s0 x (64 * k + 65 + (i + 1))).core =
          (run aw mem s0 x (64 * k + 65 + i)).core.step aw mem (run aw mem s0 x (64 * k + 65 + i)).bus true := by
        have := hen (64 * k + 65 + i)
        rw [← this]; rfl
      have hbs := bus_keep (aw := aw) (mem := mem) (x := x) _ hc
      rw [hcs, sdaDrv_high _ _ k3 k4]
      refine ⟨k1, k1, ?_, ?_⟩
      · show (run aw mem s0 x (64 * k + 65 + i + 1)).bus.scl_i = true
        rw [hbs]; exact k3
      · show (run aw mem s0 x (64 * k + 65 + i + 1)).bus.start = false
        rw [hbs]
        show (_ && !(run aw mem s0 x (64 * k + 65 + i)).bus.sda_i &&
          (run aw mem s0 x (64 * k + 65 + i)).bus.sda_i) = false
        rw [Bool.and_assoc, Bool.not_and_self, Bool.and_false]
  by_cases h10 : j ≤ 10
  · rw [show 64 * (k + 1) + j = 64 * k + 65 + (j - 1) by omega, (key (j - 1) (by omega)).2.1, hd]
  · rw [j1 j (by omega) hj', ← j1 10 (by omega) (by omega),
      show 64 * (k + 1) + 10 = 64 * k + 65 + 9 by omega, (key 9 (by omega)).2.1, hd]

/-- A released line between two samples, SCL being high at the second. -/
theorem transit_free (h0 : s0.samp_count = 0) (hen : ∀ t, (x t).hpd_en = true) (k : Nat)
    (h1 : (samples x k).1 = true) (hf : (probe aw mem s0 x k).core.drv_reg = false)
    (j : Nat) (hj : 1 ≤ j) (hj' : j ≤ 65) :
    (run aw mem s0 x (64 * (k + 1) + j)).core.drv_reg = false := by
  have hfix := probe_fixed (aw := aw) (mem := mem) h0 hen k
  obtain ⟨i1, i2, -⟩ := refine_probe (aw := aw) (mem := mem) h0 hen k
  obtain ⟨j1, -, -⟩ := refine_probe (aw := aw) (mem := mem) h0 hen (k + 1)
  have hd := drv_reg_of_fixed hfix
  have hcar : (run aw mem s0 x (64 * k + 64)).samp_carry = true := by
    rw [show 64 * k + 64 = (64 * k + 63) + 1 by omega, (samp h0 _).2, decide_eq_true_iff]; omega
  have hb1 : (run aw mem s0 x (64 * k + 65)).bus.scl_i = true := by
    rw [show 64 * k + 65 = 64 * k + 64 + 1 by omega, scl_step, hcar, if_pos rfl]
    exact h1
  have key : ∀ i, i ≤ 60 → (run aw mem s0 x (64 * k + 65 + i)).core.sdaDrv = false ∧
      (run aw mem s0 x (64 * k + 65 + i)).core.drv_reg = false ∧
      (run aw mem s0 x (64 * k + 65 + i)).bus.scl_i = true := by
    intro i
    induction i with
    | zero =>
      intro _
      rw [Nat.add_zero, i1 65 (by omega) (by omega)]
      exact ⟨by rw [← hd, hf], hf, hb1⟩
    | succ i ih =>
      intro hi
      obtain ⟨k1, k2, k3⟩ := ih (by omega)
      have hc : (run aw mem s0 x (64 * k + 65 + i)).samp_carry = false := by
        rw [show 64 * k + 65 + i = (64 * k + 64 + i) + 1 by omega, (samp h0 _).2,
          decide_eq_false_iff_not]; omega
      have hcs : (run aw mem s0 x (64 * k + 65 + (i + 1))).core =
          (run aw mem s0 x (64 * k + 65 + i)).core.step aw mem
            (run aw mem s0 x (64 * k + 65 + i)).bus true := by
        have := hen (64 * k + 65 + i)
        rw [← this]; rfl
      have hbs := bus_keep (aw := aw) (mem := mem) (x := x) _ hc
      rw [hcs, sdaDrv_free _ _ k3 k1]
      refine ⟨rfl, k1, ?_⟩
      show (run aw mem s0 x (64 * k + 65 + i + 1)).bus.scl_i = true
      rw [hbs]; exact k3
  by_cases h10 : j ≤ 10
  · rw [show 64 * (k + 1) + j = 64 * k + 65 + (j - 1) by omega, (key (j - 1) (by omega)).2.1]
  · rw [j1 j (by omega) hj', ← j1 10 (by omega) (by omega),
      show 64 * (k + 1) + 10 = 64 * k + 65 + 9 by omega, (key 9 (by omega)).2.1]

/-- Nothing happens between two samples with SCL low. -/
theorem transit_low (h0 : s0.samp_count = 0) (hen : ∀ t, (x t).hpd_en = true) (k : Nat)
    (hl : (probe aw mem s0 x k).scl = false) (h1 : (samples x k).1 = false)
    (j : Nat) (hj : 1 ≤ j) (hj' : j ≤ 65) :
    (run aw mem s0 x (64 * (k + 1) + j)).core = (probe aw mem s0 x k).core := by
  have hfix := probe_fixed (aw := aw) (mem := mem) h0 hen k
  rw [hl] at hfix
  obtain ⟨i1, i2, -⟩ := refine_probe (aw := aw) (mem := mem) h0 hen k
  obtain ⟨j1, -, -⟩ := refine_probe (aw := aw) (mem := mem) h0 hen (k + 1)
  have hcar : (run aw mem s0 x (64 * k + 64)).samp_carry = true := by
    rw [show 64 * k + 64 = (64 * k + 63) + 1 by omega, (samp h0 _).2, decide_eq_true_iff]; omega
  have hb1 : (run aw mem s0 x (64 * k + 65)).bus.scl_i = false := by
    rw [show 64 * k + 65 = 64 * k + 64 + 1 by omega, scl_step, hcar, if_pos rfl]
    exact h1
  have key : ∀ i, i ≤ 60 → (run aw mem s0 x (64 * k + 65 + i)).core = (probe aw mem s0 x k).core ∧
      (run aw mem s0 x (64 * k + 65 + i)).bus.scl_i = false := by
    intro i
    induction i with
    | zero => intro _; rw [Nat.add_zero]; exact ⟨i1 65 (by omega) (by omega), hb1⟩
    | succ i ih =>
      intro hi
      obtain ⟨k1, k3⟩ := ih (by omega)
      have hc : (run aw mem s0 x (64 * k + 65 + i)).samp_carry = false := by
        rw [show 64 * k + 65 + i = (64 * k + 64 + i) + 1 by omega, (samp h0 _).2,
          decide_eq_false_iff_not]; omega
      have hcs : (run aw mem s0 x (64 * k + 65 + (i + 1))).core =
          (run aw mem s0 x (64 * k + 65 + i)).core.step aw mem (run aw mem s0 x (64 * k + 65 + i)).bus true := by
        have := hen (64 * k + 65 + i)
        rw [← this]; rfl
      have hbs := bus_keep (aw := aw) (mem := mem) (x := x) _ hc
      refine ⟨?_, ?_⟩
      · rw [hcs, k1]
        have hb : (run aw mem s0 x (64 * k + 65 + i)).bus =
          ⟨false, (run aw mem s0 x (64 * k + 65 + i)).bus.sda_i,
            (run aw mem s0 x (64 * k + 65 + i)).bus.scl_r,
            (run aw mem s0 x (64 * k + 65 + i)).bus.sda_r⟩ := by rw [← k3]
        rw [hb, step_low]; exact hfix
      · show (run aw mem s0 x (64 * k + 65 + i + 1)).bus.scl_i = false
        rw [hbs]; exact k3
  by_cases h10 : j ≤ 10
  · rw [show 64 * (k + 1) + j = 64 * k + 65 + (j - 1) by omega, (key (j - 1) (by omega)).1]
  · rw [j1 j (by omega) hj', ← j1 10 (by omega) (by omega),
      show 64 * (k + 1) + 10 = 64 * k + 65 + 9 by omega, (key 9 (by omega)).1]

end Verif.Edid
