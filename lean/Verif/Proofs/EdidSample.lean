import Verif.Proofs.Edid

/-!
# EDID: the machine that runs once per bus sample
-/

namespace Verif.Edid

variable (aw : Nat) (mem : Nat → BitVec 8)

/-- The sampled bus and the core between two samples. -/
structure Probe where
  scl : Bool
  sda : Bool
  core : Core

/-- One sample: SCL and SDA as left by the other parties. -/
def Probe.step (p : Probe) (i : Bool × Bool) : Probe :=
  { scl := i.1
    sda := i.2 && !p.core.drv_reg
    core := settle aw mem i.1
      (p.core.step aw mem ⟨i.1, i.2 && !p.core.drv_reg, p.scl, p.sda⟩ true) }

/-- The values of the pads that are sampled. -/
def samples (x : Nat → In) (k : Nat) : Bool × Bool :=
  ((x (64 * k + 62)).scl, (x (64 * k + 62)).sda)

/-- The clocks from a state `s0` on, in which the sampling counter is 0. -/
abbrev run (s0 : State) (x : Nat → In) (t : Nat) : State := trace (Edid.step aw mem) s0 x t

/-- The samples from there. -/
abbrev probe (s0 : State) (x : Nat → In) (k : Nat) : Probe :=
  trace (Probe.step aw mem) ⟨(run aw mem s0 x 64).bus.scl_i, (run aw mem s0 x 64).bus.sda_i,
    (run aw mem s0 x 64).core⟩ (samples x) k

variable {aw mem} {s0 : State} {x : Nat → In}

theorem samp (h0 : s0.samp_count = 0) (t : Nat) : (run aw mem s0 x t).samp_count = t % 64 ∧
    (run aw mem s0 x (t + 1)).samp_carry = decide ((t + 1) % 64 = 0) := by
  have h : ∀ t, (run aw mem s0 x t).samp_count = t % 64 := by
    intro t
    induction t with
    | zero => exact h0
    | succ t ih =>
      show ((run aw mem s0 x t).samp_count + 1) % 64 = _
      rw [ih]; omega
  refine ⟨h t, ?_⟩
  show decide ((run aw mem s0 x t).samp_count + 1 = 64) = _
  rw [h t]
  congr 1
  apply propext
  omega

theorem bus_keep (t : Nat) (hc : (run aw mem s0 x t).samp_carry = false) :
    (run aw mem s0 x (t + 1)).bus = ⟨(run aw mem s0 x t).bus.scl_i, (run aw mem s0 x t).bus.sda_i,
      (run aw mem s0 x t).bus.scl_i, (run aw mem s0 x t).bus.sda_i⟩ := by
  show (Bus.mk _ _ _ _) = _
  rw [hc]
  rfl

theorem iterate_fixed {α : Type} (f : α → α) (a : α) (h : f a = a) (n : Nat) : f^[n] a = a := by
  induction n with
  | zero => rfl
  | succ n ih => rw [Function.iterate_succ_apply, h, ih]

theorem settle_after (scl : Bool) (c : Core) (n : Nat) (hn : 8 ≤ n) :
    (quiet aw mem scl)^[n] c = settle aw mem scl c := by
  rw [show n = (n - 8) + 8 by omega, Function.iterate_add_apply]
  exact iterate_fixed _ _ (settle_fixed aw mem scl c) _

/-- The clock-level machine and the sample-level machine agree. -/
theorem refine_probe (h0 : s0.samp_count = 0) (hen : ∀ t, (x t).hpd_en = true) (k : Nat) :
    (∀ j, 10 ≤ j → j ≤ 65 → (run aw mem s0 x (64 * k + j)).core = (probe aw mem s0 x k).core) ∧
    (run aw mem s0 x (64 * k + 64)).bus = ⟨(probe aw mem s0 x k).scl, (probe aw mem s0 x k).sda,
      (probe aw mem s0 x k).scl, (probe aw mem s0 x k).sda⟩ ∧
    quiet aw mem (probe aw mem s0 x k).scl (probe aw mem s0 x k).core = (probe aw mem s0 x k).core := by
  induction k with
  | zero =>
    have hbus : ∀ j, j ≤ 62 → (run aw mem s0 x (2 + j)).bus =
        ⟨(run aw mem s0 x 1).bus.scl_i, (run aw mem s0 x 1).bus.sda_i,
          (run aw mem s0 x 1).bus.scl_i, (run aw mem s0 x 1).bus.sda_i⟩ := by
      intro j hj
      have hc : (run aw mem s0 x (1 + j)).samp_carry = false := by
        rw [show 1 + j = j + 1 by omega, (samp h0 _).2, decide_eq_false_iff_not]; omega
      have hk := bus_keep (aw := aw) (mem := mem) (x := x) _ hc
      rw [show 2 + j = (1 + j) + 1 by omega, hk]
      cases j with
      | zero => rfl
      | succ j =>
        have : ∀ i, i ≤ j + 1 → (run aw mem s0 x (1 + i)).bus.scl_i = (run aw mem s0 x 1).bus.scl_i ∧
            (run aw mem s0 x (1 + i)).bus.sda_i = (run aw mem s0 x 1).bus.sda_i := by
          intro i hi
          induction i with
          | zero => exact ⟨rfl, rfl⟩
          | succ i ih =>
            have hc : (run aw mem s0 x (1 + i)).samp_carry = false := by
              rw [show 1 + i = i + 1 by omega, (samp h0 _).2, decide_eq_false_iff_not]; omega
            rw [show 1 + (i + 1) = (1 + i) + 1 by omega, bus_keep _ hc]
            exact ih (by omega)
        rw [(this (j + 1) (by omega)).1, (this (j + 1) (by omega)).2]
    have hcore : ∀ j, j ≤ 63 → (run aw mem s0 x (2 + j)).core =
        (quiet aw mem (run aw mem s0 x 1).bus.scl_i)^[j] (run aw mem s0 x 2).core := by
      intro j hj
      induction j with
      | zero => rfl
      | succ j ih =>
        rw [Function.iterate_succ_apply', ← ih (by omega)]
        show Core.step aw mem (run aw mem s0 x (2 + j)).core (run aw mem s0 x (2 + j)).bus _ = _
        rw [hbus j (by omega), hen, step_quiet]
    have h64 : (run aw mem s0 x 64).core =
        settle aw mem (run aw mem s0 x 1).bus.scl_i (run aw mem s0 x 2).core := by
      rw [show (64 : Nat) = 2 + 62 by omega, hcore 62 (by omega), settle_after _ _ _ (by omega)]
    have hb64 := hbus 62 (by omega)
    rw [show 2 + 62 = 64 by omega] at hb64
    have hz : probe aw mem s0 x 0 = ⟨(run aw mem s0 x 64).bus.scl_i,
      (run aw mem s0 x 64).bus.sda_i, (run aw mem s0 x 64).core⟩ := trace_zero _ _ _
    rw [hz]
    generalize run aw mem s0 x 64 = r64 at h64 hb64 ⊢
    refine ⟨fun j h1 h2 => ?_, ?_, ?_⟩
    · show _ = r64.core
      rw [show 64 * 0 + j = 2 + (j - 2) by omega, hcore _ (by omega), settle_after _ _ _ (by omega),
        h64]
    · show r64.bus = ⟨r64.bus.scl_i, r64.bus.sda_i, r64.bus.scl_i, r64.bus.sda_i⟩
      rw [hb64]
    · show quiet aw mem r64.bus.scl_i r64.core = r64.core
      rw [hb64, h64]
      exact settle_fixed aw mem _ _
  | succ k ih =>
    obtain ⟨i1, i2, i3⟩ := ih
    set p := probe aw mem s0 x k with hp
    -- the sample
    have hcar : (run aw mem s0 x (64 * k + 64)).samp_carry = true := by
      rw [show 64 * k + 64 = (64 * k + 63) + 1 by omega, (samp h0 _).2, decide_eq_true_iff]; omega
    have hscl : (run aw mem s0 x (64 * k + 64)).scl_raw = (samples x k).1 := rfl
    have hsda : (run aw mem s0 x (64 * k + 64)).sda_raw = ((samples x k).2 && !p.core.drv_reg) := by
      show (_ && !(run aw mem s0 x (64 * k + 62)).core.drv_reg) = _
      rw [i1 62 (by omega) (by omega)]
      rfl
    have hb1 : (run aw mem s0 x (64 * k + 65)).bus =
        ⟨(samples x k).1, (samples x k).2 && !p.core.drv_reg, p.scl, p.sda⟩ := by
      show (Bus.mk _ _ _ _) = _
      rw [hcar, if_pos rfl, if_pos rfl, hscl, hsda, i2]
    have hbq : ∀ j, j < 63 → (run aw mem s0 x (64 * k + 66 + j)).bus =
        ⟨(samples x k).1, (samples x k).2 && !p.core.drv_reg,
          (samples x k).1, (samples x k).2 && !p.core.drv_reg⟩ := by
      intro j hj
      have hc : (run aw mem s0 x (64 * k + 65 + j)).samp_carry = false := by
        rw [show 64 * k + 65 + j = (64 * k + 64 + j) + 1 by omega, (samp h0 _).2,
          decide_eq_false_iff_not]; omega
      induction j with
      | zero =>
        rw [show 64 * k + 66 + 0 = (64 * k + 65 + 0) + 1 by omega, bus_keep _ hc, Nat.add_zero, hb1]
      | succ j ihj =>
        have hc' : (run aw mem s0 x (64 * k + 65 + j)).samp_carry = false := by
          rw [show 64 * k + 65 + j = (64 * k + 64 + j) + 1 by omega, (samp h0 _).2,
            decide_eq_false_iff_not]; omega
        rw [show 64 * k + 66 + (j + 1) = (64 * k + 65 + (j + 1)) + 1 by omega, bus_keep _ hc,
          show 64 * k + 65 + (j + 1) = 64 * k + 66 + j by omega, ihj (by omega) hc']
    have hcore : ∀ j, j ≤ 63 → (run aw mem s0 x (64 * k + 66 + j)).core =
        (quiet aw mem (samples x k).1)^[j] (p.core.step aw mem
          ⟨(samples x k).1, (samples x k).2 && !p.core.drv_reg, p.scl, p.sda⟩ true) := by
      intro j hj
      induction j with
      | zero =>
        show Core.step aw mem (run aw mem s0 x (64 * k + 65)).core (run aw mem s0 x (64 * k + 65)).bus _ = _
        rw [hb1, hen, i1 65 (by omega) (by omega)]
        rfl
      | succ j ihj =>
        rw [Function.iterate_succ_apply', ← ihj (by omega)]
        show Core.step aw mem (run aw mem s0 x (64 * k + 66 + j)).core
          (run aw mem s0 x (64 * k + 66 + j)).bus _ = _
        rw [hbq j (by omega), hen, step_quiet]
    refine ⟨fun j h1 h2 => ?_, ?_, ?_⟩
    · rw [show 64 * (k + 1) + j = 64 * k + 66 + (j - 2) by omega, hcore _ (by omega),
        settle_after _ _ _ (by omega)]
      rfl
    · rw [show 64 * (k + 1) + 64 = 64 * k + 66 + 62 by omega, hbq _ (by omega)]
      rfl
    · exact settle_fixed aw mem _ _

end Verif.Edid
