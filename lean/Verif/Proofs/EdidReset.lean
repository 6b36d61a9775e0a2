import Verif.Proofs.EdidAddress

/-!
# EDID: from reset, and restarting the clock count
-/

namespace Verif.Edid

open Verif.I2c

variable {aw : Nat} {mem : Nat → BitVec 8} {x : Nat → In}

theorem quiet_idle (scl : Bool) (c : Core) (h1 : c.fsm = .waitStart) (h2 : c.data_drv = false)
    (h3 : c.counter ≤ 8) : (quiet aw mem scl c).fsm = .waitStart ∧
    (quiet aw mem scl c).data_drv = false ∧ (quiet aw mem scl c).counter ≤ 8 := by
  refine ⟨?_, ?_, ?_⟩
  · cases scl <;> simp [quiet, Core.step, Bus.start, Core.fsmOwn, h1]
  · cases scl <;> simp [quiet, Core.step, Core.dataDrvEn, Core.dataDrvStop, h1, h2]
  · cases scl <;> simp [quiet, Core.step, Bus.start, Bus.rising, h3]

theorem settle_idle (scl : Bool) (c : Core) (h1 : c.fsm = .waitStart) (h2 : c.data_drv = false)
    (h3 : c.counter ≤ 8) : (settle aw mem scl c).fsm = .waitStart ∧
    (settle aw mem scl c).data_drv = false ∧ (settle aw mem scl c).counter ≤ 8 := by
  have : ∀ n (c : Core), c.fsm = .waitStart → c.data_drv = false → c.counter ≤ 8 →
      ((quiet aw mem scl)^[n] c).fsm = .waitStart ∧ ((quiet aw mem scl)^[n] c).data_drv = false ∧
      ((quiet aw mem scl)^[n] c).counter ≤ 8 := by
    intro n
    induction n with
    | zero => exact fun c h1 h2 h3 => ⟨h1, h2, h3⟩
    | succ n ih =>
      intro c h1 h2 h3
      obtain ⟨q1, q2, q3⟩ := quiet_idle (aw := aw) (mem := mem) scl c h1 h2 h3
      exact ih _ q1 q2 q3
  exact this 8 c h1 h2 h3

theorem step_idle (c : Core) (b : Bus) (hb : b.start = false) (h1 : c.fsm = .waitStart)
    (h2 : c.data_drv = false) (h3 : c.counter ≤ 8) :
    (c.step aw mem b true).fsm = .waitStart ∧ (c.step aw mem b true).data_drv = false ∧
      (c.step aw mem b true).counter ≤ 8 := by
  refine ⟨?_, ?_, ?_⟩
  · simp [Core.step, hb, Core.fsmOwn, h1]
  · simp [Core.step, Core.dataDrvEn, Core.dataDrvStop, h1, h2]
  · have : (c.step aw mem b true).counter = if b.rising then (if c.counter = 8 then 0 else c.counter + 1)
        else if b.start then 0 else c.counter := rfl
    rw [this, hb]
    split
    · split <;> omega
    · simpa using h3

/-- While the bus is idle after reset nothing happens. -/
theorem probe_idle (hen : ∀ t, (x t).hpd_en = true) (T : Nat)
    (hidle : ∀ t, t < T → (x t).scl = true ∧ (x t).sda = true) (k : Nat) (hk : k ≤ taken T) :
    (probe aw mem reset x k).core.fsm = .waitStart ∧
    (probe aw mem reset x k).core.data_drv = false ∧
    (probe aw mem reset x k).core.counter ≤ 8 := by
  induction k with
  | zero =>
    have key : ∀ t, t ≤ 64 → (run aw mem reset x t).bus = ⟨false, false, false, false⟩ ∧
        (run aw mem reset x t).core.fsm = .waitStart ∧
        (run aw mem reset x t).core.data_drv = false ∧
        (run aw mem reset x t).core.counter ≤ 8 := by
      intro t ht
      induction t with
      | zero => exact ⟨rfl, rfl, rfl, Nat.zero_le 8⟩
      | succ t ih =>
        obtain ⟨i1, i2, i3, i4⟩ := ih (by omega)
        have hc : (run aw mem reset x t).samp_carry = false := by
          cases t with
          | zero => rfl
          | succ t => rw [(samp rfl t).2, decide_eq_false_iff_not]; omega
        have hcs : (run aw mem reset x (t + 1)).core =
            (run aw mem reset x t).core.step aw mem (run aw mem reset x t).bus true := by
          rw [← hen t]; rfl
        rw [bus_keep _ hc, hcs, i1]
        exact ⟨rfl, step_idle _ _ rfl i2 i3 i4⟩
    exact (key 64 (by omega)).2
  | succ k ih =>
    obtain ⟨i1, i2, i3⟩ := ih (by omega)
    obtain ⟨e1, e2⟩ := hidle (64 * k + 62) (by unfold taken at hk; omega)
    have hd : (probe aw mem reset x k).core.drv_reg = false := by
      rw [drv_reg_of_fixed (probe_fixed (aw := aw) (mem := mem) rfl hen k)]
      simp [Core.sdaDrv, i1, i2, zeroDrv]
    have hst : probe aw mem reset x (k + 1) =
      Probe.step aw mem (probe aw mem reset x k) (samples x k) := rfl
    have hsm : samples x k = (true, true) := Prod.ext e1 e2
    rw [hst, hsm]
    show (settle aw mem true (Core.step aw mem _ ⟨true, true && !_, _, _⟩ true)).fsm = _ ∧ _
    rw [hd]
    obtain ⟨q1, q2, q3⟩ := step_idle (aw := aw) (mem := mem) (probe aw mem reset x k).core
      ⟨true, true && !false, (probe aw mem reset x k).scl, (probe aw mem reset x k).sda⟩
      rfl i1 i2 i3
    have := settle_idle (aw := aw) (mem := mem) true _ q1 q2 q3
    refine ⟨this.1, ?_, ?_⟩
    · show (settle aw mem true (Core.step aw mem _ ⟨true, true && !_, _, _⟩ true)).data_drv = _
      rw [hd]; exact this.2.1
    · show (settle aw mem true (Core.step aw mem _ ⟨true, true && !_, _, _⟩ true)).counter ≤ _
      rw [hd]; exact this.2.2

/-- After an idle time from reset. -/
theorem ready_reset (hen : ∀ t, (x t).hpd_en = true) {T : Nat} (hT : 64 ≤ T)
    (hidle : ∀ t, t < T → (x t).scl = true ∧ (x t).sda = true) :
    ∃ c, Ready aw mem reset x T c true ∧ Inv aw mem none c true := by
  obtain ⟨k, hk⟩ : ∃ k, taken T = k + 1 := ⟨taken T - 1, by unfold taken; omega⟩
  obtain ⟨e1, e2⟩ := hidle (64 * k + 62) (by unfold taken at hk; omega)
  obtain ⟨a1, a2, a3⟩ := probe_idle (aw := aw) (mem := mem) hen T hidle k (by omega)
  obtain ⟨i1, i2, i3⟩ := probe_idle (aw := aw) (mem := mem) hen T hidle (k + 1) (by omega)
  have hd : (probe aw mem reset x k).core.drv_reg = false := by
    rw [drv_reg_of_fixed (probe_fixed (aw := aw) (mem := mem) rfl hen k)]
    simp [Core.sdaDrv, a1, a2, zeroDrv]
  have hw : wire aw mem reset x (64 * k + 62) = true := by
    show ((x (64 * k + 62)).sda && !(run aw mem reset x (64 * k + 62)).core.drv_reg) = true
    rw [(refine_probe (aw := aw) (mem := mem) rfl hen k).1 62 (by omega) (by omega), hd, e2]
    rfl
  have hr := ready_of_sample (aw := aw) (mem := mem) (s0 := reset) (x := x) rfl hen hk e1 hw
  refine ⟨_, hr, ⟨?_, hr.fixed, hr.free⟩⟩
  have hfx := hr.fixed
  generalize (probe aw mem reset x (k + 1)).core = c at i1 i2 i3 hfx
  have hdat : c.dat_r = mem c.offset := (congrArg Core.dat_r hfx).symm
  have hdrv := drv_reg_of_fixed hfx
  refine ⟨c.counter, c.din, c.is_read, c.offset, c.data_bit, c.data_drv, c.fsm, ?_, ?_, ?_⟩
  · unfold mk
    rw [← hdat, show (zeroDrv c.fsm || c.data_drv && !c.data_bit) = c.drv_reg from hdrv.symm]
  · intro _; rw [i2]; rfl
  · rw [i1]; exact i3

/-- Counting the clocks from a later one on. -/
theorem does_shift (scl sda : Nat → Bool) (a T : Nat) (evs : List Ev)
    (h : Does scl sda (a + T) evs) : Does (fun t => scl (a + t)) (fun t => sda (a + t)) T evs := by
  induction evs generalizing T with
  | nil => trivial
  | cons e r ih =>
    cases e with
    | pulse low high v =>
      obtain ⟨d1, d2, d3, d4⟩ := h
      exact ⟨fun t h1 h2 => d1 _ (by omega) (by omega), fun t h1 h2 h3 => d2 _ (by omega) (by omega) (by omega),
        fun t h1 h2 => d3 _ (by omega) (by omega),
        ih _ (by rw [show a + (T + low + high) = a + T + low + high by omega]; exact d4)⟩
    | start hold =>
      obtain ⟨d1, d2⟩ := h
      exact ⟨fun t h1 h2 => d1 _ (by omega) (by omega),
        ih _ (by rw [show a + (T + hold) = a + T + hold by omega]; exact d2)⟩
    | stop hold =>
      obtain ⟨d1, d2⟩ := h
      exact ⟨fun t h1 h2 => d1 _ (by omega) (by omega),
        ih _ (by rw [show a + (T + hold) = a + T + hold by omega]; exact d2)⟩

theorem sees_shift (w : Nat → Bool) (a T : Nat) (evs : List Ev) (bs : List Bool)
    (h : Sees (fun t => w (a + t)) T evs bs) : Sees w (a + T) evs bs := by
  induction evs generalizing T bs with
  | nil => cases bs <;> exact h
  | cons e r ih =>
    cases e with
    | pulse low high v =>
      cases bs with
      | nil => exact h.elim
      | cons b bs =>
        obtain ⟨d1, d2⟩ := h
        refine ⟨fun t h1 h2 => ?_, ?_⟩
        · have := d1 (t - a) (by omega) (by omega)
          simp only [] at this
          rwa [show a + (t - a) = t by omega] at this
        · have := ih _ _ d2
          rwa [show a + (T + low + high) = a + T + low + high by omega] at this
    | start hold =>
      have := ih (T + hold) bs h
      rw [show a + (T + hold) = a + T + hold by omega] at this
      exact this
    | stop hold =>
      cases bs with
      | nil => exact h.elim
      | cons b bs =>
        obtain ⟨d1, d2⟩ := h
        refine ⟨fun t h1 h2 => ?_, ?_⟩
        · have := d1 (t - a) (by omega) (by omega)
          simp only [] at this
          rwa [show a + (t - a) = t by omega] at this
        · have := ih _ _ d2
          rwa [show a + (T + hold) = a + T + hold by omega] at this

theorem does_append (scl sda : Nat → Bool) (T : Nat) (evs evs' : List Ev)
    (h : Does scl sda T (evs ++ evs')) :
    Does scl sda T evs ∧ Does scl sda (finish T evs) evs' := by
  induction evs generalizing T with
  | nil => exact ⟨trivial, h⟩
  | cons e r ih =>
    cases e with
    | pulse low high v =>
      obtain ⟨d1, d2, d3, d4⟩ := h
      obtain ⟨i1, i2⟩ := ih _ d4
      refine ⟨⟨d1, d2, d3, i1⟩, ?_⟩
      show Does scl sda (finish (T + (low + high)) r) evs'
      rwa [← Nat.add_assoc]
    | start hold =>
      obtain ⟨d1, d2⟩ := h
      obtain ⟨i1, i2⟩ := ih _ d2
      exact ⟨⟨d1, i1⟩, i2⟩
    | stop hold =>
      obtain ⟨d1, d2⟩ := h
      obtain ⟨i1, i2⟩ := ih _ d2
      exact ⟨⟨d1, i1⟩, i2⟩

theorem finish_eq (T : Nat) (evs : List Ev) : finish T evs = T + (evs.map Ev.len).sum := by
  induction evs generalizing T with
  | nil => rfl
  | cons e r ih => rw [finish, ih, List.map_cons, List.sum_cons]; omega

/-- Until the first sample SCL is taken to be low. -/
theorem scl_before (t : Nat) (ht : t ≤ 64) : (run aw mem reset x t).bus.scl_i = false := by
  induction t with
  | zero => rfl
  | succ t ih =>
    have hc : (run aw mem reset x t).samp_carry = false := by
      cases t with
      | zero => rfl
      | succ t => rw [(samp rfl t).2, decide_eq_false_iff_not]; omega
    rw [bus_keep t hc]
    exact ih (by omega)

/-- Until the first sample nothing happens. -/
theorem before_first (t : Nat) (ht : t ≤ 65) : (run aw mem reset x t).core.fsm = .waitStart ∧
    (run aw mem reset x t).core.data_drv = false := by
  induction t with
  | zero => exact ⟨rfl, rfl⟩
  | succ t ih =>
    obtain ⟨i2, i3⟩ := ih (by omega)
    have i1 := scl_before (aw := aw) (mem := mem) (x := x) t (by omega)
    refine ⟨?_, ?_⟩
    · show (if _ then _ else if _ then _ else _) = _
      simp [Bus.start, i1, Core.fsmOwn, i2]
    · show (if _ then _ else if _ then _ else _) = _
      simp [Core.dataDrvEn, Core.dataDrvStop, i2, i3]

theorem scl_raw_step (t : Nat) : (run aw mem reset x (t + 1 + 1)).scl_raw = (x t).scl := rfl

/-- SCL behind the sampler is the pad at the last sample. -/
theorem scl_sampled (k j : Nat) (hj : j < 64) :
    (run aw mem reset x (64 * k + 65 + j)).bus.scl_i = (x (64 * k + 62)).scl := by
  induction j with
  | zero =>
    have hcar : (run aw mem reset x (64 * k + 64)).samp_carry = true := by
      rw [show 64 * k + 64 = (64 * k + 63) + 1 by omega, (samp rfl _).2, decide_eq_true_iff]; omega
    rw [show 64 * k + 65 + 0 = 64 * k + 64 + 1 by omega, scl_step, hcar, if_pos rfl,
      show 64 * k + 64 = 64 * k + 62 + 1 + 1 by omega, scl_raw_step]
  | succ j ih =>
    have hc : (run aw mem reset x (64 * k + 65 + j)).samp_carry = false := by
      rw [show 64 * k + 65 + j = (64 * k + 64 + j) + 1 by omega, (samp rfl _).2,
        decide_eq_false_iff_not]; omega
    rw [show 64 * k + 65 + (j + 1) = (64 * k + 65 + j) + 1 by omega, bus_keep _ hc]
    exact ih (by omega)

/-- The core starts to pull SDA low only while the sampled SCL is low. -/
theorem pull_core (c : Core) (b : Bus) (en : Bool) (h0 : c.sdaDrv = false)
    (h1 : (c.step aw mem b en).sdaDrv = true) : b.scl_i = false := by
  refine Classical.byContradiction fun hb => ?_
  rw [Bool.not_eq_false] at hb
  unfold Core.sdaDrv at h0 h1
  rw [Bool.or_eq_false_iff] at h0
  obtain ⟨hz, hd⟩ := h0
  rw [Bool.or_eq_true_iff] at h1
  cases h1 with
  | inl h1 =>
    revert h1
    show zeroDrv (if _ then _ else if _ then _ else _) = true → False
    cases en
    · simp [zeroDrv]
    cases hs : b.start
    · cases hf : c.fsm <;> rw [hf] at hz <;> simp [zeroDrv] at hz <;>
        simp only [Core.fsmOwn, hf, hb, Bool.not_true, Bool.false_and] <;>
        (repeat' split) <;> simp_all [zeroDrv]
    · simp [zeroDrv]
  | inr h1 =>
    have e1 : c.dataDrvEn b = false := by simp [Core.dataDrvEn, hb]
    have e2 : c.dataDrvStop b = false := by simp [Core.dataDrvStop, hb]
    have : ((c.step aw mem b en).data_drv && !(c.step aw mem b en).data_bit) =
        (c.data_drv && !c.data_bit) := by
      simp [Core.step, e1, e2]
    rw [this, hd] at h1
    cases h1

theorem pull_low {t : Nat} (h0 : (run aw mem reset x t).core.drv_reg = false)
    (h1 : (run aw mem reset x (t + 1)).core.drv_reg = true) :
    ∃ t', t' ≤ t ∧ t ≤ t' + 67 ∧ (x t').scl = false := by
  cases t with
  | zero => cases h1
  | succ t =>
    have hp : (run aw mem reset x t).bus.scl_i = false := pull_core _ _ _ h0 h1
    by_cases ht : t < 65
    · exfalso
      obtain ⟨i2, i3⟩ := before_first (aw := aw) (mem := mem) (x := x) (t + 1) (by omega)
      have : (run aw mem reset x (t + 1)).core.sdaDrv = true := h1
      rw [Core.sdaDrv, i2, i3] at this
      cases this
    · refine ⟨64 * ((t - 65) / 64) + 62, by omega, by omega, ?_⟩
      rw [← scl_sampled (aw := aw) (mem := mem) (x := x) ((t - 65) / 64) ((t - 65) % 64) (by omega),
        show 64 * ((t - 65) / 64) + 65 + (t - 65) % 64 = t by omega]
      exact hp

end Verif.Edid
