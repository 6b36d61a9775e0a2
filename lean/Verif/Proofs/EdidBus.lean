import Verif.Proofs.EdidBytes
import Verif.Spec.Edid

/-!
# EDID: pulses and START conditions of a master
-/

namespace Verif.Edid

open Verif.I2c

variable (aw : Nat) (mem : Nat → BitVec 8)

/-- The slave has seen SCL high and SDA = `s` and its core is `c`. -/
structure Ready (s0 : State) (x : Nat → In) (T : Nat) (c : Core) (s : Bool) : Prop where
  scl : (probe aw mem s0 x (taken T)).scl = true
  core : (probe aw mem s0 x (taken T)).core = c
  sda : (probe aw mem s0 x (taken T)).sda = s
  fixed : quiet aw mem true c = c
  free : s = true → c.drv_reg = false
  drv : ∀ t, T ≤ t → t ≤ 64 * taken T + 64 → (run aw mem s0 x t).core.drv_reg = c.drv_reg

/-- Line value during a pulse. -/
def seen (c : Core) (v : Bool) : Bool := v && !(settle aw mem false c).drv_reg

/-- The core after an action of the master. -/
def evCore (c : Core) (s : Bool) : Act → Core
  | .bit v => rise aw mem (settle aw mem false c) (seen aw mem c v)
  | .start => settle aw mem true (c.step aw mem ⟨true, false, true, s⟩ true)
  | .stop => c

/-- The line after an action of the master. -/
def evSda (c : Core) : Act → Bool
  | .bit v => seen aw mem c v
  | .start => false
  | .stop => !c.drv_reg

def wire (s0 : State) (x : Nat → In) (t : Nat) : Bool := sdaBus (run aw mem s0 x t) (x t)

variable {aw mem} {s0 : State} {x : Nat → In}

theorem exec_pulse (h0 : s0.samp_count = 0) (hen : ∀ t, (x t).hpd_en = true) {T low high : Nat}
    {c : Core} {s v : Bool} (hr : Ready aw mem s0 x T c s) (hl : 128 ≤ low) (hh : 64 ≤ high)
    (h1 : ∀ t, T ≤ t → t < T + low → (x t).scl = false)
    (h2 : ∀ t, T ≤ t → T + low ≤ t + 64 → t < T + low → (x t).sda = v)
    (h3 : ∀ t, T + low ≤ t → t < T + low + high → (x t).scl = true ∧ (x t).sda = v) :
    Ready aw mem s0 x (T + low + high) (evCore aw mem c s (.bit v)) (evSda aw mem c (.bit v)) ∧
    ∀ t, T + low ≤ t → t < T + low + high → wire aw mem s0 x t = seen aw mem c v := by
  obtain ⟨r1, r2, r3, r4, r5, r6⟩ := hr
  obtain ⟨n, hn⟩ : ∃ n, taken (T + low) = taken T + (n + 2) :=
    ⟨taken (T + low) - taken T - 2, by unfold taken; omega⟩
  obtain ⟨m, hm⟩ : ∃ m, taken (T + low + high) = taken (T + low) + (m + 1) :=
    ⟨taken (T + low + high) - taken (T + low) - 1, by unfold taken; omega⟩
  have hlow : ∀ i, i < n + 2 → (samples x (taken T + i)).1 = false := by
    intro i hi
    refine h1 _ ?_ ?_ <;> unfold taken at * <;> omega
  have hv : (samples x (taken T + (n + 1))).2 = v := by
    refine h2 _ ?_ ?_ ?_ <;> unfold taken at * <;> omega
  have hhigh : ∀ i, i < m + 1 → samples x (taken (T + low) + i) = (true, v) := by
    intro i hi
    have := h3 (64 * (taken (T + low) + i) + 62) (by unfold taken at *; omega)
      (by unfold taken at *; omega)
    exact Prod.ext this.1 this.2
  -- the probe during the low phase
  have hp : ∀ i, i < n + 2 → (probe aw mem s0 x (taken T + (i + 1))).scl = false ∧
      (probe aw mem s0 x (taken T + (i + 1))).core = settle aw mem false c := by
    intro i hi
    have := low_phase (aw := aw) (mem := mem) (s0 := s0) (x := x) (taken T) i
      (fun j hj => hlow j (by omega))
    rw [r2] at this
    exact this
  have hq := hp (n + 1) (by omega)
  rw [show taken T + (n + 1 + 1) = taken (T + low) by omega] at hq
  have hsda := low_sda (aw := aw) (mem := mem) (s0 := s0) (x := x) (taken T) n v hlow hv
  rw [r2, ← hn] at hsda
  have hs2 : (probe aw mem s0 x (taken (T + low))).sda =
      (v && !(probe aw mem s0 x (taken (T + low))).core.drv_reg) := by rw [hsda, hq.2]
  have hH : ∀ i, i < m + 1 → (probe aw mem s0 x (taken (T + low) + (i + 1))).scl = true ∧
      (probe aw mem s0 x (taken (T + low) + (i + 1))).sda = seen aw mem c v ∧
      (probe aw mem s0 x (taken (T + low) + (i + 1))).core =
        rise aw mem (settle aw mem false c) (seen aw mem c v) := by
    intro i hi
    have := high_phase (aw := aw) (mem := mem) h0 hen (taken (T + low)) i v
      (fun j hj => hhigh j (by omega)) hq.1 hs2
    rw [hq.2, hsda] at this
    exact this
  have hfin := hH m (by omega)
  rw [← hm] at hfin
  have hfixq := drv_reg_of_fixed (settle_fixed aw mem false c)
  have hdrv : ∀ t, T + low ≤ t → t ≤ 64 * taken (T + low + high) + 64 →
      (run aw mem s0 x t).core.drv_reg = (settle aw mem false c).drv_reg := by
    intro t ht1 ht2
    obtain ⟨kk, j, ht, hj1, hj2⟩ : ∃ kk j, t = 64 * kk + j ∧ 1 ≤ j ∧ j ≤ 64 :=
      ⟨(t - 1) / 64, t - 64 * ((t - 1) / 64), by omega, by omega, by omega⟩
    have hk1 : taken (T + low) ≤ kk + 1 := by unfold taken; omega
    rcases Nat.lt_trichotomy kk (taken (T + low)) with hk | hk | hk
    · -- before the last sample of the low phase took effect
      have hkk : kk + 1 = taken (T + low) := by omega
      have hj63 : 63 ≤ j := by unfold taken at hkk; omega
      have := hp n (by omega)
      rw [show taken T + (n + 1) = kk by omega] at this
      rw [ht, (refine_probe (aw := aw) (mem := mem) h0 hen kk).1 j (by omega) (by omega), this.2]
    · have := hp n (by omega)
      obtain ⟨k, rfl⟩ : ∃ k, kk = k + 1 := ⟨kk - 1, by omega⟩
      rw [show taken T + (n + 1) = k by omega] at this
      have hsl := hlow (n + 1) (by omega)
      rw [show taken T + (n + 1) = k by omega] at hsl
      rw [ht, transit_low h0 hen k this.1 hsl j hj1 (by omega), this.2]
    · obtain ⟨i, hi⟩ : ∃ i, kk = taken (T + low) + i + 1 := ⟨kk - taken (T + low) - 1, by omega⟩
      have him : i < m + 1 := by unfold taken at *; omega
      have hsm := hhigh i him
      have hnext := hH i him
      have hcur : (probe aw mem s0 x (taken (T + low) + i)).sda = seen aw mem c v ∧
          (probe aw mem s0 x (taken (T + low) + i)).core.drv_reg =
            (settle aw mem false c).drv_reg := by
        cases i with
        | zero => rw [Nat.add_zero, hsda, hq.2]; exact ⟨rfl, rfl⟩
        | succ i =>
          have := hH i (by omega)
          rw [this.2.1, this.2.2, rise_drv, hfixq]; exact ⟨rfl, rfl⟩
      have := transit_high (aw := aw) (mem := mem) h0 hen (taken (T + low) + i) (by rw [hsm])
        (by rw [Nat.add_assoc, hnext.2.1, hcur.1, Bool.not_and_self]) j hj1 (by omega)
      rw [ht, hi, this, hcur.2]
  refine ⟨⟨hfin.1, hfin.2.2, hfin.2.1, settle_fixed aw mem true _, ?_, ?_⟩, ?_⟩
  · intro hs
    show (rise aw mem _ _).drv_reg = false
    rw [rise_drv, ← hfixq]
    have : (v && !(settle aw mem false c).drv_reg) = true := hs
    cases hd : (settle aw mem false c).drv_reg with
    | false => rfl
    | true => rw [hd, Bool.not_true, Bool.and_false] at this; cases this
  · intro t ht1 ht2
    rw [hdrv t (by omega) ht2]
    show _ = (rise aw mem _ _).drv_reg
    rw [rise_drv, ← hfixq]
  intro t ht1 ht2
  show ((x t).sda && !(run aw mem s0 x t).core.drv_reg) = _
  rw [hdrv t ht1 (by unfold taken; omega), (h3 t ht1 ht2).2]
  rfl

/-- The drive during a phase with SCL high, from what it is between its samples. -/
theorem hold_drv {T hold n : Nat} {d : Bool} (hn : taken (T + hold) = taken T + (n + 1))
    (r6 : ∀ t, T ≤ t → t ≤ 64 * taken T + 64 → (run aw mem s0 x t).core.drv_reg = d)
    (h : ∀ i, i < n + 1 → ∀ j, 1 ≤ j → j ≤ 65 →
      (run aw mem s0 x (64 * (taken T + i + 1) + j)).core.drv_reg = d) (t : Nat) (ht : T ≤ t)
    (ht' : t ≤ 64 * taken (T + hold) + 64) : (run aw mem s0 x t).core.drv_reg = d := by
  by_cases hk : t ≤ 64 * taken T + 64
  · exact r6 t ht hk
  · obtain ⟨kk, j, htk, hj1, hj2⟩ : ∃ kk j, t = 64 * kk + j ∧ 1 ≤ j ∧ j ≤ 64 :=
      ⟨(t - 1) / 64, t - 64 * ((t - 1) / 64), by omega, by omega, by omega⟩
    obtain ⟨i, hi⟩ : ∃ i, kk = taken T + i + 1 := ⟨kk - taken T - 1, by omega⟩
    rw [htk, hi]
    exact h i (by omega) j hj1 (by omega)

theorem start_drv {c : Core} {s : Bool} (hq : quiet aw mem true c = c)
    (hf : s = true → c.drv_reg = false) : (evCore aw mem c s .start).drv_reg = c.drv_reg := by
  show (settle aw mem true (c.step aw mem ⟨true, false, true, s⟩ true)).drv_reg = _
  have hd := drv_reg_of_fixed hq
  rw [drv_reg_of_fixed (settle_fixed aw mem true _)]
  unfold settle
  rw [sdaDrv_quiet_high]
  cases s with
  | false => rw [sdaDrv_high c _ rfl rfl, hd]
  | true => rw [sdaDrv_free c _ rfl (by rw [← hd, hf rfl]), hf rfl]

theorem exec_start (h0 : s0.samp_count = 0) (hen : ∀ t, (x t).hpd_en = true) {T hold : Nat} {c : Core} {s : Bool}
    (hr : Ready aw mem s0 x T c s) (hh : 64 ≤ hold)
    (h1 : ∀ t, T ≤ t → t < T + hold → (x t).scl = true ∧ (x t).sda = false) :
    Ready aw mem s0 x (T + hold) (evCore aw mem c s .start) (evSda aw mem c .start) := by
  obtain ⟨r1, r2, r3, r4, r5, r6⟩ := hr
  obtain ⟨n, hn⟩ : ∃ n, taken (T + hold) = taken T + (n + 1) :=
    ⟨taken (T + hold) - taken T - 1, by unfold taken; omega⟩
  have hs : ∀ i, i < n + 1 → samples x (taken T + i) = (true, false) := by
    intro i hi
    have := h1 (64 * (taken T + i) + 62) (by unfold taken at *; omega) (by unfold taken at *; omega)
    exact Prod.ext this.1 this.2
  have key : ∀ i, i < n + 1 → (probe aw mem s0 x (taken T + (i + 1))).scl = true ∧
      (probe aw mem s0 x (taken T + (i + 1))).sda = false ∧
      (probe aw mem s0 x (taken T + (i + 1))).core = evCore aw mem c s .start := by
    intro i
    induction i with
    | zero =>
      intro hi
      have hst : probe aw mem s0 x (taken T + (0 + 1)) =
        Probe.step aw mem (probe aw mem s0 x (taken T)) (samples x (taken T + 0)) := rfl
      rw [hst, hs 0 hi]
      refine ⟨rfl, rfl, ?_⟩
      show settle aw mem true (Core.step aw mem _ ⟨true, false && _, _, _⟩ true) = _
      rw [r1, r2, r3]
      rfl
    | succ i ih =>
      intro hi
      obtain ⟨k1, k2, k3⟩ := ih (by omega)
      have hst : probe aw mem s0 x (taken T + (i + 1 + 1)) =
        Probe.step aw mem (probe aw mem s0 x (taken T + (i + 1))) (samples x (taken T + (i + 1))) :=
          rfl
      rw [hst, hs (i + 1) hi]
      refine ⟨rfl, rfl, ?_⟩
      show settle aw mem true (Core.step aw mem _ ⟨true, false, _, _⟩ true) = _
      rw [k1, k2, k3, step_quiet, settle_quiet]
      exact settle_of_fixed (settle_fixed aw mem true _)
  have := key n (by omega)
  rw [← hn] at this
  have hdr : (evCore aw mem c s .start).drv_reg = c.drv_reg := start_drv r4 r5
  refine ⟨this.1, this.2.2, this.2.1, settle_fixed aw mem true _, (fun h => by cases h), ?_⟩
  rw [hdr]
  intro t ht1 ht2
  refine hold_drv hn r6 ?_ t (by omega) ht2
  intro i hi j hj hj'
  have hcur : (probe aw mem s0 x (taken T + i)).core.drv_reg = c.drv_reg ∧
      (c.drv_reg = true → (probe aw mem s0 x (taken T + i)).sda = false) := by
    cases i with
    | zero =>
      rw [Nat.add_zero, r2, r3]
      refine ⟨rfl, fun h => ?_⟩
      cases s with
      | false => rfl
      | true => rw [r5 rfl] at h; cases h
    | succ i =>
      have := key i (by omega)
      rw [this.2.2, hdr, this.2.1]; exact ⟨rfl, fun _ => rfl⟩
  have hsm := hs i hi
  cases hd : c.drv_reg with
  | false =>
    exact transit_free h0 hen (taken T + i) (by rw [hsm]) (by rw [hcur.1, hd]) j hj hj'
  | true =>
    rw [← hd, ← hcur.1]
    exact transit_high h0 hen (taken T + i) (by rw [hsm])
      (by rw [hcur.2 hd, Bool.and_false]) j hj hj'

theorem exec_stop (h0 : s0.samp_count = 0) (hen : ∀ t, (x t).hpd_en = true) {T hold : Nat} {c : Core} {s : Bool}
    (hr : Ready aw mem s0 x T c s) (hh : 64 ≤ hold)
    (h1 : ∀ t, T ≤ t → t < T + hold → (x t).scl = true ∧ (x t).sda = true) :
    Ready aw mem s0 x (T + hold) (evCore aw mem c s .stop) (evSda aw mem c .stop) ∧
    ∀ t, T ≤ t → t < T + hold → wire aw mem s0 x t = evSda aw mem c .stop := by
  obtain ⟨r1, r2, r3, r4, r5, r6⟩ := hr
  obtain ⟨n, hn⟩ : ∃ n, taken (T + hold) = taken T + (n + 1) :=
    ⟨taken (T + hold) - taken T - 1, by unfold taken; omega⟩
  have hs : ∀ i, i < n + 1 → samples x (taken T + i) = (true, true) := by
    intro i hi
    have := h1 (64 * (taken T + i) + 62) (by unfold taken at *; omega) (by unfold taken at *; omega)
    exact Prod.ext this.1 this.2
  have hstep : ∀ s', (s' = true → c.drv_reg = false) →
      c.step aw mem ⟨true, !c.drv_reg, true, s'⟩ true = quiet aw mem true c := by
    intro s' hs'
    rw [← step_quiet aw mem true (!c.drv_reg)]
    cases s' with
    | true => rw [hs' rfl]; rfl
    | false => cases c.drv_reg <;> rfl
  have key : ∀ i, i < n + 1 → (probe aw mem s0 x (taken T + (i + 1))).scl = true ∧
      (probe aw mem s0 x (taken T + (i + 1))).sda = !c.drv_reg ∧
      (probe aw mem s0 x (taken T + (i + 1))).core = c := by
    intro i
    induction i with
    | zero =>
      intro hi
      have hst : probe aw mem s0 x (taken T + (0 + 1)) =
        Probe.step aw mem (probe aw mem s0 x (taken T)) (samples x (taken T + 0)) := rfl
      rw [hst, hs 0 hi]
      refine ⟨rfl, ?_, ?_⟩
      · show (true && !(probe aw mem s0 x (taken T)).core.drv_reg) = _
        rw [r2, Bool.true_and]
      show settle aw mem true (Core.step aw mem _ ⟨true, true && _, _, _⟩ true) = _
      rw [r1, r2, r3, Bool.true_and, hstep s r5, settle_quiet]
      exact settle_of_fixed r4
    | succ i ih =>
      intro hi
      obtain ⟨k1, k2, k3⟩ := ih (by omega)
      have hst : probe aw mem s0 x (taken T + (i + 1 + 1)) =
        Probe.step aw mem (probe aw mem s0 x (taken T + (i + 1))) (samples x (taken T + (i + 1))) :=
          rfl
      rw [hst, hs (i + 1) hi]
      refine ⟨rfl, ?_, ?_⟩
      · show (true && !(probe aw mem s0 x (taken T + (i + 1))).core.drv_reg) = _
        rw [k3, Bool.true_and]
      show settle aw mem true (Core.step aw mem _ ⟨true, true && _, _, _⟩ true) = _
      rw [k1, k2, k3, Bool.true_and, hstep _ (by simp), settle_quiet]
      exact settle_of_fixed r4
  have := key n (by omega)
  rw [← hn] at this
  have hdrv : ∀ t, T ≤ t → t ≤ 64 * taken (T + hold) + 64 →
      (run aw mem s0 x t).core.drv_reg = c.drv_reg := by
    refine hold_drv hn r6 ?_
    intro i hi j hj hj'
    have hcur : (probe aw mem s0 x (taken T + i)).core.drv_reg = c.drv_reg ∧
        (c.drv_reg = true → (probe aw mem s0 x (taken T + i)).sda = false) := by
      cases i with
      | zero =>
        rw [Nat.add_zero, r2, r3]
        refine ⟨rfl, fun h => ?_⟩
        cases s with
        | false => rfl
        | true => rw [r5 rfl] at h; cases h
      | succ i =>
        have := key i (by omega)
        rw [this.2.2, this.2.1]; exact ⟨rfl, fun h => by rw [h]; rfl⟩
    have hsm := hs i hi
    cases hd : c.drv_reg with
    | false =>
      exact transit_free h0 hen (taken T + i) (by rw [hsm]) (by rw [hcur.1, hd]) j hj hj'
    | true =>
      rw [← hd, ← hcur.1]
      exact transit_high h0 hen (taken T + i) (by rw [hsm])
        (by rw [hcur.2 hd, Bool.and_false]) j hj hj'
  refine ⟨⟨this.1, this.2.2, this.2.1, r4, ?_, fun t h1 h2 => hdrv t (by omega) h2⟩, ?_⟩
  · intro h
    have h' : (!c.drv_reg) = true := h
    show c.drv_reg = false
    simpa using h'
  · intro t ht1 ht2
    show ((x t).sda && !(run aw mem s0 x t).core.drv_reg) = _
    rw [hdrv t ht1 (by unfold taken; omega), (h1 t ht1 ht2).2]
    rfl

/-- A sample of an idle bus. -/
theorem ready_of_sample (h0 : s0.samp_count = 0) (hen : ∀ t, (x t).hpd_en = true) {T k : Nat}
    (hk : taken T = k + 1) (e1 : (x (64 * k + 62)).scl = true)
    (e2 : wire aw mem s0 x (64 * k + 62) = true) :
    Ready aw mem s0 x T (probe aw mem s0 x (k + 1)).core true := by
  obtain ⟨i1, -, -⟩ := refine_probe (aw := aw) (mem := mem) h0 hen k
  have e3 : ((x (64 * k + 62)).sda && !(run aw mem s0 x (64 * k + 62)).core.drv_reg) = true := e2
  have e4 := e3
  rw [i1 62 (by omega) (by omega)] at e4
  have hf := probe_fixed (aw := aw) (mem := mem) h0 hen (k + 1)
  have hscl : (probe aw mem s0 x (k + 1)).scl = true := e1
  rw [hscl] at hf
  -- the drive at clock `64 k + 127` or earlier
  have hfree : (probe aw mem s0 x k).core.drv_reg = false := by
    cases hd : (probe aw mem s0 x k).core.drv_reg with
    | false => rfl
    | true => rw [hd] at e4; simp at e4
  have htr : ∀ j, 1 ≤ j → j ≤ 65 → (run aw mem s0 x (64 * (k + 1) + j)).core.drv_reg = false :=
    transit_free h0 hen k e1 hfree
  have hpd : (probe aw mem s0 x (k + 1)).core.drv_reg = false := by
    rw [← (refine_probe (aw := aw) (mem := mem) h0 hen (k + 1)).1 10 (by omega) (by omega)]
    exact htr 10 (by omega) (by omega)
  refine ⟨by rw [hk]; exact hscl, by rw [hk], by rw [hk]; exact e4, hf, fun _ => hpd, ?_⟩
  intro t ht1 ht2
  rw [hpd]
  rw [hk] at ht2
  by_cases hj : t ≤ 64 * (k + 1)
  · have : 64 * k + 62 < t := by unfold taken at hk; omega
    rw [show t = 64 * k + (t - 64 * k) by omega, i1 _ (by omega) (by omega), hfree]
  · rw [show t = 64 * (k + 1) + (t - 64 * (k + 1)) by omega]
    exact htr _ (by omega) (by omega)

/-- An idle bus. -/
theorem ready_of_idle (h0 : s0.samp_count = 0) (hen : ∀ t, (x t).hpd_en = true) {T : Nat}
    (hT : 64 ≤ T) (h : ∀ t, T ≤ t + 64 → t < T → (x t).scl = true ∧ wire aw mem s0 x t = true) :
    ∃ c, Ready aw mem s0 x T c true := by
  obtain ⟨k, hk⟩ : ∃ k, taken T = k + 1 := ⟨taken T - 1, by unfold taken; omega⟩
  obtain ⟨e1, e2⟩ := h (64 * k + 62) (by unfold taken at hk; omega) (by unfold taken at hk; omega)
  exact ⟨_, ready_of_sample h0 hen hk e1 e2⟩

variable (aw mem)

/-- The core after several actions. -/
def fin (cs : Core × Bool) (vs : List Act) : Core × Bool :=
  vs.foldl (fun cs v => (evCore aw mem cs.1 cs.2 v, evSda aw mem cs.1 v)) cs

/-- The line during the pulses of several actions. -/
def outs : Core × Bool → List Act → List Bool
  | _, [] => []
  | cs, .bit v :: r =>
    seen aw mem cs.1 v :: outs (evCore aw mem cs.1 cs.2 (.bit v), evSda aw mem cs.1 (.bit v)) r
  | cs, .start :: r => outs (evCore aw mem cs.1 cs.2 .start, evSda aw mem cs.1 .start) r
  | cs, .stop :: r =>
    evSda aw mem cs.1 .stop :: outs (evCore aw mem cs.1 cs.2 .stop, evSda aw mem cs.1 .stop) r

variable {aw mem}

theorem fin_append (cs : Core × Bool) (a b : List Act) :
    fin aw mem cs (a ++ b) = fin aw mem (fin aw mem cs a) b := List.foldl_append

theorem outs_append (cs : Core × Bool) (a b : List Act) :
    outs aw mem cs (a ++ b) = outs aw mem cs a ++ outs aw mem (fin aw mem cs a) b := by
  induction a generalizing cs with
  | nil => rfl
  | cons v a ih => cases v <;> simp only [List.cons_append, outs, ih] <;> rfl

/-- The end of a list of actions. -/
def finish (T : Nat) : List Ev → Nat
  | [] => T
  | e :: r => finish (T + e.len) r

theorem exec (h0 : s0.samp_count = 0) (hen : ∀ t, (x t).hpd_en = true) (evs : List Ev) (T : Nat)
    (c : Core) (s : Bool) (hr : Ready aw mem s0 x T c s) (hs : ∀ e ∈ evs, e.slow)
    (hd : Does (fun t => (x t).scl) (fun t => (x t).sda) T evs) :
    Sees (wire aw mem s0 x) T evs (outs aw mem (c, s) (evs.map Ev.act)) ∧
    Ready aw mem s0 x (finish T evs) (fin aw mem (c, s) (evs.map Ev.act)).1
      (fin aw mem (c, s) (evs.map Ev.act)).2 := by
  induction evs generalizing T c s with
  | nil => exact ⟨trivial, hr⟩
  | cons e r ih =>
    have hs1 : e.slow := hs e List.mem_cons_self
    have hs2 : ∀ e ∈ r, e.slow := fun e he => hs e (List.mem_cons_of_mem _ he)
    cases e with
    | pulse low high v =>
      obtain ⟨d1, d2, d3, d4⟩ := hd
      obtain ⟨p1, p2⟩ := exec_pulse h0 hen hr hs1.1 hs1.2 d1 d2 d3
      obtain ⟨q1, q2⟩ := ih _ _ _ p1 hs2 d4
      refine ⟨⟨p2, q1⟩, ?_⟩
      have : finish T (.pulse low high v :: r) = finish (T + low + high) r := by
        show finish (T + (low + high)) r = _
        rw [Nat.add_assoc]
      rw [this]
      exact q2
    | start hold =>
      obtain ⟨d1, d2⟩ := hd
      exact ih _ _ _ (exec_start h0 hen hr hs1 d1) hs2 d2
    | stop hold =>
      obtain ⟨d1, d2⟩ := hd
      obtain ⟨p1, p2⟩ := exec_stop h0 hen hr hs1 d1
      obtain ⟨q1, q2⟩ := ih _ _ _ p1 hs2 d2
      exact ⟨⟨p2, q1⟩, q2⟩

end Verif.Edid
