import Verif.Proofs.BusSync
import Verif.Props.DelayLine

/-!
# C121: the tap counts that software reads back
-/

namespace Verif.Props

open Verif.DataCapture Verif.Spec.Delay Verif.Spec.Stream

/-- Delay control, delay lines and read-back after `t` instants; `m` and `s` say which bits the two
synchronisers catch early when both clocks have an edge. -/
def readback (x : Nat → S7.Delay.In) (m s : Nat → S7.Delay.Race) : Nat → S7.Delay.Readback :=
  trace S7.Delay.readbackStep S7.Delay.readbackReset fun t => (x t, m t, s t)

/-- The system clock is not much slower than the capture clock: wherever there is no edge of the system
clock, the capture clock has fewer than 30 edges. -/
def SysFastEnough (x : Nat → S7.Delay.In) : Prop :=
  ∀ t n, (∀ u, t ≤ u → u < t + n → (x u).sysEdge = false) →
    countIn (fun u => (x u).pixEdge) t n < 30

/-! ### Parts of the whole -/

theorem readback_taps (x : Nat → S7.Delay.In) (m s : Nat → S7.Delay.Race) (t : Nat) :
    (readback x m s t).taps = taps x t := by
  induction t with
  | zero => rfl
  | succ t ih =>
    show S7.Delay.tapsStep (readback x m s t).taps (x t) = _
    rw [ih]; rfl

/-- The inputs of a synchroniser of the values `v`. -/
def busIn (x : Nat → S7.Delay.In) (v : Nat → BitVec 5) (r : Nat → S7.Delay.Race) (t : Nat) :
    BusSync.In :=
  ⟨(x t).pixEdge, (x t).sysEdge, v t, (r t).early, (r t).pingEarly, (r t).pongEarly⟩

theorem readback_master (x : Nat → S7.Delay.In) (m s : Nat → S7.Delay.Race) (t : Nat) :
    (readback x m s t).master =
      trace BusSync.step BusSync.reset (busIn x (fun t => (taps x t).master) m) t := by
  induction t with
  | zero => rfl
  | succ t ih =>
    rw [trace_succ, ← ih, busIn, ← readback_taps x m s t]; rfl

theorem readback_slave (x : Nat → S7.Delay.In) (m s : Nat → S7.Delay.Race) (t : Nat) :
    (readback x m s t).slave =
      trace BusSync.step BusSync.reset (busIn x (fun t => (taps x t).slave) s) t := by
  induction t with
  | zero => rfl
  | succ t ih =>
    rw [trace_succ, ← ih, busIn, ← readback_taps x m s t]; rfl

theorem since_lt (x : Nat → S7.Delay.In) (v : Nat → BitVec 5) (r : Nat → S7.Delay.Race)
    (hf : SysFastEnough x) (t : Nat) : BusSync.since (busIn x v r) t < 30 := by
  have key : ∃ a n, a + n = t ∧ (∀ u, a ≤ u → u < a + n → (x u).sysEdge = false) ∧
      BusSync.since (busIn x v r) t = countIn (fun u => (x u).pixEdge) a n := by
    induction t with
    | zero => exact ⟨0, 0, rfl, fun u _ _ => by omega, rfl⟩
    | succ t ih =>
      by_cases h : (x t).sysEdge = true
      · refine ⟨t + 1, 0, rfl, fun u _ _ => by omega, ?_⟩
        show (if (x t).sysEdge then 0 else _) = _
        rw [if_pos h]; rfl
      · obtain ⟨a, n, h1, h2, h3⟩ := ih
        refine ⟨a, n + 1, by omega, fun u hu hu' => ?_, ?_⟩
        · rcases Nat.lt_or_ge u t with hlt | hge
          · exact h2 u hu (by omega)
          · rw [show u = t by omega]; simpa using h
        · show (if (x t).sysEdge then 0 else BusSync.since (busIn x v r) t +
            if (x t).pixEdge then 1 else 0) = _
          rw [if_neg h, h3, countIn, h1]
  obtain ⟨a, n, _, h2, h3⟩ := key
  rw [h3]
  exact hf a n h2

/-- Going back from `t`, the instant from which on there are just `k` edges. -/
theorem back_to (p : Nat → Bool) (k : Nat) (t : Nat) (h : k ≤ countIn p 0 t) :
    ∃ a, a ≤ t ∧ countIn p a (t - a) = k := by
  induction t generalizing k with
  | zero =>
    have : k = 0 := by rw [countIn] at h; omega
    exact ⟨0, Nat.le_refl _, this.symm⟩
  | succ t ih =>
    rw [countIn, Nat.zero_add] at h
    by_cases hp : p t = true
    · cases k with
      | zero => exact ⟨t + 1, Nat.le_refl _, by rw [Nat.sub_self]; rfl⟩
      | succ k =>
        rw [if_pos hp] at h
        obtain ⟨a, h1, h2⟩ := ih k (by omega)
        refine ⟨a, by omega, ?_⟩
        rw [show t + 1 - a = t - a + 1 by omega, countIn, h2, show a + (t - a) = t by omega, if_pos hp]
    · rw [if_neg hp] at h
      obtain ⟨a, h1, h2⟩ := ih k (by omega)
      refine ⟨a, by omega, ?_⟩
      rw [show t + 1 - a = t - a + 1 by omega, countIn, h2, show a + (t - a) = t by omega, if_neg hp]
      rfl

theorem count_cut (p : Nat → Bool) (t a b : Nat) :
    countIn p t (a + b) = countIn p t a + countIn p (t + a) b := by
  induction b with
  | zero => rfl
  | succ b ih =>
    rw [← Nat.add_assoc, countIn, countIn, ih, ← Nat.add_assoc, Nat.add_assoc t a b]
    omega

theorem readback_line (x : Nat → S7.Delay.In) (v : Nat → BitVec 5) (r : Nat → S7.Delay.Race)
    (hf : SysFastEnough x) (cmd : Nat → Bool) (exp : Nat → Nat)
    (hset : ∀ t, Settled cmd (fun t => (x t).pixEdge) t → (v t).toNat = exp t)
    (hexp : ∀ t, cmd t = false → exp (t + 1) = exp t) (t : Nat)
    (hq : ∀ u, u < t → cmd u = true →
      374 ≤ countIn (fun t => (x t).pixEdge) (u + 1) (t - (u + 1)))
    (h0 : 371 ≤ countIn (fun t => (x t).pixEdge) 0 t) :
    (trace BusSync.step BusSync.reset (busIn x v r) t).o.toNat = exp t := by
  obtain ⟨a, ha, hc⟩ := back_to _ 371 t h0
  have hcmd : ∀ u, u < t → cmd u = true →
      u < a ∧ 3 ≤ countIn (fun t => (x t).pixEdge) (u + 1) (a - (u + 1)) := by
    intro u hu hcu
    have h := hq u hu hcu
    rcases Nat.lt_or_ge u a with hlt | hge
    · refine ⟨hlt, ?_⟩
      have := count_cut (fun t => (x t).pixEdge) (u + 1) (a - (u + 1)) (t - a)
      rw [show a - (u + 1) + (t - a) = t - (u + 1) by omega, show u + 1 + (a - (u + 1)) = a by omega,
        hc] at this
      omega
    · have := count_cut (fun t => (x t).pixEdge) a (u + 1 - a) (t - (u + 1))
      rw [show u + 1 - a + (t - (u + 1)) = t - a by omega, show a + (u + 1 - a) = u + 1 by omega,
        hc] at this
      omega
  have hval : ∀ k, a + k ≤ t → (v (a + k)).toNat = exp a ∧ exp (a + k) = exp a := by
    intro k hk
    have he : exp (a + k) = exp a := by
      induction k with
      | zero => rfl
      | succ k ih =>
        rw [← Nat.add_assoc, hexp, ih (by omega)]
        cases hcu : cmd (a + k)
        · rfl
        · have := (hcmd (a + k) (by omega) hcu).1
          omega
    refine ⟨?_, he⟩
    rw [hset (a + k) fun u hu hcu => ?_, he]
    obtain ⟨h1, h2⟩ := hcmd u (by omega) hcu
    have := count_cut (fun t => (x t).pixEdge) (u + 1) (a - (u + 1)) k
    rw [show a - (u + 1) + k = a + k - (u + 1) by omega] at this
    omega
  have hst := BusSync.stable_word (busIn x v r) (since_lt x v r hf) (v a) a (t - a)
    (fun u h1 h2 => ?_) (Nat.le_of_eq hc.symm)
  · rw [show a + (t - a) = t by omega] at hst
    rw [hst, ← show a + (t - a) = t by omega, (hval (t - a) (by omega)).2]
    exact (hval 0 (by omega)).1
  · show v u = v a
    apply BitVec.eq_of_toNat_eq
    rw [show u = a + (u - a) by omega, (hval (u - a) (by omega)).1]
    exact (hval 0 (by omega)).1.symm

theorem expected_idle (write rst up down : Nat → Bool) (t : Nat)
    (h : (write t && (rst t || up t || down t)) = false) :
    expected write rst up down (t + 1) = expected write rst up down t := by
  rw [expected]
  by_cases hw : write t = true
  · rw [if_pos hw]
    rw [hw, Bool.true_and, Bool.or_eq_false_iff, Bool.or_eq_false_iff] at h
    rw [h.1.1, h.1.2, h.2]; rfl
  · rw [if_neg hw]

/-! ### The property -/

/-- **C121** Whatever commands software gives and whichever bits are caught early, the registers never
show a mixture of two tap counts: what they show is a tap count that the line had. -/
theorem C121_coherent (x : Nat → S7.Delay.In) (m s : Nat → S7.Delay.Race) (hf : SysFastEnough x)
    (t : Nat) :
    (∃ u, u ≤ t ∧ S7.Delay.cntvalueoutM (readback x m s t) = (taps x u).master) ∧
    (∃ u, u ≤ t ∧ S7.Delay.cntvalueoutS (readback x m s t) = (taps x u).slave) := by
  constructor
  · show ∃ u, u ≤ t ∧ (readback x m s t).master.o = _
    rw [readback_master]
    rcases (BusSync.seen_word _ (since_lt x _ m hf) t).2 with h | ⟨u, h1, _, h2⟩
    · exact ⟨0, by omega, h⟩
    · exact ⟨u, by omega, h2⟩
  · show ∃ u, u ≤ t ∧ (readback x m s t).slave.o = _
    rw [readback_slave]
    rcases (BusSync.seen_word _ (since_lt x _ s hf) t).2 with h | ⟨u, h1, _, h2⟩
    · exact ⟨0, by omega, h⟩
    · exact ⟨u, by omega, h2⟩

/-- **C121** Once the capture clock has had 374 edges since the latest command for the master line (and
since the start), the register shows the tap count that software expects. -/
theorem C121_master_read (x : Nat → S7.Delay.In) (m s : Nat → S7.Delay.Race) (hf : SysFastEnough x)
    (hs : Spaced (masterCommand x) fun t => (x t).pixEdge) (t : Nat)
    (h0 : 374 ≤ countIn (fun t => (x t).pixEdge) 0 t)
    (hq : ∀ u, u < t → masterCommand x u = true →
      374 ≤ countIn (fun t => (x t).pixEdge) (u + 1) (t - (u + 1))) :
    (S7.Delay.cntvalueoutM (readback x m s t)).toNat = expectedMaster x t := by
  show (readback x m s t).master.o.toNat = _
  rw [readback_master]
  exact readback_line x _ m hf (masterCommand x) (expectedMaster x)
    (fun t ht => C92_master_taps x hs t ht) (fun t ht => expected_idle _ _ _ _ t ht) t hq (by omega)

/-- **C121** The same for the slave line. -/
theorem C121_slave_read (x : Nat → S7.Delay.In) (m s : Nat → S7.Delay.Race) (hf : SysFastEnough x)
    (hs : Spaced (slaveCommand x) fun t => (x t).pixEdge) (t : Nat)
    (h0 : 374 ≤ countIn (fun t => (x t).pixEdge) 0 t)
    (hq : ∀ u, u < t → slaveCommand x u = true →
      374 ≤ countIn (fun t => (x t).pixEdge) (u + 1) (t - (u + 1))) :
    (S7.Delay.cntvalueoutS (readback x m s t)).toNat = expectedSlave x t := by
  show (readback x m s t).slave.o.toNat = _
  rw [readback_slave]
  exact readback_line x _ s hf (slaveCommand x) (expectedSlave x)
    (fun t ht => C92_slave_taps x hs t ht) (fun t ht => expected_idle _ _ _ _ t ht) t hq (by omega)

/-! ### A concrete case: the calibration of C92, read after 800 instants, with races at every second
edge of the system clock -/

/-- Which bits are caught early. -/
def someRace (t : Nat) : S7.Delay.Race := ⟨BitVec.ofNat 5 (5 * t), t % 3 == 1, t % 4 == 3⟩

theorem calibrate_fast : SysFastEnough calibrate := by
  intro t n h
  cases n with
  | zero => rw [countIn]; omega
  | succ n => exact absurd (h t (by omega) (by omega)) (by simp [calibrate])

theorem calibrate_edges (a n : Nat) : n ≤ 2 * countIn (fun t => (calibrate t).pixEdge) a n + 1 := by
  suffices h : n ≤ 2 * countIn (fun t => (calibrate t).pixEdge) a n + (a + n) % 2 ∧
      (a % 2 = 1 → n + 1 ≤ 2 * countIn (fun t => (calibrate t).pixEdge) a n + (a + n) % 2) by omega
  induction n with
  | zero => rw [countIn]; omega
  | succ n ih =>
    rw [countIn]
    have : (calibrate (a + n)).pixEdge = ((a + n) % 2 == 1) := rfl
    rw [this]
    by_cases h : (a + n) % 2 = 1
    · rw [h] at ih ⊢
      simp
      omega
    · have h : (a + n) % 2 = 0 := by omega
      rw [h] at ih ⊢
      simp
      omega

example : (S7.Delay.cntvalueoutM (readback calibrate someRace someRace 800)).toNat = 2 ∧
    (S7.Delay.cntvalueoutS (readback calibrate someRace someRace 800)).toNat = 31 := by
  have e1 : expectedMaster calibrate 800 = 2 := by decide +kernel
  have e2 : expectedSlave calibrate 800 = 31 := by decide +kernel
  refine ⟨?_, ?_⟩
  · rw [C121_master_read calibrate someRace someRace calibrate_fast ?_ 800 ?_ ?_, e1]
    · intro u v huv hu hv
      rcases calibrate_master hu with rfl | rfl | rfl <;>
        rcases calibrate_master hv with rfl | rfl | rfl <;> first | omega | decide +kernel
    · have := calibrate_edges 0 800; omega
    · intro u hu hc
      have := calibrate_edges (u + 1) (800 - (u + 1))
      rcases calibrate_master hc with rfl | rfl | rfl <;> omega
  · rw [C121_slave_read calibrate someRace someRace calibrate_fast ?_ 800 ?_ ?_, e2]
    · intro u v huv hu hv
      rcases calibrate_slave hu with rfl | rfl <;>
        rcases calibrate_slave hv with rfl | rfl <;> first | omega | decide +kernel
    · have := calibrate_edges 0 800; omega
    · intro u hu hc
      have := calibrate_edges (u + 1) (800 - (u + 1))
      rcases calibrate_slave hc with rfl | rfl <;> omega

/-- The system clock stops for 126 edges of the capture clock, and the master line is moved from 0 to 31
meanwhile. -/
def pausing (t : Nat) : S7.Delay.In :=
  { pixEdge := true, sysEdge := (1 ≤ t && t ≤ 3) || t == 130 || 133 ≤ t
    ctl := { rst := false, master_inc := false, master_dec := t == 1, slave_inc := false,
             slave_dec := false } }

/-- The system clock must be fast enough: if it pauses, the timeout of the synchroniser can make software
read a tap count that the line never had. -/
theorem C121_pause : ∃ (x : Nat → S7.Delay.In) (m s : Nat → S7.Delay.Race) (t : Nat),
    Spaced (masterCommand x) (fun t => (x t).pixEdge) ∧
    ∀ u, u ≤ t → S7.Delay.cntvalueoutM (readback x m s t) ≠ (taps x u).master := by
  refine ⟨pausing, fun _ => ⟨5, false, false⟩, fun _ => ⟨0, false, false⟩, 136, ?_, ?_⟩
  · intro u v huv hu hv
    simp [masterCommand, pausing] at hu hv
    omega
  · have h : ∀ u : Fin 137, S7.Delay.cntvalueoutM
        (readback pausing (fun _ => ⟨5, false, false⟩) (fun _ => ⟨0, false, false⟩) 136) ≠
        (taps pausing u).master := by
      have e : S7.Delay.cntvalueoutM
        (readback pausing (fun _ => ⟨5, false, false⟩) (fun _ => ⟨0, false, false⟩) 136) = 5#5 := by
        decide +kernel
      rw [e]
      decide +kernel
    exact fun u hu => h ⟨u, by omega⟩

end Verif.Props
