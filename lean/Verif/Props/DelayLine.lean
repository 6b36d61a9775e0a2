import Verif.Props.DataCapture
import Verif.Spec.Delay

/-!
# C92: tap counts of the 7-series delay lines
-/

namespace Verif.Props

open Verif.DataCapture Verif.Spec.Delay Verif.Spec.Stream
open Verif.DataCapture.Delay (age age_start age_step)
open Frame.Overflow (Pulse)

/-- The delay control and the two delay lines after `t` instants. -/
def taps (x : Nat → S7.Delay.In) : Nat → S7.Delay.Taps :=
  trace S7.Delay.tapsStep S7.Delay.tapsReset x

/-- Software writes a command for the master delay line at instant `u`. -/
def masterCommand (x : Nat → S7.Delay.In) (u : Nat) : Bool :=
  (x u).sysEdge && ((x u).ctl.rst || (x u).ctl.master_inc || (x u).ctl.master_dec)

/-- Software writes a command for the slave delay line at instant `u`. -/
def slaveCommand (x : Nat → S7.Delay.In) (u : Nat) : Bool :=
  (x u).sysEdge && ((x u).ctl.rst || (x u).ctl.slave_inc || (x u).ctl.slave_dec)

/-- Between two commands there are at least three edges of the capture clock. -/
def Spaced (cmd edge : Nat → Bool) : Prop :=
  ∀ u v, u < v → cmd u = true → cmd v = true → 3 ≤ countIn edge (u + 1) (v - (u + 1))

/-- All commands before `t` have had three edges of the capture clock. -/
def Settled (cmd edge : Nat → Bool) (t : Nat) : Prop :=
  ∀ u, u < t → cmd u = true → 3 ≤ countIn edge (u + 1) (t - (u + 1))

/-- The tap counts that software expects of the master and of the slave. -/
def expectedMaster (x : Nat → S7.Delay.In) : Nat → Nat :=
  expected (fun u => (x u).sysEdge) (fun u => (x u).ctl.rst) (fun u => (x u).ctl.master_inc)
    (fun u => (x u).ctl.master_dec)

def expectedSlave (x : Nat → S7.Delay.In) : Nat → Nat :=
  expected (fun u => (x u).sysEdge) (fun u => (x u).ctl.rst) (fun u => (x u).ctl.slave_inc)
    (fun u => (x u).ctl.slave_dec)

/-! ### One delay line -/

/-- The three synchronisers of one line, `k` edges after the command `(a, b, c)`. -/
def LineAt (r i d : Pulse) (a b c : Bool) (k : Nat) : Prop :=
  PulseAt r (age a k) ∧ PulseAt i (age b k) ∧ PulseAt d (age c k)

theorem line_o {r i d : Pulse} {a b c : Bool} {k : Nat} (h : LineAt r i d a b c k) :
    r.o = (a && decide (k = 2)) ∧ i.o = (b && decide (k = 2)) ∧ d.o = (c && decide (k = 2)) := by
  have key : ∀ {p : Pulse} {b : Bool}, PulseAt p (age b k) → p.o = (b && decide (k = 2)) := by
    intro p b h
    rw [pulse_o h, age]
    cases b <;> simp
  exact ⟨key h.1, key h.2.1, key h.2.2⟩

theorem tap_command (a b c : Bool) (v : BitVec 5) :
    (S7.Delay.tap ⟨a, b || c, b⟩ v).toNat = command a b c v.toNat := by
  have h := v.isLt
  cases a <;> cases b <;> cases c <;>
    simp [S7.Delay.tap, command, BitVec.toNat_add, BitVec.toNat_sub] <;> omega

theorem command_none (v : Nat) : command false false false v = v := rfl

theorem line_edge {r i d : Pulse} {a b c : Bool} {k : Nat} {v : BitVec 5} {old : Nat}
    (h : LineAt r i d a b c k) (hv : v.toNat = if k < 3 then old else command a b c old) :
    (S7.Delay.tap ⟨r.o, i.o || d.o, i.o⟩ v).toNat =
      if k + 1 < 3 then old else command a b c old := by
  obtain ⟨h1, h2, h3⟩ := line_o h
  rw [h1, h2, h3, tap_command, hv]
  by_cases hk : k = 2
  · subst hk; simp
  · rw [decide_eq_false hk, Bool.and_false, Bool.and_false, Bool.and_false]
    by_cases h2 : k < 3
    · rw [if_pos h2, if_pos (by omega)]; rfl
    · rw [if_neg h2, if_neg (by omega)]; rfl

/-- The synchronisers of a line and its tap count at instant `t`: the latest command has age `k`. -/
theorem line_inv (r i d : Nat → Pulse) (v : Nat → BitVec 5) (src a b c edge : Nat → Bool)
    (hr0 : AtRest (r 0)) (hi0 : AtRest (i 0)) (hd0 : AtRest (d 0)) (hv0 : v 0 = 0)
    (hr : ∀ t, r (t + 1) = (r t).step (src t) (a t) (edge t))
    (hi : ∀ t, i (t + 1) = (i t).step (src t) (b t) (edge t))
    (hd : ∀ t, d (t + 1) = (d t).step (src t) (c t) (edge t))
    (hv : ∀ t, v (t + 1) =
      if edge t then S7.Delay.tap ⟨(r t).o, (i t).o || (d t).o, (i t).o⟩ (v t) else v t)
    (hs : Spaced (fun u => src u && (a u || b u || c u)) edge) (t : Nat) :
    ∃ a' b' c' k old, LineAt (r t) (i t) (d t) a' b' c' k ∧
      expected src a b c t = command a' b' c' old ∧
      (v t).toNat = (if k < 3 then old else expected src a b c t) ∧
      (3 ≤ k ∨ ∃ u, u < t ∧ (src u && (a u || b u || c u)) = true ∧
        k = countIn edge (u + 1) (t - (u + 1))) := by
  induction t with
  | zero =>
    refine ⟨false, false, false, 3, 0, ⟨hr0, hi0, hd0⟩, rfl, ?_, Or.inl (Nat.le_refl _)⟩
    rw [hv0]; rfl
  | succ t ih =>
    obtain ⟨a', b', c', k, old, hl, he, hvt, hk⟩ := ih
    rw [he] at hvt
    have hedge := line_edge hl hvt
    have hvn : (v (t + 1)).toNat = if (if edge t then k + 1 else k) < 3 then old else
        command a' b' c' old := by
      rw [hv]
      by_cases h : edge t = true
      · rw [if_pos h, if_pos h, hedge]
      · rw [if_neg h, if_neg h, hvt]
    by_cases hc : (src t && (a t || b t || c t)) = true
    · have hk3 : 3 ≤ k := by
        rcases hk with h | ⟨u, h1, h2, h3⟩
        · exact h
        · rw [h3]; exact hs u t h1 h2 hc
      have hsrc : src t = true := by
        rw [Bool.and_eq_true] at hc; exact hc.1
      have rest : ∀ {p : Pulse} {b : Bool}, PulseAt p (age b k) → PulseAt p 3 := by
        intro p b h
        cases b
        · exact h
        · exact (pulse_rest hk3).1 h
      refine ⟨a t, b t, c t, 0, expected src a b c t, ?_, ?_, ?_, Or.inr ⟨t, by omega, hc, ?_⟩⟩
      · rw [LineAt, hr, hi, hd, hsrc]
        exact ⟨age_start (rest hl.1) _ _, age_start (rest hl.2.1) _ _, age_start (rest hl.2.2) _ _⟩
      · rw [expected, if_pos hsrc]
      · rw [hvn, if_neg (by split <;> omega), if_pos (by omega), he]
      · rw [Nat.sub_self]; rfl
    · have hn : (src t && a t) = false ∧ (src t && b t) = false ∧ (src t && c t) = false := by
        revert hc
        cases src t <;> cases a t <;> cases b t <;> cases c t <;> simp
      have hsame : expected src a b c (t + 1) = expected src a b c t := by
        rw [expected]
        by_cases h : src t = true
        · rw [if_pos h]
          rw [h] at hn
          simp only [Bool.true_and] at hn
          rw [hn.1, hn.2.1, hn.2.2, command_none]
        · rw [if_neg h]
      refine ⟨a', b', c', if edge t then k + 1 else k, old, ?_, by rw [hsame, he],
        by rw [hvn, hsame, he], ?_⟩
      · rw [LineAt, hr, hi, hd]
        exact ⟨age_step hl.1 _ _ _ hn.1, age_step hl.2.1 _ _ _ hn.2.1, age_step hl.2.2 _ _ _ hn.2.2⟩
      · rcases hk with h | ⟨u, h1, h2, h3⟩
        · left; split <;> omega
        · right
          refine ⟨u, by omega, h2, ?_⟩
          rw [show t + 1 - (u + 1) = t - (u + 1) + 1 by omega, countIn,
            show u + 1 + (t - (u + 1)) = t by omega, ← h3]
          by_cases h : edge t = true
          · rw [if_pos h, if_pos h]
          · rw [if_neg h, if_neg h, Nat.add_zero]

theorem line_settled (r i d : Nat → Pulse) (v : Nat → BitVec 5) (src a b c edge : Nat → Bool)
    (hr0 : AtRest (r 0)) (hi0 : AtRest (i 0)) (hd0 : AtRest (d 0)) (hv0 : v 0 = 0)
    (hr : ∀ t, r (t + 1) = (r t).step (src t) (a t) (edge t))
    (hi : ∀ t, i (t + 1) = (i t).step (src t) (b t) (edge t))
    (hd : ∀ t, d (t + 1) = (d t).step (src t) (c t) (edge t))
    (hv : ∀ t, v (t + 1) =
      if edge t then S7.Delay.tap ⟨(r t).o, (i t).o || (d t).o, (i t).o⟩ (v t) else v t)
    (hs : Spaced (fun u => src u && (a u || b u || c u)) edge) (t : Nat)
    (ht : Settled (fun u => src u && (a u || b u || c u)) edge t) :
    (v t).toNat = expected src a b c t := by
  obtain ⟨a', b', c', k, old, -, -, hvt, hk⟩ := line_inv r i d v src a b c edge hr0 hi0 hd0 hv0 hr
    hi hd hv hs t
  have : 3 ≤ k := by
    rcases hk with h | ⟨u, h1, h2, h3⟩
    · exact h
    · rw [h3]; exact ht u h1 h2
  rw [hvt, if_neg (by omega)]

/-! ### The property -/

/-- **C92** If between two commands for the master delay line the capture clock has three edges, each
command moves the line exactly once and as asked: when the commands have had time to arrive, the tap
count is the one that software expects. -/
theorem C92_master_taps (x : Nat → S7.Delay.In)
    (hs : Spaced (masterCommand x) fun t => (x t).pixEdge) (t : Nat)
    (ht : Settled (masterCommand x) (fun t => (x t).pixEdge) t) :
    (taps x t).master.toNat = expectedMaster x t :=
  line_settled (fun t => (taps x t).ctl.doRst) (fun t => (taps x t).ctl.doMasterInc)
    (fun t => (taps x t).ctl.doMasterDec) (fun t => (taps x t).master) _ _ _ _ _
    ⟨rfl, rfl, rfl⟩ ⟨rfl, rfl, rfl⟩ ⟨rfl, rfl, rfl⟩ rfl (fun _ => rfl) (fun _ => rfl) (fun _ => rfl)
    (fun _ => rfl) hs t ht

/-- **C92** The same for the slave delay line. -/
theorem C92_slave_taps (x : Nat → S7.Delay.In)
    (hs : Spaced (slaveCommand x) fun t => (x t).pixEdge) (t : Nat)
    (ht : Settled (slaveCommand x) (fun t => (x t).pixEdge) t) :
    (taps x t).slave.toNat = expectedSlave x t :=
  line_settled (fun t => (taps x t).ctl.doRst) (fun t => (taps x t).ctl.doSlaveInc)
    (fun t => (taps x t).ctl.doSlaveDec) (fun t => (taps x t).slave) _ _ _ _ _
    ⟨rfl, rfl, rfl⟩ ⟨rfl, rfl, rfl⟩ ⟨rfl, rfl, rfl⟩ rfl (fun _ => rfl) (fun _ => rfl) (fun _ => rfl)
    (fun _ => rfl) hs t ht

/-! ### A concrete case: the slave is set one tap down, the master two up, in 40 instants -/

def calibrate (t : Nat) : S7.Delay.In :=
  { pixEdge := t % 2 == 1, sysEdge := true
    ctl := { rst := t == 0, master_inc := t == 10 || t == 20, master_dec := false,
             slave_inc := false, slave_dec := t == 11 } }

theorem calibrate_master {u : Nat} (h : masterCommand calibrate u = true) :
    u = 0 ∨ u = 10 ∨ u = 20 := by
  simp [masterCommand, calibrate] at h
  omega

theorem calibrate_slave {u : Nat} (h : slaveCommand calibrate u = true) : u = 0 ∨ u = 11 := by
  simp [slaveCommand, calibrate] at h
  omega

example : Spaced (masterCommand calibrate) (fun t => (calibrate t).pixEdge) ∧
    Settled (masterCommand calibrate) (fun t => (calibrate t).pixEdge) 40 ∧
    (taps calibrate 40).master = 2#5 := by
  refine ⟨fun u v huv hu hv => ?_, fun u _ hu => ?_, by decide +kernel⟩
  · rcases calibrate_master hu with rfl | rfl | rfl <;>
      rcases calibrate_master hv with rfl | rfl | rfl <;> first | omega | decide +kernel
  · rcases calibrate_master hu with rfl | rfl | rfl <;> decide +kernel

example : Spaced (slaveCommand calibrate) (fun t => (calibrate t).pixEdge) ∧
    Settled (slaveCommand calibrate) (fun t => (calibrate t).pixEdge) 40 ∧
    (taps calibrate 40).slave = 31#5 := by
  refine ⟨fun u v huv hu hv => ?_, fun u _ hu => ?_, by decide +kernel⟩
  · rcases calibrate_slave hu with rfl | rfl <;>
      rcases calibrate_slave hv with rfl | rfl <;> first | omega | decide +kernel
  · rcases calibrate_slave hu with rfl | rfl <;> decide +kernel

/-- The spacing is needed: two increments without an edge of the capture clock between them cancel,
and the line stays where it is for ever. -/
theorem C92_too_fast : ∃ x : Nat → S7.Delay.In,
    (∀ u, 2 ≤ u → masterCommand x u = false) ∧ expectedMaster x 2 = 2 ∧
    ∀ t, (taps x t).master = 0#5 := by
  let x : Nat → S7.Delay.In := fun t =>
    { pixEdge := decide (2 ≤ t), sysEdge := true
      ctl := { rst := false, master_inc := decide (t < 2), master_dec := false, slave_inc := false,
               slave_dec := false } }
  refine ⟨x, fun u hu => ?_, by decide +kernel, fun t => ?_⟩
  · have : decide (u < 2) = false := decide_eq_false (by omega)
    simp [masterCommand, x, this]
  · have key : ∀ t, (taps x (t + 2)).ctl = S7.Delay.reset ∧ (taps x (t + 2)).master = 0#5 := by
      intro t
      induction t with
      | zero => exact ⟨rfl, rfl⟩
      | succ t ih =>
        have h1 : decide (2 ≤ t + 2) = true := decide_eq_true (by omega)
        have h2 : decide (t + 2 < 2) = false := decide_eq_false (by omega)
        have hx : x (t + 2) = ⟨true, true, ⟨false, false, false, false, false⟩⟩ := by
          simp only [x, h1, h2]
        constructor
        · show S7.Delay.step (taps x (t + 2)).ctl (x (t + 2)) = _
          rw [ih.1, hx]; rfl
        · show (if (x (t + 2)).pixEdge then S7.Delay.tap (S7.Delay.master (taps x (t + 2)).ctl)
            (taps x (t + 2)).master else (taps x (t + 2)).master) = _
          rw [ih.1, ih.2, hx]; rfl
    match t with
    | 0 => rfl
    | 1 => rfl
    | t + 2 => exact (key t).2

end Verif.Props
