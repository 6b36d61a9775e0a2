import Verif.Proofs.Underflow
import Verif.Spec.CoreCdc

/-!
# C132: what the underflow count that software reads says about the output

Software runs on the system clock, the counter on the clock of the DRAM port.
-/

namespace Verif.Props

open Verif.Output Verif.Spec.Stream Verif.Spec.Underflow Proofs.Underflow

section
variable (i : Nat → UnderflowCdc.In) {w s u t : Nat} (hoff : OffUntil i w)
  (hon : ∀ v, w ≤ v → v < t → (i v).enable = true) (hs : SecondEdge i w s) (hsu : s ≤ u)
  (hr : Request i u t)

include hoff hon hs hsu hr

/-- **C132** Software switches the counter on at instant `w`, asks for the count at instant `u`, and reads it
at instant `t`.  It reads the number, modulo 2^32, of clocks of the port at which the output had no pixel,
from instant `a` to instant `z`: `a` is the second edge of the system clock after `w`, or the instant after it;
`z` is the second or third edge of the clock of the port after `u`.  For every interleaving of the two clocks,
and whichever values are caught when both have an edge. -/
theorem C132_count :
    ∃ a z, (a = s ∨ a = s + 1) ∧ u < z ∧ z < t ∧ (i z).cdEdge = true ∧
      1 ≤ countIn (cd i) (u + 1) (z - (u + 1)) ∧ countIn (cd i) (u + 1) (z - (u + 1)) ≤ 2 ∧
      (run i t).status.toNat = countIn (stalled i) a (z - a) % 2 ^ 32 := by
  obtain ⟨z, h1, h2, h3, h4, h5, h6⟩ := taken i hr
  have hws := hs.1
  obtain ⟨m1, hc⟩ := starts i (off_of_offUntil i hoff) hs (fun v ha hb => hon v ha (by omega))
  have m0 := m0_on i hs.2.1 (hon s hws (by omega))
  have hn := (counts i m0 m1 (z - (s + 1)) (fun v ha hb => hon v (by omega) (by omega))).2.2
  rw [show s + 1 + (z - (s + 1)) = z by omega] at hn
  rcases hc with hc | ⟨hst, hc⟩
  · refine ⟨s + 1, z, Or.inr rfl, h1, h2, h3, h4, h5, ?_⟩
    rw [h6, hn, hc]
    rw [show BitVec.toNat (0 : BitVec 32) = 0 from rfl, Nat.zero_add]
  · refine ⟨s, z, Or.inl rfl, h1, h2, h3, h4, h5, ?_⟩
    rw [h6, hn, hc, countIn_front (stalled i) (by omega : s < z), hst]
    rfl

/-- **C132** A count of 0 means that the output had a pixel at every clock of the port from the instant after
`s` to the request, if the counter was on for fewer than 2^32 clocks of the port. -/
theorem C132_zero (hshort : countIn (cd i) s (t - s) < 2 ^ 32) (h0 : (run i t).status = 0) :
    ∀ v, s < v → v ≤ u → stalled i v = false := by
  obtain ⟨a, z, ha, h1, h2, -, -, -, h6⟩ := C132_count i hoff hon hs hsu hr
  rw [h0, show BitVec.toNat (0 : BitVec 32) = 0 from rfl] at h6
  have hle : countIn (stalled i) a (z - a) ≤ countIn (cd i) s (t - s) := by
    have e1 : countIn (stalled i) a (z - a) ≤ countIn (cd i) a (z - a) :=
      countIn_le_of _ _ (fun v hv => by simp only [stalled, Bool.and_eq_true] at hv; exact hv.1) _ _
    have e2 : countIn (cd i) a (z - a) ≤ countIn (cd i) s (z - s) := by
      rcases ha with rfl | rfl
      · exact Nat.le_refl _
      · rw [countIn_front (cd i) (by omega : s < z)]; omega
    have e3 := countIn_split (cd i) s (z - s) (t - z)
    rw [show z - s + (t - z) = t - s by omega] at e3
    omega
  rw [Nat.mod_eq_of_lt (by omega)] at h6
  intro v hv1 hv2
  exact (countIn_eq_zero _ _ _).1 h6.symm v (by omega) (by omega)

/-- **C132** If the output has a pixel at every clock of the port, the count is 0. -/
theorem C132_clean (h : ∀ v, s ≤ v → v < t → stalled i v = false) : (run i t).status = 0 := by
  obtain ⟨a, z, ha, h1, h2, -, -, -, h6⟩ := C132_count i hoff hon hs hsu hr
  rw [(countIn_eq_zero _ _ _).2 (fun v hv1 hv2 => h v (by omega) (by omega))] at h6
  exact BitVec.eq_of_toNat_eq h6

/-- **C132** With the output core of the code and a sink that is always ready: if software reads 0, the core
has handed over exactly one pixel at each clock of the port, over any stretch of time between the start of the
count and the request. -/
theorem C132_steady (cfg : Core.Config) (f0 : GrayFifo.State 2 Params) (y : Nat → CoreCdc.In)
    (hclk : ∀ v, (i v).cdEdge = (y v).cdEdge) (hval : ∀ v, (i v).valid = Spec.CoreCdc.valid cfg f0 y v)
    (hready : ∀ v, (y v).ready = true) (hshort : countIn (cd i) s (t - s) < 2 ^ 32)
    (h0 : (run i t).status = 0) (a n : Nat) (ha : s < a) (hn : a + n ≤ u + 1) :
    countIn (Spec.CoreCdc.beat cfg f0 y) a n = countIn (fun v => (y v).cdEdge) a n := by
  have hz := C132_zero i hoff hon hs hsu hr hshort h0
  induction n with
  | zero => rfl
  | succ n ih =>
    rw [countIn, countIn, ih (by omega)]
    have := hz (a + n) (by omega) (by omega)
    simp only [stalled, hclk, hval] at this
    simp only [Spec.CoreCdc.beat, hready, Bool.and_true]
    cases h1 : (y (a + n)).cdEdge <;> cases h2 : Spec.CoreCdc.valid cfg f0 y (a + n) <;> simp_all

end

/-- **C132** The distance between requests is needed: of two requests with no edge of the clock of the port
at the first, between them or at the second, neither is answered; the status stays what it was until a later
request is made. -/
theorem C132_lost (i : Nat → UnderflowCdc.In) {q u v t : Nat} (hq : q ≤ u) (huv : u < v) (hvt : v < t)
    (hquiet : ∀ x, q ≤ x → x < t → asks i x = decide (x = u ∨ x = v))
    (hrest : q = 0 ∨ 3 ≤ countIn (cd i) q (u - q)) (hno : ∀ x, u ≤ x → x ≤ v → (i x).cdEdge = false) :
    (run i t).status = (run i u).status := by
  have hr := rest_before i ⟨q, hq, fun x h1 h2 => by
    rw [hquiet x h1 (by omega), decide_eq_false]; omega, hrest⟩
  have hu := hquiet u hq (by omega)
  have hv := hquiet v (by omega) hvt
  simp only [true_or, or_true, decide_true, asks, Bool.and_eq_true] at hu hv
  have hp : BusSync.At (run i (u + 1)).pulse 0 := by
    have := BusSync.at_launch (by omega : 2 ≤ 3) hr (i u).cdEdge (i u).pulseEarly (by omega)
    rw [hno u (by omega) (by omega)] at this
    rw [pulse_succ, hu.1, hu.2, hno u (by omega) (by omega)]; exact this
  have hp2 : BusSync.At (run i v).pulse 0 := by
    have := moves i hp (v - (u + 1)) (fun x h1 h2 => by rw [hquiet x (by omega) (by omega), decide_eq_false]; omega)
    rw [show u + 1 + (v - (u + 1)) = v by omega,
      (countIn_eq_zero (cd i) _ _).2 (fun x h1 h2 => hno x (by omega) (by omega))] at this
    exact this
  have hp3 : BusSync.At (run i (v + 1)).pulse 3 := by
    obtain ⟨a, b, c⟩ := hp2
    rw [pulse_succ, hv.1, hv.2, hno v (by omega) (by omega)]
    simp only [BusSync.At, BusSync.Pulse.step, a, b, c]
    simp
  have e1 := status_stays i (a := u) (v + 1 - u) (fun x h1 h2 => Or.inr (hno x h1 (by omega)))
  have e2 := status_stays i (a := v + 1) (t - (v + 1)) (fun x h1 h2 => Or.inl (by
    have := rest_run i hp3 (x - (v + 1)) (fun z h3 h4 => by
      rw [hquiet z (by omega) (by omega), decide_eq_false]; omega)
    rw [show v + 1 + (x - (v + 1)) = x by omega] at this
    rw [BusSync.at_o this]; rfl))
  rw [show u + (v + 1 - u) = v + 1 by omega] at e1
  rw [show v + 1 + (t - (v + 1)) = t by omega] at e2
  rw [e2, e1]

/-- Example: both clocks have edges at instants 0, 6, ...; the system clock also at the other even instants,
the clock of the port at the other multiples of three.  The counter is switched on at instant 5; the output
has no pixel at instants 9, 12 and 15; software asks at instant 14. -/
def ufExample (t : Nat) : UnderflowCdc.In :=
  { sysEdge := decide (t % 2 = 0), enable := decide (5 ≤ t), update := decide (t = 14),
    cdEdge := decide (t % 3 = 0), valid := decide (t < 9 ∨ 15 < t), early := 5, pulseEarly := true }

example : OffUntil ufExample 5 ∧ (∀ v, 5 ≤ v → v < 30 → (ufExample v).enable = true) ∧
    SecondEdge ufExample 5 8 ∧ Request ufExample 14 30 ∧ (run ufExample 30).status = 3 ∧
    countIn (cd ufExample) 8 (30 - 8) < 2 ^ 32 := by
  refine ⟨⟨0, 0, by omega, by omega, fun t _ h => decide_eq_false (by omega), Or.inl rfl⟩,
    fun v h _ => decide_eq_true h, ⟨by omega, by decide, by decide⟩,
    ⟨by decide, ⟨0, by omega, fun v _ h => ?_, Or.inl rfl⟩, fun v h _ => ?_, by decide⟩, by decide, by decide⟩
  · simp only [asks, ufExample]; rw [decide_eq_false (by omega : ¬ v = 14), Bool.and_false]
  · simp only [asks, ufExample]; rw [decide_eq_false (by omega : ¬ v = 14), Bool.and_false]

/-- The same without a missing pixel: the count is 0. -/
def ufClean (t : Nat) : UnderflowCdc.In := { ufExample t with valid := true }

example : OffUntil ufClean 5 ∧ SecondEdge ufClean 5 8 ∧ Request ufClean 14 30 ∧
    (run ufClean 30).status = 0 ∧ ∀ v, 8 ≤ v → v < 30 → stalled ufClean v = false := by
  refine ⟨⟨0, 0, by omega, by omega, fun t _ h => decide_eq_false (by omega), Or.inl rfl⟩,
    ⟨by omega, by decide, by decide⟩,
    ⟨by decide, ⟨0, by omega, fun v _ h => ?_, Or.inl rfl⟩, fun v h _ => ?_, by decide⟩, by decide,
    fun v _ _ => by simp [stalled, ufClean]⟩
  · simp only [asks, ufClean, ufExample]; rw [decide_eq_false (by omega : ¬ v = 14), Bool.and_false]
  · simp only [asks, ufClean, ufExample]; rw [decide_eq_false (by omega : ¬ v = 14), Bool.and_false]

/-- Two requests, at instants 14 and 16, with clocks of the port at multiples of six plus one: both are lost,
although the output never has a pixel. -/
def ufLost (t : Nat) : UnderflowCdc.In :=
  { sysEdge := decide (t % 2 = 0), enable := true, update := decide (t = 14 ∨ t = 16),
    cdEdge := decide (t % 6 = 1), valid := false, early := 0, pulseEarly := false }

example : (∀ x, 0 ≤ x → x < 60 → asks ufLost x = decide (x = 14 ∨ x = 16)) ∧
    (∀ x, 14 ≤ x → x ≤ 16 → (ufLost x).cdEdge = false) ∧ (run ufLost 60).status = 0 ∧
    (run ufLost 60).counter = 9 := by
  refine ⟨fun x _ h => ?_, fun x h1 h2 => decide_eq_false (by omega), by decide, by decide⟩
  simp only [asks, ufLost]
  by_cases hx : x = 14 ∨ x = 16
  · rw [decide_eq_true hx, decide_eq_true (by omega : x % 2 = 0)]; rfl
  · rw [decide_eq_false hx, Bool.and_false]

end Verif.Props
