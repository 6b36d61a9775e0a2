import Verif.Proofs.CoreCdc
import Verif.Props.Output

/-!
# C106: a mode change completes
-/

namespace Verif.Props

open Verif.Output Verif.Spec.Stream Verif.Spec.Output Verif.Spec.CoreCdc
open Verif.Output.CoreCdc (initIn given core)
open Verif.Spec.InitiatorCdc (Runs offered takes setAt)

/-- **C103** The core of the library is such a consumer: whatever it was given before, a set that is offered
is taken some time later, because the scan counters are as wide as the scan registers. -/
theorem C103_consumes (cfg : Core.Config) (hd : 0 < cfg.depth) (f0 : GrayFifo.State 2 Params)
    (h0 : GrayFifo.Settled f0) (i : Nat → CoreCdc.In) (hw : Narrow i) (hl : Live i) :
    Spec.InitiatorCdc.Consumes f0
      (fun u => CoreCdc.initiatorIn (run cfg f0 i u) (i u)) :=
  CoreCdc.consumes hd h0 hw hl

/-- **C106** From instant `t` on the CSRs hold `P`, and `enable` is set; before, they may have held
anything.  Both clocks run, the driver takes pixels, the memory answers, and the system clock is not too
slow for the parameter FIFO.  Then from some time on the output is the raster of `P` for ever, without
interruption, and it does not stop. -/
theorem C106_completes (cfg : Core.Config) (hd : 0 < cfg.depth) (f0 : GrayFifo.State 2 Params)
    (h0 : GrayFifo.Settled f0) (i : Nat → CoreCdc.In) (hw : Narrow i) (hl : Live i)
    (sys : Runs fun u => (i u).sysEdge) (P : Params) (hP : ValidMode P) (hf : Refills i P)
    (t : Nat) (hset : ∀ u, t ≤ u → (i u).csr = P ∧ (i u).enable = true) :
    ∃ T, t ≤ T ∧ Raster cfg f0 i P T ∧
      (∀ u, T ≤ u → GrayFifo.readable (run cfg f0 i u).fifo = true ∧ (run cfg f0 i u).fifo.dout = P) ∧
      ∀ n, ∃ u, T ≤ u ∧ countIn (beat cfg f0 i) T (u - T) = n := by
  have core_runs : Runs fun u => (i u).cdEdge := by
    intro T
    obtain ⟨u, h1, h2, -⟩ := hl.ready T
    exact ⟨u, h1, h2⟩
  have hcons := CoreCdc.consumes hd h0 hw hl
  obtain ⟨h4, hagain⟩ := C103_update f0 h0 (initIn cfg f0 i) t P hset sys core_runs hcons
  obtain ⟨T1, hT1, hq⟩ := CoreCdc.settles h4
  have htk : ∀ u, T1 ≤ u → takes f0 (initIn cfg f0 i) u = true →
      (given cfg f0 i u).p = P := by
    intro u hu h
    have := hq u hu
    rw [h, Bool.true_and, decide_eq_false_iff_not, ne_eq, Decidable.not_not] at this
    rw [CoreCdc.p_eq]
    exact this
  have hoff : ∀ u, T1 ≤ u → (given cfg f0 i u).pvalid = true → (given cfg f0 i u).p = P := by
    intro u hu h
    obtain ⟨v, h1, h2, h3⟩ := CoreCdc.taken_later hd h0 hw hl u h
    have := htk v (by omega) h2
    rw [← (h3 v h1 (Nat.le_refl _)).2]
    exact this
  have hpv : ∀ u, takes f0 (initIn cfg f0 i) u = true → (given cfg f0 i u).pvalid = true := by
    intro u hu
    rw [CoreCdc.pvalid_eq]
    exact CoreCdc.takes_offered hu
  -- the first set of `P`, and the next one
  obtain ⟨a, ha, hta, -⟩ := hagain T1
  have hnext : ∀ k c, a < c + k + 1 → takes f0 (initIn cfg f0 i) (c + k) = true → a < c →
      (∀ u, a < u → u < c → takes f0 (initIn cfg f0 i) u = false) →
      ∃ b, a < b ∧ takes f0 (initIn cfg f0 i) b = true ∧
        ∀ u, a < u → u < b → takes f0 (initIn cfg f0 i) u = false := by
    intro k
    induction k with
    | zero => intro c _ h1 h2 h3; exact ⟨c, h2, h1, h3⟩
    | succ k ih =>
      intro c h0 h1 h2 h3
      cases hc : takes f0 (initIn cfg f0 i) c
      · refine ih (c + 1) (by omega) (by rw [show c + 1 + k = c + (k + 1) by omega]; exact h1) (by omega) ?_
        intro u h4 h5
        rcases Nat.lt_or_ge u c with h | h
        · exact h3 u h4 h
        · rw [show u = c by omega]; exact hc
      · exact ⟨c, h2, hc, h3⟩
  obtain ⟨b', hb', htb', -⟩ := hagain (a + 1)
  obtain ⟨b, hab, htb, hno⟩ := hnext (b' - (a + 1)) (a + 1) (by omega)
    (by rw [show a + 1 + (b' - (a + 1)) = b' by omega]; exact htb') (by omega)
    (fun u h1 h2 => by omega)
  have hwait : ∀ a b, T1 ≤ a → a < b → takes f0 (initIn cfg f0 i) a = true →
      takes f0 (initIn cfg f0 i) b = true → (∀ u, a < u → u < b → takes f0 (initIn cfg f0 i) u = false) →
      (given cfg f0 i (b + 1)).pvalid = true := by
    intro a b h1 h2 h3 h5 h6
    exact CoreCdc.waiting hP h0 hf h2 (fun u hu => (hset u (by omega)).2)
      (fun u hu => hoff u (by omega)) h3 h5 h6
  -- from then on a set is always offered
  have hall : ∀ m, (given cfg f0 i (b + m)).pvalid = true ∧
      ∃ c, T1 ≤ c ∧ c < b + m + 1 ∧ takes f0 (initIn cfg f0 i) c = true ∧
        (∀ u, c < u → u < b + m + 1 → takes f0 (initIn cfg f0 i) u = false) ∧
        (given cfg f0 i (b + m + 1)).pvalid = true := by
    intro m
    induction m with
    | zero =>
      refine ⟨hpv b htb, b, by omega, by omega, htb, fun u h1 h2 => by omega, ?_⟩
      exact hwait a b ha hab hta htb hno
    | succ m ih =>
      obtain ⟨-, c, c1, c2, c3, c4, c5⟩ := ih
      refine ⟨c5, ?_⟩
      cases hc : takes f0 (initIn cfg f0 i) (b + (m + 1))
      · refine ⟨c, c1, by omega, c3, fun u h1 h2 => ?_, ?_⟩
        · rcases Nat.lt_or_ge u (b + m + 1) with h | h
          · exact c4 u h1 h
          · rw [show u = b + (m + 1) by omega]; exact hc
        · exact (CoreCdc.offered_stays h0 (b + (m + 1)) c5 hc).1
      · refine ⟨b + (m + 1), by omega, by omega, hc, fun u h1 h2 => by omega, ?_⟩
        exact hwait c (b + (m + 1)) c1 (by omega) c3 hc (fun u h1 h2 => c4 u h1 (by omega))
  have hlive : ∀ u, b ≤ u → (given cfg f0 i u).pvalid = true ∧ (given cfg f0 i u).p = P := by
    intro u hu
    obtain ⟨m, rfl⟩ := Nat.exists_eq_add_of_le hu
    exact ⟨(hall m).1, hoff _ (by omega) (hall m).1⟩
  have hz : (core cfg f0 i b).timing.hcounter = 0 ∧ (core cfg f0 i b).timing.vcounter = 0 := by
    have h := htb
    rw [CoreCdc.takes_eq b (hpv b htb), Bool.and_eq_true] at h
    exact (CoreCdc.sane b).last h.2
  refine ⟨b, by omega, ?_, hlive, ?_⟩
  · intro u n hu hn
    obtain ⟨m, rfl⟩ := Nat.exists_eq_add_of_le hu
    rw [Nat.add_sub_cancel_left] at hn
    obtain ⟨-, r⟩ := CoreCdc.raster_from (cfg := cfg) (f0 := f0) (i := i) hP hz m
      (fun u h1 _ => hlive u h1)
    obtain ⟨r1, r2⟩ := r n hn
    refine ⟨?_, r2.hsync, r2.vsync⟩
    show Core.de (core cfg f0 i (b + m)) (given cfg f0 i (b + m)) = _
    simp only [Core.de, Timing.de, (hlive (b + m) (by omega)).1, Bool.true_and, isActive]
    rw [r1.hactive, r1.vactive]
  · intro n
    induction n with
    | zero => exact ⟨b, Nat.le_refl _, by rw [Nat.sub_self]; rfl⟩
    | succ n ih =>
      obtain ⟨u, hu, hn⟩ := ih
      obtain ⟨v, hv, hb⟩ := CoreCdc.fires_again (cfg := cfg) (f0 := f0) hd hl u
        (fun w hw => (hlive w (by omega)).1) (CoreCdc.not_wait u)
      -- the first beat from `u` on
      obtain ⟨k, rfl⟩ := Nat.exists_eq_add_of_le hv
      clear hv
      induction k generalizing u with
      | zero =>
        refine ⟨u + 1, by omega, ?_⟩
        rw [GrayFifo.count_next _ hu, hn]
        rw [Nat.add_zero] at hb
        rw [hb]; rfl
      | succ k ih =>
        cases hc : beat cfg f0 i u
        · exact ih (u + 1) (by omega) (by rw [GrayFifo.count_next _ hu, hn, hc]; rfl)
            (by rw [show u + 1 + k = u + (k + 1) by omega]; exact hb)
        · exact ⟨u + 1, by omega, by rw [GrayFifo.count_next _ hu, hn, hc]; rfl⟩

/-! ## Example -/

/-- Two pixel clocks per system clock; the mode is changed from 8x2 to 4x1 at instant 100.  The driver always
takes pixels and the memory always answers. -/
def changeRun (u : Nat) : CoreCdc.In :=
  { sysEdge := u % 2 == 0, enable := true
    csr := if u < 100 then ⟨8, 9, 10, 11, 2, 2, 3, 3, 0, 16⟩ else tiny
    cdEdge := true, ready := true, memReady := true, answer := true, mem := id
    rOld := BitVec.ofNat 3 u, wOld := 0, clash := ⟨0, 0, 0, 0, 0, 0, 0, 0, 0, 0⟩ }

theorem change_live : Live changeRun :=
  ⟨fun T => ⟨T, Nat.le_refl _, rfl, rfl⟩, fun T => ⟨T, Nat.le_refl _, rfl, rfl⟩,
    fun T => ⟨T, Nat.le_refl _, rfl, rfl⟩⟩

theorem change_refills : Refills changeRun tiny := by
  intro a m h
  have e : ∀ m, countIn (fun u => (changeRun u).cdEdge) a m = m := by
    intro m
    induction m with
    | zero => rfl
    | succ m ih => rw [countIn, ih]; rfl
  have e2 : ∀ m, countIn (fun u => (changeRun u).sysEdge) a m + (a + 1) / 2 =
      (a + m + 1) / 2 := by
    intro m
    induction m with
    | zero => rw [countIn]; omega
    | succ m ih =>
      have hs : (changeRun (a + m)).sysEdge = ((a + m) % 2 == 0) := rfl
      rw [countIn, hs]
      by_cases hp : (a + m) % 2 = 0
      · simp only [hp, beq_self_eq_true, if_true]; omega
      · have : ((a + m) % 2 == 0) = false := by simpa using hp
        simp only [this, Bool.false_eq_true, if_false]; omega
  have h18 : frameLen tiny = 18 := by decide
  rw [e, h18] at h
  have := e2 m
  omega

/-- The run meets the hypotheses of `C106_completes`. -/
example : GrayFifo.Settled updateFifo ∧ Narrow changeRun ∧ Live changeRun ∧
    (Runs fun u => (changeRun u).sysEdge) ∧ ValidMode tiny ∧ Refills changeRun tiny ∧
    ∀ u, 100 ≤ u → (changeRun u).csr = tiny ∧ (changeRun u).enable = true := by
  refine ⟨⟨rfl, by decide, by decide⟩, ?_, change_live, ?_, tiny_valid.toValidMode, change_refills, ?_⟩
  · intro u
    unfold changeRun
    simp only
    split <;> decide
  · intro T
    refine ⟨2 * T, by omega, ?_⟩
    show (2 * T % 2 == 0) = true
    simp
  · intro u hu
    refine ⟨?_, rfl⟩
    unfold changeRun
    simp only
    rw [if_neg (by omega)]

end Verif.Props
