import Verif.Proofs.Restart
import Verif.Props.ModeChange

/-!
# C107: enabling the output again shows the picture from its first pixel
-/

namespace Verif.Props

open Verif.Output Verif.Spec.Stream Verif.Spec.Output Verif.Spec.CoreCdc
open Verif.Output.CoreCdc (initIn given core)

/-- The picture starts with its first pixel after instant `T`, at which the core had no parameter set: as
long as the core has `P`, pixel `n` of the raster, counted from then on, shows the memory word of pixel `n`. -/
def ShowsFromStart (cfg : Core.Config) (f0 : GrayFifo.State 2 Params) (i : Nat → CoreCdc.In) (P : Params)
    (mem : Nat → Nat) (T : Nat) : Prop :=
  ∀ u n, T < u →
    (∀ v, T < v → v ≤ u → available cfg f0 i v = true ∧ (run cfg f0 i v).fifo.dout = P ∧ (i v).mem = mem) →
    countIn (beat cfg f0 i) (T + 1) (u - (T + 1)) = n + 1 →
    de cfg f0 i u = isActive P n ∧
    (valid cfg f0 i u = true → isActive P n = true → data cfg f0 i u = mem (pixelAddress cfg P n))

/-- **C107** (full statement) Whenever the core gets parameters after it had none, it shows the picture from
its first pixel. -/
def C107_statement : Prop :=
  ∀ (cfg : Core.Config) (P : Params) (mem : Nat → Nat) (f0 : GrayFifo.State 2 Params) (i : Nat → CoreCdc.In)
    (T : Nat), 0 < cfg.depth → cfg.raw = false → ValidMode P → 0 < P.vres * P.hres →
    P.length / 2 ^ cfg.shift % 2 ^ cfg.aw = P.vres * P.hres → GrayFifo.Settled f0 →
    available cfg f0 i T = false → ShowsFromStart cfg f0 i P mem T

/-- **C107** The statement holds if at that instant the memory reader has finished its buffer, and its words
are gone. -/
theorem C107_restart_partial (cfg : Core.Config) (P : Params) (mem : Nat → Nat)
    (f0 : GrayFifo.State 2 Params) (i : Nat → CoreCdc.In) (T : Nat) (hraw : cfg.raw = false)
    (hP : ValidMode P) (hpos : 0 < P.vres * P.hres)
    (hlen : P.length / 2 ^ cfg.shift % 2 ^ cfg.aw = P.vres * P.hres)
    (hT : available cfg f0 i T = false) (hdr : Drained (run cfg f0 i T).core) :
    ShowsFromStart cfg f0 i P mem T := by
  intro u n hu hv hn
  have hL : DmaReader.words cfg.aw cfg.shift P.length = P.vres * P.hres := hlen
  have hedge : (i T).cdEdge = true := CoreCdc.appears (cfg := cfg) (f0 := f0) T hT
    (hv (T + 1) (by omega) (by omega)).1
  have hz := CoreCdc.cleared (cfg := cfg) (f0 := f0) T hT hedge
  have hdr' := CoreCdc.stays_drained (cfg := cfg) (f0 := f0) T hT hdr
  obtain ⟨m, rfl⟩ := Nat.exists_eq_add_of_le (show T + 1 ≤ u by omega)
  rw [Nat.add_sub_cancel_left] at hn
  have hdma := CoreCdc.words_from (mem := mem) hP hraw (by omega) hz hdr' m
    (fun v h1 h2 => hv v (by omega) (by omega))
  have hz' : (core cfg f0 i (T + 1)).timing.hcounter = 0 ∧ (core cfg f0 i (T + 1)).timing.vcounter = 0 :=
    ⟨congrArg Timing.State.hcounter hz, congrArg Timing.State.vcounter hz⟩
  obtain ⟨-, r⟩ := CoreCdc.raster_from (cfg := cfg) (f0 := f0) (i := i) hP hz' m
    (fun v h1 h2 => ⟨(hv v (by omega) (by omega)).1, (hv v (by omega) (by omega)).2.1⟩)
  obtain ⟨r1, -⟩ := r n hn
  have hpv : (given cfg f0 i (T + 1 + m)).pvalid = true := (hv _ (by omega) (Nat.le_refl _)).1
  have hde : Core.de (core cfg f0 i (T + 1 + m)) (given cfg f0 i (T + 1 + m)) = isActive P n := by
    simp only [Core.de, Timing.de, hpv, Bool.true_and, isActive]
    rw [r1.hactive, r1.vactive]
  refine ⟨hde, fun hval hact => ?_⟩
  obtain ⟨q, hq, -⟩ := hdma
  have hne : (core cfg f0 i (T + 1 + m)).fifo ≠ [] := by
    have h : Core.valid (core cfg f0 i (T + 1 + m)) (given cfg f0 i (T + 1 + m)) = true := hval
    simp only [Core.valid, hde, hact, hpv] at h
    simpa using h
  have h := hq.head hne
  rw [hn, Nat.add_sub_cancel] at h
  obtain ⟨e1, e2⟩ := activeBefore_active P hP n hact
  show (core cfg f0 i (T + 1 + m)).fifo.headD 0 = _
  rw [h]
  simp only [Core.addr, pixelAddress, hL]
  rw [e1, Nat.add_comm (frame P n * _), Nat.add_mul_mod_self_right, Nat.mod_eq_of_lt e2]
  rfl

/-- **C107** In particular it holds for the first start after a reset. -/
theorem C107_first (cfg : Core.Config) (P : Params) (mem : Nat → Nat)
    (f0 : GrayFifo.State 2 Params) (i : Nat → CoreCdc.In) (T : Nat) (hraw : cfg.raw = false)
    (hP : ValidMode P) (hpos : 0 < P.vres * P.hres)
    (hlen : P.length / 2 ^ cfg.shift % 2 ^ cfg.aw = P.vres * P.hres)
    (hT : ∀ v, v ≤ T → available cfg f0 i v = false) : ShowsFromStart cfg f0 i P mem T := by
  refine C107_restart_partial cfg P mem f0 i T hraw hP hpos hlen (hT T (Nat.le_refl _)) ?_
  have : ∀ v, v ≤ T → Drained (run cfg f0 i v).core := by
    intro v
    induction v with
    | zero => intro _; exact ⟨rfl, rfl, rfl⟩
    | succ v ih =>
      intro hv
      exact CoreCdc.stays_drained v (hT v (by omega)) (ih (by omega))
  exact this T (Nat.le_refl _)

/-- **C107** And it holds for a restart after a pause that is long enough: `i` is a run in which `enable` is
clear from instant `t` on.  There is an instant `W` such that, whatever happens from `W` on (run `i'`), the
core has no parameters at `W`, and each time that it gets some again after having none since `W` the picture
starts with its first pixel. -/
theorem C107_pause_partial (cfg : Core.Config) (hd : 0 < cfg.depth) (f0 : GrayFifo.State 2 Params)
    (h0 : GrayFifo.Settled f0) (i : Nat → CoreCdc.In) (hw : Narrow i) (hl : Live i) (t : Nat)
    (hoff : ∀ u, t ≤ u → (i u).enable = false) :
    ∃ W, t ≤ W ∧ ∀ i' : Nat → CoreCdc.In, (∀ k, k < W → i' k = i k) →
      available cfg f0 i' W = false ∧
      ∀ T, W ≤ T → (∀ v, W ≤ v → v ≤ T → available cfg f0 i' v = false) →
        ∀ (P : Params) (mem : Nat → Nat), cfg.raw = false → ValidMode P → 0 < P.vres * P.hres →
          P.length / 2 ^ cfg.shift % 2 ^ cfg.aw = P.vres * P.hres → ShowsFromStart cfg f0 i' P mem T := by
  obtain ⟨t1, ht1, hdark⟩ := CoreCdc.runs_dry hd h0 hw hl t hoff
  obtain ⟨W, hW, hdr⟩ := CoreCdc.drains hd h0 hl t1 hdark
  refine ⟨W, by omega, fun i' hi' => ?_⟩
  have he : run cfg f0 i' W = run cfg f0 i W := trace_congr _ _ _ _ W hi'
  have ha : available cfg f0 i' W = false := by
    unfold available
    rw [he]
    exact hdark W hW
  refine ⟨ha, fun T hT hv P mem hraw hP hpos hlen => ?_⟩
  refine C107_restart_partial cfg P mem f0 i' T hraw hP hpos hlen (hv T hT (Nat.le_refl _)) ?_
  have : ∀ k, W + k ≤ T → Drained (run cfg f0 i' (W + k)).core := by
    intro k
    induction k with
    | zero => intro _; rw [Nat.add_zero, he]; exact hdr
    | succ k ih =>
      intro hk
      exact CoreCdc.stays_drained (W + k) (hv (W + k) (by omega) (by omega)) (ih (by omega))
  have := this (T - W) (by omega)
  rwa [show W + (T - W) = T by omega] at this

/-! ## The full statement does not hold -/

/-- A mode with 16 active pixels. -/
def wide : Params := ⟨8, 9, 10, 11, 2, 2, 3, 3, 0, 16⟩

theorem wide_valid : ValidMode wide :=
  { hres := by decide, vres := by decide, hs := by decide, he := by decide, vs := by decide,
    ve := by decide, hbits := by decide, vbits := by decide }

/-- `enable` is set for one clock, so that one frame is shown, and again from instant `on` on.  The clocks
are the same, the driver always takes pixels and the memory always answers. -/
def pauseRun (on : Nat) (u : Nat) : CoreCdc.In :=
  { sysEdge := true, enable := decide (u = 0) || decide (on ≤ u), csr := wide
    cdEdge := true, ready := true, memReady := true, answer := true, mem := fun a => a + 100
    rOld := 0, wOld := 0, clash := ⟨0, 0, 0, 0, 0, 0, 0, 0, 0, 0⟩ }

/-- **C107** If the output is enabled again before the reader has finished its buffer, the picture starts
with a later pixel: here with the fifth one. -/
theorem C107_violated : ¬ C107_statement := by
  intro h
  have h1 := h ⟨8, 0, 3, false⟩ wide (fun a => a + 100) updateFifo (pauseRun 55) 56 (by decide) rfl
    wide_valid (by decide) (by decide) ⟨rfl, by decide, by decide⟩ (by decide +kernel) 58 0 (by decide)
    (by
      intro v h1 h2
      obtain rfl | rfl : v = 57 ∨ v = 58 := by omega
      · exact ⟨by decide +kernel, by decide +kernel, rfl⟩
      · exact ⟨by decide +kernel, by decide +kernel, rfl⟩)
    (by decide +kernel)
  have h2 := h1.2 (by decide +kernel) (by decide +kernel)
  exact absurd h2 (by decide +kernel)

/-- The shift remains in the next frame. -/
example : countIn (beat ⟨8, 0, 3, false⟩ updateFifo (pauseRun 55)) 57 50 = 49 ∧
    data ⟨8, 0, 3, false⟩ updateFifo (pauseRun 55) 107 = 104 ∧
    pixelAddress ⟨8, 0, 3, false⟩ wide 48 = 0 := by decide +kernel

/-! ## Examples -/

/-- A FIFO whose memory holds sets of the mode. -/
def wideFifo : GrayFifo.State 2 Params := GrayFifo.reset 2 wide


/-- After a longer pause the picture starts with its first pixel: the hypotheses of `C107_restart_partial`
are met, and pixel 0 is on the output. -/
example : let cfg : Core.Config := ⟨8, 0, 3, false⟩
    available cfg wideFifo (pauseRun 80) 81 = false ∧
    (run cfg wideFifo (pauseRun 80) 81).core.reader.fsm = .idle ∧
    (run cfg wideFifo (pauseRun 80) 81).core.pending = [] ∧
    (run cfg wideFifo (pauseRun 80) 81).core.fifo = [] ∧
    available cfg wideFifo (pauseRun 80) 82 = true ∧
    available cfg wideFifo (pauseRun 80) 85 = true ∧
    countIn (beat cfg wideFifo (pauseRun 80)) 82 3 = 1 ∧
    valid cfg wideFifo (pauseRun 80) 85 = true ∧ data cfg wideFifo (pauseRun 80) 85 = 100 := by
  decide +kernel

/-- The first start after a reset. -/
example : (∀ v, v ≤ 1 → available ⟨8, 0, 3, false⟩ wideFifo (pauseRun 80) v = false) ∧
    available ⟨8, 0, 3, false⟩ wideFifo (pauseRun 80) 2 = true := by decide +kernel

/-- A run that is disabled for ever meets the hypotheses of `C107_pause_partial`. -/
example : let i := fun u => { pauseRun 0 u with enable := decide (u < 10) }
    Narrow i ∧ Live i ∧ ∀ u, 10 ≤ u → (i u).enable = false :=
  ⟨fun _ => ⟨show 11 < 2 ^ 12 by decide, show 3 < 2 ^ 12 by decide⟩,
    ⟨fun T => ⟨T, Nat.le_refl _, rfl, rfl⟩, fun T => ⟨T, Nat.le_refl _, rfl, rfl⟩,
      fun T => ⟨T, Nat.le_refl _, rfl, rfl⟩⟩,
    fun u hu => by simp only [decide_eq_false_iff_not]; omega⟩

end Verif.Props
