import Verif.Proofs.Bandwidth
import Verif.Props.CaptureLive

/-!
# C97: a memory that keeps up loses no capture word
-/

namespace Verif.Props

open Verif.Capture Verif.Spec.Capture Verif.Spec.Frame Verif.Spec.Stream

section Generic

variable {σ : Type} {w : Nat} {E : Extractor σ w} {depth nslots aw al : Nat} {x : Nat → In}

theorem no_overflow_of (hE : Packs E) {B K : Nat} (hB : 1 ≤ B)
    (keeps : KeepsUp E depth nslots aw al x B) (lag : LagsBy E depth nslots aw al x K)
    (hdepth : B + (K + E.pf - 1) / E.pf < depth) (T0 T : Nat) :
    NoOverflow E depth nslots aw al x T0 T := by
  intro t _ _ _ _
  have hlen := occupancy hE hB keeps
  refine ⟨?_, Nat.lt_of_le_of_lt (hlen t) (Nat.lt_of_le_of_lt (Nat.le_add_right _ _) hdepth)⟩
  by_contra hw
  obtain ⟨v, h1, h2, h3⟩ := lag t (Bool.eq_false_iff.2 hw)
  have h4 := write_le (E := E) (depth := depth) (nslots := nslots) (aw := aw) (al := al) (x := x) v (t - v)
  have h5 := (pace (E := E) (depth := depth) (nslots := nslots) (aw := aw) (al := al) (x := x) hE v
    (t - v)).2
  have hpf := hE.pf
  have h6 : countIn (offersAt E depth nslots aw al x) v (t - v) ≤ (K + E.pf - 1) / E.pf := by
    rw [Nat.le_div_iff_mul_le (by omega)]
    omega
  have := hlen v
  omega

end Generic

/-- **C97** If the memory keeps up with the pixels over any `B` words, the capture FIFO never holds
more than `B` words, and if it is deep enough for that and for the lag of its write side, no word is
ever lost: whatever the video, the software and the relation of the clocks. -/
theorem C97_no_overflow (pf depth nslots aw al B K : Nat) (hpf : 2 ≤ pf) (hB : 1 ≤ B) (x : Nat → In)
    (keeps : KeepsUp (rgb pf) depth nslots aw al x B) (lag : LagsBy (rgb pf) depth nslots aw al x K)
    (hdepth : B + (K + pf - 1) / pf < depth) :
    (∀ t, (capture (rgb pf) depth nslots aw al x t).fifo.length ≤ B) ∧
    ∀ T0 T, NoOverflow (rgb pf) depth nslots aw al x T0 T :=
  ⟨occupancy (packs_rgb hpf) hB keeps, no_overflow_of (packs_rgb hpf) hB keeps lag hdepth⟩

/-- **C97**, ycbcr422 mode (the default). -/
theorem C97_no_overflow_ycbcr422 (pf depth nslots aw al B K : Nat) (hpf : 2 ≤ pf) (hB : 1 ≤ B)
    (x : Nat → In) (keeps : KeepsUp (ycbcr422 pf) depth nslots aw al x B)
    (lag : LagsBy (ycbcr422 pf) depth nslots aw al x K) (hdepth : B + (K + pf - 1) / pf < depth) :
    (∀ t, (capture (ycbcr422 pf) depth nslots aw al x t).fifo.length ≤ B) ∧
    ∀ T0 T, NoOverflow (ycbcr422 pf) depth nslots aw al x T0 T :=
  ⟨occupancy (packs_ycbcr422 hpf) hB keeps, no_overflow_of (packs_ycbcr422 hpf) hB keeps lag hdepth⟩

/-- **C97** Software never reads an overflow then.  `o` are the inputs of the overflow detector: the
same pixel clock, and a word is lost when it is offered and the FIFO does not take it. -/
theorem C97_no_report {σ : Type} {w : Nat} (E : Extractor σ w) (depth nslots aw al : Nat) (x : Nat → In)
    (hno : ∀ T0 T, NoOverflow E depth nslots aw al x T0 T) (o : Nat → Frame.Overflow.In)
    (hpix : ∀ t, (o t).pixEdge = (x t).pixEdge)
    (hlost : ∀ t, (o t).lost = (offers E (capture E depth nslots aw al x t).frame &&
      !AsyncFifo.sinkReady depth (capture E depth nslots aw al x t).fifo
        (fifoIn E (capture E depth nslots aw al x t) (x t)))) (t : Nat) :
    Frame.Overflow.csr (trace Frame.Overflow.step Frame.Overflow.reset o t) = false := by
  refine C15_no_false_report o t fun u _ ⟨h1, h2⟩ => ?_
  rw [hpix] at h1
  rw [hlost, Bool.and_eq_true] at h2
  have := hno u (u + 1) u (Nat.le_refl _) (by omega) h1 h2.1
  have h3 : AsyncFifo.sinkReady depth (capture E depth nslots aw al x u).fifo
      (fifoIn E (capture E depth nslots aw al x u) (x u)) = true := by
    unfold AsyncFifo.sinkReady
    rw [Bool.and_eq_true, decide_eq_true_eq]
    exact this
  rw [h3] at h2
  exact absurd h2.2 (by decide)

/-- **C97** A slot that software has LOADED is filled (C87), with nothing assumed about the FIFO but
that the memory keeps up. -/
theorem C97_filled (pf depth nslots aw al B K : Nat) (hpf : 2 ≤ pf) (hB : 1 ≤ B) (x : Nat → In)
    (keeps : KeepsUp (rgb pf) depth nslots aw al x B) (lag : LagsBy (rgb pf) depth nslots aw al x K)
    (hdepth : B + (K + pf - 1) / pf < depth)
    (V : Nat → Frame.In) (N f0 f1 T0 : Nat) (hV : Video x V) (st : SteadyFrom pf N f0 V)
    (hf0 : FrameStarts V f0) (hf1 : FrameStarts V f1) (hf : f0 < f1)
    (hseen : f1 + 2 ≤ countIn (fun u => (x u).pixEdge) 0 T0)
    (hframes : ∀ c, ∃ t, c ≤ t ∧ FrameStarts V t) (alive : Alive x)
    (rest : AtRest (rgb pf) depth nslots aw al x T0)
    (hsize : ∀ t, T0 ≤ t → Dma.wordsOf aw al (x t).frame_size = N) (hN : 1 ≤ N)
    (own : SoftwareOwns (rgb pf) depth nslots aw al x T0) (none : LoadsNone x T0)
    (k : Nat) (hk : k < nslots)
    (hload : ((capture (rgb pf) depth nslots aw al x T0).dma.slots k).valid = true) :
    ∃ e b t n, T0 ≤ b ∧ Done (rgb pf) depth nslots aw al x e k ∧ f1 ≤ t ∧ FrameStarts V t ∧
      (∀ u, u < n → ¬ FrameStarts V (t + 1 + u)) ∧
      let words := (groups pf (activePixels V (t + 2) n)).take N
      words.length = N ∧ Captured (rgb pf) depth nslots aw al x b e k words :=
  C87_filled pf depth nslots aw al hpf x V N f0 f1 T0 hV st hf0 hf1 hf hseen hframes alive rest hsize hN
    own none k hk hload fun T _ =>
      (C97_no_overflow pf depth nslots aw al B K hpf hB x keeps lag hdepth).2 T0 (T + 1)

/-- **C97**, ycbcr422 mode (the default). -/
theorem C97_filled_ycbcr422 (pf depth nslots aw al B K : Nat) (hpf : 2 ≤ pf) (hB : 1 ≤ B)
    (x : Nat → In) (keeps : KeepsUp (ycbcr422 pf) depth nslots aw al x B)
    (lag : LagsBy (ycbcr422 pf) depth nslots aw al x K) (hdepth : B + (K + pf - 1) / pf < depth)
    (V : Nat → Frame.In) (N f0 f1 T0 : Nat) (hV : Video x V) (st : SteadyFrom422 pf N f0 V)
    (hf0 : FrameStarts V f0) (hf1 : FrameStarts V f1) (hf : f0 < f1)
    (hseen : f1 + 2 ≤ countIn (fun u => (x u).pixEdge) 0 T0)
    (hframes : ∀ c, ∃ t, c ≤ t ∧ FrameStarts V t) (alive : Alive x)
    (rest : AtRest (ycbcr422 pf) depth nslots aw al x T0)
    (hsize : ∀ t, T0 ≤ t → Dma.wordsOf aw al (x t).frame_size = N) (hN : 1 ≤ N)
    (own : SoftwareOwns (ycbcr422 pf) depth nslots aw al x T0) (none : LoadsNone x T0)
    (k : Nat) (hk : k < nslots)
    (hload : ((capture (ycbcr422 pf) depth nslots aw al x T0).dma.slots k).valid = true) :
    ∃ e b t n, T0 ≤ b ∧ Done (ycbcr422 pf) depth nslots aw al x e k ∧ f1 ≤ t ∧ FrameStarts V t ∧
      (∀ u, u < n → ¬ FrameStarts V (t + 1 + u)) ∧
      let words := (groups pf (activePixels422 V (t + 2) n)).take N
      words.length = N ∧ Captured (ycbcr422 pf) depth nslots aw al x b e k words :=
  C87_filled_ycbcr422 pf depth nslots aw al hpf x V N f0 f1 T0 hV st hf0 hf1 hf hseen hframes alive rest
    hsize hN own none k hk hload fun T _ =>
      (C97_no_overflow_ycbcr422 pf depth nslots aw al B K hpf hB x keeps lag hdepth).2 T0 (T + 1)

/-! ## Example -/

/-- The pixel clock has half the frequency of the system clock, the memory takes a word every other
system clock, the FIFO shows its contents three quarters of the time, and software loads slots 0 and 1
at instant 122. -/
def keepingRun (t : Nat) : In :=
  { pixEdge := t % 2 == 0, video := fourPixels422 (t / 2), wok := true, sysEdge := true
    rok := t % 4 != 0, busReady := t % 2 == 1, wdataValid := t % 2 == 1, frame_size := 4
    sw := fun n => if t = 122 ∧ n ≤ 1 then ⟨some 1, some (400 + 40 * n)⟩ else ⟨none, none⟩ }

theorem keepingRun_count (t n : Nat) : countIn (fun u => (keepingRun u).pixEdge) t n =
    (n + (t + 1) % 2) / 2 := by
  induction n with
  | zero => simp only [countIn]; omega
  | succ n ih =>
    rw [countIn, ih]
    have : (keepingRun (t + n)).pixEdge = decide ((t + n) % 2 = 0) := rfl
    rw [this]
    by_cases h : (t + n) % 2 = 0
    · simp [h]; omega
    · simp [h]; omega

theorem keepingRun_keeps : KeepsUp (ycbcr422 4) 4 2 10 2 keepingRun 1 := by
  intro t e _ h
  rw [keepingRun_count] at h
  have h' : 1 * 4 ≤ (e - t + (t + 1) % 2) / 2 := h
  refine ⟨t + t % 2, t + t % 2 + 1, t + t % 2 + 3, by omega, by omega, by omega, by omega, ⟨rfl, ?_⟩,
    ⟨rfl, ?_⟩, ⟨rfl, ?_, ?_⟩, trivial⟩
  · show ((t + t % 2) % 2 == 1) = false
    rw [beq_eq_false_iff_ne]; omega
  · show ((t + t % 2 + 1) % 4 != 0) = true
    rw [bne_iff_ne]; omega
  · show ((t + t % 2 + 3) % 4 != 0) = true
    rw [bne_iff_ne]; omega
  · show ((t + t % 2 + 3) % 2 == 1) = true
    rw [beq_iff_eq]; omega

theorem fourPixels422_steady4 : SteadyFrom422 4 1 19 fourPixels422 := by
  obtain ⟨h1, h2, h3⟩ := fourPixels422_steady
  refine ⟨h1, h2, fun t n hc ht hno hn => ?_⟩
  have h4 := fourPixels422_starts ht
  have h5 := fourPixels422_starts hn
  have h6 : n = 39 := by
    rcases Nat.lt_or_ge 39 n with h | h
    · have := hno 39 h
      rw [show t + 1 + 39 = 40 * (t / 40 + 1) + 19 by omega] at this
      exact absurd (fourPixels422_start _) this
    · omega
  subst h6
  have hc := fourPixels422_count h4
  constructor
  · rw [groups, List.length_map, List.length_range, hc]
  · rw [hc]; decide

/-- Hypotheses of C97: FIFO of four words, lag of three pixel clocks, one word per frame; slot 1 is
filled by the second frame. -/
example : KeepsUp (ycbcr422 4) 4 2 10 2 keepingRun 1 ∧ LagsBy (ycbcr422 4) 4 2 10 2 keepingRun 3 ∧
    1 + (3 + 4 - 1) / 4 < 4 ∧ Video keepingRun fourPixels422 ∧ SteadyFrom422 4 1 19 fourPixels422 ∧
    FrameStarts fourPixels422 19 ∧ FrameStarts fourPixels422 (40 * 1 + 19) ∧
    40 * 1 + 19 + 2 ≤ countIn (fun u => (keepingRun u).pixEdge) 0 123 ∧
    (∀ c, ∃ t, c ≤ t ∧ FrameStarts fourPixels422 t) ∧ Alive keepingRun ∧
    AtRest (ycbcr422 4) 4 2 10 2 keepingRun 123 ∧
    (∀ t, Dma.wordsOf 10 2 (keepingRun t).frame_size = 1) ∧
    SoftwareOwns (ycbcr422 4) 4 2 10 2 keepingRun 123 ∧ LoadsNone keepingRun 123 ∧
    ((capture (ycbcr422 4) 4 2 10 2 keepingRun 123).dma.slots 1).valid = true := by
  refine ⟨keepingRun_keeps, fun t h => ?_, by decide, fun t h => ?_, fourPixels422_steady4,
    fourPixels422_start 0, fourPixels422_start 1, by rw [keepingRun_count]; decide, liveRun_frames, ⟨fun T => ?_, fun T => ?_,
    fun T => ?_⟩, by unfold AtRest; decide +kernel, fun t => by simp [Dma.wordsOf, keepingRun],
    fun t n ht _ _ => ?_, fun t n v ht _ hv => ?_, by decide +kernel⟩
  · exact absurd h (by simp [keepingRun])
  · rw [keepingRun_count]
    have h' : (t % 2 == 0) = true := h
    rw [beq_iff_eq] at h'
    show fourPixels422 (t / 2) = _
    congr 1
    omega
  · exact ⟨2 * T, by omega, by show (2 * T % 2 == 0) = true; rw [beq_iff_eq]; omega⟩
  · exact ⟨4 * T + 1, by omega, rfl, by show ((4 * T + 1) % 4 != 0) = true; rw [bne_iff_ne]; omega,
      by show ((4 * T + 1) % 2 == 1) = true; rw [beq_iff_eq]; omega⟩
  · exact ⟨2 * T, by omega, rfl, by show (2 * T % 2 == 1) = false; rw [beq_eq_false_iff_ne]; omega⟩
  · have : ¬ (t = 122 ∧ n ≤ 1) := by omega
    simp [keepingRun, this]
  · have : ¬ (t = 122 ∧ n ≤ 1) := by omega
    simp [keepingRun, this] at hv

end Verif.Props
