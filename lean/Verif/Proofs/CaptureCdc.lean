import Verif.Spec.CaptureCdc
import Verif.Proofs.GrayFifo

/-!
# The capture path with the circuit of its FIFO simulates the one with a queue
-/

namespace Verif.CaptureCdc

open Spec.CaptureCdc Spec.Capture Spec.Stream
open Capture (Extractor Word)

section

variable {σ : Type} {n w : Nat} (E : Extractor σ w) (nslots aw al : Nat)
  (f0 : GrayFifo.State n (Word w)) (x : Nat → In n w)

/-- What the FIFO of the circuit is given. -/
def fifoAt (t : Nat) : GrayFifo.In n (Word w) := fifoIn E (circuit E nslots aw al f0 x t) (x t)

theorem fifo_eq (t : Nat) :
    (circuit E nslots aw al f0 x t).fifo = GrayFifo.fifo f0 (fifoAt E nslots aw al f0 x) t := by
  induction t with
  | zero => rfl
  | succ t ih =>
    show GrayFifo.step _ _ = GrayFifo.step _ _
    rw [ih]; rfl

theorem dma_valid {α : Type} (s : Dma.State) (i j : Dma.In α) (h1 : i.valid = j.valid)
    (h2 : i.valid = true → i.sof = j.sof ∧ i.pixels = j.pixels) (h3 : i.busReady = j.busReady)
    (h4 : i.wdataValid = j.wdataValid) (h5 : i.frame_size = j.frame_size) (h6 : i.sw = j.sw) :
    Dma.step nslots aw al s i = Dma.step nslots aw al s j ∧
    (i.valid && Dma.frameReady s i) = (j.valid && Dma.frameReady s j) ∧
    Dma.writes s i = Dma.writes s j ∧ (Dma.writes s i = true → Dma.busWord s i = Dma.busWord s j) := by
  obtain ⟨v, sof, px, br, wv, fs, sw⟩ := i
  obtain ⟨v', sof', px', br', wv', fs', sw'⟩ := j
  simp only at h1 h2 h3 h4 h5 h6
  subst h1 h3 h4 h5 h6
  cases v
  · refine ⟨?_, rfl, rfl, ?_⟩
    · simp only [Dma.step, Dma.writes, Dma.busValid, Dma.addressDone, Bool.and_false]
      rfl
    · intro h; simp [Dma.writes, Dma.busValid] at h
  · obtain ⟨rfl, rfl⟩ := h2 rfl
    exact ⟨rfl, rfl, rfl, fun _ => rfl⟩

variable {E nslots aw al f0 x}

/-- The state with a queue. -/
abbrev queued (E : Extractor σ w) (nslots aw al : Nat) (f0 : GrayFifo.State n (Word w))
    (x : Nat → In n w) (t : Nat) : Capture.State σ w :=
  capture E (2 ^ n) nslots aw al (asQueue E nslots aw al f0 x) t

/-- The DMA of the circuit and that of the path with a queue are given the same. -/
theorem dma_agree {t v0 v1 u0 u1 : Nat}
    (hI : GrayFifo.Inv f0 (fifoAt E nslots aw al f0 x) t v0 v1 u0 u1)
    (ihq : (queued E nslots aw al f0 x t).fifo = GrayFifo.queue f0 (fifoAt E nslots aw al f0 x) t) :
    (dmaIn (circuit E nslots aw al f0 x t) (x t)).valid =
      (Capture.dmaIn (queued E nslots aw al f0 x t) (asQueue E nslots aw al f0 x t)).valid ∧
    ((dmaIn (circuit E nslots aw al f0 x t) (x t)).valid = true →
      (dmaIn (circuit E nslots aw al f0 x t) (x t)).sof =
        (Capture.dmaIn (queued E nslots aw al f0 x t) (asQueue E nslots aw al f0 x t)).sof ∧
      (dmaIn (circuit E nslots aw al f0 x t) (x t)).pixels =
        (Capture.dmaIn (queued E nslots aw al f0 x t) (asQueue E nslots aw al f0 x t)).pixels) := by
  have hfe := fifo_eq E nslots aw al f0 x t
  constructor
  · show GrayFifo.readable _ = (GrayFifo.readable (circuit E nslots aw al f0 x t).fifo && _)
    have := hI.source
    rw [AsyncFifo.sourceValid] at this
    rw [hfe, ihq]
    exact this.symm
  · intro hv
    have hv : GrayFifo.readable (circuit E nslots aw al f0 x t).fifo = true := hv
    rw [hfe] at hv
    have := hI.head (hI.readable_iff.1 hv)
    constructor
    · show (circuit E nslots aw al f0 x t).fifo.dout.1 = _
      simp only [Capture.dmaIn, ihq, this, hfe]; rfl
    · show (circuit E nslots aw al f0 x t).fifo.dout.2 = _
      simp only [Capture.dmaIn, ihq, this, hfe]; rfl

theorem simulate (hn : 1 ≤ n) (h0 : GrayFifo.Settled f0) (hr : ∀ t, (x t).pixRst = false) (t : Nat) :
    (circuit E nslots aw al f0 x t).frame = (queued E nslots aw al f0 x t).frame ∧
    (circuit E nslots aw al f0 x t).dma = (queued E nslots aw al f0 x t).dma ∧
    (queued E nslots aw al f0 x t).fifo = GrayFifo.queue f0 (fifoAt E nslots aw al f0 x) t := by
  have hinv := fun t => GrayFifo.inv_all (x := fifoAt E nslots aw al f0 x) hn h0 hr t
  induction t with
  | zero => exact ⟨rfl, rfl, rfl⟩
  | succ t ih =>
    obtain ⟨ihf, ihd, ihq⟩ := ih
    obtain ⟨v0, v1, u0, u1, hI⟩ := hinv t
    have hfe := fifo_eq E nslots aw al f0 x t
    obtain ⟨hvalid, hpay⟩ := dma_agree hI ihq
    obtain ⟨d1, d2, d3, d4⟩ := dma_valid nslots aw al (circuit E nslots aw al f0 x t).dma
      (dmaIn (circuit E nslots aw al f0 x t) (x t))
      (Capture.dmaIn (queued E nslots aw al f0 x t) (asQueue E nslots aw al f0 x t)) hvalid hpay
      rfl rfl rfl rfl
    refine ⟨?_, ?_, ?_⟩
    · show (if (x t).pixEdge then if (x t).pixRst then _ else _ else _) = (if (x t).pixEdge then _ else _)
      rw [hr t, ihf]; rfl
    · show (if (x t).sysEdge then _ else _) = (if (x t).sysEdge then _ else _)
      rw [d1, ihd]
    · show AsyncFifo.step _ (queued E nslots aw al f0 x t).fifo _ = AsyncFifo.step _ _ _
      have e : ∀ (q : List (Word w)) (i j : AsyncFifo.In (Word w)), i.push = j.push → i.data = j.data →
          i.wok = j.wok → i.rok = j.rok → (AsyncFifo.sourceValid q i && i.pop) =
            (AsyncFifo.sourceValid q j && j.pop) →
          AsyncFifo.step (2 ^ n) q i = AsyncFifo.step (2 ^ n) q j := by
        rintro q ⟨a, b, c, d, e⟩ ⟨a', b', c', d', e'⟩ h1 h2 h3 h4 h5
        simp only at h1 h2 h3 h4
        subst h1 h2 h3 h4
        simp only [AsyncFifo.step, h5]
        rfl
      rw [ihq]
      apply e
      · show ((x t).pixEdge && _) = ((x t).pixEdge && _); rw [← ihf]; rfl
      · show Capture.offered E _ = Capture.offered E _; rw [← ihf]
      · show GrayFifo.writable _ = GrayFifo.writable _; rw [hfe]
      · show GrayFifo.readable _ = GrayFifo.readable _; rw [hfe]
      · rw [hI.source]
        have hsv : AsyncFifo.sourceValid (GrayFifo.queue f0 (fifoAt E nslots aw al f0 x) t)
            (Capture.fifoIn E (queued E nslots aw al f0 x t) (asQueue E nslots aw al f0 x t)) =
            (Capture.dmaIn (queued E nslots aw al f0 x t) (asQueue E nslots aw al f0 x t)).valid := by
          rw [← ihq]; rfl
        rw [hsv]
        show (_ && ((x t).sysEdge && Dma.frameReady _ _)) =
          (_ && ((x t).sysEdge && Dma.frameReady (circuit E nslots aw al f0 x t).dma
            (dmaIn (circuit E nslots aw al f0 x t) (x t))))
        rw [← ihd, ← hfe]
        have h3 : GrayFifo.readable (circuit E nslots aw al f0 x t).fifo =
          (dmaIn (circuit E nslots aw al f0 x t) (x t)).valid := rfl
        rw [h3, Bool.and_left_comm, ← d2, Bool.and_left_comm]

/-- The same is written to memory. -/
theorem writes_eq (hn : 1 ≤ n) (h0 : GrayFifo.Settled f0) (hr : ∀ t, (x t).pixRst = false) (t m : Nat) :
    Spec.CaptureCdc.memWrites E nslots aw al f0 x t m =
      Spec.Capture.memWrites E (2 ^ n) nslots aw al (asQueue E nslots aw al f0 x) t m := by
  unfold Spec.CaptureCdc.memWrites Spec.Capture.memWrites
  induction m with
  | zero => rfl
  | succ m ih =>
    simp only [Spec.Frame.pickIn]
    rw [ih]
    obtain ⟨v0, v1, u0, u1, hI⟩ := GrayFifo.inv_all (x := fifoAt E nslots aw al f0 x) hn h0 hr (t + m)
    obtain ⟨-, h2, h3⟩ := simulate (nslots := nslots) (aw := aw) (al := al) (E := E) hn h0 hr (t + m)
    obtain ⟨hv, hp⟩ := dma_agree hI h3
    obtain ⟨-, -, d3, d4⟩ := dma_valid nslots aw al (circuit E nslots aw al f0 x (t + m)).dma
      (dmaIn (circuit E nslots aw al f0 x (t + m)) (x (t + m)))
      (Capture.dmaIn (queued E nslots aw al f0 x (t + m)) (asQueue E nslots aw al f0 x (t + m))) hv hp
      rfl rfl rfl rfl
    rw [d3] at d4
    rw [h2] at d3 d4
    have hs : (asQueue E nslots aw al f0 x (t + m)).sysEdge = (x (t + m)).sysEdge := rfl
    rw [hs, h2, d3]
    congr 1
    split
    · next hc =>
      rw [Bool.and_eq_true] at hc
      rw [d4 hc.2]
    · rfl

end

end Verif.CaptureCdc
