import Verif.Proofs.Rate
import Verif.Props.GrayFifo

/-!
# C126: a memory that is fast enough loses no capture word
-/

namespace Verif.Props

open Verif.Capture Verif.Spec.Capture Verif.Spec.Frame Verif.Spec.Stream Verif.Spec.CaptureCdc Verif.Spec
open Verif.GrayFifo (writable readable Settled enters queue fifo)

section Generic

variable {σ : Type} {n w : Nat} {E : Extractor σ w} {nslots aw al : Nat}
  {f0 : GrayFifo.State n (Word w)} {x : Nat → CaptureCdc.In n w}

/-- The read side of the circuit lags by at most two system clocks. -/
theorem circuit_hides (hn : 1 ≤ n) (h0 : Settled f0) (hr : ∀ t, (x t).pixRst = false) :
    HidesBy E (2 ^ n) nslots aw al (asQueue E nslots aw al f0 x) 2 := by
  have hsim := fun t => CaptureCdc.simulate (E := E) (nslots := nslots) (aw := aw) (al := al) hn h0 hr t
  have hq := C100_queue n hn f0 h0 (CaptureCdc.fifoAt E nslots aw al f0 x) hr
  intro t ht
  have ht : readable (circuit E nslots aw al f0 x t).fifo = false := ht
  rw [CaptureCdc.fifo_eq] at ht
  obtain ⟨v, h1, h2, h3⟩ := C100_hides n hn f0 h0 (CaptureCdc.fifoAt E nslots aw al f0 x) hr t ht
  refine ⟨v, h1, h2, ?_⟩
  rw [(hsim t).2.2]
  have : writesWord E (2 ^ n) nslots aw al (asQueue E nslots aw al f0 x) =
      enters f0 (CaptureCdc.fifoAt E nslots aw al f0 x) := by
    funext u
    unfold writesWord enters
    rw [(hsim u).2.2]
    have e1 : AsyncFifo.sinkReady (2 ^ n) (queue f0 (CaptureCdc.fifoAt E nslots aw al f0 x) u)
        (fifoIn E (capture E (2 ^ n) nslots aw al (asQueue E nslots aw al f0 x) u)
          (asQueue E nslots aw al f0 x u)) =
        writable (fifo f0 (CaptureCdc.fifoAt E nslots aw al f0 x) u) := by
      rw [(hq u).1]
      unfold AsyncFifo.sinkReady
      congr 1
      show writable (circuit E nslots aw al f0 x u).fifo = _
      rw [CaptureCdc.fifo_eq]; rfl
    rw [e1, Bool.and_comm]
    congr 1
    show ((x u).pixEdge && offers E _) = ((x u).pixEdge && offers E _)
    rw [← (hsim u).1]
  rw [this]
  exact h3

theorem circuit_handed (hn : 1 ≤ n) (h0 : Settled f0) (hr : ∀ t, (x t).pixRst = false) :
    handed E (2 ^ n) nslots aw al (asQueue E nslots aw al f0 x) =
      circuitHanded E nslots aw al f0 x := by
  funext u
  obtain ⟨v0, v1, u0, u1, hI⟩ := GrayFifo.inv_all (x := CaptureCdc.fifoAt E nslots aw al f0 x) hn h0 hr u
  obtain ⟨-, h2, h3⟩ := CaptureCdc.simulate (nslots := nslots) (aw := aw) (al := al) (E := E) hn h0 hr u
  obtain ⟨hv, hp⟩ := CaptureCdc.dma_agree hI h3
  obtain ⟨-, -, d3, -⟩ := CaptureCdc.dma_valid nslots aw al (circuit E nslots aw al f0 x u).dma
    (CaptureCdc.dmaIn (circuit E nslots aw al f0 x u) (x u))
    (Capture.dmaIn (CaptureCdc.queued E nslots aw al f0 x u) (asQueue E nslots aw al f0 x u)) hv hp
    rfl rfl rfl rfl
  show ((x u).sysEdge && _) = ((x u).sysEdge && _)
  rw [d3, h2]

variable {N B W R d : Nat}

theorem circuit_NoOverflow (hE : Packs E) (hn : 1 ≤ n) (hB : 1 ≤ B) (h0 : Settled f0)
    (hr : ∀ t, (x t).pixRst = false) (hsize : ∀ t, Dma.wordsOf aw al (x t).frame_size = N) (hBN : B ≤ N)
    (fast : FastEnough E.pf B W R d (fun u => (x u).pixEdge) (fun u => (x u).sysEdge)
      (fun u => (x u).busReady) (fun u => (x u).wdataValid) (circuitHanded E nslots aw al f0 x))
    (enough : R + B + d + 2 ≤ W) (hdepth : 2 * B + 1 < 2 ^ n) (T0 T : Nat) :
    NoOverflow E (2 ^ n) nslots aw al (asQueue E nslots aw al f0 x) T0 T := by
  refine rate_no_overflow hE hB hsize hBN ?_ enough (circuit_hides hn h0 hr) (by omega)
    (C100_capture E n nslots aw al hn f0 h0 x hr).2.2 ?_ T0 T
  · rw [circuit_handed hn h0 hr]; exact fast
  · have := hE.pf
    have h : (2 + E.pf - 1) / E.pf ≤ 1 := Nat.le_of_lt_succ ((Nat.div_lt_iff_lt_mul (by omega)).2 (by omega))
    omega

theorem circuit_moves (hn : 1 ≤ n) (h0 : Settled f0) (hr : ∀ t, (x t).pixRst = false)
    (fast : FastEnough E.pf B W R d (fun u => (x u).pixEdge) (fun u => (x u).sysEdge)
      (fun u => (x u).busReady) (fun u => (x u).wdataValid) (circuitHanded E nslots aw al f0 x))
    (enough : R < W) (pix : ∀ T, ∃ u, T ≤ u ∧ (x u).pixEdge = true) :
    Moves E (2 ^ n) nslots aw al (asQueue E nslots aw al f0 x) := by
  rw [← circuit_handed hn h0 hr] at fast
  exact rate_moves (x := asQueue E nslots aw al f0 x) fast enough (circuit_hides hn h0 hr) pix

theorem circuit_no_loss (hE : Packs E) (hn : 1 ≤ n) (hB : 1 ≤ B) (h0 : Settled f0)
    (hr : ∀ t, (x t).pixRst = false) (hsize : ∀ t, Dma.wordsOf aw al (x t).frame_size = N) (hBN : B ≤ N)
    (fast : FastEnough E.pf B W R d (fun u => (x u).pixEdge) (fun u => (x u).sysEdge)
      (fun u => (x u).busReady) (fun u => (x u).wdataValid) (circuitHanded E nslots aw al f0 x))
    (enough : R + B + d + 2 ≤ W) (hdepth : 2 * B + 1 < 2 ^ n) :
    Cdc.NeverRefuses E nslots aw al f0 x ∧ ∀ re t, Cdc.overflow E nslots aw al f0 x re t = false := by
  have key : Cdc.NeverRefuses E nslots aw al f0 x := by
    intro t ht hoff
    refine (circuit_NoOverflow hE hn hB h0 hr hsize hBN fast enough hdepth t (t + 1) t (Nat.le_refl _)
      (by omega) ht ?_).1
    rw [← ((C100_capture E n nslots aw al hn f0 h0 x hr).1 t).1]; exact hoff
  refine ⟨key, fun re t => C15_no_false_report _ t fun u _ ⟨h1, h2⟩ => ?_⟩
  rw [Bool.and_eq_true] at h2
  have h3 := h2.2
  rw [key u h1 h2.1] at h3
  exact absurd h3 (by decide)

/-! ### The circuit in its own terms -/

theorem circuit_rest (hn : 1 ≤ n) (h0 : Settled f0) (hr : ∀ t, (x t).pixRst = false) (t : Nat) :
    Cdc.AtRest E nslots aw al f0 x t ↔ AtRest E (2 ^ n) nslots aw al (asQueue E nslots aw al f0 x) t := by
  obtain ⟨v0, v1, u0, u1, h⟩ := GrayFifo.inv_all (x := CaptureCdc.fifoAt E nslots aw al f0 x) hn h0 hr t
  obtain ⟨-, h2, h3⟩ := CaptureCdc.simulate (nslots := nslots) (aw := aw) (al := al) (E := E) hn h0 hr t
  unfold Cdc.AtRest AtRest
  rw [← h2, h3, CaptureCdc.fifo_eq, h.produce, h.consume]
  refine and_congr_left fun _ => ?_
  have hlen := h.length
  have hroom := h.room
  have hle := h.lle1
  constructor
  · intro he
    have he := congrArg BitVec.toNat he
    rw [BitVec.toNat_ofNat, BitVec.toNat_ofNat] at he
    have hp : 2 ^ (n + 1) = 2 ^ n + 2 ^ n := by rw [Nat.pow_succ]; omega
    have hpos := Nat.two_pow_pos n
    have := GrayFifo.mod_eq_cases (by omega) (by omega) he
    exact List.eq_nil_of_length_eq_zero (by omega)
  · intro he
    rw [he, List.length_nil, Nat.zero_add] at hlen
    rw [hlen]

theorem circuit_done (hn : 1 ≤ n) (h0 : Settled f0) (hr : ∀ t, (x t).pixRst = false) (e k : Nat) :
    Cdc.Done E nslots aw al f0 x e k ↔ Done E (2 ^ n) nslots aw al (asQueue E nslots aw al f0 x) e k := by
  unfold Cdc.Done Done
  rw [((C100_capture E n nslots aw al hn f0 h0 x hr).1 e).2]
  exact Iff.rfl

theorem circuit_owns (hn : 1 ≤ n) (h0 : Settled f0) (hr : ∀ t, (x t).pixRst = false) (T0 : Nat) :
    Cdc.SoftwareOwns E nslots aw al f0 x T0 ↔
      SoftwareOwns E (2 ^ n) nslots aw al (asQueue E nslots aw al f0 x) T0 := by
  unfold Cdc.SoftwareOwns SoftwareOwns
  refine forall_congr' fun t => forall_congr' fun k => ?_
  rw [((C100_capture E n nslots aw al hn f0 h0 x hr).1 t).2]
  exact Iff.rfl

theorem circuit_captured (hn : 1 ≤ n) (h0 : Settled f0) (hr : ∀ t, (x t).pixRst = false) (b e k : Nat)
    (ws : List (List Nat)) : Cdc.Captured E nslots aw al f0 x b e k ws ↔
      Captured E (2 ^ n) nslots aw al (asQueue E nslots aw al f0 x) b e k ws := by
  obtain ⟨h1, h2, -⟩ := C100_capture E n nslots aw al hn f0 h0 x hr
  unfold Cdc.Captured Captured
  rw [(h1 b).2, h2, h2]

end Generic

/-- **C126** The capture path with the circuit of its FIFO (`2 ^ n` words deep) and a memory that is fast
enough.  Suppose that while `B` words of pixels arrive there are at least `W` system clocks, that among any
`W` system clocks the memory refuses at most `R` times, that the data in transit is gone `d` system clocks
after the last word, and that `R + B + d + 2 ≤ W`.  Then the circuit never refuses a captured word, whatever
the video, the software and the synchronisers, and software never reads an overflow. -/
theorem C126_no_overflow (pf n nslots aw al N B W R d : Nat) (hpf : 2 ≤ pf) (hn : 1 ≤ n) (hB : 1 ≤ B)
    (f0 : GrayFifo.State n (Word 32)) (h0 : Settled f0) (x : Nat → CaptureCdc.In n 32)
    (hr : ∀ t, (x t).pixRst = false) (hsize : ∀ t, Dma.wordsOf aw al (x t).frame_size = N) (hBN : B ≤ N)
    (fast : FastEnough pf B W R d (fun u => (x u).pixEdge) (fun u => (x u).sysEdge)
      (fun u => (x u).busReady) (fun u => (x u).wdataValid) (circuitHanded (rgb pf) nslots aw al f0 x))
    (enough : R + B + d + 2 ≤ W) (hdepth : 2 * B + 1 < 2 ^ n) :
    Cdc.NeverRefuses (rgb pf) nslots aw al f0 x ∧ ∀ re t, Cdc.overflow (rgb pf) nslots aw al f0 x re t = false :=
  circuit_no_loss (packs_rgb hpf) (E := (rgb pf)) hn hB h0 hr hsize hBN fast enough hdepth

/-- **C126**, ycbcr422 mode (the default). -/
theorem C126_no_overflow_ycbcr422 (pf n nslots aw al N B W R d : Nat) (hpf : 2 ≤ pf) (hn : 1 ≤ n) (hB : 1 ≤ B)
    (f0 : GrayFifo.State n (Word 16)) (h0 : Settled f0) (x : Nat → CaptureCdc.In n 16)
    (hr : ∀ t, (x t).pixRst = false) (hsize : ∀ t, Dma.wordsOf aw al (x t).frame_size = N) (hBN : B ≤ N)
    (fast : FastEnough pf B W R d (fun u => (x u).pixEdge) (fun u => (x u).sysEdge)
      (fun u => (x u).busReady) (fun u => (x u).wdataValid) (circuitHanded (ycbcr422 pf) nslots aw al f0 x))
    (enough : R + B + d + 2 ≤ W) (hdepth : 2 * B + 1 < 2 ^ n) :
    Cdc.NeverRefuses (ycbcr422 pf) nslots aw al f0 x ∧ ∀ re t, Cdc.overflow (ycbcr422 pf) nslots aw al f0 x re t = false :=
  circuit_no_loss (packs_ycbcr422 hpf) (E := (ycbcr422 pf)) hn hB h0 hr hsize hBN fast enough hdepth

/-- **C126** Moreover a slot that software has LOADED is filled with the words of one frame, as in C87:
neither progress of the bus nor room in the FIFO is assumed. -/
theorem C126_filled (pf n nslots aw al N B W R d : Nat) (hpf : 2 ≤ pf) (hn : 1 ≤ n) (hB : 1 ≤ B)
    (f0 : GrayFifo.State n (Word 32)) (h0 : Settled f0) (x : Nat → CaptureCdc.In n 32)
    (hr : ∀ t, (x t).pixRst = false) (hsize : ∀ t, Dma.wordsOf aw al (x t).frame_size = N) (hBN : B ≤ N)
    (fast : FastEnough pf B W R d (fun u => (x u).pixEdge) (fun u => (x u).sysEdge)
      (fun u => (x u).busReady) (fun u => (x u).wdataValid) (circuitHanded (rgb pf) nslots aw al f0 x))
    (enough : R + B + d + 2 ≤ W) (hdepth : 2 * B + 1 < 2 ^ n)
    (V : Nat → Frame.In) (f f1 T0 : Nat)
    (hV : ∀ t, (x t).pixEdge = true → (x t).video = V (countIn (fun u => (x u).pixEdge) 0 t))
    (st : SteadyFrom pf N f V) (hf0 : FrameStarts V f) (hf1 : FrameStarts V f1) (hf : f < f1)
    (hseen : f1 + 2 ≤ countIn (fun u => (x u).pixEdge) 0 T0)
    (hframes : ∀ c, ∃ t, c ≤ t ∧ FrameStarts V t)
    (pix : ∀ T, ∃ u, T ≤ u ∧ (x u).pixEdge = true)
    (rest : Cdc.AtRest (rgb pf) nslots aw al f0 x T0)
    (own : Cdc.SoftwareOwns (rgb pf) nslots aw al f0 x T0)
    (none : Cdc.LoadsNone x T0) (k : Nat) (hk : k < nslots)
    (hload : ((circuit (rgb pf) nslots aw al f0 x T0).dma.slots k).valid = true) :
    ∃ e b t m, T0 ≤ b ∧ Cdc.Done (rgb pf) nslots aw al f0 x e k ∧
      f1 ≤ t ∧ FrameStarts V t ∧ (∀ u, u < m → ¬ FrameStarts V (t + 1 + u)) ∧
      let words := (groups pf (activePixels V (t + 2) m)).take N
      words.length = N ∧
        Cdc.Captured (rgb pf) nslots aw al f0 x b e k words := by
  rw [circuit_rest hn h0 hr] at rest
  rw [circuit_owns hn h0 hr] at own
  have hV : Video (asQueue (rgb pf) nslots aw al f0 x) V := hV
  have hno := circuit_NoOverflow (packs_rgb hpf) (E := (rgb pf)) hn hB h0 hr hsize hBN fast enough hdepth
  have hmoves := circuit_moves (E := (rgb pf)) hn h0 hr fast (by omega) pix
  rw [((C100_capture (rgb pf) n nslots aw al hn f0 h0 x hr).1 T0).2] at hload
  have hN : 1 ≤ N := by omega
  obtain ⟨e, he, hd, hfirst⟩ := progress_slot own none (fun t _ => hsize t) hN hmoves
    (sofs_at hV pix (sofs_rgb hpf hN st hframes)) rest.2 k hk hload fun T _ => hno T0 (T + 1)
  obtain ⟨b, t, m, h1, h2, h3, h4, -, h5⟩ := C83_restart pf (2 ^ n) nslots aw al hpf _ V N f f1 T0
    hV st hf0 hf1 hf hseen rest (fun t _ => hsize t) hN own e k he (hno T0 (e + 1)) hd
  exact ⟨e, b, t, m, h1, (circuit_done hn h0 hr _ _).2 hd, h2, h3, h4, h5.1, (circuit_captured hn h0 hr _ _ _ _).2 h5.2⟩

/-- **C126**, ycbcr422 mode (the default). -/
theorem C126_filled_ycbcr422 (pf n nslots aw al N B W R d : Nat) (hpf : 2 ≤ pf) (hn : 1 ≤ n) (hB : 1 ≤ B)
    (f0 : GrayFifo.State n (Word 16)) (h0 : Settled f0) (x : Nat → CaptureCdc.In n 16)
    (hr : ∀ t, (x t).pixRst = false) (hsize : ∀ t, Dma.wordsOf aw al (x t).frame_size = N) (hBN : B ≤ N)
    (fast : FastEnough pf B W R d (fun u => (x u).pixEdge) (fun u => (x u).sysEdge)
      (fun u => (x u).busReady) (fun u => (x u).wdataValid) (circuitHanded (ycbcr422 pf) nslots aw al f0 x))
    (enough : R + B + d + 2 ≤ W) (hdepth : 2 * B + 1 < 2 ^ n)
    (V : Nat → Frame.In) (f f1 T0 : Nat)
    (hV : ∀ t, (x t).pixEdge = true → (x t).video = V (countIn (fun u => (x u).pixEdge) 0 t))
    (st : SteadyFrom422 pf N f V) (hf0 : FrameStarts V f) (hf1 : FrameStarts V f1) (hf : f < f1)
    (hseen : f1 + 2 ≤ countIn (fun u => (x u).pixEdge) 0 T0)
    (hframes : ∀ c, ∃ t, c ≤ t ∧ FrameStarts V t)
    (pix : ∀ T, ∃ u, T ≤ u ∧ (x u).pixEdge = true)
    (rest : Cdc.AtRest (ycbcr422 pf) nslots aw al f0 x T0)
    (own : Cdc.SoftwareOwns (ycbcr422 pf) nslots aw al f0 x T0)
    (none : Cdc.LoadsNone x T0) (k : Nat) (hk : k < nslots)
    (hload : ((circuit (ycbcr422 pf) nslots aw al f0 x T0).dma.slots k).valid = true) :
    ∃ e b t m, T0 ≤ b ∧ Cdc.Done (ycbcr422 pf) nslots aw al f0 x e k ∧
      f1 ≤ t ∧ FrameStarts V t ∧ (∀ u, u < m → ¬ FrameStarts V (t + 1 + u)) ∧
      let words := (groups pf (activePixels422 V (t + 2) m)).take N
      words.length = N ∧
        Cdc.Captured (ycbcr422 pf) nslots aw al f0 x b e k words := by
  rw [circuit_rest hn h0 hr] at rest
  rw [circuit_owns hn h0 hr] at own
  have hV : Video (asQueue (ycbcr422 pf) nslots aw al f0 x) V := hV
  have hno := circuit_NoOverflow (packs_ycbcr422 hpf) (E := (ycbcr422 pf)) hn hB h0 hr hsize hBN fast enough hdepth
  have hmoves := circuit_moves (E := (ycbcr422 pf)) hn h0 hr fast (by omega) pix
  rw [((C100_capture (ycbcr422 pf) n nslots aw al hn f0 h0 x hr).1 T0).2] at hload
  have hN : 1 ≤ N := by omega
  obtain ⟨e, he, hd, hfirst⟩ := progress_slot own none (fun t _ => hsize t) hN hmoves
    (sofs_at hV pix (sofs_ycbcr422 hpf hN st hframes)) rest.2 k hk hload fun T _ => hno T0 (T + 1)
  obtain ⟨b, t, m, h1, h2, h3, h4, -, h5⟩ := C83_restart_ycbcr422 pf (2 ^ n) nslots aw al hpf _ V N f f1 T0
    hV st hf0 hf1 hf hseen rest (fun t _ => hsize t) hN own e k he (hno T0 (e + 1)) hd
  exact ⟨e, b, t, m, h1, (circuit_done hn h0 hr _ _).2 hd, h2, h3, h4, h5.1, (circuit_captured hn h0 hr _ _ _ _).2 h5.2⟩

/-! ## Example -/

/-- The pixel clock has half the frequency of the system clock, the memory refuses every third word, the
synchronisers take now old bits and now new ones, and software loads slots 0 and 1 at instant 122. -/
def fastRun (t : Nat) : CaptureCdc.In 2 16 :=
  { pixEdge := t % 2 == 0, pixRst := false, video := fourPixels422 (t / 2)
    sysEdge := true, busReady := t % 3 != 0, wdataValid := t % 2 == 1, frame_size := 4
    sw := fun n => if t = 122 ∧ n ≤ 1 then ⟨some 1, some (400 + 40 * n)⟩ else ⟨none, none⟩
    rOld := BitVec.ofNat 3 t, wOld := BitVec.ofNat 3 (5 * t), clash := (false, []) }

theorem fastRun_pixels (t n : Nat) : countIn (fun u => (fastRun u).pixEdge) t n = (n + (t + 1) % 2) / 2 :=
  keepingRun_count t n

theorem fastRun_refused (t n : Nat) : countIn (fun u => (fastRun u).sysEdge && !(fastRun u).busReady) t n =
    (n + (t + 2) % 3) / 3 := by
  induction n with
  | zero => simp only [countIn]; omega
  | succ n ih =>
    rw [countIn, ih]
    have : ((fastRun (t + n)).sysEdge && !(fastRun (t + n)).busReady) = decide ((t + n) % 3 = 0) := by
      show (true && !((t + n) % 3 != 0)) = _
      by_cases h : (t + n) % 3 = 0 <;> simp [h]
    rw [this]
    by_cases h : (t + n) % 3 = 0
    · simp [h]; omega
    · simp [h]; omega

theorem fastRun_fast (handed : Nat → Bool) : FastEnough 4 1 7 3 1 (fun u => (fastRun u).pixEdge)
    (fun u => (fastRun u).sysEdge) (fun u => (fastRun u).busReady) (fun u => (fastRun u).wdataValid)
    handed := by
  have hs : ∀ t m, countIn (fun u => (fastRun u).sysEdge) t m = m := by
    intro t m
    induction m with
    | zero => rfl
    | succ m ih => rw [countIn, ih]; rfl
  refine ⟨fun t m h => ?_, fun t m h => ?_, fun t m h => ?_⟩
  · rw [fastRun_pixels] at h; rw [hs]; omega
  · rw [hs] at h; rw [fastRun_refused]; omega
  · rw [hs]
    by_contra hm
    have h1 := (h t (Nat.le_refl _) (by omega) rfl).1
    have h2 := (h (t + 1) (by omega) (by omega) rfl).1
    simp only [fastRun, beq_iff_eq] at h1 h2
    omega

/-- Hypotheses of C126: FIFO of four words, one word per frame; slot 1 is filled by the second frame. -/
example : Settled (GrayFifo.reset 2 ((false, []) : Word 16)) ∧ (∀ t, (fastRun t).pixRst = false) ∧
    (∀ t, Dma.wordsOf 10 2 (fastRun t).frame_size = 1) ∧
    FastEnough 4 1 7 3 1 (fun u => (fastRun u).pixEdge) (fun u => (fastRun u).sysEdge)
      (fun u => (fastRun u).busReady) (fun u => (fastRun u).wdataValid)
      (circuitHanded (ycbcr422 4) 2 10 2 (GrayFifo.reset 2 (false, [])) fastRun) ∧
    3 + 1 + 1 + 2 ≤ 7 ∧ 2 * 1 + 1 < 2 ^ 2 ∧
    (∀ t, (fastRun t).pixEdge = true →
      (fastRun t).video = fourPixels422 (countIn (fun u => (fastRun u).pixEdge) 0 t)) ∧
    SteadyFrom422 4 1 19 fourPixels422 ∧
    FrameStarts fourPixels422 19 ∧ FrameStarts fourPixels422 (40 * 1 + 19) ∧
    40 * 1 + 19 + 2 ≤ countIn (fun u => (fastRun u).pixEdge) 0 123 ∧
    (∀ c, ∃ t, c ≤ t ∧ FrameStarts fourPixels422 t) ∧ (∀ T, ∃ u, T ≤ u ∧ (fastRun u).pixEdge = true) ∧
    Cdc.AtRest (ycbcr422 4) 2 10 2 (GrayFifo.reset 2 (false, [])) fastRun 123 ∧
    Cdc.SoftwareOwns (ycbcr422 4) 2 10 2 (GrayFifo.reset 2 (false, [])) fastRun 123 ∧
    Cdc.LoadsNone fastRun 123 ∧
    ((circuit (ycbcr422 4) 2 10 2 (GrayFifo.reset 2 (false, [])) fastRun 123).dma.slots 1).valid = true := by
  have h0 : Settled (GrayFifo.reset 2 ((false, []) : Word 16)) := ⟨rfl, by decide, by decide⟩
  refine ⟨h0, fun _ => rfl, fun t => by simp [Dma.wordsOf, fastRun], fastRun_fast _, by decide, by decide,
    fun t h => ?_, fourPixels422_steady4, fourPixels422_start 0, fourPixels422_start 1,
    by rw [fastRun_pixels]; decide, liveRun_frames, fun T => ⟨2 * T, by omega, ?_⟩, ?_,
    fun t n ht _ _ => ?_, fun t n v ht _ hv => ?_, by decide +kernel⟩
  · have h' : (t % 2 == 0) = true := h
    rw [beq_iff_eq] at h'
    show fourPixels422 (t / 2) = fourPixels422 (countIn (fun u => (fastRun u).pixEdge) 0 t)
    rw [fastRun_pixels]
    congr 1
    omega
  · show (2 * T % 2 == 0) = true; rw [beq_iff_eq]; omega
  · unfold Cdc.AtRest; decide +kernel
  · have : ¬ (t = 122 ∧ n ≤ 1) := by omega
    simp [fastRun, this]
  · have : ¬ (t = 122 ∧ n ≤ 1) := by omega
    simp [fastRun, this] at hv

end Verif.Props
