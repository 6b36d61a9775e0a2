import Verif.Props.Noise
import Verif.Props.Rate

/-!
# C127: from the wire to memory, with the circuit of the FIFO and a memory that is fast enough
-/

namespace Verif.Props

open Verif.HdmiIn Verif.Spec.HdmiIn Verif.Spec.Capture Verif.Spec.Frame Verif.Spec.Stream
  Verif.Spec.Receiver Verif.Spec.Serial Verif.VideoOut Verif.Output Verif.Spec.Tmds
  Verif.Spec.Output Verif.Spec.Loop Verif.Loop Verif.Spec.CaptureCdc Verif.Spec
open Verif.Capture (rgb ycbcr422 Extractor Word Packs packs_rgb packs_ycbcr422 Moves)
open Verif.GrayFifo (writable readable Settled)

section Bridge

variable {σ : Type} {n w : Nat} {E : Extractor σ w} {nslots aw al : Nat}
  {f0 : GrayFifo.State n (Word w)} {y : Nat → HdmiCdc.In n w}

/-- The capture path inside. -/
theorem hdmiCdc_cap (t : Nat) : (Cdc.hdmiCdc E nslots aw al f0 y t).cap =
    circuit E nslots aw al f0 (Cdc.cdcIn E nslots aw al f0 y) t := by
  induction t with
  | zero => rfl
  | succ t ih =>
    show CaptureCdc.step E nslots aw al (Cdc.hdmiCdc E nslots aw al f0 y t).cap _ = _
    rw [ih]; rfl

variable (E nslots aw al f0 y) in
/-- The inputs of the HDMI input with a queue: the same, and the flags of the circuit. -/
def queueIn (t : Nat) : In :=
  { pixEdge := (y t).pixEdge, raw := (y t).raw
    wok := writable (circuit E nslots aw al f0 (Cdc.cdcIn E nslots aw al f0 y) t).fifo
    sysEdge := (y t).sysEdge
    rok := readable (circuit E nslots aw al f0 (Cdc.cdcIn E nslots aw al f0 y) t).fifo
    busReady := (y t).busReady, wdataValid := (y t).wdataValid, frame_size := (y t).frame_size
    sw := (y t).sw }

theorem queue_rx (hr : ∀ t, (y t).pixRst = false) (t : Nat) :
    (hdmiIn E (2 ^ n) nslots aw al (queueIn E nslots aw al f0 y) t).rx =
      (Cdc.hdmiCdc E nslots aw al f0 y t).rx := by
  induction t with
  | zero => rfl
  | succ t ih =>
    show (if (y t).pixEdge then Receiver.step (hdmiIn E (2 ^ n) nslots aw al _ t).rx (y t).raw else _) =
      if (y t).pixEdge then if (y t).pixRst then _ else _ else _
    rw [ih, hr t]; rfl

theorem queue_captureIn (hr : ∀ t, (y t).pixRst = false) :
    captureIn E (2 ^ n) nslots aw al (queueIn E nslots aw al f0 y) =
      asQueue E nslots aw al f0 (Cdc.cdcIn E nslots aw al f0 y) := by
  funext t
  show capIn (hdmiIn E (2 ^ n) nslots aw al (queueIn E nslots aw al f0 y) t).rx _ = _
  rw [queue_rx hr]; rfl

/-- Frames in order, of the circuit, if nothing overflows. -/
theorem circuit_inOrder {x : Nat → CaptureCdc.In n w} (hn : 1 ≤ n) (h0 : Settled f0)
    (hr : ∀ t, (x t).pixRst = false)
    (hno : ∀ T0 T, NoOverflow E (2 ^ n) nslots aw al (asQueue E nslots aw al f0 x) T0 T) {T0 : Nat}
    {frame : Nat → Nat → List (List Nat) → Prop}
    (h : InOrder E (2 ^ n) nslots aw al (asQueue E nslots aw al f0 x) T0 frame) :
    Cdc.InOrder E nslots aw al f0 x T0 frame := by
  obtain ⟨F, h1, h2⟩ := h
  refine ⟨F, fun e k he hd => ?_, fun e k e' k' he hee hd hd' => ?_⟩
  · obtain ⟨b, ws, h3, h4, h5⟩ := h1 e k he (hno _ _) ((circuit_done hn h0 hr _ _).1 hd)
    exact ⟨b, ws, h3, h4, (circuit_captured hn h0 hr _ _ _ _).2 h5⟩
  · exact h2 e k e' k' he hee (hno _ _) ((circuit_done hn h0 hr _ _).1 hd)
      ((circuit_done hn h0 hr _ _).1 hd')

end Bridge

section

variable {p : Params} {x : Nat → Phy} {m0 d0 : Nat} {film : Nat → Nat → Colour}

/-- **C127** From the wire to memory.  A transmitter sends a film in mode `p` (as in C113), with bit errors
as in C114.  The receiver has the circuit of its FIFO (`2 ^ n` words deep) and a memory that is fast enough
(as in C126).  From instant `T0` on, when the receiver has seen a few frames and its capture path is at rest,
software writes only to slots that are not LOADED.  Then the FIFO never refuses a word and software never
reads an overflow; each transfer that is done brings one picture to memory, transfers that are done later
bring later pictures, and pictures differ from those sent only in colours that have been hit; and if software
loads no slot any more then a slot that is LOADED gets its picture. -/
theorem C127_film (hp : RealMode p) (hx : Film p x m0 d0 film)
    (k : Nat → Nat) (lead bits : Nat → Nat → Bool) (herr : IsolatedErrors x k lead bits (m0 + d0))
    (hskew : ∀ i j, i < 3 → j < 3 → k i ≤ k j + 70)
    (pf n nslots aw al N B W R d : Nat) (hpf : 2 ≤ pf) (hn : 1 ≤ n) (hB : 1 ≤ B)
    (f0 : GrayFifo.State n (Word 32)) (h0 : Settled f0) (y : Nat → HdmiCdc.In n 32)
    (hr : ∀ t, (y t).pixRst = false) (hl : Cdc.LanesDeliver bits y)
    (hN : N * pf = p.vres * p.hres) (hsize : ∀ t, Dma.wordsOf aw al (y t).frame_size = N) (hBN : B ≤ N)
    (fast : FastEnough pf B W R d (fun u => (y u).pixEdge) (fun u => (y u).sysEdge)
      (fun u => (y u).busReady) (fun u => (y u).wdataValid)
      (circuitHanded (rgb pf) nslots aw al f0 (Cdc.cdcIn (rgb pf) nslots aw al f0 y)))
    (enough : R + B + d + 2 ≤ W) (hdepth : 2 * B + 1 < 2 ^ n)
    (pix : ∀ T, ∃ u, T ≤ u ∧ (y u).pixEdge = true) (T0 : Nat)
    (hseen : m0 + d0 + 4 * frameLen p + k 0 / 10 + 25 ≤ countIn (fun u => (y u).pixEdge) 0 T0) :
    let z := Cdc.cdcIn (rgb pf) nslots aw al f0 y
    Cdc.AtRest (rgb pf) nslots aw al f0 z T0 → Cdc.SoftwareOwns (rgb pf) nslots aw al f0 z T0 →
    Cdc.NeverRefuses (rgb pf) nslots aw al f0 z ∧
    (∀ re t, Cdc.overflow (rgb pf) nslots aw al f0 z re t = false) ∧
    ∃ film', OnlyHitColours p x k lead bits m0 d0 film film' ∧
      Cdc.InOrder (rgb pf) nslots aw al f0 z T0 (fun e j ws => m0 ≤ j * frameLen p ∧
        OnItsWay p (fun u => (y u).pixEdge) d0 (k 0 / 10 + 25) T0 e j ∧
        ws = groups pf ((List.range (p.vres * p.hres)).map (fun q => rgb24 (film' j q)))) ∧
      (Cdc.LoadsNone z T0 → ∀ s, s < nslots →
        ((circuit (rgb pf) nslots aw al f0 z T0).dma.slots s).valid = true →
        ∃ e, T0 ≤ e ∧ Cdc.Done (rgb pf) nslots aw al f0 z e s) := by
  intro z rest own
  have hrz : ∀ t, (z t).pixRst = false := hr
  have hno := circuit_NoOverflow (x := z) (packs_rgb hpf) (E := (rgb pf)) hn hB h0 hrz hsize hBN fast enough
    hdepth
  have hmoves := circuit_moves (x := z) (E := (rgb pf)) hn h0 hrz fast (by omega) pix
  obtain ⟨g1, g2⟩ := circuit_no_loss (x := z) (packs_rgb hpf) (E := (rgb pf)) hn hB h0 hrz hsize hBN fast
    enough hdepth
  have hq : captureIn (rgb pf) (2 ^ n) nslots aw al (queueIn (rgb pf) nslots aw al f0 y) =
    asQueue (rgb pf) nslots aw al f0 z := queue_captureIn hr
  rw [circuit_rest hn h0 hrz, ← hq] at rest
  rw [circuit_owns hn h0 hrz, ← hq] at own
  refine ⟨g1, g2, ?_⟩
  have hl' : LanesOn bits (queueIn (rgb pf) nslots aw al f0 y) := hl
  obtain ⟨F, ff⟩ := film_facts hp hx hN
  obtain ⟨V, L, hL, hV, hlat⟩ := hdmi_video_errors (E := (rgb pf)) (depth := 2 ^ n) (nslots := nslots)
    (aw := aw) (al := al) hl'
    (isolated_only_pixels (isolated_mono herr (n1 := F * frameLen p - lineLen p + d0) (by have := ff.first; omega)))
    ff.lock hskew ff.order0 ff.standard
  have hseen' : m0 + d0 + 4 * frameLen p + L + 2 ≤
      countIn (fun u => (queueIn (rgb pf) nslots aw al f0 y u).pixEdge) 0 T0 :=
    Nat.le_trans (by omega) hseen
  refine ⟨_, only_hit hp hx lead, circuit_inOrder hn h0 hrz hno ?_, fun none s hs hload => ?_⟩
  · rw [← hq]
    refine Verif.Capture.inOrder_map (fun j => j) (film_in_order hp (film_arrives hx k bits) hpf hN
      (facts_arrive ff k bits) hV hlat hseen' (fun t _ => hsize t) rest own) ?_
      fun _ _ _ _ _ _ _ _ h => h
    rintro e j ws ⟨h1, ⟨h2, h3⟩, h4⟩
    have h2' : countIn (fun u => (y u).pixEdge) 0 T0 ≤ _ := h2
    exact ⟨h1, ⟨by omega, h3⟩, h4⟩
  · rw [((C100_capture (rgb pf) n nslots aw al hn f0 h0 z hrz).1 T0).2, ← hq] at hload
    rw [← hq] at hmoves
    obtain ⟨e, b, j, h1, -, -, h2, h3⟩ := film_delivered hp (film_arrives hx k bits) hpf hN
      (facts_arrive ff k bits) hV hlat hseen' (fun t _ => hsize t) pix hmoves none hs rest own hload
      (fun T _ => by rw [hq]; exact hno T0 (T + 1))
    refine ⟨e, by have := h3.1; omega, ?_⟩
    rw [hq] at h2
    exact (circuit_done hn h0 hrz _ _).2 h2

/-- **C127**, receiver in ycbcr422 mode (the default). -/
theorem C127_film_ycbcr422 (hp : RealMode p) (hx : Film p x m0 d0 film)
    (hev : p.hres % 2 = 0) (hbl : p.hres + 10 ≤ p.hscan)
    (k : Nat → Nat) (lead bits : Nat → Nat → Bool) (herr : IsolatedErrors x k lead bits (m0 + d0))
    (hskew : ∀ i j, i < 3 → j < 3 → k i ≤ k j + 70)
    (pf n nslots aw al N B W R d : Nat) (hpf : 2 ≤ pf) (hn : 1 ≤ n) (hB : 1 ≤ B)
    (f0 : GrayFifo.State n (Word 16)) (h0 : Settled f0) (y : Nat → HdmiCdc.In n 16)
    (hr : ∀ t, (y t).pixRst = false) (hl : Cdc.LanesDeliver bits y)
    (hN : N * pf = p.vres * p.hres) (hsize : ∀ t, Dma.wordsOf aw al (y t).frame_size = N) (hBN : B ≤ N)
    (fast : FastEnough pf B W R d (fun u => (y u).pixEdge) (fun u => (y u).sysEdge)
      (fun u => (y u).busReady) (fun u => (y u).wdataValid)
      (circuitHanded (ycbcr422 pf) nslots aw al f0 (Cdc.cdcIn (ycbcr422 pf) nslots aw al f0 y)))
    (enough : R + B + d + 2 ≤ W) (hdepth : 2 * B + 1 < 2 ^ n)
    (pix : ∀ T, ∃ u, T ≤ u ∧ (y u).pixEdge = true) (T0 : Nat)
    (hseen : m0 + d0 + 4 * frameLen p + k 0 / 10 + 25 ≤ countIn (fun u => (y u).pixEdge) 0 T0) :
    let z := Cdc.cdcIn (ycbcr422 pf) nslots aw al f0 y
    Cdc.AtRest (ycbcr422 pf) nslots aw al f0 z T0 → Cdc.SoftwareOwns (ycbcr422 pf) nslots aw al f0 z T0 →
    Cdc.NeverRefuses (ycbcr422 pf) nslots aw al f0 z ∧
    (∀ re t, Cdc.overflow (ycbcr422 pf) nslots aw al f0 z re t = false) ∧
    ∃ film', OnlyHitColours p x k lead bits m0 d0 film film' ∧
      Cdc.InOrder (ycbcr422 pf) nslots aw al f0 z T0 (fun e j ws => m0 ≤ j * frameLen p ∧
        OnItsWay p (fun u => (y u).pixEdge) d0 (k 0 / 10 + 25) T0 e j ∧
        ws = groups pf ((List.range (p.vres * p.hres)).map (pic422 (film' j)))) ∧
      (Cdc.LoadsNone z T0 → ∀ s, s < nslots →
        ((circuit (ycbcr422 pf) nslots aw al f0 z T0).dma.slots s).valid = true →
        ∃ e, T0 ≤ e ∧ Cdc.Done (ycbcr422 pf) nslots aw al f0 z e s) := by
  intro z rest own
  have hrz : ∀ t, (z t).pixRst = false := hr
  have hno := circuit_NoOverflow (x := z) (packs_ycbcr422 hpf) (E := (ycbcr422 pf)) hn hB h0 hrz hsize hBN fast enough
    hdepth
  have hmoves := circuit_moves (x := z) (E := (ycbcr422 pf)) hn h0 hrz fast (by omega) pix
  obtain ⟨g1, g2⟩ := circuit_no_loss (x := z) (packs_ycbcr422 hpf) (E := (ycbcr422 pf)) hn hB h0 hrz hsize hBN fast
    enough hdepth
  have hq : captureIn (ycbcr422 pf) (2 ^ n) nslots aw al (queueIn (ycbcr422 pf) nslots aw al f0 y) =
    asQueue (ycbcr422 pf) nslots aw al f0 z := queue_captureIn hr
  rw [circuit_rest hn h0 hrz, ← hq] at rest
  rw [circuit_owns hn h0 hrz, ← hq] at own
  refine ⟨g1, g2, ?_⟩
  have hl' : LanesOn bits (queueIn (ycbcr422 pf) nslots aw al f0 y) := hl
  obtain ⟨F, ff⟩ := film_facts hp hx hN
  obtain ⟨V, L, hL, hV, hlat⟩ := hdmi_video_errors (E := (ycbcr422 pf)) (depth := 2 ^ n) (nslots := nslots)
    (aw := aw) (al := al) hl'
    (isolated_only_pixels (isolated_mono herr (n1 := F * frameLen p - lineLen p + d0) (by have := ff.first; omega)))
    ff.lock hskew ff.order0 ff.standard
  have hseen' : m0 + d0 + 4 * frameLen p + L + 2 ≤
      countIn (fun u => (queueIn (ycbcr422 pf) nslots aw al f0 y u).pixEdge) 0 T0 :=
    Nat.le_trans (by omega) hseen
  refine ⟨_, only_hit hp hx lead, circuit_inOrder hn h0 hrz hno ?_, fun none s hs hload => ?_⟩
  · rw [← hq]
    refine Verif.Capture.inOrder_map (fun j => j) (film_in_order422 hp (film_arrives hx k bits) hev hbl hpf hN
      (facts_arrive ff k bits) hV hlat hseen' (fun t _ => hsize t) rest own) ?_
      fun _ _ _ _ _ _ _ _ h => h
    rintro e j ws ⟨h1, ⟨h2, h3⟩, h4⟩
    have h2' : countIn (fun u => (y u).pixEdge) 0 T0 ≤ _ := h2
    exact ⟨h1, ⟨by omega, h3⟩, h4⟩
  · rw [((C100_capture (ycbcr422 pf) n nslots aw al hn f0 h0 z hrz).1 T0).2, ← hq] at hload
    rw [← hq] at hmoves
    obtain ⟨e, b, j, h1, -, -, h2, h3⟩ := film_delivered422 hp (film_arrives hx k bits) hev hbl hpf hN
      (facts_arrive ff k bits) hV hlat hseen' (fun t _ => hsize t) pix hmoves none hs rest own hload
      (fun T _ => by rw [hq]; exact hno T0 (T + 1))
    refine ⟨e, by have := h3.1; omega, ?_⟩
    rw [hq] at h2
    exact (circuit_done hn h0 hrz _ _).2 h2

end

/-! ### A concrete case -/

section

variable {σ : Type} {w : Nat}

/-- Eight system clocks per pixel clock; the memory refuses every third word, the synchronisers take now old
bits and now new ones, and software loads slot 1 at instant 3998. -/
def slowRun (raw : Nat → Receiver.In) (t : Nat) : HdmiCdc.In 4 w :=
  { pixEdge := t % 8 == 1, pixRst := false, raw := raw t
    sysEdge := true, busReady := t % 3 != 0, wdataValid := t % 4 != 0, frame_size := 16
    sw := fun n => if t = 3998 ∧ n = 1 then ⟨some 1, some 400⟩ else ⟨none, none⟩
    rOld := BitVec.ofNat 5 t, wOld := BitVec.ofNat 5 (3 * t), clash := (false, []) }

variable (raw : Nat → Receiver.In)

theorem slow_count (t n : Nat) : countIn (fun u => (slowRun (w := w) raw u).pixEdge) t n =
    (n + (t + 6) % 8) / 8 := by
  induction n with
  | zero => simp only [countIn]; omega
  | succ n ih =>
    rw [countIn, ih]
    have : (slowRun (w := w) raw (t + n)).pixEdge = decide ((t + n) % 8 = 1) := rfl
    rw [this]
    by_cases h : (t + n) % 8 = 1
    · simp [h]; omega
    · simp [h]; omega

theorem slow_sys (t n : Nat) : countIn (fun u => (slowRun (w := w) raw u).sysEdge) t n = n := by
  induction n with
  | zero => rfl
  | succ n ih => rw [countIn, ih]; rfl

theorem slow_refused (t n : Nat) :
    countIn (fun u => (slowRun (w := w) raw u).sysEdge && !(slowRun (w := w) raw u).busReady) t n =
    (n + (t + 2) % 3) / 3 := fastRun_refused t n

theorem slow_fast (handed : Nat → Bool) : FastEnough 4 1 25 9 3 (fun u => (slowRun (w := w) raw u).pixEdge)
    (fun u => (slowRun (w := w) raw u).sysEdge) (fun u => (slowRun (w := w) raw u).busReady)
    (fun u => (slowRun (w := w) raw u).wdataValid) handed := by
  refine ⟨fun t m h => ?_, fun t m h => ?_, fun t m h => ?_⟩
  · rw [slow_count] at h; rw [slow_sys]; omega
  · rw [slow_sys] at h; rw [slow_refused]; omega
  · rw [slow_sys]
    by_contra hm
    have h1 := (h ((t + 3) / 4 * 4) (by omega) (by omega) rfl).1
    simp only [slowRun, bne_iff_ne, ne_eq] at h1
    omega

variable (E : Extractor σ w)

local notation "f00" => GrayFifo.reset 4 ((false, []) : Word w)
local notation "zz" => Cdc.cdcIn E 2 10 2 f00 (slowRun raw)
local notation "qq" => asQueue E 2 10 2 f00 zz

theorem slow_settled : Settled f00 := by
  refine ⟨rfl, ?_, ?_⟩ <;> simp [GrayFifo.reset, GrayFifo.gray, Status.Multi.reset]

theorem step_length_le {α : Type} (depth : Nat) (q : List α) (i : AsyncFifo.In α) :
    (AsyncFifo.step depth q i).length ≤ q.length + 1 := by
  unfold AsyncFifo.step
  split <;> split <;> simp; omega

/-- Until the slot is loaded the DMA throws away all words as soon as it sees them. -/
theorem slow_idle (t : Nat) (ht : t ≤ 3998) :
    let s := capture E 16 2 10 2 qq t
    s.dma.fsm = .waitSof ∧ (∀ n, (s.dma.slots n).valid = false) ∧ s.fifo.length ≤ 1 ∧
      (t % 8 ≠ 2 → t % 8 ≠ 3 → t % 8 ≠ 4 → s.fifo = []) := by
  induction t with
  | zero => exact ⟨rfl, fun _ => (by decide : (Dma.Slot.mk 0 0).valid = false), Nat.zero_le _, fun _ _ _ => rfl⟩
  | succ t ih =>
    obtain ⟨h1, h2, h3, h4⟩ := ih (by omega)
    have hav : Dma.addressValid (capture E 16 2 10 2 qq t).dma = false := h2 _
    refine ⟨?_, fun n => ?_, ?_⟩
    · show (Dma.step 2 10 2 _ _).fsm = _
      simp only [Dma.step, h1, hav]; rfl
    · show ((Dma.step 2 10 2 _ _).slots n).valid = _
      have : ¬ (t = 3998 ∧ n = 1) := by omega
      have hsw : (Capture.dmaIn (capture E 16 2 10 2 qq t) (qq t)).sw n = ⟨none, none⟩ := by
        simp [Capture.dmaIn, asQueue, Cdc.cdcIn, HdmiCdc.capIn, slowRun, this]
      simp only [Dma.step, Dma.addressDone, h1, hsw, Dma.Slot.step, Dma.Slot.valid]
      exact h2 n
    · have hpop : (Capture.fifoIn E (capture E 16 2 10 2 qq t) (qq t)).pop = true := by
        simp only [Capture.fifoIn, Dma.frameReady, h1, hav]; rfl
      have hpush : t % 8 ≠ 1 → (Capture.fifoIn E (capture E 16 2 10 2 qq t) (qq t)).push = false := by
        intro h8
        have h : (qq t).pixEdge = false := by
          show (t % 8 == 1) = false
          rw [beq_eq_false_iff_ne]; omega
        simp only [Capture.fifoIn, h, Bool.false_and]
      have hpush1 : (capture E 16 2 10 2 qq (t + 1)).fifo.length ≤
          (capture E 16 2 10 2 qq t).fifo.length + 1 := step_length_le _ _ _
      by_cases h8 : t % 8 = 1
      · have := h4 (by omega) (by omega) (by omega)
        rw [this] at hpush1
        exact ⟨hpush1, fun h => absurd (by omega) h⟩
      · have hstep : (capture E 16 2 10 2 qq (t + 1)).fifo =
            if AsyncFifo.sourceValid (capture E 16 2 10 2 qq t).fifo
              (Capture.fifoIn E (capture E 16 2 10 2 qq t) (qq t))
            then (capture E 16 2 10 2 qq t).fifo.tail else (capture E 16 2 10 2 qq t).fifo := by
          show AsyncFifo.step 16 _ _ = _
          unfold AsyncFifo.step
          rw [hpop, hpush h8, Bool.and_true, Bool.and_false]; rfl
        rw [hstep]
        refine ⟨by split
                <;> [(rw [List.length_tail]; omega); exact h3], fun a1 a2 a3 => ?_⟩
        by_cases h9 : t % 8 = 4
        · by_cases hrok : (qq t).rok = true
          · have hrok : (Capture.fifoIn E (capture E 16 2 10 2 qq t) (qq t)).rok = true := hrok
            rw [AsyncFifo.sourceValid, hrok]
            revert h3
            generalize (capture E 16 2 10 2 qq t).fifo = q
            intro h3
            match q, h3 with
            | [], _ => rfl
            | [_], _ => rfl
            | _ :: _ :: _, h => simp at h
          · rw [Bool.not_eq_true] at hrok
            obtain ⟨v, hv1, hv2, hv3⟩ := circuit_hides (E := E) (x := zz) (nslots := 2) (aw := 10) (al := 2)
              (by omega) slow_settled (fun _ => rfl) t hrok
            have hv2 : countIn (fun u => (slowRun (w := w) raw u).sysEdge) v (t - v) ≤ 2 := hv2
            rw [slow_sys] at hv2
            have hz : countIn (writesWord E (2 ^ 4) 2 10 2 qq) v (t - v) ≤
                countIn (fun u => (slowRun (w := w) raw u).pixEdge) v (t - v) := by
              refine Verif.Capture.count_le (fun u hu => ?_) _ _
              unfold writesWord at hu
              simp only [Capture.fifoIn, Bool.and_eq_true] at hu
              exact hu.2.1
            have hm : (t - v + (v + 6) % 8) / 8 = 0 := by
              obtain ⟨m, rfl⟩ : ∃ m, t = v + m := ⟨t - v, by omega⟩
              rw [Nat.add_sub_cancel_left] at hv2 ⊢
              omega
            rw [slow_count, hm] at hz
            have hl0 : (capture E 16 2 10 2 qq t).fifo.length = 0 := by
              exact Nat.le_zero.1 (Nat.le_trans hv3 hz)
            have := List.eq_nil_of_length_eq_zero hl0
            rw [this]; simp
        · rw [h4 (by omega) (by omega) (by omega)]; simp

theorem slow_loads (t : Nat) (ht : t = 3998) : Cdc.AtRest E 2 10 2 f00 zz (t + 1) ∧
    ((circuit E 2 10 2 f00 zz (t + 1)).dma.slots 1).valid = true := by
  obtain ⟨h1, h2, -, h4⟩ := slow_idle raw E t (by omega)
  have hav : Dma.addressValid (capture E 16 2 10 2 qq t).dma = false := h2 _
  have hr : ∀ t, (zz t).pixRst = false := fun _ => rfl
  rw [circuit_rest (by omega) slow_settled hr,
    ((C100_capture E 4 2 10 2 (by omega) f00 slow_settled zz hr).1 (t + 1)).2]
  refine ⟨⟨?_, ?_⟩, by subst ht; exact (by decide : (Dma.Slot.mk 1 400).valid = true)⟩
  · show AsyncFifo.step 16 (capture E 16 2 10 2 qq t).fifo
      (Capture.fifoIn E (capture E 16 2 10 2 qq t) (qq t)) = _
    have hpush : (Capture.fifoIn E (capture E 16 2 10 2 qq t) (qq t)).push = false := by subst ht; rfl
    rw [h4 (by omega) (by omega) (by omega), AsyncFifo.step, hpush, Bool.and_false]
    simp
  · show (Dma.step 2 10 2 (capture E 16 2 10 2 qq t).dma
      (Capture.dmaIn (capture E 16 2 10 2 qq t) (qq t))).fsm = _
    simp only [Dma.step, h1, hav]; rfl

/-- In this run the capture path is at rest and slot 1 is LOADED at instant 3999. -/
theorem slow_loaded : Cdc.AtRest E 2 10 2 f00 zz 3999 ∧
    ((circuit E 2 10 2 f00 zz 3999).dma.slots 1).valid = true := slow_loads raw E 3998 rfl

theorem slow_owns : Cdc.SoftwareOwns E 2 10 2 f00 zz 3999 := by
  intro t n ht _ _
  have : ¬ (t = 3998 ∧ n = 1) := by omega
  simp [Cdc.cdcIn, HdmiCdc.capIn, slowRun, this]

theorem slow_none : Cdc.LoadsNone zz 3999 := by
  intro t n v ht _ hv
  have : ¬ (t = 3998 ∧ n = 1) := by omega
  simp [Cdc.cdcIn, HdmiCdc.capIn, slowRun, this] at hv

end

/-- The lanes of the example of C114. -/
def slowRaw (t : Nat) : Receiver.In :=
  ⟨deserialised (noisyBits 0) (t / 8), deserialised (noisyBits 1) (t / 8),
    deserialised (noisyBits 2) (t / 8)⟩

theorem slow_lanes {w : Nat} : Cdc.LanesDeliver noisyBits (slowRun (w := w) slowRaw) := by
  intro t ht
  have ht : (t % 8 == 1) = true := ht
  rw [beq_iff_eq] at ht
  show Receiver.In.mk (deserialised (noisyBits 0) (t / 8)) (deserialised (noisyBits 1) (t / 8))
    (deserialised (noisyBits 2) (t / 8)) = _
  rw [slow_count, show (t + (0 + 6) % 8) / 8 = t / 8 by omega]

/-- All hypotheses of C127 (those about the film and its errors are met as in the example of C114); both
modes. -/
example : 4 * 4 = loopMode.vres * loopMode.hres ∧ loopMode.hres % 2 = 0 ∧
    loopMode.hres + 10 ≤ loopMode.hscan ∧
    0 + 0 + 4 * frameLen loopMode + (7 * 0 + 18) / 10 + 25 ≤
      countIn (fun u => (slowRun (w := 32) slowRaw u).pixEdge) 0 3999 ∧
    9 + 1 + 3 + 2 ≤ 25 ∧ 2 * 1 + 1 < 2 ^ 4 ∧
    (∀ T, ∃ u, T ≤ u ∧ (slowRun (w := 32) slowRaw u).pixEdge = true) ∧
    (let f0 := GrayFifo.reset 4 ((false, []) : Word 32)
    let y := slowRun (w := 32) slowRaw
    let z := Cdc.cdcIn (rgb 4) 2 10 2 f0 y
    Settled f0 ∧ Cdc.LanesDeliver noisyBits y ∧ (∀ t, Dma.wordsOf 10 2 (y t).frame_size = 4) ∧
    FastEnough 4 1 25 9 3 (fun u => (y u).pixEdge) (fun u => (y u).sysEdge)
      (fun u => (y u).busReady) (fun u => (y u).wdataValid) (circuitHanded (rgb 4) 2 10 2 f0 z) ∧
    Cdc.AtRest (rgb 4) 2 10 2 f0 z 3999 ∧ Cdc.SoftwareOwns (rgb 4) 2 10 2 f0 z 3999 ∧
    Cdc.LoadsNone z 3999 ∧ ((circuit (rgb 4) 2 10 2 f0 z 3999).dma.slots 1).valid = true) ∧
    let f0 := GrayFifo.reset 4 ((false, []) : Word 16)
    let y := slowRun (w := 16) slowRaw
    let z := Cdc.cdcIn (ycbcr422 4) 2 10 2 f0 y
    Settled f0 ∧ Cdc.LanesDeliver noisyBits y ∧ (∀ t, Dma.wordsOf 10 2 (y t).frame_size = 4) ∧
    FastEnough 4 1 25 9 3 (fun u => (y u).pixEdge) (fun u => (y u).sysEdge)
      (fun u => (y u).busReady) (fun u => (y u).wdataValid) (circuitHanded (ycbcr422 4) 2 10 2 f0 z) ∧
    Cdc.AtRest (ycbcr422 4) 2 10 2 f0 z 3999 ∧ Cdc.SoftwareOwns (ycbcr422 4) 2 10 2 f0 z 3999 ∧
    Cdc.LoadsNone z 3999 ∧ ((circuit (ycbcr422 4) 2 10 2 f0 z 3999).dma.slots 1).valid = true := by
  have a1 := slow_loaded slowRaw (rgb 4)
  have a2 := slow_loaded slowRaw (ycbcr422 4)
  have b1 := slow_owns slowRaw (rgb 4)
  have b2 := slow_owns slowRaw (ycbcr422 4)
  have c1 := slow_none slowRaw (rgb 4)
  have c2 := slow_none slowRaw (ycbcr422 4)
  refine ⟨by decide, by decide, by decide, by rw [slow_count]; decide, by decide, by decide,
    fun T => ⟨8 * T + 1, by omega, ?_⟩, ?_⟩
  · show ((8 * T + 1) % 8 == 1) = true
    rw [beq_iff_eq]; omega
  · generalize 3999 = T0 at a1 a2 b1 b2 c1 c2 ⊢
    exact ⟨⟨slow_settled, slow_lanes, fun t => by simp [Dma.wordsOf, slowRun], slow_fast _ _, a1.1, b1, c1,
        a1.2⟩,
      ⟨slow_settled, slow_lanes, fun t => by simp [Dma.wordsOf, slowRun], slow_fast _ _, a2.1, b2, c2, a2.2⟩⟩

end Verif.Props
