import Verif.Proofs.CaptureCdc
import Verif.Props.Bandwidth

/-!
# C100: the asynchronous FIFO circuit is a queue
-/

namespace Verif.Props

open Verif.GrayFifo Verif.Spec.Stream

/-- **C100** The circuit behaves as a queue of depth `2 ^ n`, whatever the relation of the two clocks and
whichever of the changing bits the synchronisers take: it accepts a word only if the queue has room, it
offers a word only if the queue has one, and the word that it offers is the head of the queue.  `Settled`
holds after reset; the content of the memory does not matter. -/
theorem C100_queue {α : Type} (n : Nat) (hn : 1 ≤ n) (s0 : GrayFifo.State n α) (h0 : Settled s0)
    (x : Nat → GrayFifo.In n α) (hr : ∀ t, (x t).writeRst = false) (t : Nat) :
    writable (fifo s0 x t) = AsyncFifo.sinkReady (2 ^ n) (queue s0 x t) (queueIn s0 x t) ∧
    readable (fifo s0 x t) = AsyncFifo.sourceValid (queue s0 x t) (queueIn s0 x t) ∧
    (readable (fifo s0 x t) = true → (queue s0 x t).head? = some (fifo s0 x t).dout) ∧
    (queue s0 x t).length ≤ 2 ^ n := by
  obtain ⟨v0, v1, u0, u1, h⟩ := inv_all hn h0 hr t
  refine ⟨(h.sink hn).symm, h.source.symm, fun hread => h.head (h.readable_iff.1 hread), ?_⟩
  have h1 := h.room
  have h2 := h.length
  have h3 := h.lle1
  omega

/-- **C100** The circuit refuses a word only if the queue would be full were nothing taken from it since
some instant `v`, at most two write clocks ago; so there is room two write clocks after it was made. -/
theorem C100_refuses {α : Type} (n : Nat) (hn : 1 ≤ n) (s0 : GrayFifo.State n α) (h0 : Settled s0)
    (x : Nat → GrayFifo.In n α) (hr : ∀ t, (x t).writeRst = false) (t : Nat)
    (hw : writable (fifo s0 x t) = false) :
    ∃ v, v ≤ t ∧ countIn (fun u => (x u).writeEdge) v (t - v) ≤ 2 ∧
      2 ^ n ≤ (queue s0 x v).length + countIn (enters s0 x) v (t - v) := by
  obtain ⟨v0, v1, u0, u1, h⟩ := inv_all hn h0 hr t
  have hu := Nat.le_trans h.u10 h.u0t
  obtain ⟨_, _, _, _, h'⟩ := inv_all hn h0 hr u1
  refine ⟨u1, hu, h.wedge1, ?_⟩
  have h1 : ¬ entered s0 x t < left s0 x u1 + 2 ^ n := fun hlt => by
    rw [(h.writable_iff hn).2 hlt] at hw
    exact absurd hw (by decide)
  have h2 := h'.length
  have h3 := count_from (enters s0 x) hu
  unfold entered at h1 h2
  omega

/-- **C100** The circuit hides a word only if it came at most two read clocks ago: if it shows nothing,
all that the queue holds has entered since some instant `v`, at most two read clocks ago. -/
theorem C100_hides {α : Type} (n : Nat) (hn : 1 ≤ n) (s0 : GrayFifo.State n α) (h0 : Settled s0)
    (x : Nat → GrayFifo.In n α) (hr : ∀ t, (x t).writeRst = false) (t : Nat)
    (hw : readable (fifo s0 x t) = false) :
    ∃ v, v ≤ t ∧ countIn (fun u => (x u).readEdge) v (t - v) ≤ 2 ∧
      (queue s0 x t).length ≤ countIn (enters s0 x) v (t - v) := by
  obtain ⟨v0, v1, u0, u1, h⟩ := inv_all hn h0 hr t
  have hu := Nat.le_trans h.v10 h.v0t
  refine ⟨v1, hu, h.edge1, ?_⟩
  have h1 : ¬ left s0 x t < entered s0 x v1 := fun hlt => by
    rw [h.readable_iff.2 hlt] at hw
    exact absurd hw (by decide)
  have h2 := h.length
  have h3 := count_from (enters s0 x) hu
  unfold entered at h1 h2
  omega

/-- **C100** The flags do not flicker: a word that is offered stays offered, and the same, until it is
taken, and room that is offered stays offered until it is used. -/
theorem C100_stable {α : Type} (n : Nat) (hn : 1 ≤ n) (s0 : GrayFifo.State n α) (h0 : Settled s0)
    (x : Nat → GrayFifo.In n α) (hr : ∀ t, (x t).writeRst = false) (t : Nat) :
    (readable (fifo s0 x t) = true → ((x t).readEdge && (x t).re) = false →
      readable (fifo s0 x (t + 1)) = true ∧ (fifo s0 x (t + 1)).dout = (fifo s0 x t).dout) ∧
    (writable (fifo s0 x t) = true → ((x t).writeEdge && (x t).we) = false →
      writable (fifo s0 x (t + 1)) = true) := by
  constructor
  · intro h hno
    have hl : leaves s0 x t = false := by
      unfold leaves; rw [hno]; rfl
    have h' := readable_stays hn h0 hr t h hl
    refine ⟨h', ?_⟩
    have a := (C100_queue n hn s0 h0 x hr t).2.2.1 h
    have b := (C100_queue n hn s0 h0 x hr (t + 1)).2.2.1 h'
    obtain ⟨_, _, _, _, i⟩ := inv_all hn h0 hr t
    rw [i.queue_succ hn, hl, if_neg (by simp), List.head?_append, a] at b
    simpa using b.symm
  · intro h hno
    refine writable_stays hn h0 hr t h ?_
    unfold enters; rw [hno]; rfl

/-! ## The capture path -/

open Verif.Capture Verif.Spec.Capture Verif.Spec.CaptureCdc

/-- **C100** The capture path with the circuit is the capture path with the queue, for the flags that the
circuit shows: the frame extraction and the DMA are in the same states and the same is written to memory.
And those flags lag by at most two pixel clocks.  So what is proved about the capture path with the queue
holds for the one with the circuit. -/
theorem C100_capture {σ : Type} {w : Nat} (E : Extractor σ w) (n nslots aw al : Nat) (hn : 1 ≤ n)
    (f0 : GrayFifo.State n (Word w)) (h0 : Settled f0) (x : Nat → CaptureCdc.In n w)
    (hr : ∀ t, (x t).pixRst = false) :
    (∀ t, (circuit E nslots aw al f0 x t).frame =
        (capture E (2 ^ n) nslots aw al (asQueue E nslots aw al f0 x) t).frame ∧
      (circuit E nslots aw al f0 x t).dma =
        (capture E (2 ^ n) nslots aw al (asQueue E nslots aw al f0 x) t).dma) ∧
    (∀ t m, Spec.CaptureCdc.memWrites E nslots aw al f0 x t m =
      Spec.Capture.memWrites E (2 ^ n) nslots aw al (asQueue E nslots aw al f0 x) t m) ∧
    LagsBy E (2 ^ n) nslots aw al (asQueue E nslots aw al f0 x) 2 := by
  have hsim := fun t => CaptureCdc.simulate (E := E) (nslots := nslots) (aw := aw) (al := al) hn h0 hr t
  have hq := C100_queue n hn f0 h0 (CaptureCdc.fifoAt E nslots aw al f0 x) hr
  refine ⟨fun t => ⟨(hsim t).1, (hsim t).2.1⟩, CaptureCdc.writes_eq hn h0 hr, ?_⟩
  intro t ht
  have ht : writable (circuit E nslots aw al f0 x t).fifo = false := ht
  rw [CaptureCdc.fifo_eq] at ht
  obtain ⟨v, h1, h2, h3⟩ := C100_refuses n hn f0 h0 (CaptureCdc.fifoAt E nslots aw al f0 x) hr t ht
  refine ⟨v, h1, h2, ?_⟩
  rw [(hsim v).2.2]
  have : writesWord E (2 ^ n) nslots aw al (asQueue E nslots aw al f0 x) =
      enters f0 (CaptureCdc.fifoAt E nslots aw al f0 x) := by
    funext u
    unfold writesWord enters
    rw [(hsim u).2.2]
    have e1 : AsyncFifo.sinkReady (2 ^ n) (queue f0 (CaptureCdc.fifoAt E nslots aw al f0 x) u)
        (fifoIn E (capture E (2 ^ n) nslots aw al (asQueue E nslots aw al f0 x) u)
          (asQueue E nslots aw al f0 x u)) =
        writable (fifo f0 (CaptureCdc.fifoAt E nslots aw al f0 x) u) := by
      rw [(hq u).1]
      unfold AsyncFifo.sinkReady
      congr 1
      show writable (circuit E nslots aw al f0 x u).fifo = _
      rw [CaptureCdc.fifo_eq]; rfl
    rw [e1, Bool.and_comm]
    congr 1
    show ((x u).pixEdge && offers E _) = ((x u).pixEdge && offers E _)
    rw [← (hsim u).1]
  rw [this]
  exact h3

/-- **C100** If the memory keeps up with the pixels over any `B` words and the FIFO is deep enough, the
circuit never refuses a captured word. -/
theorem C100_no_overflow (pf n nslots aw al B : Nat) (hpf : 2 ≤ pf) (hn : 1 ≤ n) (hB : 1 ≤ B)
    (f0 : GrayFifo.State n (Word 32)) (h0 : Settled f0) (x : Nat → CaptureCdc.In n 32)
    (hr : ∀ t, (x t).pixRst = false)
    (keeps : KeepsUp (rgb pf) (2 ^ n) nslots aw al (asQueue (rgb pf) nslots aw al f0 x) B)
    (hdepth : B + (pf + 1) / pf < 2 ^ n) (t : Nat) (ht : (x t).pixEdge = true)
    (hoff : offers (rgb pf) (circuit (rgb pf) nslots aw al f0 x t).frame = true) :
    writable (circuit (rgb pf) nslots aw al f0 x t).fifo = true := by
  obtain ⟨h1, -, h3⟩ := C100_capture (rgb pf) n nslots aw al hn f0 h0 x hr
  have := (C97_no_overflow pf (2 ^ n) nslots aw al B 2 hpf hB _ keeps h3
    (by rw [show 2 + pf - 1 = pf + 1 by omega]; exact hdepth)).2 t (t + 1) t (Nat.le_refl _) (by omega) ht
    (by rw [← (h1 t).1]; exact hoff)
  exact this.1

/-- **C100**, ycbcr422 mode (the default). -/
theorem C100_no_overflow_ycbcr422 (pf n nslots aw al B : Nat) (hpf : 2 ≤ pf) (hn : 1 ≤ n) (hB : 1 ≤ B)
    (f0 : GrayFifo.State n (Word 16)) (h0 : Settled f0) (x : Nat → CaptureCdc.In n 16)
    (hr : ∀ t, (x t).pixRst = false)
    (keeps : KeepsUp (ycbcr422 pf) (2 ^ n) nslots aw al (asQueue (ycbcr422 pf) nslots aw al f0 x) B)
    (hdepth : B + (pf + 1) / pf < 2 ^ n) (t : Nat) (ht : (x t).pixEdge = true)
    (hoff : offers (ycbcr422 pf) (circuit (ycbcr422 pf) nslots aw al f0 x t).frame = true) :
    writable (circuit (ycbcr422 pf) nslots aw al f0 x t).fifo = true := by
  obtain ⟨h1, -, h3⟩ := C100_capture (ycbcr422 pf) n nslots aw al hn f0 h0 x hr
  have := (C97_no_overflow_ycbcr422 pf (2 ^ n) nslots aw al B 2 hpf hB _ keeps h3
    (by rw [show 2 + pf - 1 = pf + 1 by omega]; exact hdepth)).2 t (t + 1) t (Nat.le_refl _) (by omega) ht
    (by rw [← (h1 t).1]; exact hoff)
  exact this.1

/-! ## Examples -/

/-- The write clock has an edge at every instant and a word is offered at each, the read clock has an edge
at every third instant; the synchronisers now take the old bits and now the new ones. -/
def crossingRun (t : Nat) : GrayFifo.In 2 Nat :=
  { writeEdge := true, we := true, din := 10 + t, writeRst := false, readEdge := t % 3 == 0
    re := decide (7 < t), rOld := BitVec.ofNat 3 t, wOld := BitVec.ofNat 3 (5 * t), clash := 0 }

/-- In this run the circuit is full at instant 4, offers its first word at instant 4, and later offers the
next one and has room again. -/
example : Settled (GrayFifo.reset 2 0) ∧ (∀ t, (crossingRun t).writeRst = false) ∧
    writable (fifo (GrayFifo.reset 2 0) crossingRun 4) = false ∧
    readable (fifo (GrayFifo.reset 2 0) crossingRun 4) = true ∧
    (fifo (GrayFifo.reset 2 0) crossingRun 4).dout = 10 ∧
    queue (GrayFifo.reset 2 0) crossingRun 4 = [10, 11, 12, 13] ∧
    (fifo (GrayFifo.reset 2 0) crossingRun 10).dout = 11 ∧
    writable (fifo (GrayFifo.reset 2 0) crossingRun 12) = true ∧
    readable (fifo (GrayFifo.reset 2 0) crossingRun 0) = false := by
  refine ⟨⟨rfl, by decide, by decide⟩, fun _ => rfl, ?_⟩
  decide +kernel

/-- One frame of two pixels, two pixels a word, one pixel clock in eight system clocks; no slot is
loaded, so the DMA drops the word. -/
def shortFrame (t : Nat) : CaptureCdc.In 2 32 :=
  { pixEdge := t % 8 == 0, pixRst := false
    video := ⟨true, t == 8, t == 24 || t == 32, 1, 2, 3⟩
    sysEdge := true, busReady := true, wdataValid := false, frame_size := 8
    sw := fun _ => ⟨none, none⟩, rOld := 0, wOld := 0, clash := (false, []) }

theorem short_blank (u : Nat) (hu : 41 ≤ u) :
    offers (rgb 2) (circuit (rgb 2) 2 10 2 (GrayFifo.reset 2 (false, [])) shortFrame u).frame = false := by
  induction u, hu using Nat.le_induction with
  | base => decide +kernel
  | succ u hu ih =>
    show offers (rgb 2) (if (shortFrame u).pixEdge then _ else _) = false
    split
    · have h1 : (u == 8) = false := by simp; omega
      have h2 : (u == 24) = false := by simp; omega
      have h3 : (u == 32) = false := by simp; omega
      have hv : (shortFrame u).video = ⟨true, false, false, 1, 2, 3⟩ := by
        simp only [shortFrame, h1, h2, h3]; rfl
      rw [hv]
      rfl
    · exact ih

theorem short_idle (u : Nat) (hu : 48 ≤ u) : (capture (rgb 2) 4 2 10 2
    (asQueue (rgb 2) 2 10 2 (GrayFifo.reset 2 (false, [])) shortFrame) u).fifo = [] := by
  have hn : 1 ≤ 2 := by decide
  have h0 : Settled (GrayFifo.reset 2 ((false, []) : Word 32)) := ⟨rfl, by decide, by decide⟩
  have hsame := (C100_capture (rgb 2) 2 2 10 2 hn _ h0 shortFrame (fun _ => rfl)).1
  induction u, hu using Nat.le_induction with
  | base => decide +kernel
  | succ u hu ih =>
    have h1 : (fifoIn (rgb 2) (capture (rgb 2) 4 2 10 2
        (asQueue (rgb 2) 2 10 2 (GrayFifo.reset 2 (false, [])) shortFrame) u)
        (asQueue (rgb 2) 2 10 2 (GrayFifo.reset 2 (false, [])) shortFrame u)).push = false := by
      show (_ && offers (rgb 2) (capture (rgb 2) (2 ^ 2) 2 10 2 _ u).frame) = false
      rw [← (hsame u).1, short_blank u (by omega), Bool.and_false]
    show AsyncFifo.step 4 (capture (rgb 2) 4 2 10 2 _ u).fifo _ = []
    rw [ih]
    unfold AsyncFifo.step
    rw [h1]
    simp

/-- This run meets the hypotheses of `C100_no_overflow` with `B = 1`, and a word does pass. -/
example : Settled (GrayFifo.reset 2 ((false, []) : Word 32)) ∧
    KeepsUp (rgb 2) (2 ^ 2) 2 10 2 (asQueue (rgb 2) 2 10 2 (GrayFifo.reset 2 (false, [])) shortFrame) 1 ∧
    1 + (2 + 1) / 2 < 2 ^ 2 ∧
    captured (rgb 2) 2 10 2 (GrayFifo.reset 2 (false, [])) shortFrame 0 48 =
      [(true, [0x010203#32, 0x010203#32])] := by
  refine ⟨⟨rfl, by decide, by decide⟩, ?_, by decide, by decide +kernel⟩
  intro t e hne hcount
  exfalso
  have h48 : e ≤ 48 := by
    apply Nat.le_of_not_lt
    intro h
    by_cases ht : t ≤ 48
    · exact hne 48 ht h (short_idle 48 (by omega))
    · exact hne t (Nat.le_refl _) (by
        apply Nat.lt_of_not_le
        intro h2
        rw [show e - t = 0 by omega] at hcount
        exact absurd (show 2 ≤ 0 from hcount) (by decide)) (short_idle t (by omega))
  have hmid : ∀ u, u < 48 → (capture (rgb 2) (2 ^ 2) 2 10 2
      (asQueue (rgb 2) 2 10 2 (GrayFifo.reset 2 (false, [])) shortFrame) u).fifo ≠ [] →
      41 ≤ u ∧ u < 48 := by
    decide +kernel
  by_cases hte : t < e
  · have h1 := (hmid t (by omega) (hne t (Nat.le_refl _) hte)).1
    have : ∀ t, t < 48 → ∀ m, m < 8 → 41 ≤ t → t + m ≤ 48 →
        countIn (fun u => (asQueue (rgb 2) 2 10 2 (GrayFifo.reset 2 (false, [])) shortFrame u).pixEdge) t m
          ≤ 1 := by decide +kernel
    have h2 := this t (by omega) (e - t) (by omega) h1 (by omega)
    have h3 : 1 * (rgb 2).pf = 2 := rfl
    omega
  · rw [show e - t = 0 by omega] at hcount
    exact absurd (show 2 ≤ 0 from hcount) (by decide)

end Verif.Props
