import Verif.Proofs.OutputSwitch

/-!
# C38-C42, C56, C57: timing generator, DMA reader and output core
-/

namespace Verif.Props

open Verif.Output Spec.Output Spec.Stream

/-- 640x480 with the usual 800x525 total; used in examples. -/
def vga : Params := ⟨640, 656, 752, 799, 480, 490, 492, 524, 0, 4 * 640 * 480⟩

theorem vga_valid : DisplayMode vga :=
  { hres := by decide, vres := by decide, hs := by decide, he := by decide, vs := by decide,
    ve := by decide, hbits := by decide, vbits := by decide, hres_pos := by decide,
    vres_pos := by decide, hsync_pos := by decide, vsync_pos := by decide }

/-- A small mode. -/
def tiny : Params := ⟨4, 4, 5, 5, 1, 1, 2, 2, 0, 4⟩

theorem tiny_valid : DisplayMode tiny :=
  { hres := by decide, vres := by decide, hs := by decide, he := by decide, vs := by decide,
    ve := by decide, hbits := by decide, vbits := by decide, hres_pos := by decide,
    vres_pos := by decide, hsync_pos := by decide, vsync_pos := by decide }

/-! ## Timing generator -/

/-- **C38** Parameters valid and constant, any ready schedule.  After `n+1` accepted clocks the
generator shows pixel `n` (numbered in scan order over all frames): data-enable, the sync pulses
and the end-of-frame mark are those of that pixel.  Before the first accepted clock all are 0. -/
theorem C38_timing (p : Params) (hp : ValidMode p) (i : Nat → Timing.In)
    (hi : ∀ t, (i t).valid = true ∧ (i t).p = p) (t : Nat) :
    let s := trace Timing.step Timing.reset i t
    let accepted := countIn (fun u => (i u).ready) 0 t
    (accepted = 0 → Timing.de s true = false ∧ s.hsync = false ∧ s.vsync = false ∧
      s.last = false) ∧
    ∀ n, accepted = n + 1 →
      Timing.de s true = isActive p n ∧ s.hsync = isHsync p n ∧ s.vsync = isVsync p n ∧
      s.last = isLast p n := by
  have h := Timing.trace_at p hp Timing.reset rfl rfl i hi t
  refine ⟨fun h0 => ?_, fun n hn => ?_⟩
  · rw [h.1 h0]; decide
  · obtain ⟨a, -, b⟩ := h.2 n hn
    have b := b rfl rfl
    exact ⟨by simp [Timing.de, a.hactive, a.vactive, isActive], b.hsync, b.vsync, a.last⟩

/-- **C38** Exactly `hres * vres` active pixels per frame. -/
theorem C38_active_count (p : Params) (hp : ValidMode p) (f : Nat) :
    countIn (isActive p) (f * frameLen p) (frameLen p) = p.hres * p.vres :=
  active_per_frame p hp f

/-- **C38** The horizontal pulse is `hsync_end - hsync_start` clocks long on every line. -/
theorem C38_hsync_count (p : Params) (hp : ValidMode p) (l : Nat) :
    countIn (isHsync p) (l * lineLen p) (lineLen p) = p.hsync_end - p.hsync_start :=
  hsync_per_line p hp l

/-- **C38** The vertical pulse lasts `vsync_end - vsync_start` whole lines per frame. -/
theorem C38_vsync_count (p : Params) (hp : ValidMode p) (f : Nat) :
    countIn (isVsync p) (f * frameLen p) (frameLen p) =
      (p.vsync_end - p.vsync_start) * lineLen p :=
  vsync_per_frame p hp f

/-- **C38** `last` marks exactly the pixels `frameLen - 1, 2 * frameLen - 1, ...`. -/
theorem C38_last (p : Params) (n : Nat) : isLast p n = true ↔ (n + 1) % frameLen p = 0 :=
  isLast_iff p n

/-- **C38** Restart: one clock with invalid parameters clears the raster, from any state.  The
data-enable and `last` are exact from the first pixel on; the sync outputs, which the hardware
does not clear, are exact from their first event on. -/
theorem C38_restart (p : Params) (hp : ValidMode p) (s0 : Timing.State) (x : Timing.In)
    (hx : x.valid = false) (i : Nat → Timing.In)
    (hi : ∀ t, (i t).valid = true ∧ (i t).p = p) (t n : Nat)
    (hn : countIn (fun u => (i u).ready) 0 t = n + 1) :
    let s := trace Timing.step (Timing.step s0 x) i t
    Timing.de s true = isActive p n ∧ s.last = isLast p n ∧
    (p.hsync_start ≤ n → s.hsync = isHsync p n) ∧
    (p.vsync_start * lineLen p ≤ n → s.vsync = isVsync p n) := by
  obtain ⟨h1, h2, -⟩ := Timing.step_invalid s0 x hx
  obtain ⟨a, b, -⟩ := (Timing.trace_at p hp _ h1 h2 i hi t).2 n hn
  exact ⟨by simp [Timing.de, a.hactive, a.vactive, isActive], a.last, b.hsync, b.vsync⟩

/-- **C38** Restart: until the first pixel is accepted the data-enable stays low. -/
theorem C38_restart_blank (p : Params) (hp : ValidMode p) (s0 : Timing.State) (x : Timing.In)
    (hx : x.valid = false) (i : Nat → Timing.In)
    (hi : ∀ t, (i t).valid = true ∧ (i t).p = p) (t : Nat)
    (hn : countIn (fun u => (i u).ready) 0 t = 0) :
    Timing.de (trace Timing.step (Timing.step s0 x) i t) true = false := by
  obtain ⟨h1, h2, -⟩ := Timing.step_invalid s0 x hx
  rw [(Timing.trace_at p hp _ h1 h2 i hi t).1 hn]
  simp [Timing.step, hx, Timing.de]

example : ValidMode vga ∧ lineLen vga = 800 ∧ frameLen vga = 800 * 525 ∧
    isActive vga 639 = true ∧ isActive vga 640 = false ∧ isHsync vga 656 = true ∧
    isVsync vga (490 * 800) = true ∧ isLast vga 419999 = true :=
  ⟨vga_valid.toValidMode, by decide, by decide, by decide, by decide, by decide, by decide,
    by decide⟩

/-- **C56** A new parameter set takes effect exactly at a frame boundary: if the environment
presents set `P f` until the generator has consumed `f+1` sets, every frame `f` is displayed
entirely with `P f`, whatever the ready schedule. -/
theorem C56_mode_change (P : Nat → Params) (hP : ∀ f, DisplayMode (P f)) (i : Nat → Timing.In)
    (hv : ∀ t, (i t).valid = true) (hp : ∀ t, (i t).p = P (Timing.pops i t)) (t : Nat)
    (h : 0 < countIn (fun u => (i u).ready) 0 t) :
    let s := trace Timing.step Timing.reset i t
    let f := Timing.pops i t
    ∃ n, n < frameLen (P f) ∧
      countIn (fun u => (i u).ready) 0 t = frameStart P f + n + 1 ∧
      Timing.de s true = isActive (P f) n ∧ s.hsync = isHsync (P f) n ∧
      s.vsync = isVsync (P f) n ∧ s.last = isLast (P f) n := by
  obtain ⟨n, h1, h2, a, b⟩ := (Timing.trace_modes P hP i hv hp t).2 h
  exact ⟨n, h2, h1, by simp [Timing.de, a.hactive, a.vactive, isActive], b.hsync, b.vsync, a.last⟩


/-- Two modes in turn: `tiny`, then the 640x480 one, which is presented from clock 19 on (the
first frame has 18 pixels). -/
def twoModes (t : Nat) : Timing.In := ⟨true, if t < 19 then tiny else vga, true⟩

/-- The hypotheses of `C56_mode_change` hold for `twoModes`. -/
example : ∀ t, (twoModes t).p = (fun f => if f = 0 then tiny else vga) (Timing.pops twoModes t) := by
  have h0 : ∀ t, t < 19 → Timing.pops twoModes t = 0 := by decide +kernel
  have h19 : Timing.pops twoModes 19 = 1 := by decide +kernel
  have hmono : ∀ k, 1 ≤ Timing.pops twoModes (19 + k) := by
    intro k
    induction k with
    | zero => rw [Nat.add_zero, h19]; exact Nat.le_refl _
    | succ k ih =>
      have e : Timing.pops twoModes (19 + (k + 1)) = Timing.pops twoModes (19 + k) +
          (if Timing.sinkReady (trace Timing.step Timing.reset twoModes (19 + k))
            (twoModes (19 + k)).ready then 1 else 0) := by
        rw [← Nat.add_assoc]; simp [Timing.pops, countIn]
      omega
  intro t
  by_cases ht : t < 19
  · rw [h0 t ht]; simp [twoModes, ht]
  · obtain ⟨k, rfl⟩ := Nat.exists_eq_add_of_le (show 19 ≤ t by omega)
    have := hmono k
    simp only [twoModes, ht, if_false]
    rw [if_neg (by omega)]

/-! ## DMA reader -/

/-- **C39** If the environment presents parameter set `P f` until `f+1` sets have been accepted,
then for every valid/ready schedule the accepted read addresses are, in order, those of the
complete buffers `P 0 .. P (f-1)` followed by a proper initial part of buffer `P f`: each word
of each buffer is read exactly once, and a set is accepted exactly on its last read. -/
theorem C39_reads (aw shift : Nat) (P : Nat → Params)
    (hL : ∀ f, 0 < (P f).length / 2 ^ shift % 2 ^ aw) (i : Nat → DmaReader.In)
    (hp : ∀ t, (i t).p = P (DmaReader.pops aw shift i t)) (t : Nat) :
    let f := DmaReader.pops aw shift i t
    ∃ m, m < (bufferAddresses aw shift (P f)).length ∧
      DmaReader.reads aw shift i t =
        ((List.range f).map fun g => bufferAddresses aw shift (P g)).flatten
        ++ (bufferAddresses aw shift (P f)).take m := by
  obtain ⟨m, h1, h2, -⟩ := DmaReader.run_reads aw shift P hL i hp t
  exact ⟨m, by simpa [bufferAddresses, DmaReader.words] using h1, h2⟩

/-- **C39** and reading never stops: if parameters are offered and the memory accepts again and
again, another address is accepted after any clock. -/
theorem C39_live (aw shift : Nat) (i : Nat → DmaReader.In)
    (hv : ∀ t, ∃ u, t ≤ u ∧ (i u).valid = true) (hr : ∀ t, ∃ u, t ≤ u ∧ (i u).ready = true)
    (t : Nat) :
    ∃ u, t ≤ u ∧
      (DmaReader.requests (DmaReader.run aw shift i u) && (i u).ready) = true := by
  have hnw : ∀ t, (DmaReader.run aw shift i t).fsm ≠ .waitSof := by
    intro t
    induction t with
    | zero => intro h; cases h
    | succ t ih =>
      have e : DmaReader.run aw shift i (t + 1) = DmaReader.step aw shift
        (DmaReader.run aw shift i t) (i t).valid (i t).p (i t).ready := rfl
      rw [e]
      cases hf : (DmaReader.run aw shift i t).fsm with
      | idle => simp only [DmaReader.step, hf]; split <;> simp
      | read =>
        simp only [DmaReader.step, hf]
        split
        · simp only; split <;> simp
        · rw [hf]; simp
      | waitSof => exact absurd hf ih
  have key : ∀ t, (DmaReader.run aw shift i t).fsm = .read → ∃ u, t ≤ u ∧
      (DmaReader.requests (DmaReader.run aw shift i u) && (i u).ready) = true := by
    intro t ht
    apply Classical.byContradiction
    intro hno
    have hp := Core.persists (fun v => (DmaReader.run aw shift i v).fsm = .read) t ht (by
      intro v hv hvr
      have hnr : (i v).ready = false := by
        cases hq : (i v).ready
        · rfl
        · exact absurd ⟨v, hv, by simp [DmaReader.requests, hvr, hq]⟩ hno
      have e : DmaReader.run aw shift i (v + 1) = DmaReader.step aw shift
        (DmaReader.run aw shift i v) (i v).valid (i v).p (i v).ready := rfl
      rw [e]
      simp [DmaReader.step, hvr, hnr])
    obtain ⟨v, hv, hq⟩ := hr t
    exact hno ⟨v, hv, by simp [DmaReader.requests, hp v hv, hq]⟩
  have idle : ∃ u, t ≤ u ∧ (DmaReader.run aw shift i u).fsm = .read := by
    apply Classical.byContradiction
    intro hno
    have hidle : ∀ u, t ≤ u → (DmaReader.run aw shift i u).fsm = .idle := by
      intro u hu
      cases hf : (DmaReader.run aw shift i u).fsm with
      | idle => rfl
      | read => exact absurd ⟨u, hu, hf⟩ hno
      | waitSof => exact absurd hf (hnw u)
    obtain ⟨u, hu, hval⟩ := hv t
    have e : DmaReader.run aw shift i (u + 1) = DmaReader.step aw shift
        (DmaReader.run aw shift i u) (i u).valid (i u).p (i u).ready := rfl
    exact hno ⟨u + 1, by omega, by rw [e]; simp [DmaReader.step, hidle u hu, hval]⟩
  obtain ⟨u, hu, hf⟩ := idle
  obtain ⟨v, hv, h⟩ := key u hf
  exact ⟨v, by omega, h⟩

/-- Two buffers of 8 bytes = 2 words of 4 bytes. -/
example : bufferAddresses 24 2 ⟨0,0,0,0,0,0,0,0, 0x1000, 8⟩ = [0x400, 0x401] := by decide

/-! ## Output core -/

/-- Word address of pixel `n` in the frame buffer at `p.base`. -/
def pixelAddress (cfg : Core.Config) (p : Params) (n : Nat) : Nat :=
  (p.base / 2 ^ cfg.shift % 2 ^ cfg.aw + (line p n * p.hres + col p n)) % 2 ^ cfg.aw

/-- **C40** End to end.  `rgb`/`ycbcr422` mode, a buffer of exactly one frame, parameters and
memory content constant, any memory latency and any consumer schedule: after `n+1` transferred
beats the core offers pixel `n`; its data-enable and syncs are those of pixel `n` and, if pixel
`n` is active, the data offered is the memory word of that pixel.  (A beat that is not valid has
no data; blanking never consumes a word.) -/
theorem C40_frame (cfg : Core.Config) (p : Params) (hp : ValidMode p) (hraw : cfg.raw = false)
    (hpos : 0 < p.vres * p.hres)
    (hlen : p.length / 2 ^ cfg.shift % 2 ^ cfg.aw = p.vres * p.hres)
    (mem : Nat → Nat) (i : Nat → Core.In)
    (hi : ∀ t, (i t).pvalid = true ∧ (i t).p = p ∧ (i t).mem = mem) (t n : Nat)
    (hn : Core.beats cfg i t = n + 1) :
    let s := trace (Core.step cfg) Core.reset i t
    Core.de s (i t) = isActive p n ∧ s.timing.hsync = isHsync p n ∧
    s.timing.vsync = isVsync p n ∧
    (Core.valid s (i t) = true → isActive p n = true →
      Core.data s = mem (pixelAddress cfg p n)) := by
  intro s
  have hL : DmaReader.words cfg.aw cfg.shift p.length = p.vres * p.hres := hlen
  obtain ⟨hd, -, ht⟩ := Core.core_inv cfg p hp hraw (by omega) mem i hi t
  obtain ⟨a, b⟩ := ht n hn
  have hde : Core.de s (i t) = isActive p n := by
    simp only [Core.de, Timing.de, (hi t).1, Bool.true_and, isActive, s]
    rw [a.hactive, a.vactive]
  refine ⟨hde, b.hsync, b.vsync, fun hv hact => ?_⟩
  obtain ⟨q, hq, -⟩ := hd
  have hne : s.fifo ≠ [] := by
    simp only [Core.valid, hde, hact, (hi t).1] at hv
    simpa using hv
  have h := hq.head hne
  rw [hn, Nat.add_sub_cancel] at h
  obtain ⟨e1, e2⟩ := activeBefore_active p hp n hact
  show s.fifo.headD 0 = _
  rw [h]
  simp only [Core.addr, pixelAddress, hL]
  rw [e1, Nat.add_comm (frame p n * _), Nat.add_mul_mod_self_right, Nat.mod_eq_of_lt e2]
  rfl

/-- **C40** Liveness: if memory and consumer are live, every pixel is eventually transferred. -/
theorem C40_live (cfg : Core.Config) (hd : 0 < cfg.depth) (p : Params) (hp : ValidMode p)
    (hraw : cfg.raw = false) (hpos : 0 < p.length / 2 ^ cfg.shift % 2 ^ cfg.aw)
    (mem : Nat → Nat) (i : Nat → Core.In)
    (hi : ∀ t, (i t).pvalid = true ∧ (i t).p = p ∧ (i t).mem = mem)
    (hready : ∀ t, ∃ u, t ≤ u ∧ (i u).ready = true)
    (hmem : ∀ t, ∃ u, t ≤ u ∧ (i u).memReady = true)
    (hans : ∀ t, ∃ u, t ≤ u ∧ (i u).answer = true) (n : Nat) :
    ∃ t, Core.beats cfg i t = n ∧
      (Core.valid (trace (Core.step cfg) Core.reset i t) (i t) && (i t).ready) = true := by
  have step1 : ∀ t, Core.beats cfg i (t + 1) = Core.beats cfg i t +
      (if Core.valid (trace (Core.step cfg) Core.reset i t) (i t) && (i t).ready then 1 else 0) := by
    intro t; simp [Core.beats, countIn]
  have again : ∀ t, ∃ u, t ≤ u ∧ Core.beats cfg i u = Core.beats cfg i t ∧
      (Core.valid (trace (Core.step cfg) Core.reset i u) (i u) && (i u).ready) = true := by
    intro t
    obtain ⟨⟨q, -, hr⟩, -⟩ := Core.core_inv cfg p hp hraw hpos mem i hi t
    obtain ⟨u, hu, hf⟩ := Core.fires_again cfg hd i (fun t => (hi t).1) hready hmem hans t (by
      rcases hr with ⟨h, -⟩ | ⟨h, -⟩ <;> rw [h] <;> simp)
    -- the first such clock
    obtain ⟨k, rfl⟩ := Nat.exists_eq_add_of_le hu
    clear hu hr
    induction k generalizing t with
    | zero => exact ⟨t, Nat.le_refl _, rfl, hf⟩
    | succ k ih =>
      cases hc : (Core.valid (trace (Core.step cfg) Core.reset i t) (i t) && (i t).ready)
      · obtain ⟨u, h1, h2, h3⟩ := ih (t + 1) (by
          rw [show t + 1 + k = t + (k + 1) by omega]; exact hf)
        refine ⟨u, by omega, ?_, h3⟩
        rw [h2, step1, hc]; rfl
      · exact ⟨t, Nat.le_refl _, rfl, hc⟩
  induction n with
  | zero =>
    obtain ⟨u, -, h2, h3⟩ := again 0
    exact ⟨u, h2, h3⟩
  | succ n ih =>
    obtain ⟨t, h1, h2⟩ := ih
    obtain ⟨u, -, h4, h5⟩ := again (t + 1)
    refine ⟨u, ?_, h5⟩
    rw [h4, step1, h1, h2]; rfl

/-- **C40** Conservation, for arbitrary (changing) parameters and memory contents: the words the
memory has returned are exactly the words shown on transferred active pixels, in order, followed
by those waiting in the FIFO. -/
theorem C40_conservation (cfg : Core.Config) (hraw : cfg.raw = false) (i : Nat → Core.In)
    (hi : ∀ t, (i t).pvalid = true) (t : Nat) :
    let s := fun u => trace (Core.step cfg) Core.reset i u
    transferred (fun u => (i u).answer && !(s u).pending.isEmpty)
        (fun u => (i u).mem ((s u).pending.headD 0)) t =
      transferred (fun u => Core.valid (s u) (i u) && (i u).ready && Core.de (s u) (i u))
        (fun u => Core.data (s u)) t ++ (s t).fifo := by
  intro s
  induction t with
  | zero => rfl
  | succ t ih =>
    simp only [transferred]
    rw [ih]
    have hs : s (t + 1) = Core.step cfg (s t) (i t) := rfl
    rw [hs]
    have hpop : (Core.dataReady cfg (s t) (i t) && !(s t).fifo.isEmpty) =
        (Core.valid (s t) (i t) && (i t).ready && Core.de (s t) (i t)) := by
      simp only [Core.dataReady, hi t, hraw, Bool.or_false, Bool.not_true, Bool.false_or]
      cases hd : Core.de (s t) (i t)
      · simp
      · cases hq : (i t).ready
        · simp
        · simp only [Bool.and_true, Core.valid, hi t, hd]
          cases (s t).fifo.isEmpty <;> rfl
    simp only [Core.step, hpop]
    cases hc : (Core.valid (s t) (i t) && (i t).ready && Core.de (s t) (i t))
    · cases ha : (i t).answer
      · simp
      · cases hq : (s t).pending with
        | nil => simp
        | cons x xs => simp
    · have hne : (s t).fifo ≠ [] := by
        rw [hc, Bool.and_eq_true] at hpop
        simpa using hpop.2
      cases hf : (s t).fifo with
      | nil => exact absurd hf hne
      | cons y ys =>
        cases ha : (i t).answer
        · simp [Core.data, hf]
        · cases hq : (s t).pending with
          | nil => simp [Core.data, hf]
          | cons x xs => simp [Core.data, hf]

example : tiny.length / 2 ^ 0 % 2 ^ 8 = tiny.vres * tiny.hres ∧
    let cfg : Core.Config := ⟨8, 0, 3, false⟩
    let i : Nat → Core.In := fun _ => ⟨true, tiny, true, true, true, fun a => a + 7⟩
    Core.beats cfg i 6 = 4 ∧ Core.data (trace (Core.step cfg) Core.reset i 6) = 10 := by
  decide

/-- Parameters of the witness of `C41_violated`: buffer 0 first, then buffer 100. -/
def switchParams (f : Nat) : Params := if f = 0 then tiny else { tiny with base := 100 }

/-- C41: all active pixels of a displayed frame (the clocks between two hand-overs) come from a
single frame buffer. -/
def C41_statement : Prop :=
  ∀ (cfg : Core.Config) (P : Nat → Params) (mem : Nat → Nat) (i : Nat → Core.In),
    (∀ f, DisplayMode (P f)) → cfg.raw = false → 0 < cfg.depth →
    (∀ f, (P f).length / 2 ^ cfg.shift % 2 ^ cfg.aw = (P f).vres * (P f).hres) →
    (∀ t, (i t).pvalid = true ∧ (i t).p = P (Core.pops cfg i t) ∧ (i t).mem = mem) →
    ∀ t u,
      let s := fun t => trace (Core.step cfg) Core.reset i t
      Core.pops cfg i t = Core.pops cfg i u →
      (Core.valid (s t) (i t) && (i t).ready && Core.de (s t) (i t)) = true →
      (Core.valid (s u) (i u) && (i u).ready && Core.de (s u) (i u)) = true →
      ∃ f, Core.data (s t) ∈ (bufferAddresses cfg.aw cfg.shift (P f)).map mem ∧
        Core.data (s u) ∈ (bufferAddresses cfg.aw cfg.shift (P f)).map mem

/-- Witness schedule: everything always ready; the new parameters are presented from clock 21,
when the first set has been consumed. -/
def switchIn (t : Nat) : Core.In :=
  ⟨true, switchParams (if t < 21 then 0 else 1), true, true, true, id⟩

/-- Witness configuration: a 3-word DMA FIFO. -/
def switchCfg : Core.Config := ⟨8, 0, 3, false⟩

theorem switchParams_valid (f : Nat) : DisplayMode (switchParams f) := by
  unfold switchParams
  split
  · exact tiny_valid
  · exact { tiny_valid with }

/-- **C41** is false of the code: the DMA has already fetched the beginning of the next frame
from the old buffer when the new base arrives.  In the witness the second frame shows words 0,
1, 2 of the old buffer and word 103 of the new one. -/
theorem C41_violated : ¬ C41_statement := by
  intro h
  have h0 : ∀ t, t < 21 → Core.pops switchCfg switchIn t = 0 := by decide +kernel
  have h21 : Core.pops switchCfg switchIn 21 = 1 := by decide +kernel
  have hmono : ∀ k, 1 ≤ Core.pops switchCfg switchIn (21 + k) := by
    intro k
    induction k with
    | zero => rw [Nat.add_zero, h21]; exact Nat.le_refl _
    | succ k ih =>
      have e : Core.pops switchCfg switchIn (21 + (k + 1)) = Core.pops switchCfg switchIn (21 + k) +
          (if Core.paramsReady (trace (Core.step switchCfg) Core.reset switchIn (21 + k))
            (switchIn (21 + k)) then 1 else 0) := by
        rw [← Nat.add_assoc]; simp [Core.pops, countIn]
      omega
  have hi : ∀ t, (switchIn t).pvalid = true ∧
      (switchIn t).p = switchParams (Core.pops switchCfg switchIn t) ∧ (switchIn t).mem = id := by
    intro t
    refine ⟨rfl, ?_, rfl⟩
    by_cases ht : t < 21
    · rw [h0 t ht]; simp [switchIn, ht]
    · obtain ⟨k, rfl⟩ := Nat.exists_eq_add_of_le (show 21 ≤ t by omega)
      have := hmono k
      simp only [switchIn, ht, if_false, switchParams, Nat.one_ne_zero]
      rw [if_neg (by omega)]
  obtain ⟨f, m1, m2⟩ := h switchCfg switchParams id switchIn switchParams_valid rfl (by decide)
    (by intro f; unfold switchParams; split <;> decide) hi 21 24 (by decide +kernel)
    (by decide +kernel) (by decide +kernel)
  have d1 : Core.data (trace (Core.step switchCfg) Core.reset switchIn 21) = 0 := by
    decide +kernel
  have d2 : Core.data (trace (Core.step switchCfg) Core.reset switchIn 24) = 103 := by
    decide +kernel
  rw [d1] at m1
  rw [d2] at m2
  unfold switchParams at m1 m2
  by_cases hf : f = 0
  · rw [if_pos hf] at m2; exact absurd m2 (by decide)
  · rw [if_neg hf] at m1; exact absurd m1 (by decide)

/-- **C41** What does hold when only the base changes and the DMA FIFO is not larger than a
frame: a transferred active pixel `n` of frame `f` shows the word at the right place of either
the buffer of its own frame or the buffer of the previous frame. -/
theorem C41_two_buffers_partial (cfg : Core.Config) (p : Params) (hp : ValidMode p)
    (hraw : cfg.raw = false) (hpos : 0 < p.vres * p.hres)
    (hlen : p.length / 2 ^ cfg.shift % 2 ^ cfg.aw = p.vres * p.hres)
    (hdepth : cfg.depth ≤ p.vres * p.hres)
    (base : Nat → Nat) (mem : Nat → Nat) (i : Nat → Core.In)
    (hi : ∀ t, (i t).pvalid = true ∧ (i t).p = { p with base := base (Core.pops cfg i t) } ∧
      (i t).mem = mem) (t n : Nat) (hn : Core.beats cfg i t = n + 1)
    (hv : Core.valid (trace (Core.step cfg) Core.reset i t) (i t) = true)
    (hde : Core.de (trace (Core.step cfg) Core.reset i t) (i t) = true) :
    let f := Core.pops cfg i t
    f = frame p n ∧ isActive p n = true ∧
    ∃ g, (g = f ∨ g + 1 = f) ∧
      Core.data (trace (Core.step cfg) Core.reset i t) =
        mem (pixelAddress cfg { p with base := base g } n) := by
  have hL : DmaReader.words cfg.aw cfg.shift p.length = p.vres * p.hres := hlen
  obtain ⟨hsw, -, ht, hpf⟩ := Core.switch_inv cfg p hp hraw (by omega) hL (by omega) base mem i hi t
  obtain ⟨a, -⟩ := ht n hn
  have hact : isActive p n = true := by
    rw [← hde]
    simp only [Core.de, Timing.de, (hi t).1, Bool.true_and, isActive]
    rw [a.hactive, a.vactive]
  rw [hn, Nat.add_sub_cancel] at hsw hpf
  refine ⟨hpf, hact, ?_⟩
  obtain ⟨q, h1, -⟩ := hsw
  have hne : (trace (Core.step cfg) Core.reset i t).fifo ≠ [] := by
    simp only [Core.valid, hde, (hi t).1] at hv
    simpa using hv
  obtain ⟨e1, e2⟩ := activeBefore_active p hp n hact
  have hhead : (trace (Core.step cfg) Core.reset i t).fifo[0]? =
      some (Core.data (trace (Core.step cfg) Core.reset i t)) := by
    cases hf : (trace (Core.step cfg) Core.reset i t).fifo with
    | nil => exact absurd hf hne
    | cons x xs => simp [Core.data, hf]
  obtain ⟨x, ⟨g, g1, g2, g3⟩, hx⟩ := h1 0 _ hhead
  rw [Nat.add_zero, e1] at g2 g3
  rw [hL, Nat.add_comm (frame p n * _), Nat.add_mul_div_right _ _ hpos,
    Nat.div_eq_of_lt e2] at g2
  refine ⟨g, by omega, ?_⟩
  rw [hx, g3]
  simp only [Core.addr, pixelAddress, hL]
  rw [Nat.add_comm (frame p n * _), Nat.add_mul_mod_self_right, Nat.mod_eq_of_lt e2]
  rfl

/-! ## Raw mode -/

/-- C57: in raw mode every transferred beat carries the next memory word (raw mode streams
complete 10-bit symbols, blanking included). -/
def C57_statement : Prop :=
  ∀ (cfg : Core.Config) (p : Params) (mem : Nat → Nat) (i : Nat → Core.In),
    ValidMode p → cfg.raw = true → 0 < cfg.depth →
    0 < p.length / 2 ^ cfg.shift % 2 ^ cfg.aw →
    (∀ t, (i t).pvalid = true ∧ (i t).p = p ∧ (i t).mem = mem) →
    ∀ t, (Core.valid (trace (Core.step cfg) Core.reset i t) (i t) && (i t).ready) = true →
      Core.data (trace (Core.step cfg) Core.reset i t) =
        mem ((p.base / 2 ^ cfg.shift % 2 ^ cfg.aw +
          Core.beats cfg i t % (p.length / 2 ^ cfg.shift % 2 ^ cfg.aw)) % 2 ^ cfg.aw)

/-- **C57** is false of the code: a blanking beat is valid although no word has arrived, so from
then on the words are misplaced by an amount that depends on the memory latency. -/
theorem C57_violated : ¬ C57_statement := by
  intro h
  have := h ⟨8, 0, 4, true⟩ tiny (fun a => a + 50) (fun _ => ⟨true, tiny, true, true, true, fun a => a + 50⟩)
    tiny_valid.toValidMode rfl (by decide) (by decide) (fun _ => ⟨rfl, rfl, rfl⟩) 3
    (by decide +kernel)
  exact absurd this (by decide +kernel)

/-! ## Underflow counter -/

/-- **C42** Disabled: the counter is 0 on the next clock. -/
theorem C42_disabled (s0 : Underflow.State) (i : Nat → Underflow.In) (t : Nat)
    (h : (i t).enable = false) : (trace Underflow.step s0 i (t + 1)).counter = 0 := by
  simp [trace_succ, Underflow.step, h]

/-- **C42** Enabled for `n` clocks after a disabled one: the counter is the number of clocks
without valid output among them (modulo `2^32`). -/
theorem C42_count (s0 : Underflow.State) (i : Nat → Underflow.In) (t n : Nat)
    (h : (i t).enable = false) (hen : ∀ k, k < n → (i (t + 1 + k)).enable = true) :
    (trace Underflow.step s0 i (t + 1 + n)).counter =
      countIn (fun u => !(i u).valid) (t + 1) n % 2 ^ 32 := by
  induction n with
  | zero => exact C42_disabled s0 i t h
  | succ n ih =>
    have ih := ih (fun k hk => hen k (by omega))
    rw [← Nat.add_assoc, trace_succ]
    simp only [Underflow.step, hen n (by omega), if_true, countIn, ih]
    by_cases hv : (!(i (t + 1 + n)).valid) = true
    · rw [if_pos hv, if_pos hv]; omega
    · rw [if_neg hv, if_neg hv]; omega

/-- **C42** The status register holds the counter value of the last update clock. -/
theorem C42_status (s0 : Underflow.State) (i : Nat → Underflow.In) (t n : Nat)
    (h : (i t).update = true) (hno : ∀ k, k < n → (i (t + 1 + k)).update = false) :
    (trace Underflow.step s0 i (t + 1 + n)).status = (trace Underflow.step s0 i t).counter := by
  induction n with
  | zero => simp [trace_succ, Underflow.step, h]
  | succ n ih =>
    have ih := ih (fun k hk => hno k (by omega))
    rw [← Nat.add_assoc, trace_succ]
    simp only [Underflow.step, hno n (by omega)]
    simpa using ih

example : (trace Underflow.step Underflow.reset
    (fun t => ⟨decide (0 < t), decide (t = 9), decide (t % 3 = 0)⟩) 10) = ⟨6, 6⟩ := by decide

end Verif.Props
