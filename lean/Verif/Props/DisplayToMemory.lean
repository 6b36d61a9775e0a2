import Verif.Props.WireToMemory
import Verif.Props.WholeWay

/-!
# C128: from frame buffer to memory, with the circuit of the receiver's FIFO
-/

namespace Verif.Props

open Verif.Spec.HdmiIn Verif.Spec.Capture Verif.Spec.Frame Verif.Spec.Stream Verif.VideoOut
  Verif.Spec.VideoOut Verif.Output Verif.Spec.Output Verif.Spec.Loop Verif.Loop Verif.Spec.Link
  Verif.Spec.CaptureCdc Verif.Spec
open Verif.Capture (rgb ycbcr422 Word)
open Verif.GrayFifo (Settled)

theorem intact_isolated (x : Nat → Phy) (k : Nat → Nat) (lead : Nat → Nat → Bool) (n0 : Nat) :
    IsolatedErrors x k lead (laneBits x k lead) n0 := fun _ _ _ _ _ _ h => absurd rfl h

/-- Without errors the film that arrives is the one that was sent. -/
theorem same_film {p : Params} {x : Nat → Phy} {k : Nat → Nat} {lead : Nat → Nat → Bool} {m0 d0 : Nat}
    {film film' : Nat → Nat → Colour}
    (h : OnlyHitColours p x k lead (laneBits x k lead) m0 d0 film film') {F q : Nat}
    (hq : q < p.vres * p.hres) (hF : m0 ≤ F * frameLen p) : film' F q = film F q := by
  have no : ∀ i n, ¬ Hit x k lead (laneBits x k lead) i n := fun i n ⟨_, _, h⟩ => h rfl
  obtain ⟨h1, h2, h3⟩ := h F q hq (by unfold pixelTime; omega)
  exact Prod.ext (h1 (no _ _)) (Prod.ext (h2 (no _ _)) (h3 (no _ _)))

/-- **C128** The whole way, with assumptions about the two memories and about software only.  An output core
in rgb mode displays a frame buffer in mode `p`; its memory answers within `L` clocks and refuses commands at
no more than `r` clocks of a line time (C98).  The link is that of C91.  The receiver has the circuit of its
FIFO and a memory that is fast enough (C126).  From instant `T0` on, once the output has run `L + r + 3` lines,
four frames and 31 clocks plus the line delay and the capture path is at rest, software leaves LOADED slots
alone.  Then no word is lost and software never reads an overflow; each slot that is done holds the frame
buffer: all its pixels, in order, with their red, green and blue; and if software loads no slot any more, each
slot that is LOADED at `T0` is done at some instant. -/
theorem C128_display_to_memory (cfg : Core.Config) (p : Params) (hp : RealMode p)
    (hraw : cfg.raw = false) (hlen : p.length / 2 ^ cfg.shift % 2 ^ cfg.aw = p.vres * p.hres)
    (mem : Nat → Nat) (i : Nat → Core.In)
    (hi : ∀ t, (i t).pvalid = true ∧ (i t).p = p ∧ (i t).mem = mem) (hrdy : ∀ t, (i t).ready = true)
    (L r : Nat) (hans : Core.AnswersWithin cfg i L) (href : Core.RefusesAtMost i p r)
    (hblank : r + 2 ≤ lineLen p - p.hres) (hfifo : L + r + 2 < cfg.depth)
    (D : Nat → Nat) (hskew : ∀ i j, i < 3 → j < 3 → D i ≤ D j + 70)
    (pf n nslots aw al N B W R d : Nat) (hpf : 2 ≤ pf) (hn : 1 ≤ n) (hB : 1 ≤ B)
    (f0 : GrayFifo.State n (Word 32)) (h0 : Settled f0) (y : Nat → HdmiCdc.In n 32)
    (hr : ∀ t, (y t).pixRst = false)
    (hl : Connected (fun u => rgbPhy (coreBeat cfg i u)) D (Cdc.linkOf y))
    (hN : N * pf = p.vres * p.hres) (hsize : ∀ t, Dma.wordsOf aw al (y t).frame_size = N) (hBN : B ≤ N)
    (fast : FastEnough pf B W R d (fun u => (y u).pixEdge) (fun u => (y u).sysEdge)
      (fun u => (y u).busReady) (fun u => (y u).wdataValid)
      (circuitHanded (rgb pf) nslots aw al f0 (Cdc.cdcIn (rgb pf) nslots aw al f0 y)))
    (enough : R + B + d + 2 ≤ W) (hdepth : 2 * B + 1 < 2 ^ n)
    (pix : ∀ T, ∃ u, T ≤ u ∧ (y u).pixEdge = true) (T0 : Nat)
    (hseen : (L + r + 3) * lineLen p + 4 * frameLen p + D 0 / 10 + 31 ≤
      countIn (fun u => (y u).pixEdge) 0 T0) :
    let z := Cdc.cdcIn (rgb pf) nslots aw al f0 y
    Cdc.AtRest (rgb pf) nslots aw al f0 z T0 → Cdc.SoftwareOwns (rgb pf) nslots aw al f0 z T0 →
    Cdc.NeverRefuses (rgb pf) nslots aw al f0 z ∧
    (∀ re t, Cdc.overflow (rgb pf) nslots aw al f0 z re t = false) ∧
    (∀ e s, T0 ≤ e → Cdc.Done (rgb pf) nslots aw al f0 z e s →
      ∃ b, T0 ≤ b ∧ Cdc.Captured (rgb pf) nslots aw al f0 z b e s
        (groups pf ((List.range (p.vres * p.hres)).map fun q =>
          let w := bufferWord cfg p mem q
          byte 0 w * 65536 + byte 1 w * 256 + byte 2 w))) ∧
    (Cdc.LoadsNone z T0 → ∀ s, s < nslots →
      ((circuit (rgb pf) nslots aw al f0 z T0).dma.slots s).valid = true →
      ∃ e, T0 ≤ e ∧ Cdc.Done (rgb pf) nslots aw al f0 z e s) := by
  intro z rest own
  have hh : 0 < p.hres := by have := hp.wide; omega
  have hpos : 0 < p.vres * p.hres := by
    have := Nat.mul_le_mul hp.lines hp.wide; omega
  obtain ⟨h1, h2⟩ := C98_no_underflow cfg p hp.toValidMode hraw hp.lines hh hlen i
    (fun t => ⟨(hi t).1, (hi t).2.1⟩) hrdy L r hans href hblank hfifo
  obtain ⟨hle, hx⟩ := core_raster cfg p hp.toValidMode hraw hpos hlen mem i hi ((L + r + 3) * lineLen p + 1) _
    (h2 1) (fun t ht => ⟨hrdy t, h1 t (by omega)⟩)
  obtain ⟨c, lead, hc50, hlanes⟩ := connected_lanes hl
  obtain ⟨a1, a2, film', hit, ⟨F, hF, -⟩, hload⟩ := C127_film hp hx (fun i => D i + c) lead _
    (intact_isolated _ _ _ _) (fun i j h1 h2 => by have := hskew i j h1 h2; omega) pf n nslots aw al N B W R d
    hpf hn hB f0 h0 y hr hlanes hN hsize hBN fast enough hdepth pix T0 (by omega) rest own
  refine ⟨a1, a2, fun e s he hd => ?_, hload⟩
  obtain ⟨b, ws, h3, ⟨hm, -, hws⟩, h5⟩ := hF e s he hd
  refine ⟨b, h3, ?_⟩
  have heq : (List.range (p.vres * p.hres)).map (fun q => rgb24 (film' (F e) q)) =
      (List.range (p.vres * p.hres)).map fun q =>
        let w := bufferWord cfg p mem q
        byte 0 w * 65536 + byte 1 w * 256 + byte 2 w := by
    refine List.map_congr_left fun q hq => ?_
    rw [List.mem_range] at hq
    rw [same_film hit hq hm]
    simp only [rgb24, colourOf, BitVec.toNat_ofNat, byte]
    omega
  rw [hws, heq] at h5
  exact h5

/-- **C128**, receiver in ycbcr422 mode: slots hold the picture of the frame buffer in 4:2:2. -/
theorem C128_display_to_memory_ycbcr422 (cfg : Core.Config) (p : Params) (hp : RealMode p)
    (hraw : cfg.raw = false) (hlen : p.length / 2 ^ cfg.shift % 2 ^ cfg.aw = p.vres * p.hres)
    (mem : Nat → Nat) (i : Nat → Core.In)
    (hi : ∀ t, (i t).pvalid = true ∧ (i t).p = p ∧ (i t).mem = mem) (hrdy : ∀ t, (i t).ready = true)
    (L r : Nat) (hans : Core.AnswersWithin cfg i L) (href : Core.RefusesAtMost i p r)
    (hblank : r + 2 ≤ lineLen p - p.hres) (hfifo : L + r + 2 < cfg.depth)
    (hev : p.hres % 2 = 0) (hbl : p.hres + 10 ≤ p.hscan)
    (D : Nat → Nat) (hskew : ∀ i j, i < 3 → j < 3 → D i ≤ D j + 70)
    (pf n nslots aw al N B W R d : Nat) (hpf : 2 ≤ pf) (hn : 1 ≤ n) (hB : 1 ≤ B)
    (f0 : GrayFifo.State n (Word 16)) (h0 : Settled f0) (y : Nat → HdmiCdc.In n 16)
    (hr : ∀ t, (y t).pixRst = false)
    (hl : Connected (fun u => rgbPhy (coreBeat cfg i u)) D (Cdc.linkOf y))
    (hN : N * pf = p.vres * p.hres) (hsize : ∀ t, Dma.wordsOf aw al (y t).frame_size = N) (hBN : B ≤ N)
    (fast : FastEnough pf B W R d (fun u => (y u).pixEdge) (fun u => (y u).sysEdge)
      (fun u => (y u).busReady) (fun u => (y u).wdataValid)
      (circuitHanded (ycbcr422 pf) nslots aw al f0 (Cdc.cdcIn (ycbcr422 pf) nslots aw al f0 y)))
    (enough : R + B + d + 2 ≤ W) (hdepth : 2 * B + 1 < 2 ^ n)
    (pix : ∀ T, ∃ u, T ≤ u ∧ (y u).pixEdge = true) (T0 : Nat)
    (hseen : (L + r + 3) * lineLen p + 4 * frameLen p + D 0 / 10 + 31 ≤
      countIn (fun u => (y u).pixEdge) 0 T0) :
    let z := Cdc.cdcIn (ycbcr422 pf) nslots aw al f0 y
    Cdc.AtRest (ycbcr422 pf) nslots aw al f0 z T0 → Cdc.SoftwareOwns (ycbcr422 pf) nslots aw al f0 z T0 →
    Cdc.NeverRefuses (ycbcr422 pf) nslots aw al f0 z ∧
    (∀ re t, Cdc.overflow (ycbcr422 pf) nslots aw al f0 z re t = false) ∧
    (∀ e s, T0 ≤ e → Cdc.Done (ycbcr422 pf) nslots aw al f0 z e s →
      ∃ b, T0 ≤ b ∧ Cdc.Captured (ycbcr422 pf) nslots aw al f0 z b e s
        (groups pf ((List.range (p.vres * p.hres)).map
          (pic422 fun q => colourOf (bufferWord cfg p mem q))))) ∧
    (Cdc.LoadsNone z T0 → ∀ s, s < nslots →
      ((circuit (ycbcr422 pf) nslots aw al f0 z T0).dma.slots s).valid = true →
      ∃ e, T0 ≤ e ∧ Cdc.Done (ycbcr422 pf) nslots aw al f0 z e s) := by
  intro z rest own
  have hh : 0 < p.hres := by have := hp.wide; omega
  have hpos : 0 < p.vres * p.hres := by
    have := Nat.mul_le_mul hp.lines hp.wide; omega
  obtain ⟨h1, h2⟩ := C98_no_underflow cfg p hp.toValidMode hraw hp.lines hh hlen i
    (fun t => ⟨(hi t).1, (hi t).2.1⟩) hrdy L r hans href hblank hfifo
  obtain ⟨hle, hx⟩ := core_raster cfg p hp.toValidMode hraw hpos hlen mem i hi ((L + r + 3) * lineLen p + 1) _
    (h2 1) (fun t ht => ⟨hrdy t, h1 t (by omega)⟩)
  obtain ⟨c, lead, hc50, hlanes⟩ := connected_lanes hl
  obtain ⟨a1, a2, film', hit, ⟨F, hF, -⟩, hload⟩ := C127_film_ycbcr422 hp hx hev hbl (fun i => D i + c) lead _
    (intact_isolated _ _ _ _) (fun i j h1 h2 => by have := hskew i j h1 h2; omega) pf n nslots aw al N B W R d
    hpf hn hB f0 h0 y hr hlanes hN hsize hBN fast enough hdepth pix T0 (by omega) rest own
  refine ⟨a1, a2, fun e s he hd => ?_, hload⟩
  obtain ⟨b, ws, h3, ⟨hm, -, hws⟩, h5⟩ := hF e s he hd
  refine ⟨b, h3, ?_⟩
  have heq : (List.range (p.vres * p.hres)).map (pic422 (film' (F e))) =
      (List.range (p.vres * p.hres)).map (pic422 fun q => colourOf (bufferWord cfg p mem q)) := by
    refine List.map_congr_left fun q hq => ?_
    rw [List.mem_range] at hq
    have hev2 : p.vres * p.hres % 2 = 0 := by rw [Nat.mul_mod, hev, Nat.mul_zero]
    unfold pic422
    by_cases h2 : q % 2 = 0
    · rw [if_pos h2, if_pos h2, same_film hit hq hm, same_film hit (q := q + 1) (by omega) hm]
    · rw [if_neg h2, if_neg h2, same_film hit hq hm, same_film hit (q := q - 1) (by omega) hm]
  rw [hws, heq] at h5
  exact h5

/-! ### A concrete case -/

/-- A Spartan-6 capture block on the line of the example of C91: eight instants per pixel clock. -/
def slowS6 (i t : Nat) : DataCapture.S6.In :=
  ⟨t % 4 == 1, t % 8 == 1, false, false, false, false, false,
    ofBits 5 fun j => swapped (i == 1) (wiredLine i (5 * (t / 4) + j)),
    ⟨false, false, false, false, false, false⟩, false⟩

/-- The words it delivers. -/
def slowWords (t : Nat) : Receiver.In :=
  ⟨(s6 8 false (slowS6 0) t).d, (s6 8 true (slowS6 1) t).d, (s6 8 false (slowS6 2) t).d⟩

theorem slow2x_count (i t : Nat) : countIn (fun u => (slowS6 i u).pix2xEdge) 0 t = (t + 2) / 4 := by
  induction t with
  | zero => rfl
  | succ t ih =>
    rw [countIn, ih]
    have : (slowS6 i (0 + t)).pix2xEdge = decide (t % 4 = 1) := by rw [Nat.zero_add]; rfl
    rw [this]
    by_cases h : t % 4 = 1
    · simp [h]; omega
    · simp [h]; omega

theorem slow_receives (i : Nat) : S6Receives (i == 1) (slowS6 i) (wiredLine i) := by
  intro t ht
  have ht : (t % 4 == 1) = true := ht
  rw [beq_iff_eq] at ht
  rw [edges2x, slow2x_count, show (t + 2) / 4 = t / 4 by omega]; rfl

theorem slow_two (i : Nat) :
    TwoPer (fun t => (slowS6 i t).pix2xEdge) (fun t => (slowS6 i t).pixEdge) 0 := by
  intro t ht
  have h8 : (t % 8 == 1) = true := ht
  rw [beq_iff_eq] at h8
  have := slow_count (w := 1) slowWords 0 t
  have hc : countIn (fun u => (slowS6 i u).pixEdge) 0 t = _ := this
  rw [slow2x_count, hc]
  omega

theorem slow_connected {w : Nat} : Connected (fun u => rgbPhy (coreBeat loopCfg (fun _ => loopIn) u))
    (fun i => 7 * i + 3) (Cdc.linkOf (slowRun (w := w) slowWords)) :=
  .s6 s6Pad (.inl rfl) (fun i => i == 2) (fun i => i == 1) (fun _ _ => true) 8 slowS6 0
    (by omega) (fun _ _ => by omega) (fun _ _ => rfl) slow_two (fun i _ => slow_receives i) (fun _ _ => rfl)

/-- All hypotheses of C128: the output core of the example of C99, the receiver of the example of C127. -/
example : RealMode loopMode ∧
    loopMode.length / 2 ^ loopCfg.shift % 2 ^ loopCfg.aw = loopMode.vres * loopMode.hres ∧
    Core.AnswersWithin loopCfg (fun _ => loopIn) 1 ∧ Core.RefusesAtMost (fun _ => loopIn) loopMode 0 ∧
    0 + 2 ≤ lineLen loopMode - loopMode.hres ∧ 1 + 0 + 2 < loopCfg.depth ∧
    loopMode.hres % 2 = 0 ∧ loopMode.hres + 10 ≤ loopMode.hscan ∧
    (∀ i j, i < 3 → j < 3 → 7 * i + 3 ≤ 7 * j + 3 + 70) ∧ 4 * 4 = loopMode.vres * loopMode.hres ∧
    9 + 1 + 3 + 2 ≤ 25 ∧ 2 * 1 + 1 < 2 ^ 4 ∧
    (∀ T, ∃ u, T ≤ u ∧ (slowRun (w := 32) slowWords u).pixEdge = true) ∧
    (1 + 0 + 3) * lineLen loopMode + 4 * frameLen loopMode + (7 * 0 + 3) / 10 + 31 ≤
      countIn (fun u => (slowRun (w := 32) slowWords u).pixEdge) 0 3999 ∧
    (let f0 := GrayFifo.reset 4 ((false, []) : Word 32)
    let y := slowRun (w := 32) slowWords
    let z := Cdc.cdcIn (rgb 4) 2 10 2 f0 y
    Settled f0 ∧
    Connected (fun u => rgbPhy (coreBeat loopCfg (fun _ => loopIn) u)) (fun i => 7 * i + 3) (Cdc.linkOf y) ∧
    (∀ t, Dma.wordsOf 10 2 (y t).frame_size = 4) ∧
    FastEnough 4 1 25 9 3 (fun u => (y u).pixEdge) (fun u => (y u).sysEdge)
      (fun u => (y u).busReady) (fun u => (y u).wdataValid) (circuitHanded (rgb 4) 2 10 2 f0 z) ∧
    Cdc.AtRest (rgb 4) 2 10 2 f0 z 3999 ∧ Cdc.SoftwareOwns (rgb 4) 2 10 2 f0 z 3999 ∧
    Cdc.LoadsNone z 3999 ∧ ((circuit (rgb 4) 2 10 2 f0 z 3999).dma.slots 1).valid = true) ∧
    let f0 := GrayFifo.reset 4 ((false, []) : Word 16)
    let y := slowRun (w := 16) slowWords
    let z := Cdc.cdcIn (ycbcr422 4) 2 10 2 f0 y
    Settled f0 ∧
    Connected (fun u => rgbPhy (coreBeat loopCfg (fun _ => loopIn) u)) (fun i => 7 * i + 3) (Cdc.linkOf y) ∧
    (∀ t, Dma.wordsOf 10 2 (y t).frame_size = 4) ∧
    FastEnough 4 1 25 9 3 (fun u => (y u).pixEdge) (fun u => (y u).sysEdge)
      (fun u => (y u).busReady) (fun u => (y u).wdataValid) (circuitHanded (ycbcr422 4) 2 10 2 f0 z) ∧
    Cdc.AtRest (ycbcr422 4) 2 10 2 f0 z 3999 ∧ Cdc.SoftwareOwns (ycbcr422 4) 2 10 2 f0 z 3999 ∧
    Cdc.LoadsNone z 3999 ∧ ((circuit (ycbcr422 4) 2 10 2 f0 z 3999).dma.slots 1).valid = true := by
  have a1 := slow_loaded slowWords (rgb 4)
  have a2 := slow_loaded slowWords (ycbcr422 4)
  have b1 := slow_owns slowWords (rgb 4)
  have b2 := slow_owns slowWords (ycbcr422 4)
  have c1 := slow_none slowWords (rgb 4)
  have c2 := slow_none slowWords (ycbcr422 4)
  refine ⟨loopMode_real, by decide, wired_answers, wired_refuses, by decide, by decide, by decide, by decide,
    fun i j _ _ => by omega, by decide, by decide, by decide, fun T => ⟨8 * T + 1, by omega, ?_⟩,
    by rw [slow_count]; decide, ?_⟩
  · show ((8 * T + 1) % 8 == 1) = true
    rw [beq_iff_eq]; omega
  · generalize 3999 = T0 at a1 a2 b1 b2 c1 c2 ⊢
    exact ⟨⟨slow_settled, slow_connected, fun t => by simp [Dma.wordsOf, slowRun], slow_fast _ _, a1.1, b1, c1,
        a1.2⟩,
      ⟨slow_settled, slow_connected, fun t => by simp [Dma.wordsOf, slowRun], slow_fast _ _, a2.1, b2, c2,
        a2.2⟩⟩

end Verif.Props
