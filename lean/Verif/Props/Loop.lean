import Verif.Props.Film
import Verif.Props.VideoOut

/-!
# C85: from the frame buffer of the transmitter to the memory of the receiver
-/

namespace Verif.Props

open Verif.HdmiIn Verif.Spec.HdmiIn Verif.Spec.Capture Verif.Spec.Frame Verif.Spec.Stream
  Verif.Spec.Receiver Verif.Spec.Serial Verif.VideoOut Verif.Spec.VideoOut Verif.Output
  Verif.Spec.Output Verif.Spec.Loop Verif.Loop
open Verif.Capture (rgb ycbcr422 Extractor)

section

variable {p : Params} {x : Nat → Phy} {m0 d0 : Nat} {pic : Nat → Colour}

/-- **C85** for any source of raster video.  A transmitter sends the picture `pic` in mode `p` again
and again, from pixel `m0` at clock `m0 + d0` on.  Four frames and 25 clocks plus the lane delay
later, at instant `T0` or any time after, let the capture path be at rest; from then on the frame
size is that of the picture, software leaves LOADED slots alone and no overflow occurs.  Then each
transfer that is done has brought exactly the picture to memory: all pixels, in raster order. -/
theorem C85_raster (hp : RealMode p) (hx : Raster p x m0 d0 pic) (k : Nat → Nat)
    (lead : Nat → Nat → Bool) (hskew : ∀ i j, i < 3 → j < 3 → k i ≤ k j + 70)
    (pf depth nslots aw al : Nat) (hpf : 2 ≤ pf) (y : Nat → In) (hl : Lanes x k lead y) (N T0 : Nat)
    (hN : N * pf = p.vres * p.hres)
    (hseen : m0 + d0 + 4 * frameLen p + k 0 / 10 + 25 ≤ countIn (fun u => (y u).pixEdge) 0 T0)
    (hsize : ∀ t, T0 ≤ t → Dma.wordsOf aw al (y t).frame_size = N) (e s : Nat) (he : T0 ≤ e) :
    let z := captureIn (rgb pf) depth nslots aw al y
    AtRest (rgb pf) depth nslots aw al z T0 → SoftwareOwns (rgb pf) depth nslots aw al z T0 →
    NoOverflow (rgb pf) depth nslots aw al z T0 (e + 1) → Done (rgb pf) depth nslots aw al z e s →
    ∃ b, T0 ≤ b ∧ Captured (rgb pf) depth nslots aw al z b e s
      (groups pf ((List.range (p.vres * p.hres)).map fun q => rgb24 (pic q))) := by
  intro z rest own hno hd
  obtain ⟨F, h, -⟩ := C113_film hp hx k lead hskew pf depth nslots aw al hpf y hl N T0 hN hseen
    hsize rest own
  obtain ⟨b, ws, h1, ⟨-, -, rfl⟩, h2⟩ := h e s he hno hd
  exact ⟨b, h1, h2⟩

/-- **C85** for any source of raster video, receiver in ycbcr422 mode (the default): the picture in
4:2:2.  Lines have an even number of pixels and 11 clocks of blanking. -/
theorem C85_raster_ycbcr422 (hp : RealMode p) (hx : Raster p x m0 d0 pic) (hev : p.hres % 2 = 0)
    (hbl : p.hres + 10 ≤ p.hscan) (k : Nat → Nat)
    (lead : Nat → Nat → Bool) (hskew : ∀ i j, i < 3 → j < 3 → k i ≤ k j + 70)
    (pf depth nslots aw al : Nat) (hpf : 2 ≤ pf) (y : Nat → In) (hl : Lanes x k lead y) (N T0 : Nat)
    (hN : N * pf = p.vres * p.hres)
    (hseen : m0 + d0 + 4 * frameLen p + k 0 / 10 + 25 ≤ countIn (fun u => (y u).pixEdge) 0 T0)
    (hsize : ∀ t, T0 ≤ t → Dma.wordsOf aw al (y t).frame_size = N) (e s : Nat) (he : T0 ≤ e) :
    let z := captureIn (ycbcr422 pf) depth nslots aw al y
    AtRest (ycbcr422 pf) depth nslots aw al z T0 →
    SoftwareOwns (ycbcr422 pf) depth nslots aw al z T0 →
    NoOverflow (ycbcr422 pf) depth nslots aw al z T0 (e + 1) →
    Done (ycbcr422 pf) depth nslots aw al z e s →
    ∃ b, T0 ≤ b ∧ Captured (ycbcr422 pf) depth nslots aw al z b e s
      (groups pf ((List.range (p.vres * p.hres)).map (pic422 pic))) := by
  intro z rest own hno hd
  obtain ⟨F, h, -⟩ := C113_film_ycbcr422 hp hx hev hbl k lead hskew pf depth nslots aw al hpf y hl N T0 hN hseen
    hsize rest own
  obtain ⟨b, ws, h1, ⟨-, -, rfl⟩, h2⟩ := h e s he hno hd
  exact ⟨b, h1, h2⟩

end

/-- The word of the frame buffer that holds pixel `q` of the picture. -/
def bufferWord (cfg : Core.Config) (p : Params) (mem : Nat → Nat) (q : Nat) : Nat :=
  mem ((p.base / 2 ^ cfg.shift % 2 ^ cfg.aw + q) % 2 ^ cfg.aw)

/-- The colour of a word of a frame buffer in rgb mode: bytes 0, 1 and 2 are red, green and blue. -/
def colourOf (w : Nat) : Colour :=
  (BitVec.ofNat 8 (byte 0 w), BitVec.ofNat 8 (byte 1 w), BitVec.ofNat 8 (byte 2 w))

/-- An output core that is supplied with data from clock `c0` on, when it offers pixel `m0`, sends
raster video with the picture in the frame buffer. -/
theorem core_raster (cfg : Core.Config) (p : Params) (hp : ValidMode p) (hraw : cfg.raw = false)
    (hpos : 0 < p.vres * p.hres)
    (hlen : p.length / 2 ^ cfg.shift % 2 ^ cfg.aw = p.vres * p.hres)
    (mem : Nat → Nat) (i : Nat → Core.In)
    (hi : ∀ t, (i t).pvalid = true ∧ (i t).p = p ∧ (i t).mem = mem) (c0 m0 : Nat)
    (hc : Core.beats cfg i c0 = m0 + 1)
    (hv : ∀ t, c0 ≤ t → (i t).ready = true ∧
      Core.valid (trace (Core.step cfg) Core.reset i t) (i t) = true) :
    m0 ≤ c0 ∧ Raster p (fun u => rgbPhy (coreBeat cfg i u)) m0 (c0 - m0)
      (fun q => colourOf (bufferWord cfg p mem q)) := by
  have hle : m0 ≤ c0 := by
    have := count_le (fun u => Core.valid (trace (Core.step cfg) Core.reset i u) (i u) &&
      (i u).ready) 0 c0
    have hc : countIn (fun u => Core.valid (trace (Core.step cfg) Core.reset i u) (i u) &&
      (i u).ready) 0 c0 = m0 + 1 := hc
    omega
  have hb : ∀ j, Core.beats cfg i (c0 + j) = m0 + j + 1 := by
    intro j
    induction j with
    | zero => exact hc
    | succ j ih =>
      obtain ⟨h1, h2⟩ := hv (c0 + j) (by omega)
      have e : Core.beats cfg i (c0 + j + 1) = Core.beats cfg i (c0 + j) +
        (if (Core.valid (trace (Core.step cfg) Core.reset i (c0 + j)) (i (c0 + j)) &&
          (i (c0 + j)).ready) = true then 1 else 0) := by
        unfold Core.beats; rw [countIn, Nat.zero_add]
      rw [← Nat.add_assoc c0, e, ih, h1, h2]
      rfl
  have key : ∀ m, m0 ≤ m → _ := fun m hm =>
    C40_frame cfg p hp hraw hpos hlen mem i hi (m + (c0 - m0)) m (by
      have := hb (m - m0)
      rw [show c0 + (m - m0) = m + (c0 - m0) by omega, show m0 + (m - m0) = m by omega] at this
      exact this)
  refine ⟨hle, fun m hm => (key m hm).1, fun m hm => (key m hm).2.1, fun m hm => (key m hm).2.2.1,
    fun m hm hact => ?_⟩
  have hd := (key m hm).2.2.2 (hv _ (by omega)).2 hact
  have : (coreBeat cfg i (m + (c0 - m0))).data = BitVec.ofNat 24 (mem (pixelAddress cfg p m)) := by
    show BitVec.ofNat 24 (Core.data (trace (Core.step cfg) Core.reset i (m + (c0 - m0)))) = _
    rw [hd]
  simp only [rgbPhy, this, colourOf, bufferWord]
  show _ = (BitVec.ofNat 8 (byte 0 (mem (pixelAddress cfg p m))),
    BitVec.ofNat 8 (byte 1 (mem (pixelAddress cfg p m))),
    BitVec.ofNat 8 (byte 2 (mem (pixelAddress cfg p m))))
  generalize mem (pixelAddress cfg p m) = w
  simp only [Prod.mk.injEq]
  refine ⟨?_, ?_, ?_⟩ <;> apply BitVec.eq_of_toNat_eq <;>
    simp [byte, Nat.shiftRight_eq_div_pow] <;> omega

/-- **C85** From frame buffer to memory.  An output core in rgb mode displays a frame buffer in mode
`p`, over any lanes with delays at most 70 bits apart, to a receiver in rgb mode.  From clock `c0` on,
when pixel `m0` is offered, the output is supplied with data in time.  If the capture path is at rest
at instant `T0`, at least four frames and 25 clocks plus the lane delay later, and from then on the
frame size is that of the picture, software leaves LOADED slots alone and no overflow occurs, then
each transfer that is done has brought the frame buffer to the slot: all its pixels, in order, with
their red, green and blue. -/
theorem C85_buffer_to_memory (cfg : Core.Config) (p : Params) (hp : RealMode p)
    (hraw : cfg.raw = false) (hlen : p.length / 2 ^ cfg.shift % 2 ^ cfg.aw = p.vres * p.hres)
    (mem : Nat → Nat) (i : Nat → Core.In)
    (hi : ∀ t, (i t).pvalid = true ∧ (i t).p = p ∧ (i t).mem = mem) (c0 m0 : Nat)
    (hc : Core.beats cfg i c0 = m0 + 1)
    (hv : ∀ t, c0 ≤ t → (i t).ready = true ∧
      Core.valid (trace (Core.step cfg) Core.reset i t) (i t) = true)
    (k : Nat → Nat) (lead : Nat → Nat → Bool) (hskew : ∀ i j, i < 3 → j < 3 → k i ≤ k j + 70)
    (pf depth nslots aw al : Nat) (hpf : 2 ≤ pf) (y : Nat → In)
    (hl : Lanes (fun u => rgbPhy (coreBeat cfg i u)) k lead y) (N T0 : Nat)
    (hN : N * pf = p.vres * p.hres)
    (hseen : c0 + 4 * frameLen p + k 0 / 10 + 25 ≤ countIn (fun u => (y u).pixEdge) 0 T0)
    (hsize : ∀ t, T0 ≤ t → Dma.wordsOf aw al (y t).frame_size = N) (e s : Nat) (he : T0 ≤ e) :
    let z := captureIn (rgb pf) depth nslots aw al y
    AtRest (rgb pf) depth nslots aw al z T0 → SoftwareOwns (rgb pf) depth nslots aw al z T0 →
    NoOverflow (rgb pf) depth nslots aw al z T0 (e + 1) → Done (rgb pf) depth nslots aw al z e s →
    ∃ b, T0 ≤ b ∧ Captured (rgb pf) depth nslots aw al z b e s
      (groups pf ((List.range (p.vres * p.hres)).map fun q =>
        let w := bufferWord cfg p mem q
        byte 0 w * 65536 + byte 1 w * 256 + byte 2 w)) := by
  intro z rest own hno hd
  have hpos : 0 < p.vres * p.hres := by
    have := Nat.mul_le_mul hp.lines hp.wide; omega
  obtain ⟨hle, hx⟩ := core_raster cfg p hp.toValidMode hraw hpos hlen mem i hi c0 m0 hc hv
  obtain ⟨b, h1, h2⟩ := C85_raster hp hx k lead hskew pf depth nslots aw al hpf y hl N T0 hN
    (by omega) hsize e s he rest own hno hd
  refine ⟨b, h1, ?_⟩
  have e : (fun q => rgb24 (colourOf (bufferWord cfg p mem q))) = fun q =>
      let w := bufferWord cfg p mem q
      byte 0 w * 65536 + byte 1 w * 256 + byte 2 w := by
    funext q
    simp only [rgb24, colourOf, BitVec.toNat_ofNat, byte]
    omega
  rw [← e]
  exact h2

/-- **C85**, receiver in ycbcr422 mode: the slot holds the picture of the frame buffer in 4:2:2. -/
theorem C85_buffer_to_memory_ycbcr422 (cfg : Core.Config) (p : Params) (hp : RealMode p)
    (hraw : cfg.raw = false) (hlen : p.length / 2 ^ cfg.shift % 2 ^ cfg.aw = p.vres * p.hres)
    (mem : Nat → Nat) (i : Nat → Core.In)
    (hi : ∀ t, (i t).pvalid = true ∧ (i t).p = p ∧ (i t).mem = mem) (c0 m0 : Nat)
    (hc : Core.beats cfg i c0 = m0 + 1)
    (hv : ∀ t, c0 ≤ t → (i t).ready = true ∧
      Core.valid (trace (Core.step cfg) Core.reset i t) (i t) = true)
    (hev : p.hres % 2 = 0) (hbl : p.hres + 10 ≤ p.hscan)
    (k : Nat → Nat) (lead : Nat → Nat → Bool) (hskew : ∀ i j, i < 3 → j < 3 → k i ≤ k j + 70)
    (pf depth nslots aw al : Nat) (hpf : 2 ≤ pf) (y : Nat → In)
    (hl : Lanes (fun u => rgbPhy (coreBeat cfg i u)) k lead y) (N T0 : Nat)
    (hN : N * pf = p.vres * p.hres)
    (hseen : c0 + 4 * frameLen p + k 0 / 10 + 25 ≤ countIn (fun u => (y u).pixEdge) 0 T0)
    (hsize : ∀ t, T0 ≤ t → Dma.wordsOf aw al (y t).frame_size = N) (e s : Nat) (he : T0 ≤ e) :
    let z := captureIn (ycbcr422 pf) depth nslots aw al y
    AtRest (ycbcr422 pf) depth nslots aw al z T0 →
    SoftwareOwns (ycbcr422 pf) depth nslots aw al z T0 →
    NoOverflow (ycbcr422 pf) depth nslots aw al z T0 (e + 1) →
    Done (ycbcr422 pf) depth nslots aw al z e s →
    ∃ b, T0 ≤ b ∧ Captured (ycbcr422 pf) depth nslots aw al z b e s
      (groups pf ((List.range (p.vres * p.hres)).map
        (pic422 fun q => colourOf (bufferWord cfg p mem q)))) := by
  intro z rest own hno hd
  have hpos : 0 < p.vres * p.hres := by
    have := Nat.mul_le_mul hp.lines hp.wide; omega
  obtain ⟨hle, hx⟩ := core_raster cfg p hp.toValidMode hraw hpos hlen mem i hi c0 m0 hc hv
  exact C85_raster_ycbcr422 hp hx hev hbl k lead hskew pf depth nslots aw al hpf y hl N T0 hN
    (by omega) hsize e s he rest own hno hd

/-! ### A concrete case -/

/-- Lines of 16 pixels and 27 clocks, one active line of three; the frame buffer starts at address
10. -/
def loopMode : Params := ⟨16, 17, 18, 26, 1, 1, 2, 2, 10, 16⟩

theorem loopMode_real : RealMode loopMode where
  hres := by decide
  vres := by decide
  hs := by decide
  he := by decide
  vs := by decide
  ve := by decide
  hbits := by decide
  vbits := by decide
  wide := by decide
  long := by decide
  hporch := by decide
  lines := by decide
  vporch := by decide

def loopCfg : Core.Config := ⟨8, 0, 6, false⟩

/-- Memory word `a` is `0x030201 * (a + 1)`. -/
def loopIn : Core.In := ⟨true, loopMode, true, true, true, fun a => 0x030201 * (a + 1)⟩

def loopVideo (u : Nat) : Phy := rgbPhy (coreBeat loopCfg (fun _ => loopIn) u)

/-- The lanes arrive 2, 15 and 28 bits late; software loads slot 1 with address 400 at instant
379. -/
def loopRun (t : Nat) : In :=
  { pixEdge := true
    raw := ⟨deserialised (laneBits loopVideo (fun i => 13 * i + 2) (fun _ _ => true) 0) t,
      deserialised (laneBits loopVideo (fun i => 13 * i + 2) (fun _ _ => true) 1) t,
      deserialised (laneBits loopVideo (fun i => 13 * i + 2) (fun _ _ => true) 2) t⟩
    wok := true, sysEdge := true, rok := true
    busReady := t % 3 != 0, wdataValid := t % 4 != 0, frame_size := 32
    sw := fun n => if t = 379 ∧ n = 1 then ⟨some 1, some 400⟩ else ⟨none, none⟩ }

deriving instance DecidableEq for Core.State

set_option maxRecDepth 10000 in
/-- From clock 3 on the output core never lacks data: its state at clock 40 recurs at clock 121. -/
theorem loop_supplied (t : Nat) (ht : 3 ≤ t) : loopIn.ready = true ∧
    Core.valid (trace (Core.step loopCfg) Core.reset (fun _ => loopIn) t) loopIn = true := by
  refine ⟨rfl, ?_⟩
  have h1 : ∀ t, t < 121 → 3 ≤ t → Core.valid (trace (Core.step loopCfg) Core.reset
    (fun _ => loopIn) t) loopIn = true := by decide +kernel
  rcases Nat.lt_or_ge t 121 with h | h
  · exact h1 t h ht
  · obtain ⟨n, rfl⟩ : ∃ n, t = 40 + n := ⟨t - 40, by omega⟩
    rw [trace_periodic (Core.step loopCfg) Core.reset loopIn 40 81 (by decide +kernel) n]
    exact h1 _ (by omega) (by omega)

theorem loop_owns {σ : Type} {w : Nat} (E : Extractor σ w) :
    SoftwareOwns E 16 2 10 2 (captureIn E 16 2 10 2 loopRun) 380 := by
  intro t n ht _ _
  have : ¬ (t = 379 ∧ n = 1) := by omega
  simp [captureIn, capIn, loopRun, this]

theorem loop_lanes : Lanes (fun u => rgbPhy (coreBeat loopCfg (fun _ => loopIn) u))
    (fun i => 13 * i + 2) (fun _ _ => true) loopRun := by
  intro t _
  rw [countIn_all (fun u => (loopRun u).pixEdge) (fun _ => rfl)]; rfl

set_option maxRecDepth 1000000 in
/-- All hypotheses of C85 hold for this run with `c0 = 3`, `m0 = 0` and `T0 = 380`, and the transfer
done at instant 440, which has brought the picture to memory. -/
example : RealMode loopMode ∧
    loopMode.length / 2 ^ loopCfg.shift % 2 ^ loopCfg.aw = loopMode.vres * loopMode.hres ∧
    Core.beats loopCfg (fun _ => loopIn) 3 = 0 + 1 ∧
    (∀ t, 3 ≤ t → loopIn.ready = true ∧
      Core.valid (trace (Core.step loopCfg) Core.reset (fun _ => loopIn) t) loopIn = true) ∧
    Lanes (fun u => rgbPhy (coreBeat loopCfg (fun _ => loopIn) u)) (fun i => 13 * i + 2)
      (fun _ _ => true) loopRun ∧
    8 * 2 = loopMode.vres * loopMode.hres ∧
    3 + 4 * frameLen loopMode + (13 * 0 + 2) / 10 + 25 ≤
      countIn (fun u => (loopRun u).pixEdge) 0 380 ∧
    (∀ t, Dma.wordsOf 10 2 (loopRun t).frame_size = 8) ∧
    let z := captureIn (rgb 2) 16 2 10 2 loopRun
    SoftwareOwns (rgb 2) 16 2 10 2 z 380 ∧ AtRest (rgb 2) 16 2 10 2 z 380 ∧
    NoOverflow (rgb 2) 16 2 10 2 z 380 441 ∧ Done (rgb 2) 16 2 10 2 z 440 1 ∧
    memWrites (rgb 2) 16 2 10 2 z 0 441 = (List.range 8).map fun j =>
      (100 + j, [BitVec.ofNat 32 (0x10203 * (12 + 2 * j)), BitVec.ofNat 32 (0x10203 * (11 + 2 * j))]) := by
  refine ⟨loopMode_real, by decide, by decide, loop_supplied, loop_lanes, by decide,
    by decide +kernel, fun t => by simp [Dma.wordsOf, loopRun], loop_owns _, ?_⟩
  unfold AtRest NoOverflow Done
  decide +kernel

set_option maxRecDepth 1000000 in
/-- The hypotheses of C85 that differ in ycbcr422 mode. -/
example : loopMode.hres % 2 = 0 ∧ loopMode.hres + 10 ≤ loopMode.hscan ∧
    let z := captureIn (ycbcr422 2) 16 2 10 2 loopRun
    SoftwareOwns (ycbcr422 2) 16 2 10 2 z 380 ∧ AtRest (ycbcr422 2) 16 2 10 2 z 380 ∧
    NoOverflow (ycbcr422 2) 16 2 10 2 z 380 453 ∧ Done (ycbcr422 2) 16 2 10 2 z 452 1 ∧
    (memWrites (ycbcr422 2) 16 2 10 2 z 0 453).length = 8 := by
  refine ⟨by decide, by decide, loop_owns _, ?_⟩
  unfold AtRest NoOverflow Done
  decide +kernel

end Verif.Props
