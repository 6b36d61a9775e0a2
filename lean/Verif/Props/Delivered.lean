import Verif.Props.Loop
import Verif.Props.Link
import Verif.Props.CaptureLive
import Verif.Props.Bandwidth

/-!
# C91: a displayed picture is delivered to a LOADED slot
-/

namespace Verif.Props

open Verif.HdmiIn Verif.Spec.HdmiIn Verif.Spec.Capture Verif.Spec.Frame Verif.Spec.Stream
  Verif.Spec.Receiver Verif.Spec.Serial Verif.VideoOut Verif.Spec.VideoOut Verif.Output
  Verif.Spec.Output Verif.Spec.Loop Verif.Loop Verif.Spec.Link
open Verif.Capture (rgb ycbcr422 Extractor progress_slot Moves moves_of_alive sofs_at)

section Lemmas

variable {σ : Type} {w : Nat} {E : Extractor σ w} {depth nslots aw al : Nat} {y : Nat → In}

theorem alive_in (h : AliveIn y) : Alive (captureIn E depth nslots aw al y) :=
  ⟨h.pix, h.bus, h.drained⟩

theorem loads_in {T0 : Nat} (h : LoadsNoneIn y T0) :
    LoadsNone (captureIn E depth nslots aw al y) T0 := h

variable {p : Params} {x : Nat → Phy} {m0 d0 : Nat} {film : Nat → Nat → Colour}

/-- Frames keep coming. -/
theorem raster_frames (hp : RealMode p) (hx : Film p x m0 d0 film) (c : Nat) :
    ∃ t, c ≤ t ∧ FrameStarts (sent false x) t := by
  have hfl := fl_eq p
  have hll : lineLen p = p.hscan + 1 := rfl
  have hG : (m0 + c + 1) ≤ (m0 + c + 1) * frameLen p := Nat.le_mul_of_pos_right _ (by omega)
  refine ⟨(m0 + c + 1) * frameLen p + p.vsync_start * lineLen p - 1 + d0, by omega, ?_⟩
  exact (raster_start hp hx _ (by omega)).2 ⟨m0 + c + 1, by omega⟩

theorem film_delivered (hp : RealMode p) (hx : Film p x m0 d0 film)
    {pf depth nslots aw al : Nat} (hpf : 2 ≤ pf) {y : Nat → In} {V : Nat → Frame.In} {N F L T0 : Nat}
    (hN : N * pf = p.vres * p.hres) (ff : FilmFacts p x m0 d0 N F)
    (hV : Video (captureIn (rgb pf) depth nslots aw al y) V)
    (hlat : Later V (sent false x) L ((F + 1) * frameLen p + p.hres - 1 + d0))
    (hseen : m0 + d0 + 4 * frameLen p + L + 2 ≤ countIn (fun u => (y u).pixEdge) 0 T0)
    (hsize : ∀ t, T0 ≤ t → Dma.wordsOf aw al (y t).frame_size = N)
    (pix : ∀ T, ∃ u, T ≤ u ∧ (y u).pixEdge = true)
    (moves : Moves (rgb pf) depth nslots aw al (captureIn (rgb pf) depth nslots aw al y))
    (none : LoadsNoneIn y T0) {s : Nat} (hs : s < nslots) :
    let z := captureIn (rgb pf) depth nslots aw al y
    Spec.Capture.AtRest (rgb pf) depth nslots aw al z T0 → SoftwareOwns (rgb pf) depth nslots aw al z T0 →
    ((capture (rgb pf) depth nslots aw al z T0).dma.slots s).valid = true →
    (∀ T, (∀ u, T0 ≤ u → u < T → ¬ Done (rgb pf) depth nslots aw al z u s) →
      NoOverflow (rgb pf) depth nslots aw al z T0 (T + 1)) →
    ∃ e b j, T0 ≤ b ∧ m0 ≤ j * frameLen p ∧
      OnItsWay p (fun u => (y u).pixEdge) d0 (L + 2) T0 e j ∧ Done (rgb pf) depth nslots aw al z e s ∧
      Captured (rgb pf) depth nslots aw al z b e s
        (groups pf ((List.range (p.vres * p.hres)).map fun q => rgb24 (film j q))) := by
  intro z rest own hload hno
  have hsoon := ff.soon; have hlate := ff.late; have horder := ff.order1; have horder2 := ff.order2
  have hporch := ff.porch; have hwide := hp.wide; have hres := hp.hres
  have st : SteadyFrom pf N ((F + 1) * frameLen p + p.vsync_start * lineLen p - 1 + d0) (sent false x) :=
    ⟨fun t n ht => (raster_steady hp hx hpf hN).frames t n (by omega)⟩
  have hframes : ∀ c, ∃ t, c ≤ t ∧ FrameStarts V t := by
    intro c
    obtain ⟨t, ht, hst⟩ := raster_frames hp hx (c + ((F + 1) * frameLen p + p.hres + d0))
    exact ⟨t + L, by omega, (later_starts hlat _ (by omega)).2 hst⟩
  obtain ⟨e, he, hd, hfirst⟩ := progress_slot own (loads_in none) hsize ff.some moves
    (sofs_at hV pix (sofs_rgb hpf ff.some (later_steady hlat (by omega) st) hframes))
    rest.2 s hs hload hno
  obtain ⟨G, h, -⟩ := film_in_order hp hx hpf hN ff hV hlat hseen hsize rest own
  obtain ⟨b, ws, h1, ⟨h3, h4, rfl⟩, h2⟩ := h e s he (hno e hfirst) hd
  exact ⟨e, b, G e, h1, h3, h4, hd, h2⟩

theorem film_delivered422 (hp : RealMode p) (hx : Film p x m0 d0 film)
    (hev : p.hres % 2 = 0) (hbl : p.hres + 10 ≤ p.hscan)
    {pf depth nslots aw al : Nat} (hpf : 2 ≤ pf) {y : Nat → In} {V : Nat → Frame.In} {N F L T0 : Nat}
    (hN : N * pf = p.vres * p.hres) (ff : FilmFacts p x m0 d0 N F)
    (hV : Video (captureIn (ycbcr422 pf) depth nslots aw al y) V)
    (hlat : Later V (sent false x) L ((F + 1) * frameLen p + p.hres - 1 + d0))
    (hseen : m0 + d0 + 4 * frameLen p + L + 2 ≤ countIn (fun u => (y u).pixEdge) 0 T0)
    (hsize : ∀ t, T0 ≤ t → Dma.wordsOf aw al (y t).frame_size = N)
    (pix : ∀ T, ∃ u, T ≤ u ∧ (y u).pixEdge = true)
    (moves : Moves (ycbcr422 pf) depth nslots aw al (captureIn (ycbcr422 pf) depth nslots aw al y))
    (none : LoadsNoneIn y T0) {s : Nat} (hs : s < nslots) :
    let z := captureIn (ycbcr422 pf) depth nslots aw al y
    Spec.Capture.AtRest (ycbcr422 pf) depth nslots aw al z T0 → SoftwareOwns (ycbcr422 pf) depth nslots aw al z T0 →
    ((capture (ycbcr422 pf) depth nslots aw al z T0).dma.slots s).valid = true →
    (∀ T, (∀ u, T0 ≤ u → u < T → ¬ Done (ycbcr422 pf) depth nslots aw al z u s) →
      NoOverflow (ycbcr422 pf) depth nslots aw al z T0 (T + 1)) →
    ∃ e b j, T0 ≤ b ∧ m0 ≤ j * frameLen p ∧
      OnItsWay p (fun u => (y u).pixEdge) d0 (L + 2) T0 e j ∧ Done (ycbcr422 pf) depth nslots aw al z e s ∧
      Captured (ycbcr422 pf) depth nslots aw al z b e s
        (groups pf ((List.range (p.vres * p.hres)).map (pic422 (film j)))) := by
  intro z rest own hload hno
  have hsoon := ff.soon; have hlate := ff.late; have horder := ff.order1; have horder2 := ff.order2
  have hporch := ff.porch; have hwide := hp.wide; have hres := hp.hres
  have st : SteadyFrom422 pf N ((F + 1) * frameLen p + p.vsync_start * lineLen p - 1 + d0)
    (sent false x) := raster_steady422 hp hx hev hbl hpf hN _ (by omega)
  have hframes : ∀ c, ∃ t, c ≤ t ∧ FrameStarts V t := by
    intro c
    obtain ⟨t, ht, hst⟩ := raster_frames hp hx (c + ((F + 1) * frameLen p + p.hres + d0))
    exact ⟨t + L, by omega, (later_starts hlat _ (by omega)).2 hst⟩
  obtain ⟨e, he, hd, hfirst⟩ := progress_slot own (loads_in none) hsize ff.some moves
    (sofs_at hV pix (sofs_ycbcr422 hpf ff.some
      (later_steady422 hlat (raster_even hp hx hev _ ff.early) (by omega) st) hframes))
    rest.2 s hs hload hno
  obtain ⟨G, h, -⟩ := film_in_order422 hp hx hev hbl hpf hN ff hV hlat hseen hsize rest own
  obtain ⟨b, ws, h1, ⟨h3, h4, rfl⟩, h2⟩ := h e s he (hno e hfirst) hd
  exact ⟨e, b, G e, h1, h3, h4, hd, h2⟩

end Lemmas

section

variable {p : Params} {x : Nat → Phy} {m0 d0 : Nat} {pic : Nat → Colour}

/-- **C91** A picture is delivered.  A transmitter sends the picture `pic` in mode `p` again and again
(as in C85).  If at instant `T0` the capture path is at rest and slot `s` is LOADED, the clocks, the
FIFO and the memory bus stay alive, software loads no other slot meanwhile, and no overflow occurs
until slot `s` is done, then the transfer to slot `s` is done at some instant and the slot holds
exactly the picture. -/
theorem C91_raster (hp : RealMode p) (hx : Raster p x m0 d0 pic) (k : Nat → Nat)
    (lead : Nat → Nat → Bool) (hskew : ∀ i j, i < 3 → j < 3 → k i ≤ k j + 70)
    (pf depth nslots aw al : Nat) (hpf : 2 ≤ pf) (y : Nat → In) (hl : Lanes x k lead y) (N T0 : Nat)
    (hN : N * pf = p.vres * p.hres)
    (hseen : m0 + d0 + 4 * frameLen p + k 0 / 10 + 25 ≤ countIn (fun u => (y u).pixEdge) 0 T0)
    (hsize : ∀ t, T0 ≤ t → Dma.wordsOf aw al (y t).frame_size = N)
    (alive : AliveIn y) (none : LoadsNoneIn y T0) (s : Nat) (hs : s < nslots) :
    let z := captureIn (rgb pf) depth nslots aw al y
    Spec.Capture.AtRest (rgb pf) depth nslots aw al z T0 → SoftwareOwns (rgb pf) depth nslots aw al z T0 →
    ((capture (rgb pf) depth nslots aw al z T0).dma.slots s).valid = true →
    (∀ T, (∀ u, T0 ≤ u → u < T → ¬ Done (rgb pf) depth nslots aw al z u s) →
      NoOverflow (rgb pf) depth nslots aw al z T0 (T + 1)) →
    ∃ e b, T0 ≤ b ∧ Done (rgb pf) depth nslots aw al z e s ∧
      Captured (rgb pf) depth nslots aw al z b e s
        (groups pf ((List.range (p.vres * p.hres)).map fun q => rgb24 (pic q))) := by
  intro z rest own hload hno
  obtain ⟨F, ff⟩ := film_facts hp hx hN
  obtain ⟨V, L, hL, hV, hlat⟩ := hdmi_video (E := rgb pf) (depth := depth) (nslots := nslots)
    (aw := aw) (al := al) hl ff.lock hskew ff.order0 ff.standard
  obtain ⟨e, b, -, h1, -, -, h2⟩ := film_delivered hp hx hpf hN ff hV hlat (by omega) hsize alive.pix
    (moves_of_alive (alive_in alive)) none hs
    rest own hload hno
  exact ⟨e, b, h1, h2⟩

/-- **C91**, receiver in ycbcr422 mode (the default). -/
theorem C91_raster_ycbcr422 (hp : RealMode p) (hx : Raster p x m0 d0 pic) (hev : p.hres % 2 = 0)
    (hbl : p.hres + 10 ≤ p.hscan) (k : Nat → Nat)
    (lead : Nat → Nat → Bool) (hskew : ∀ i j, i < 3 → j < 3 → k i ≤ k j + 70)
    (pf depth nslots aw al : Nat) (hpf : 2 ≤ pf) (y : Nat → In) (hl : Lanes x k lead y) (N T0 : Nat)
    (hN : N * pf = p.vres * p.hres)
    (hseen : m0 + d0 + 4 * frameLen p + k 0 / 10 + 25 ≤ countIn (fun u => (y u).pixEdge) 0 T0)
    (hsize : ∀ t, T0 ≤ t → Dma.wordsOf aw al (y t).frame_size = N)
    (alive : AliveIn y) (none : LoadsNoneIn y T0) (s : Nat) (hs : s < nslots) :
    let z := captureIn (ycbcr422 pf) depth nslots aw al y
    Spec.Capture.AtRest (ycbcr422 pf) depth nslots aw al z T0 →
    SoftwareOwns (ycbcr422 pf) depth nslots aw al z T0 →
    ((capture (ycbcr422 pf) depth nslots aw al z T0).dma.slots s).valid = true →
    (∀ T, (∀ u, T0 ≤ u → u < T → ¬ Done (ycbcr422 pf) depth nslots aw al z u s) →
      NoOverflow (ycbcr422 pf) depth nslots aw al z T0 (T + 1)) →
    ∃ e b, T0 ≤ b ∧ Done (ycbcr422 pf) depth nslots aw al z e s ∧
      Captured (ycbcr422 pf) depth nslots aw al z b e s
        (groups pf ((List.range (p.vres * p.hres)).map (pic422 pic))) := by
  intro z rest own hload hno
  obtain ⟨F, ff⟩ := film_facts hp hx hN
  obtain ⟨V, L, hL, hV, hlat⟩ := hdmi_video (E := ycbcr422 pf) (depth := depth) (nslots := nslots)
    (aw := aw) (al := al) hl ff.lock hskew ff.order0 ff.standard
  obtain ⟨e, b, -, h1, -, -, h2⟩ := film_delivered422 hp hx hev hbl hpf hN ff hV hlat (by omega) hsize alive.pix
    (moves_of_alive (alive_in alive)) none hs
    rest own hload hno
  exact ⟨e, b, h1, h2⟩

end

/-- **C91** The whole way.  An output core in rgb mode displays a frame buffer in mode `p` through a
transmitter of either family; the three pairs, whose delays differ by at most 70 bits and whose pads
may be inverted, lead to a receiver of either family in rgb mode.  From clock `c0` on, when pixel
`m0` is offered, the output is supplied with data in time.  If at instant `T0`, at least four frames
and 30 clocks plus the line delay later, the capture path is at rest and slot `s` is LOADED, the
frame size is that of the picture, the clocks, the FIFO and the memory bus stay alive, software
leaves LOADED slots alone and loads no other slot, and no overflow occurs until slot `s` is done,
then at some instant slot `s` is done and holds the frame buffer: all its pixels, in order, with their
red, green and blue. -/
theorem C91_display_to_memory (cfg : Core.Config) (p : Params) (hp : RealMode p)
    (hraw : cfg.raw = false) (hlen : p.length / 2 ^ cfg.shift % 2 ^ cfg.aw = p.vres * p.hres)
    (mem : Nat → Nat) (i : Nat → Core.In)
    (hi : ∀ t, (i t).pvalid = true ∧ (i t).p = p ∧ (i t).mem = mem) (c0 m0 : Nat)
    (hc : Core.beats cfg i c0 = m0 + 1)
    (hv : ∀ t, c0 ≤ t → (i t).ready = true ∧
      Core.valid (trace (Core.step cfg) Core.reset i t) (i t) = true)
    (D : Nat → Nat) (hskew : ∀ i j, i < 3 → j < 3 → D i ≤ D j + 70)
    (pf depth nslots aw al : Nat) (hpf : 2 ≤ pf) (y : Nat → In)
    (hl : Connected (fun u => rgbPhy (coreBeat cfg i u)) D y) (N T0 : Nat)
    (hN : N * pf = p.vres * p.hres)
    (hseen : c0 + 4 * frameLen p + D 0 / 10 + 30 ≤ countIn (fun u => (y u).pixEdge) 0 T0)
    (hsize : ∀ t, T0 ≤ t → Dma.wordsOf aw al (y t).frame_size = N)
    (alive : AliveIn y) (none : LoadsNoneIn y T0) (s : Nat) (hs : s < nslots) :
    let z := captureIn (rgb pf) depth nslots aw al y
    Spec.Capture.AtRest (rgb pf) depth nslots aw al z T0 → SoftwareOwns (rgb pf) depth nslots aw al z T0 →
    ((capture (rgb pf) depth nslots aw al z T0).dma.slots s).valid = true →
    (∀ T, (∀ u, T0 ≤ u → u < T → ¬ Done (rgb pf) depth nslots aw al z u s) →
      NoOverflow (rgb pf) depth nslots aw al z T0 (T + 1)) →
    ∃ e b, T0 ≤ b ∧ Done (rgb pf) depth nslots aw al z e s ∧
      Captured (rgb pf) depth nslots aw al z b e s
        (groups pf ((List.range (p.vres * p.hres)).map fun q =>
          let w := bufferWord cfg p mem q
          byte 0 w * 65536 + byte 1 w * 256 + byte 2 w)) := by
  intro z rest own hload hno
  have hpos : 0 < p.vres * p.hres := by
    have := Nat.mul_le_mul hp.lines hp.wide; omega
  obtain ⟨hle, hx⟩ := core_raster cfg p hp.toValidMode hraw hpos hlen mem i hi c0 m0 hc hv
  obtain ⟨c, lead, hc50, hlanes⟩ := connected_lanes hl
  obtain ⟨e, b, h1, hd, h2⟩ := C91_raster hp hx (fun i => D i + c) lead
    (fun i j h1 h2 => by have := hskew i j h1 h2; omega) pf depth nslots aw al hpf y hlanes N T0 hN
    (by omega) hsize alive none s hs rest own hload hno
  refine ⟨e, b, h1, hd, ?_⟩
  have e : (fun q => rgb24 (colourOf (bufferWord cfg p mem q))) = fun q =>
      let w := bufferWord cfg p mem q
      byte 0 w * 65536 + byte 1 w * 256 + byte 2 w := by
    funext q
    simp only [rgb24, colourOf, BitVec.toNat_ofNat, byte]
    omega
  rw [← e]
  exact h2

/-- **C91**, receiver in ycbcr422 mode: the slot holds the picture of the frame buffer in 4:2:2. -/
theorem C91_display_to_memory_ycbcr422 (cfg : Core.Config) (p : Params) (hp : RealMode p)
    (hraw : cfg.raw = false) (hlen : p.length / 2 ^ cfg.shift % 2 ^ cfg.aw = p.vres * p.hres)
    (mem : Nat → Nat) (i : Nat → Core.In)
    (hi : ∀ t, (i t).pvalid = true ∧ (i t).p = p ∧ (i t).mem = mem) (c0 m0 : Nat)
    (hc : Core.beats cfg i c0 = m0 + 1)
    (hv : ∀ t, c0 ≤ t → (i t).ready = true ∧
      Core.valid (trace (Core.step cfg) Core.reset i t) (i t) = true)
    (hev : p.hres % 2 = 0) (hbl : p.hres + 10 ≤ p.hscan)
    (D : Nat → Nat) (hskew : ∀ i j, i < 3 → j < 3 → D i ≤ D j + 70)
    (pf depth nslots aw al : Nat) (hpf : 2 ≤ pf) (y : Nat → In)
    (hl : Connected (fun u => rgbPhy (coreBeat cfg i u)) D y) (N T0 : Nat)
    (hN : N * pf = p.vres * p.hres)
    (hseen : c0 + 4 * frameLen p + D 0 / 10 + 30 ≤ countIn (fun u => (y u).pixEdge) 0 T0)
    (hsize : ∀ t, T0 ≤ t → Dma.wordsOf aw al (y t).frame_size = N)
    (alive : AliveIn y) (none : LoadsNoneIn y T0) (s : Nat) (hs : s < nslots) :
    let z := captureIn (ycbcr422 pf) depth nslots aw al y
    Spec.Capture.AtRest (ycbcr422 pf) depth nslots aw al z T0 →
    SoftwareOwns (ycbcr422 pf) depth nslots aw al z T0 →
    ((capture (ycbcr422 pf) depth nslots aw al z T0).dma.slots s).valid = true →
    (∀ T, (∀ u, T0 ≤ u → u < T → ¬ Done (ycbcr422 pf) depth nslots aw al z u s) →
      NoOverflow (ycbcr422 pf) depth nslots aw al z T0 (T + 1)) →
    ∃ e b, T0 ≤ b ∧ Done (ycbcr422 pf) depth nslots aw al z e s ∧
      Captured (ycbcr422 pf) depth nslots aw al z b e s
        (groups pf ((List.range (p.vres * p.hres)).map
          (pic422 fun q => colourOf (bufferWord cfg p mem q)))) := by
  intro z rest own hload hno
  have hpos : 0 < p.vres * p.hres := by
    have := Nat.mul_le_mul hp.lines hp.wide; omega
  obtain ⟨hle, hx⟩ := core_raster cfg p hp.toValidMode hraw hpos hlen mem i hi c0 m0 hc hv
  obtain ⟨c, lead, hc50, hlanes⟩ := connected_lanes hl
  exact C91_raster_ycbcr422 hp hx hev hbl (fun i => D i + c) lead
    (fun i j h1 h2 => by have := hskew i j h1 h2; omega) pf depth nslots aw al hpf y hlanes N T0 hN
    (by omega) hsize alive none s hs rest own hload hno

/-! ### A concrete case -/

/-- The frame buffer of the example of C85 on a Spartan-6 transmitter with lane 2 inverted; lane `i`
arrives `7 i + 3` bits late. -/
def wiredLine (i : Nat) : Nat → Bool :=
  delayed (7 * i + 3) (fun _ => true) (txLine s6Pad (fun i => i == 2)
    (fun u => rgbPhy (coreBeat loopCfg (fun _ => loopIn) u)) i)

/-- A Spartan-6 capture block, lane 1 inverted: `pix2x` at every instant, the pixel clock at the odd
ones. -/
def wiredS6 (i t : Nat) : DataCapture.S6.In :=
  ⟨true, t % 2 == 1, false, false, false, false, false,
    ofBits 5 fun j => swapped (i == 1) (wiredLine i (5 * t + j)), ⟨false, false, false, false, false, false⟩, false⟩

/-- What it delivers; from instant 20 on in a form that is easier to compute. -/
def wiredWord (i t : Nat) : BitVec 10 :=
  if t < 20 then (s6 8 (i == 1) (wiredS6 i) t).d
  else deserialised (laneBits loopVideo (fun i => 7 * i + 18) (fun _ _ => true) i) (t / 2)

/-- The raw words are `raw`.  Memory words hold four pixels; software loads slot 1 with address 400 at
instant 938. -/
def runOn (raw : Nat → Receiver.In) (t : Nat) : In :=
  { pixEdge := t % 2 == 1
    raw := raw t
    wok := true, sysEdge := true, rok := true
    busReady := t % 3 != 0, wdataValid := t % 4 != 0, frame_size := 16
    sw := fun n => if t = 938 ∧ n = 1 then ⟨some 1, some 400⟩ else ⟨none, none⟩ }

def wiredRaw (t : Nat) : Receiver.In := ⟨wiredWord 0 t, wiredWord 1 t, wiredWord 2 t⟩

local notation "wiredRun" => runOn wiredRaw

theorem wired_receives (i : Nat) : S6Receives (i == 1) (wiredS6 i) (wiredLine i) := by
  intro t _
  rw [edges2x, countIn_all (fun v => (wiredS6 i v).pix2xEdge) (fun _ => rfl)]; rfl

theorem wired_two (i : Nat) :
    TwoPer (fun t => (wiredS6 i t).pix2xEdge) (fun t => (wiredS6 i t).pixEdge) 1 := by
  intro t ht
  rw [countIn_all (fun v => (wiredS6 i v).pix2xEdge) (fun _ => rfl)]
  have h := count_mod 2 1 (by omega) (by omega) t
  have ht : (t % 2 == 1) = true := ht
  rw [beq_iff_eq] at ht
  show t = 2 * countIn (fun t => t % 2 == 1) 0 t + 1
  omega

theorem wired_word (i t : Nat) (hi : i < 3) (ht : t % 2 = 1) :
    wiredWord i t = (s6 8 (i == 1) (wiredS6 i) t).d := by
  unfold wiredWord
  by_cases h : t < 20
  · rw [if_pos h]
  · rw [if_neg h]
    have hr := wired_receives i
    rw [wiredLine, txLine_serial (.inl rfl)] at hr
    obtain ⟨l, hl⟩ := C89_s6_received 8 (i == 1) (wiredS6 i) _ _ _ hr 1 (by omega) (wired_two i)
    have hp : (wiredS6 i t).pixEdge = true := by
      show (t % 2 == 1) = true
      rw [ht]; rfl
    have hcount : countIn (fun t => (wiredS6 i t).pixEdge) 0 t = t / 2 := by
      have := count_mod 2 1 (by omega) (by omega) t
      exact this
    rw [hl t hp, hcount]
    apply BitVec.eq_of_getLsbD_eq
    intro j hj
    simp only [laneBits, deserialised, wordAt, getLsbD_ofBits, serialise]
    rw [if_neg (by omega), if_neg (by omega), show 7 * i + 3 + 20 - 5 * 1 = 7 * i + 18 by omega]
    rfl

theorem wired_connected : Connected (fun u => rgbPhy (coreBeat loopCfg (fun _ => loopIn) u))
    (fun i => 7 * i + 3) wiredRun := by
  refine .s6 s6Pad (.inl rfl) (fun i => i == 2) (fun i => i == 1) (fun _ _ => true) 8 wiredS6 1
    (by omega) (fun _ _ => by omega) (fun _ _ => rfl) wired_two (fun i _ => wired_receives i) (fun t ht => ?_)
  have ht : (t % 2 == 1) = true := ht
  rw [beq_iff_eq] at ht
  show Receiver.In.mk (wiredWord 0 t) (wiredWord 1 t) (wiredWord 2 t) = _
  rw [wired_word 0 t (by omega) ht, wired_word 1 t (by omega) ht, wired_word 2 t (by omega) ht]

section

variable (raw : Nat → Receiver.In)

theorem run_alive : AliveIn (runOn raw) := by
  refine ⟨fun T => ⟨2 * T + 1, by omega, ?_⟩, fun T => ⟨3 * T + 1, by omega, rfl, rfl, ?_⟩,
    fun T => ⟨4 * T, by omega, rfl, ?_⟩⟩
  · show ((2 * T + 1) % 2 == 1) = true
    rw [beq_iff_eq]; omega
  · show ((3 * T + 1) % 3 != 0) = true
    rw [bne_iff_ne]; omega
  · show ((4 * T) % 4 != 0) = false
    rw [bne_eq_false_iff_eq]; omega

theorem run_owns {σ : Type} {w : Nat} (E : Extractor σ w) :
    SoftwareOwns E 16 2 10 2 (captureIn E 16 2 10 2 (runOn raw)) 939 := by
  intro t n ht _ _
  have : ¬ (t = 938 ∧ n = 1) := by omega
  simp [captureIn, capIn, runOn, this]

/-- Until the slot is loaded the DMA throws away all words at once. -/
theorem run_idle {σ : Type} {w : Nat} (E : Extractor σ w) (t : Nat) (ht : t ≤ 938) :
    let s := capture E 16 2 10 2 (captureIn E 16 2 10 2 (runOn raw)) t
    s.dma.fsm = .waitSof ∧ (∀ n, (s.dma.slots n).valid = false) ∧ s.fifo.length ≤ 1 ∧
      (t % 2 = 1 → s.fifo = []) := by
  induction t with
  | zero => exact ⟨rfl, fun _ => (by decide : (Dma.Slot.mk 0 0).valid = false), Nat.zero_le _, fun _ => rfl⟩
  | succ t ih =>
    obtain ⟨h1, h2, h3, h4⟩ := ih (by omega)
    have hav : Dma.addressValid (capture E 16 2 10 2 (captureIn E 16 2 10 2 (runOn raw)) t).dma = false := h2 _
    refine ⟨?_, fun n => ?_, ?_⟩
    · show (Dma.step 2 10 2 _ _).fsm = _
      simp only [Dma.step, h1, hav]; rfl
    · show ((Dma.step 2 10 2 _ _).slots n).valid = _
      have : ¬ (t = 938 ∧ n = 1) := by omega
      have hsw : (Capture.dmaIn (capture E 16 2 10 2 (captureIn E 16 2 10 2 (runOn raw)) t)
          (captureIn E 16 2 10 2 (runOn raw) t)).sw n = ⟨none, none⟩ := by
        simp [Capture.dmaIn, captureIn, capIn, runOn, this]
      simp only [Dma.step, Dma.addressDone, h1, hsw, Dma.Slot.step, Dma.Slot.valid]
      exact h2 n
    · have hpop : (Capture.fifoIn E (capture E 16 2 10 2 (captureIn E 16 2 10 2 (runOn raw)) t)
          (captureIn E 16 2 10 2 (runOn raw) t)).pop = true := by
        simp only [Capture.fifoIn, Dma.frameReady, h1, hav]; rfl
      have hrok : (Capture.fifoIn E (capture E 16 2 10 2 (captureIn E 16 2 10 2 (runOn raw)) t)
          (captureIn E 16 2 10 2 (runOn raw) t)).rok = true := rfl
      have htail : (capture E 16 2 10 2 (captureIn E 16 2 10 2 (runOn raw)) (t + 1)).fifo =
          if AsyncFifo.sinkReady 16 (capture E 16 2 10 2 (captureIn E 16 2 10 2 (runOn raw)) t).fifo
              (Capture.fifoIn E (capture E 16 2 10 2 (captureIn E 16 2 10 2 (runOn raw)) t)
                (captureIn E 16 2 10 2 (runOn raw) t)) &&
            (Capture.fifoIn E (capture E 16 2 10 2 (captureIn E 16 2 10 2 (runOn raw)) t)
                (captureIn E 16 2 10 2 (runOn raw) t)).push
          then [(Capture.fifoIn E (capture E 16 2 10 2 (captureIn E 16 2 10 2 (runOn raw)) t)
                (captureIn E 16 2 10 2 (runOn raw) t)).data] else [] := by
        show AsyncFifo.step 16 _ _ = _
        unfold AsyncFifo.step
        have : (if AsyncFifo.sourceValid (capture E 16 2 10 2 (captureIn E 16 2 10 2 (runOn raw)) t).fifo
              (Capture.fifoIn E (capture E 16 2 10 2 (captureIn E 16 2 10 2 (runOn raw)) t)
                (captureIn E 16 2 10 2 (runOn raw) t)) &&
            (Capture.fifoIn E (capture E 16 2 10 2 (captureIn E 16 2 10 2 (runOn raw)) t)
                (captureIn E 16 2 10 2 (runOn raw) t)).pop
          then (capture E 16 2 10 2 (captureIn E 16 2 10 2 (runOn raw)) t).fifo.tail
          else (capture E 16 2 10 2 (captureIn E 16 2 10 2 (runOn raw)) t).fifo) = [] := by
          rw [AsyncFifo.sourceValid, hpop, hrok]
          revert h3
          generalize (capture E 16 2 10 2 (captureIn E 16 2 10 2 (runOn raw)) t).fifo = q
          intro h3
          match q, h3 with
          | [], _ => rfl
          | [_], _ => rfl
          | _ :: _ :: _, h => simp at h
        rw [this]; rfl
      rw [htail]
      refine ⟨by split <;> simp, fun hodd => ?_⟩
      have : (Capture.fifoIn E (capture E 16 2 10 2 (captureIn E 16 2 10 2 (runOn raw)) t)
                (captureIn E 16 2 10 2 (runOn raw) t)).push = false := by
        have h : (captureIn E 16 2 10 2 (runOn raw) t).pixEdge = false := by
          show (t % 2 == 1) = false
          rw [beq_eq_false_iff_ne]; omega
        simp only [Capture.fifoIn, h, Bool.false_and]
      rw [this, Bool.and_false]; rfl

theorem run_loads {σ : Type} {w : Nat} (E : Extractor σ w) (t : Nat) (ht : t = 938) :
    Spec.Capture.AtRest E 16 2 10 2 (captureIn E 16 2 10 2 (runOn raw)) (t + 1) ∧
    ((capture E 16 2 10 2 (captureIn E 16 2 10 2 (runOn raw)) (t + 1)).dma.slots 1).valid = true := by
  obtain ⟨h1, h2, h3, -⟩ := run_idle raw E t (by omega)
  have hav : Dma.addressValid (capture E 16 2 10 2 (captureIn E 16 2 10 2 (runOn raw)) t).dma = false := h2 _
  refine ⟨⟨?_, ?_⟩, by subst ht; exact (by decide : (Dma.Slot.mk 1 400).valid = true)⟩
  · show AsyncFifo.step 16 _ _ = _
    have hpop : (Capture.fifoIn E (capture E 16 2 10 2 (captureIn E 16 2 10 2 (runOn raw)) t)
          (captureIn E 16 2 10 2 (runOn raw) t)).pop = true := by
        simp only [Capture.fifoIn, Dma.frameReady, h1, hav]; rfl
    have hpush : (Capture.fifoIn E (capture E 16 2 10 2 (captureIn E 16 2 10 2 (runOn raw)) t)
          (captureIn E 16 2 10 2 (runOn raw) t)).push = false := by subst ht; rfl
    have hrok : (Capture.fifoIn E (capture E 16 2 10 2 (captureIn E 16 2 10 2 (runOn raw)) t)
          (captureIn E 16 2 10 2 (runOn raw) t)).rok = true := rfl
    rw [AsyncFifo.step, AsyncFifo.sourceValid, hpop, hpush, hrok, Bool.and_false]
    revert h3
    generalize (capture E 16 2 10 2 (captureIn E 16 2 10 2 (runOn raw)) t).fifo = q
    intro h3
    match q, h3 with
    | [], _ => rfl
    | [_], _ => rfl
    | _ :: _ :: _, h => simp at h
  · show (Dma.step 2 10 2 _ _).fsm = _
    simp only [Dma.step, h1, hav]; rfl

/-- In this run the capture path is at rest and slot 1 is LOADED at instant 939. -/
theorem run_loaded {σ : Type} {w : Nat} (E : Extractor σ w) :
    Spec.Capture.AtRest E 16 2 10 2 (captureIn E 16 2 10 2 (runOn raw)) 939 ∧
    ((capture E 16 2 10 2 (captureIn E 16 2 10 2 (runOn raw)) 939).dma.slots 1).valid = true :=
  run_loads raw E 938 rfl

theorem run_count (t n : Nat) : countIn (fun u => (runOn raw u).pixEdge) t n = (n + t % 2) / 2 := by
  induction n with
  | zero => simp only [countIn]; omega
  | succ n ih =>
    rw [countIn, ih]
    have : (runOn raw (t + n)).pixEdge = decide ((t + n) % 2 = 1) := rfl
    rw [this]
    by_cases h : (t + n) % 2 = 1
    · simp [h]; omega
    · simp [h]; omega

theorem run_keeps {σ : Type} {w : Nat} (E : Extractor σ w) (hE : E.pf = 4) :
    KeepsUp E 16 2 10 2 (captureIn E 16 2 10 2 (runOn raw)) 1 := by
  intro t e _ h
  have h' : 1 * E.pf ≤ countIn (fun u => (runOn raw u).pixEdge) t (e - t) := h
  rw [hE, run_count] at h'
  have hd : ∀ u, u % 4 = 0 → ((captureIn E 16 2 10 2 (runOn raw) u).wdataValid = false) := by
    intro u hu
    show (u % 4 != 0) = false
    rw [bne_eq_false_iff_eq]; exact hu
  have hb : ∀ u, u % 3 ≠ 0 → ((captureIn E 16 2 10 2 (runOn raw) u).busReady = true) := by
    intro u hu
    show (u % 3 != 0) = true
    rw [bne_iff_ne]; exact hu
  by_cases h3 : ((t + 3) / 4 * 4 + 2) % 3 = 0
  · exact ⟨(t + 3) / 4 * 4, (t + 3) / 4 * 4 + 1, (t + 3) / 4 * 4 + 3, by omega, by omega, by omega, by omega,
      ⟨rfl, hd _ (by omega)⟩, ⟨rfl, rfl⟩, ⟨rfl, rfl, hb _ (by omega)⟩, trivial⟩
  · exact ⟨(t + 3) / 4 * 4, (t + 3) / 4 * 4 + 1, (t + 3) / 4 * 4 + 2, by omega, by omega, by omega, by omega,
      ⟨rfl, hd _ (by omega)⟩, ⟨rfl, rfl⟩, ⟨rfl, rfl, hb _ h3⟩, trivial⟩

theorem run_lag {σ : Type} {w : Nat} (E : Extractor σ w) :
    LagsBy E 16 2 10 2 (captureIn E 16 2 10 2 (runOn raw)) 3 :=
  fun _ h => absurd (show true = false from h) (by decide)

theorem run_none : LoadsNoneIn (runOn raw) 939 := by
  intro t n v ht _ hv
  have : ¬ (t = 938 ∧ n = 1) := by omega
  simp [runOn, this] at hv

end

/-- All hypotheses of C91 (those about the output core are met as in the example of C85). -/
example : (∀ i j, i < 3 → j < 3 → 7 * i + 3 ≤ 7 * j + 3 + 70) ∧
    Connected (fun u => rgbPhy (coreBeat loopCfg (fun _ => loopIn) u)) (fun i => 7 * i + 3)
      wiredRun ∧
    4 * 4 = loopMode.vres * loopMode.hres ∧
    3 + 4 * frameLen loopMode + (7 * 0 + 3) / 10 + 30 ≤
      countIn (fun u => (wiredRun u).pixEdge) 0 939 ∧
    (∀ t, Dma.wordsOf 10 2 (wiredRun t).frame_size = 4) ∧ AliveIn wiredRun ∧
    LoadsNoneIn wiredRun 939 ∧
    let z := captureIn (rgb 4) 16 2 10 2 wiredRun
    SoftwareOwns (rgb 4) 16 2 10 2 z 939 ∧ Spec.Capture.AtRest (rgb 4) 16 2 10 2 z 939 ∧
    ((capture (rgb 4) 16 2 10 2 z 939).dma.slots 1).valid = true ∧
    (∀ T, (∀ u, 939 ≤ u → u < T → ¬ Done (rgb 4) 16 2 10 2 z u 1) →
      NoOverflow (rgb 4) 16 2 10 2 z 939 (T + 1)) :=
  ⟨fun i j _ _ => by omega, wired_connected, by decide, by rw [run_count]; decide,
    fun t => by simp [Dma.wordsOf, runOn], run_alive wiredRaw, run_none wiredRaw, run_owns wiredRaw (rgb 4),
    (run_loaded wiredRaw (rgb 4)).1, (run_loaded wiredRaw (rgb 4)).2, fun T _ => (C97_no_overflow 4 16 2 10 2 1 3 (by omega) (by omega) _
      (run_keeps wiredRaw (rgb 4) rfl) (run_lag wiredRaw (rgb 4)) (by decide)).2 939 (T + 1)⟩

end Verif.Props
