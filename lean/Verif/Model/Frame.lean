import Verif.Machine
import Verif.Model.AsyncFifo
import Verif.Model.Resample

/-!
# Frame extraction

Model of `FrameExtraction` (litevideo/input/analysis.py:133-287).  The code that packs pixels into
words is the same in both modes (analysis.py:189-209 and 213-233) and is modelled once, over any
pixel type.
-/

namespace Verif.Frame

/-! Packing of pixels into memory words. -/
namespace Packer

/-- Inputs of the packer during one clock: `new_frame`, the enable (`source.valid & de` or
`valid_i & de`, analysis.py:203,227) and `encoded_pixel`. -/
structure In (α : Type) where
  new_frame : Bool
  en : Bool
  px : α

/-- Registers: `pack_counter`, `cur_word` (slot `i` is bits `[w*i, w*(i+1))`), `cur_word_valid`
(analysis.py:190-197,214-221) and `fifo.sink.sof` (analysis.py:245-250). -/
structure State (α : Type) where
  pack_counter : Nat
  cur_word : Nat → α
  cur_word_valid : Bool
  sof : Bool

/-- Reset state; `zero` is the all-zero pixel. -/
def reset {α : Type} (zero : α) : State α :=
  { pack_counter := 0, cur_word := fun _ => zero, cur_word_valid := false, sof := false }

/-- Number of values of `Signal(max=pf)`, for a power of two `pf`: the signal has at least one
bit. -/
def counterRange (pf : Nat) : Nat := if pf = 1 then 2 else pf

/-- One clock edge (analysis.py:198-209,222-233,245-250); `pf` is `pack_factor`. -/
def step {α : Type} (pf : Nat) (s : State α) (x : In α) : State α :=
  { pack_counter :=
      if x.new_frame then 0
      else if x.en then (s.pack_counter + 1) % counterRange pf
      else s.pack_counter
    cur_word :=
      if x.new_frame then s.cur_word
      else if x.en then fun i => if i < pf ∧ s.pack_counter + i + 1 = pf then x.px else s.cur_word i
      else s.cur_word
    cur_word_valid :=
      if x.new_frame then decide (s.pack_counter + 1 = pf)
      else if x.en then decide (s.pack_counter + 1 = pf)
      else false
    sof := if x.new_frame then true else if s.cur_word_valid then false else s.sof }

/-- `cur_word` as the list of its `pf` pixels, least significant first. -/
def word {α : Type} (pf : Nat) (s : State α) : List α := (List.range pf).map s.cur_word

end Packer

/-- Inputs of `FrameExtraction` in the pixel clock domain (analysis.py:136-141). -/
structure In where
  valid_i : Bool
  vsync : Bool
  de : Bool
  r : BitVec 8
  g : BitVec 8
  b : BitVec 8

/-! rgb mode (analysis.py:210-233). -/
namespace Rgb

/-- Registers: `vsync_r` (analysis.py:154) and the packer. -/
structure State where
  vsync_r : Bool
  packer : Packer.State (BitVec 32)

/-- Reset state. -/
def reset : State := { vsync_r := false, packer := Packer.reset 0 }

/-- `encoded_pixel = Cat(b, g, r, dummy8)` (analysis.py:216-218); `dummy8` is never driven. -/
def encodedPixel (x : In) : BitVec 32 := (0#8 ++ x.r) ++ (x.g ++ x.b)

/-- Inputs of the packer (analysis.py:156,211,224-229). -/
def packerIn (s : State) (x : In) : Packer.In (BitVec 32) :=
  { new_frame := x.vsync && !s.vsync_r, en := x.valid_i && x.de, px := encodedPixel x }

/-- One pixel clock edge; `pf` is `word_width//32` (analysis.py:219). -/
def step (pf : Nat) (s : State) (x : In) : State :=
  { vsync_r := x.vsync, packer := Packer.step pf s.packer (packerIn s x) }

end Rgb

/-! ycbcr422 mode (analysis.py:159-209). -/
namespace Ycbcr422

/-- Datapath of `RGB2YCbCr()` with its default widths (rgb2ycbcr.py:129). -/
def rgbDatapath : PipelinedActor.Datapath Csc.Rgb2Ycbcr.State Csc.Rgb Csc.Ycbcr :=
  Csc.Rgb2Ycbcr.datapath (Csc.Rgb2Ycbcr.params 8 8 8)

/-- Datapath of `YCbCr444to422()` with its default width (ycbcr444to422.py:73-86) and `first`
driven from outside (analysis.py:174). -/
def downDatapath : PipelinedActor.Datapath Csc.To422.State Csc.To422.In Csc.Ycbcr422 :=
  { step := Csc.To422.step 8, out := Csc.To422.State.source, init := Csc.To422.reset }

/-- `rgb2ycbcr.latency + chroma_downsampler.latency` (analysis.py:178). -/
def delayLatency : Nat := Csc.Rgb2Ycbcr.latency + Csc.To422.latency

/-- Registers: `vsync_r`, `de_r`, the two converters, the `next_de` chain (newest first; the
`next_vsync` chain is never read and is omitted) and the packer. -/
structure State where
  vsync_r : Bool
  de_r : Bool
  rgb2ycbcr : PipelinedActor.State Csc.Rgb2Ycbcr.State
  down : PipelinedActor.State Csc.To422.State
  de_delay : List Bool
  packer : Packer.State (BitVec 16)

/-- Reset state. -/
def reset : State :=
  { vsync_r := false, de_r := false
    rgb2ycbcr := PipelinedActor.reset rgbDatapath Csc.Rgb2Ycbcr.latency
    down := PipelinedActor.reset downDatapath Csc.To422.latency
    de_delay := List.replicate delayLatency false, packer := Packer.reset 0 }

/-- `encoded_pixel = Cat(source.y, source.cb_cr)` (analysis.py:192-194). -/
def encodedPixel (s : State) : BitVec 16 :=
  BitVec.ofInt 8 (downDatapath.out s.down.dp).cb_cr ++ BitVec.ofInt 8 (downDatapath.out s.down.dp).y

/-- Inputs of the packer (analysis.py:156,200-208).  `new_frame` uses the undelayed vsync: the
Python variable `vsync` is rebound to the delayed signal only afterwards. -/
def packerIn (s : State) (x : In) : Packer.In (BitVec 16) :=
  { new_frame := x.vsync && !s.vsync_r
    en := PipelinedActor.sourceValid s.down && s.de_delay.getLastD false
    px := encodedPixel s }

/-- Input of the colour space converter (analysis.py:167-170). -/
def rgbIn (x : In) : Csc.Rgb :=
  { r := (x.r.toNat : Int), g := (x.g.toNat : Int), b := (x.b.toNat : Int) }

/-- One pixel clock edge (analysis.py:153-209); `pf` is `word_width//16`. -/
def step (pf : Nat) (s : State) (x : In) : State :=
  { vsync_r := x.vsync
    de_r := x.de
    rgb2ycbcr := PipelinedActor.step rgbDatapath s.rgb2ycbcr
      { valid := x.valid_i, data := rgbIn x, ready := PipelinedActor.pipeCe s.down true }
    down := PipelinedActor.step downDatapath s.down
      { valid := PipelinedActor.sourceValid s.rgb2ycbcr
        data := { px := rgbDatapath.out s.rgb2ycbcr.dp, first := x.de && !s.de_r }, ready := true }
    de_delay := (x.de :: s.de_delay).dropLast
    packer := Packer.step pf s.packer (packerIn s x) }

end Ycbcr422

/-! Overflow detection (analysis.py:257-287).  `PulseSynchronizer` and `MultiReg` are Migen
library blocks: the former toggles a bit in the source domain, passes it through two registers of
the target domain and detects its changes there with one more register; the latter is two registers
of the target domain. -/
namespace Overflow

/-- What happens at one instant: edges of the two clocks, `fifo.sink.valid & ~fifo.sink.ready`
at the pixel clock edge, and `_overflow.re` at the system clock edge. -/
structure In where
  pixEdge : Bool
  lost : Bool
  sysEdge : Bool
  re : Bool

/-- A `PulseSynchronizer`: toggle, the two `MultiReg` stages, and the last value. -/
structure Pulse where
  toggle : Bool
  m0 : Bool
  m1 : Bool
  last : Bool
deriving DecidableEq, Repr

/-- Output of a `PulseSynchronizer`. -/
def Pulse.o (p : Pulse) : Bool := p.m1 ^^ p.last

/-- Edges of the source and target clocks of a `PulseSynchronizer`. -/
def Pulse.step (p : Pulse) (srcEdge i dstEdge : Bool) : Pulse :=
  { toggle := if srcEdge && i then !p.toggle else p.toggle
    m0 := if dstEdge then p.toggle else p.m0
    m1 := if dstEdge then p.m0 else p.m1
    last := if dstEdge then p.m1 else p.last }

/-- Registers: `pix_overflow`, the stages of `MultiReg`, the two pulse synchronizers and
`overflow_mask` (analysis.py:258-277). -/
structure State where
  pix_overflow : Bool
  s0 : Bool
  sys_overflow : Bool
  rst : Pulse
  ack : Pulse
  overflow_mask : Bool
deriving DecidableEq, Repr

/-- Reset state. -/
def reset : State :=
  { pix_overflow := false, s0 := false, sys_overflow := false, rst := ⟨false, false, false, false⟩
    ack := ⟨false, false, false, false⟩, overflow_mask := false }

/-- What software reads: `_overflow.w` (analysis.py:279). -/
def csr (s : State) : Bool := s.sys_overflow && !s.overflow_mask

/-- One instant (analysis.py:260-287). -/
def step (s : State) (x : In) : State :=
  { pix_overflow :=
      if x.pixEdge then
        (if x.lost then true else if s.rst.o then false else s.pix_overflow)
      else s.pix_overflow
    s0 := if x.sysEdge then s.pix_overflow else s.s0
    sys_overflow := if x.sysEdge then s.s0 else s.sys_overflow
    rst := s.rst.step x.sysEdge x.re x.pixEdge
    ack := s.ack.step x.pixEdge s.rst.o x.sysEdge
    overflow_mask :=
      if x.sysEdge then (if x.re then true else if s.ack.o then false else s.overflow_mask)
      else s.overflow_mask }

end Overflow
end Verif.Frame
