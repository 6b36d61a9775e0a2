import Verif.Proofs.VideoOut
import Verif.Props.Tmds
import Verif.Props.Output

/-!
# C43, C44, C59 and C60: from the output core to the pins
-/

namespace Verif.Props

open Verif.VideoOut Spec.VideoOut Spec.Output Spec.Stream Verif.Output

/-- The receiver of the three lanes driven with the PHY inputs `x`, with each lane decoded by
`Decoding` (`v` is the decoders' `valid_i`), at clock `t`. -/
def linkOut (v : Nat → Bool) (x : Nat → Phy) (t : Nat) : Received :=
  received (decoderOut v (encoderOut fun u => lane 0 (x u)) t)
    (decoderOut v (encoderOut fun u => lane 1 (x u)) t)
    (decoderOut v (encoderOut fun u => lane 2 (x u)) t)

/-- The link: what goes into the PHY comes out of a receiver 5 clocks later. -/
theorem link (v : Nat → Bool) (x : Nat → Phy) (t : Nat) :
    let y := linkOut v x (t + 5)
    y.de = (x t).de ∧
    ((x t).de = true → y.r = (x t).r ∧ y.g = (x t).g ∧ y.b = (x t).b) ∧
    ((x t).de = false → y.hsync = (x t).hsync ∧ y.vsync = (x t).vsync) := by
  obtain ⟨a0, b0, c0, -⟩ := C01_roundtrip (fun u => lane 0 (x u)) v t
  obtain ⟨a1, b1, c1, -⟩ := C01_roundtrip (fun u => lane 1 (x u)) v t
  obtain ⟨a2, b2, c2, -⟩ := C01_roundtrip (fun u => lane 2 (x u)) v t
  refine ⟨a0, fun h => ⟨b2 h, b1 h, b0 h⟩, fun h => ?_⟩
  have e := c0 h
  show (decoderOut v (encoderOut fun u => lane 0 (x u)) (t + 5)).c.getLsbD 0 = _ ∧
    (decoderOut v (encoderOut fun u => lane 0 (x u)) (t + 5)).c.getLsbD 1 = _
  rw [e]
  simp only [lane]
  cases (x t).hsync <;> cases (x t).vsync <;> decide

/-- **C43** rgb mode.  For every stream out of the core, a receiver of the three TMDS lanes sees,
5 clocks later, the same data-enable; in active clocks bytes 0, 1, 2 of the memory word as red,
green, blue; in blanking clocks the same hsync and vsync. -/
theorem C43_rgb (v : Nat → Bool) (x : Nat → Beat 24) (t : Nat) :
    let y := linkOut v (fun u => rgbPhy (x u)) (t + 5)
    y.de = (x t).de ∧
    ((x t).de = true → y.r.toNat = byte 0 (x t).data.toNat ∧ y.g.toNat = byte 1 (x t).data.toNat ∧
      y.b.toNat = byte 2 (x t).data.toNat) ∧
    ((x t).de = false → y.hsync = (x t).hsync ∧ y.vsync = (x t).vsync) := by
  obtain ⟨a, b, c⟩ := link v (fun u => rgbPhy (x u)) t
  refine ⟨a, fun h => ?_, c⟩
  obtain ⟨b1, b2, b3⟩ := b h
  simp only [b1, b2, b3]
  simp [rgbPhy, byte, Nat.shiftRight_eq_div_pow]

/-- **C43** raw mode.  The three lanes carry bits 0-9, 10-19 and 20-29 of the memory word. -/
theorem C43_raw (x : Beat 32) :
    (rawWords x).1.toNat = x.data.toNat % 2 ^ 10 ∧
    (rawWords x).2.1.toNat = x.data.toNat / 2 ^ 10 % 2 ^ 10 ∧
    (rawWords x).2.2.toNat = x.data.toNat / 2 ^ 20 % 2 ^ 10 := by
  simp [rawWords, Nat.shiftRight_eq_div_pow]

/-- **C43** A lane whose pads are swapped carries complemented bits; the swapped differential pair
complements them again. -/
theorem C43_inverted (w : BitVec 10) (k : Nat) (hk : k < 10) :
    (padWord true w).getLsbD k = !w.getLsbD k ∧ (padWord false w).getLsbD k = w.getLsbD k := by
  simp [padWord, hk]

example : (rgbPhy ⟨true, 0x332211#24, true, false, true⟩).r = 0x11#8 ∧
    (rgbPhy ⟨true, 0x332211#24, true, false, true⟩).b = 0x33#8 ∧
    (rawWords ⟨true, 0x3FF00001#32, true, false, true⟩).2.2 = 0x3FF#10 := by decide

/-- The stream out of an output core in rgb mode with an always-ready driver. -/
def coreBeat (cfg : Core.Config) (i : Nat → Core.In) (t : Nat) : Beat 24 :=
  let s := trace (Core.step cfg) Core.reset i t
  { valid := Core.valid s (i t), data := BitVec.ofNat 24 (Core.data s), de := Core.de s (i t)
    hsync := s.timing.hsync, vsync := s.timing.vsync }

/-- **C60** From the frame buffer to the receiver.  rgb mode, constant mode and constant frame
buffer content, any memory latency: when the core offers pixel `n` with data available, 5 clocks
later the receiver of the TMDS lanes sees the data-enable of pixel `n`; in the active area the three
low bytes of the memory word of that pixel as red, green, blue; in blanking the syncs of pixel
`n`. -/
theorem C60_memory_to_receiver (cfg : Core.Config) (p : Params) (hp : ValidMode p)
    (hraw : cfg.raw = false) (hpos : 0 < p.vres * p.hres)
    (hlen : p.length / 2 ^ cfg.shift % 2 ^ cfg.aw = p.vres * p.hres)
    (mem : Nat → Nat) (i : Nat → Core.In)
    (hi : ∀ t, (i t).pvalid = true ∧ (i t).p = p ∧ (i t).mem = mem) (v : Nat → Bool) (t n : Nat)
    (hn : Core.beats cfg i t = n + 1)
    (hv : Core.valid (trace (Core.step cfg) Core.reset i t) (i t) = true) :
    let y := linkOut v (fun u => rgbPhy (coreBeat cfg i u)) (t + 5)
    y.de = isActive p n ∧
    (isActive p n = true →
      y.r.toNat = byte 0 (mem (pixelAddress cfg p n)) ∧
      y.g.toNat = byte 1 (mem (pixelAddress cfg p n)) ∧
      y.b.toNat = byte 2 (mem (pixelAddress cfg p n))) ∧
    (isActive p n = false → y.hsync = isHsync p n ∧ y.vsync = isVsync p n) := by
  obtain ⟨h1, h2, h3, h4⟩ := C40_frame cfg p hp hraw hpos hlen mem i hi t n hn
  obtain ⟨a, b, c⟩ := C43_rgb v (coreBeat cfg i) t
  have e1 : (coreBeat cfg i t).de = isActive p n := h1
  have e2 : (coreBeat cfg i t).hsync = isHsync p n := h2
  have e3 : (coreBeat cfg i t).vsync = isVsync p n := h3
  rw [e1] at a b c
  rw [e2, e3] at c
  refine ⟨a, fun h => ?_, c⟩
  have hd : (coreBeat cfg i t).data.toNat = mem (pixelAddress cfg p n) % 2 ^ 24 := by
    show (BitVec.ofNat 24 (Core.data (trace (Core.step cfg) Core.reset i t))).toNat = _
    rw [h4 hv h, BitVec.toNat_ofNat]
  obtain ⟨b0, b1, b2⟩ := b h
  rw [hd] at b0 b1 b2
  rw [b0, b1, b2]
  simp only [byte]
  omega

/-- Witness: the tiny mode of C40, memory word `a` at address `a` is `0x030201 * (a+1)`; the pixel
offered at clock 6 (number 3, address 3) arrives at clock 11. -/
example :
    let cfg : Core.Config := ⟨8, 0, 3, false⟩
    let i : Nat → Core.In := fun _ => ⟨true, tiny, true, true, true, fun a => 0x030201 * (a + 1)⟩
    Core.beats cfg i 6 = 4 ∧ Core.valid (trace (Core.step cfg) Core.reset i 6) (i 6) = true ∧
    (linkOut (fun _ => true) (fun u => rgbPhy (coreBeat cfg i u)) 11).r = 4#8 := by
  decide +kernel

/-- **C59** VGA: an `n`-bit component (n ≤ 8) shows the `n` most significant bits, i.e. the value
rounded down to a multiple of `2^(8-n)`. -/
theorem C59_vga_component (n : Nat) (hn : n ≤ 8) (x : BitVec 8) :
    (Vga.component n x).toNat * 2 ^ (8 - n) ≤ x.toNat ∧
    x.toNat < ((Vga.component n x).toNat + 1) * 2 ^ (8 - n) := by
  have hx := x.isLt
  have hpow : 2 ^ (8 - n) * 2 ^ n = 256 := by
    rw [← Nat.pow_add]; rw [show 8 - n + n = 8 by omega]
  have hpos : 0 < 2 ^ (8 - n) := Nat.two_pow_pos _
  have e : (Vga.component n x).toNat = x.toNat / 2 ^ (8 - n) := by
    simp only [Vga.component, BitVec.extractLsb'_toNat, Nat.shiftRight_eq_div_pow]
    apply Nat.mod_eq_of_lt
    apply Nat.div_lt_of_lt_mul
    omega
  rw [e]
  exact ⟨Nat.div_mul_le_self _ _, by
    have := Nat.lt_div_mul_add (a := x.toNat) hpos
    rw [Nat.add_mul, Nat.one_mul]; omega⟩

/-- **C59** VGA: brighter stays brighter, and full scale stays full scale. -/
theorem C59_vga_monotone (n : Nat) (hn : n ≤ 8) (x y : BitVec 8) (h : x.toNat ≤ y.toNat) :
    (Vga.component n x).toNat ≤ (Vga.component n y).toNat ∧
    (Vga.component n 255#8).toNat = 2 ^ n - 1 := by
  have key : ∀ x : BitVec 8, (Vga.component n x).toNat = x.toNat / 2 ^ (8 - n) := by
    intro x
    have hx := x.isLt
    have hpow : 2 ^ (8 - n) * 2 ^ n = 256 := by
      rw [← Nat.pow_add]; rw [show 8 - n + n = 8 by omega]
    simp only [Vga.component, BitVec.extractLsb'_toNat, Nat.shiftRight_eq_div_pow]
    apply Nat.mod_eq_of_lt
    apply Nat.div_lt_of_lt_mul
    omega
  rw [key, key, key]
  refine ⟨Nat.div_le_div_right h, ?_⟩
  match n, hn with
  | 0, _ | 1, _ | 2, _ | 3, _ | 4, _ | 5, _ | 6, _ | 7, _ | 8, _ => decide

example : (Vga.component 3 0xB7#8) = 5#3 := by decide

/-! ## The ycbcr422 path -/

/-- C44: if the data-enable reaches the driver `d` clocks late then so do the pixels of every line
of an even number of words: the `k`-th active clock at the driver shows the `k`-th pixel. -/
def C44_statement : Prop :=
  ∀ (x : Nat → Beat 16) (d : Nat),
    (∀ t, (Path422.timing (trace Path422.step Path422.reset x (t + d))).de = (x t).de) →
    ∀ (T n : Nat), Line x T n → n % 2 = 0 → ∀ k, k < n →
      Path422.rgb (trace Path422.step Path422.reset x (T + k + d)) =
        rgbOf (pixel444 (fun j => (x (T + j)).data) k)

/-- The timing signals reach the driver 6 clocks after the core issues them. -/
theorem C44_timing (x : Nat → Beat 16) (t : Nat) :
    Path422.timing (trace Path422.step Path422.reset x (t + 6)) =
      ⟨(x t).de, (x t).hsync, (x t).vsync⟩ :=
  Path422.timing_delay x t

/-- **C44**, the part that holds: on every line of an even number of words the RGB value of pixel
`k` is at the driver exactly 7 clocks after the core issued its word, so no pixel is lost,
duplicated or converted with the wrong chroma; but see `C44_violated`: the data-enable takes one
clock less. -/
theorem C44_pixels_partial (x : Nat → Beat 16) (T n : Nat) (h : Line x T n) (he : n % 2 = 0)
    (k : Nat) (hk : k < n) :
    Path422.rgb (trace Path422.step Path422.reset x (T + k + 7)) =
      rgbOf (pixel444 (fun j => (x (T + j)).data) k) := by
  have e := Path422.up_pixel h he k hk
  have hf : Spec.Csc.YcbcrFits 8 (Csc.To444.sourceData (Path422.run x (T + k + 3)).up) := by
    rw [e]; exact Path422.pixel_fits _ _
  have := Path422.rgb_of_up x (T + k + 3) hf
  rw [e] at this
  exact this

/-- Consequence: on every line, active clock `k+1` at the driver shows pixel `k`, and pixel `n-1`
arrives when the data-enable is already low. -/
theorem C44_shifted (x : Nat → Beat 16) (T n : Nat) (h : Line x T n) (he : n % 2 = 0) :
    (∀ k, k + 1 < n →
      (Path422.timing (trace Path422.step Path422.reset x (T + (k + 1) + 6))).de = true ∧
      Path422.rgb (trace Path422.step Path422.reset x (T + (k + 1) + 6)) =
        rgbOf (pixel444 (fun j => (x (T + j)).data) k)) ∧
    (Path422.timing (trace Path422.step Path422.reset x (T + n + 6))).de = false := by
  refine ⟨fun k hk => ?_, ?_⟩
  · rw [C44_timing, show T + (k + 1) + 6 = T + k + 7 by omega]
    exact ⟨h.high (k + 1) hk, C44_pixels_partial x T n h he k (by omega)⟩
  · rw [C44_timing]; exact h.low n (Nat.le_refl _) (by omega)

/-- A line of two words: a bright and a dark pixel. -/
def line422 (t : Nat) : Beat 16 :=
  { valid := true, data := if t = 0 then 0x80EB#16 else 0x8010#16, de := decide (t < 2)
    hsync := false, vsync := false }

theorem line422_line : Line line422 0 2 :=
  { start := rfl, before := .inl rfl, valid := fun _ _ => rfl
    high := fun k hk => by simp [line422]; omega
    low := fun k hk _ => by simp [line422]; omega }

/-- **C44** is false of the code: `TimingDelay` compensates 6 clocks, the data takes 7.  The first
active clock at the driver does not show the first pixel. -/
theorem C44_violated : ¬ C44_statement := by
  intro h
  have := h line422 6 (fun t => by rw [C44_timing]) 0 2 line422_line rfl 0 (by decide)
  revert this
  decide +kernel

end Verif.Props
