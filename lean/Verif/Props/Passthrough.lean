import Verif.Spec.Loop
import Verif.Props.VideoOut
import Verif.Props.Csc

/-!
# C86: showing a captured frame buffer
-/

namespace Verif.Props

open Verif.VideoOut Verif.Spec.VideoOut Verif.Spec.Loop

/-- C86, rgb mode: a pixel stored by the frame extractor and read by the output core (24 bits of its
32-bit word) has the colour it had when it was captured. -/
def C86_rgb_statement : Prop :=
  ∀ (v : Frame.In) (x : Beat 24), x.data = (Frame.Rgb.encodedPixel v).setWidth 24 →
    (rgbPhy x).r = v.r ∧ (rgbPhy x).g = v.g ∧ (rgbPhy x).b = v.b

/-- **C86** is false of the code in rgb mode: capture stores `0x00RRGGBB`, the output takes red from
the low byte. -/
theorem C86_rgb_violated : ¬ C86_rgb_statement := by
  intro h
  have := (h ⟨true, false, true, 255, 0, 0⟩
    ⟨true, (Frame.Rgb.encodedPixel ⟨true, false, true, 255, 0, 0⟩).setWidth 24, true, false, false⟩
    rfl).1
  revert this
  decide

/-- **C86** in rgb mode, the part that holds: green is kept, and red and blue are exchanged; so
exactly the pixels with equal red and blue are shown right. -/
theorem C86_rgb_partial (v : Frame.In) (x : Beat 24)
    (hx : x.data = (Frame.Rgb.encodedPixel v).setWidth 24) :
    (rgbPhy x).r = v.b ∧ (rgbPhy x).g = v.g ∧ (rgbPhy x).b = v.r := by
  simp only [rgbPhy, hx, Frame.Rgb.encodedPixel]
  have e : ((0#8 ++ v.r) ++ (v.g ++ v.b) : BitVec 32).toNat =
      v.r.toNat * 65536 + v.g.toNat * 256 + v.b.toNat := by
    have h1 := v.r.isLt; have h2 := v.g.isLt; have h3 := v.b.isLt
    simp only [BitVec.toNat_append, BitVec.toNat_ofNat, Nat.zero_mod, Nat.zero_shiftLeft,
      Nat.zero_or]
    rw [← Nat.shiftLeft_add_eq_or_of_lt h3, ← Nat.shiftLeft_add_eq_or_of_lt
      (by rw [Nat.shiftLeft_eq]; omega)]
    simp only [Nat.shiftLeft_eq]
    omega
  have h1 := v.r.isLt; have h2 := v.g.isLt; have h3 := v.b.isLt
  refine ⟨?_, ?_, ?_⟩ <;> apply BitVec.eq_of_toNat_eq <;>
    rw [BitVec.extractLsb'_toNat, BitVec.toNat_setWidth, e, Nat.shiftRight_eq_div_pow] <;> omega

/-- What a picture of 4:2:2 pixels shows: each pixel with its own luma and the mean chroma of its
pair. -/
def shown422 (pic : Nat → Colour) (q : Nat) : Csc.Rgb :=
  rgbOf { y := (ycc (pic q)).y
          cb := ((ycc (pic (2 * (q / 2)))).cb + (ycc (pic (2 * (q / 2) + 1))).cb) / 2
          cr := ((ycc (pic (2 * (q / 2)))).cr + (ycc (pic (2 * (q / 2) + 1))).cr) / 2 }

theorem ycc_fits (c : Colour) : Spec.Csc.YcbcrFits 8 (ycc c) := by
  have h : ∀ x : Int, 0 ≤ Spec.Csc.clamp (2 ^ 8 - 1) x ∧ Spec.Csc.clamp (2 ^ 8 - 1) x < 2 ^ 8 := by
    intro x; unfold Spec.Csc.clamp; omega
  exact ⟨h _, h _, h _⟩

theorem pic422_lt (pic : Nat → Colour) (q : Nat) :
    (byte 0 (pic422 pic q) : Int) = (ycc (pic q)).y ∧ pic422 pic q < 2 ^ 16 ∧
    (q % 2 = 0 → (byte 1 (pic422 pic q) : Int) =
      ((ycc (pic q)).cb + (ycc (pic (q + 1))).cb) / 2) ∧
    (q % 2 = 1 → (byte 1 (pic422 pic q) : Int) =
      ((ycc (pic (q - 1))).cr + (ycc (pic q)).cr) / 2) := by
  obtain ⟨⟨a1, a2⟩, ⟨a3, a4⟩, a5, a6⟩ := ycc_fits (pic q)
  obtain ⟨-, ⟨b3, b4⟩, -⟩ := ycc_fits (pic (q + 1))
  obtain ⟨-, -, b5, b6⟩ := ycc_fits (pic (q - 1))
  simp only [Int.reducePow] at *
  unfold pic422 byte
  by_cases h : q % 2 = 0
  · rw [if_pos h]; omega
  · rw [if_neg h]; omega

/-- **C86**, ycbcr422 mode.  A line of `n` pixels (an even number) that was captured in ycbcr422 mode
and is displayed in ycbcr422 mode: pixel `k` of the line is at the driver 7 clocks after the core
issued its word, with its own luma and the mean chroma of its pair.  (The data-enable arrives one
clock earlier, see C44.) -/
theorem C86_ycbcr422 (pic : Nat → Colour) (q0 : Nat) (hq : q0 % 2 = 0) (x : Nat → Beat 16)
    (T n : Nat) (h : Line x T n) (he : n % 2 = 0)
    (hx : ∀ k, k < n → (x (T + k)).data = BitVec.ofNat 16 (pic422 pic (q0 + k))) (k : Nat)
    (hk : k < n) :
    Path422.rgb (trace Path422.step Path422.reset x (T + k + 7)) = shown422 pic (q0 + k) := by
  rw [C44_pixels_partial x T n h he k hk]
  unfold shown422
  congr 1
  obtain ⟨a1, a2, -, -⟩ := pic422_lt pic (q0 + k)
  obtain ⟨-, b2, b3, -⟩ := pic422_lt pic (q0 + 2 * (k / 2))
  obtain ⟨-, c2, -, c4⟩ := pic422_lt pic (q0 + (2 * (k / 2) + 1))
  have hb := b3 (by omega)
  have hc := c4 (by omega)
  have e : ∀ v, v < 2 ^ 16 → (BitVec.ofNat 16 v).toNat = v := fun v hv => by
    rw [BitVec.toNat_ofNat, Nat.mod_eq_of_lt hv]
  simp only [pixel444, hx k hk, hx (2 * (k / 2)) (by omega), hx (2 * (k / 2) + 1) (by omega), e _ a2,
    e _ b2, e _ c2, a1, hb, hc]
  rw [show 2 * ((q0 + k) / 2) = q0 + 2 * (k / 2) by omega,
    show q0 + 2 * (k / 2) + 1 = q0 + (2 * (k / 2) + 1) by omega,
    show q0 + (2 * (k / 2) + 1) - 1 = q0 + 2 * (k / 2) by omega]

/-- **C86**, ycbcr422 mode: where both pixels of a pair have the same colour, the colour is that of
the conversion to YCbCr and back, i.e. within the error of C25; greys up to 239 are exact. -/
theorem C86_ycbcr422_flat (pic : Nat → Colour) (q : Nat)
    (h : pic (2 * (q / 2)) = pic (2 * (q / 2) + 1)) :
    shown422 pic q = roundTrip ⟨((pic q).1.toNat : Int), ((pic q).2.1.toNat : Int),
      ((pic q).2.2.toNat : Int)⟩ := by
  have e : pic q = pic (2 * (q / 2)) := by
    rcases Nat.mod_two_eq_zero_or_one q with hq | hq
    · rw [show 2 * (q / 2) = q by omega]
    · rw [h, show 2 * (q / 2) + 1 = q by omega]
  unfold shown422
  rw [← h, ← e]
  have e1 : ∀ a : Int, (a + a) / 2 = a := fun a => by omega
  rw [e1, e1]
  rfl

/-- A line of four pixels, two of one colour and two of different colours, as captured. -/
example :
    let pic : Nat → Colour := fun q => if q < 3 then (10, 200, 90) else (255, 0, 17)
    let x : Nat → Beat 16 := fun t => ⟨true, BitVec.ofNat 16 (pic422 pic t), decide (t < 4), false, false⟩
    Line x 0 4 ∧ (∀ k, k < 4 → (x (0 + k)).data = BitVec.ofNat 16 (pic422 pic (0 + k))) ∧
    shown422 pic 1 = ⟨10, 198, 88⟩ := by
  refine ⟨⟨rfl, .inl rfl, fun _ _ => rfl, fun k hk => ?_, fun k hk _ => ?_⟩, fun k _ => ?_,
    by decide⟩
  · simp; omega
  · simp; omega
  · simp

end Verif.Props
