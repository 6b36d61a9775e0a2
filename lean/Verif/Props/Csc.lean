import Verif.Proofs.Csc
import Verif.Props.Stream

/-!
# C23, C24, C25 and C29 for the colour space converters
-/

namespace Verif.Props

open Csc Spec.Csc Spec.Stream

/-- **C23** For every RGB and YCbCr width (`ycbcr_w ≤ rgb_w + 2`) and coefficient width, on
every stream of pixels that fit and every valid/ready schedule, `RGB2YCbCr` delivers, in
order, the documented formula evaluated in exact integer arithmetic, at most 8 pixels late. -/
theorem C23_rgb2ycbcr (rgb_w ycbcr_w coef_w : Nat) (hw : ycbcr_w ≤ rgb_w + 2)
    (i : Nat → PipelinedActor.In Rgb) (hfit : ∀ t, RgbFits rgb_w (i t).data) (t : Nat) :
    let D := Rgb2Ycbcr.datapath (Rgb2Ycbcr.params rgb_w ycbcr_w coef_w)
    delivered D Rgb2Ycbcr.latency i t <+:
      (accepted D Rgb2Ycbcr.latency i t).map (rgb2ycbcr ycbcr_w coef_w
        (coef 1819 10000 coef_w) (coef 618 10000 coef_w)
        (coef 5512 10000 coef_w) (coef 6495 10000 coef_w)) ∧
    (accepted D Rgb2Ycbcr.latency i t).length ≤
      (delivered D Rgb2Ycbcr.latency i t).length + 8 := by
  intro D
  have h := C29_in_order_lossless D Rgb2Ycbcr.latency (by decide) _ (Rgb2Ycbcr.computes _) i t
  refine ⟨?_, h.2⟩
  have hall : ∀ x ∈ accepted D Rgb2Ycbcr.latency i t, RgbFits rgb_w x := by
    clear h
    unfold accepted
    induction t with
    | zero => intro x hx; simp [transferred] at hx
    | succ t ih =>
      intro x hx
      simp only [transferred, List.mem_append] at hx
      rcases hx with hx | hx
      · exact ih x hx
      · split at hx
        · simp only [List.mem_singleton] at hx; rw [hx]; exact hfit t
        · simp at hx
  have heq : (accepted D Rgb2Ycbcr.latency i t).map
      (Rgb2Ycbcr.comp (Rgb2Ycbcr.params rgb_w ycbcr_w coef_w)) =
      (accepted D Rgb2Ycbcr.latency i t).map (rgb2ycbcr ycbcr_w coef_w
        (coef 1819 10000 coef_w) (coef 618 10000 coef_w)
        (coef 5512 10000 coef_w) (coef 6495 10000 coef_w)) := by
    apply List.map_congr_left
    intro x hx
    exact (Rgb2Ycbcr.comp_eq _ (Rgb2Ycbcr.params_ok rgb_w ycbcr_w coef_w hw) x (hall x hx)).1
  rw [← heq]
  exact h.1

/-- **C23** The same for the bare datapath with its clock always enabled: the result of
the pixel of clock `t` appears at clock `t+8`, whatever the registers contained.  The
coefficients may be any non-negative integers with `ca+cb, cc, cd ≤ 2^coef_w`. -/
theorem C23_datapath (p : Rgb2Ycbcr.Params) (hp : Rgb2Ycbcr.Ok p) (s : Rgb2Ycbcr.State)
    (x : Nat → Rgb) (t : Nat) (hx : RgbFits p.rgb_w (x t)) :
    (trace (Rgb2Ycbcr.step p) s x (t + 8)).source =
      rgb2ycbcr p.ycbcr_w p.coef_w p.ca p.cb p.cc p.cd (x t) := by
  rw [← (Rgb2Ycbcr.comp_eq p hp (x t) hx).1]
  rfl

/-- At the default widths the coefficients are 46/256, 15/256, 141/256 and 166/256. -/
example : coef 1819 10000 8 = 46 ∧ coef 618 10000 8 = 15 ∧ coef 5512 10000 8 = 141 ∧
    coef 6495 10000 8 = 166 := by decide

example : RgbFits 8 ⟨255, 0, 17⟩ := by unfold RgbFits; decide
example : rgb2ycbcr 8 8 46 15 141 166 ⟨255, 0, 17⟩ = ⟨62, 112, 255⟩ := by decide
example : rgb2ycbcr 8 8 46 15 141 166 ⟨10, 200, 90⟩ = ⟨175, 89, 31⟩ := by decide

/-- **C24** For every width (`1 ≤ rgb_w ≤ ycbcr_w`) and coefficient width `≥ 2`, on every
stream of pixels that fit and every valid/ready schedule, `YCbCr2RGB` delivers, in order,
the documented formula in exact integer arithmetic, at most 4 pixels late. -/
theorem C24_ycbcr2rgb (ycbcr_w rgb_w coef_w : Nat) (h1 : 1 ≤ rgb_w) (hw : rgb_w ≤ ycbcr_w)
    (hcw : 2 ≤ coef_w) (i : Nat → PipelinedActor.In Ycbcr)
    (hfit : ∀ t, YcbcrFits ycbcr_w (i t).data) (t : Nat) :
    let D := Ycbcr2Rgb.datapath (Ycbcr2Rgb.params ycbcr_w rgb_w coef_w)
    delivered D Ycbcr2Rgb.latency i t <+:
      (accepted D Ycbcr2Rgb.latency i t).map (ycbcr2rgb rgb_w (coef_w - 2)
        (coef 10000 6495 (coef_w - 2))
        (coef (-(618 * 10000)) (5512 * 7563) (coef_w - 2))
        (coef (-(1819 * 10000)) (6495 * 7563) (coef_w - 2))
        (coef 10000 5512 (coef_w - 2))) ∧
    (accepted D Ycbcr2Rgb.latency i t).length ≤
      (delivered D Ycbcr2Rgb.latency i t).length + 4 := by
  intro D
  have h := C29_in_order_lossless D Ycbcr2Rgb.latency (by decide) _ (Ycbcr2Rgb.computes _) i t
  refine ⟨?_, h.2⟩
  have hall : ∀ x ∈ accepted D Ycbcr2Rgb.latency i t, YcbcrFits ycbcr_w x := by
    clear h
    unfold accepted
    induction t with
    | zero => intro x hx; simp [transferred] at hx
    | succ t ih =>
      intro x hx
      simp only [transferred, List.mem_append] at hx
      rcases hx with hx | hx
      · exact ih x hx
      · split at hx
        · simp only [List.mem_singleton] at hx; rw [hx]; exact hfit t
        · simp at hx
  have heq : (accepted D Ycbcr2Rgb.latency i t).map
      (Ycbcr2Rgb.comp (Ycbcr2Rgb.params ycbcr_w rgb_w coef_w)) =
      (accepted D Ycbcr2Rgb.latency i t).map (ycbcr2rgb rgb_w (coef_w - 2)
        (coef 10000 6495 (coef_w - 2))
        (coef (-(618 * 10000)) (5512 * 7563) (coef_w - 2))
        (coef (-(1819 * 10000)) (6495 * 7563) (coef_w - 2))
        (coef 10000 5512 (coef_w - 2))) := by
    apply List.map_congr_left
    intro x hx
    exact Ycbcr2Rgb.comp_eq _ (Ycbcr2Rgb.params_ok ycbcr_w rgb_w coef_w hcw hw h1) x (hall x hx)
  rw [← heq]
  exact h.1

/-- **C24** The bare datapath, clock always enabled. -/
theorem C24_datapath (p : Ycbcr2Rgb.Params) (hp : Ycbcr2Rgb.Ok p) (s : Ycbcr2Rgb.State)
    (x : Nat → Ycbcr) (t : Nat) (hx : YcbcrFits p.ycbcr_w (x t)) :
    (trace (Ycbcr2Rgb.step p) s x (t + 4)).source =
      ycbcr2rgb p.rgb_w (p.coef_w - 2) p.acoef p.bcoef p.ccoef p.dcoef (x t) := by
  rw [← Ycbcr2Rgb.comp_eq p hp (x t) hx]
  rfl

/-- At the default widths the coefficients are 98/64, -9/64, -23/64 and 116/64. -/
example : coef 10000 6495 6 = 98 ∧ coef (-(618 * 10000)) (5512 * 7563) 6 = -9 ∧
    coef (-(1819 * 10000)) (6495 * 7563) 6 = -23 ∧ coef 10000 5512 6 = 116 := by decide

example : YcbcrFits 8 ⟨175, 89, 31⟩ := by unfold YcbcrFits; decide
example : ycbcr2rgb 8 6 98 (-9) (-23) 116 ⟨175, 89, 31⟩ = ⟨10, 198, 88⟩ := by decide

/-- The output of `YCbCr2RGB` fed by `RGB2YCbCr`, both at their default widths, free running
from power-up on the pixel sequence `x`, at clock `t`. -/
def chained (x : Nat → Rgb) (t : Nat) : Rgb :=
  (trace (Ycbcr2Rgb.step (Ycbcr2Rgb.params 8 8 8)) Ycbcr2Rgb.reset
    (fun u => (trace (Rgb2Ycbcr.step (Rgb2Ycbcr.params 8 8 8)) Rgb2Ycbcr.reset x u).source)
    t).source

/-- RGB to YCbCr and back at the default widths, on numbers. -/
def roundTrip (x : Rgb) : Rgb :=
  ycbcr2rgb 8 6 98 (-9) (-23) 116 (rgb2ycbcr 8 8 46 15 141 166 x)

theorem chained_eq (x : Nat → Rgb) (t : Nat) (hx : RgbFits 8 (x t)) :
    chained x (t + 12) = roundTrip (x t) := by
  have h8 := C23_datapath (Rgb2Ycbcr.params 8 8 8) (Rgb2Ycbcr.params_ok 8 8 8 (by decide))
    Rgb2Ycbcr.reset x t hx
  have hfit : YcbcrFits 8 (rgb2ycbcr 8 8 46 15 141 166 (x t)) := by
    simp only [YcbcrFits, rgb2ycbcr, clamp, Int.reducePow]
    omega
  have h4 := C24_datapath (Ycbcr2Rgb.params 8 8 8)
    (Ycbcr2Rgb.params_ok 8 8 8 (by decide) (by decide) (by decide)) Ycbcr2Rgb.reset
    (fun u => (trace (Rgb2Ycbcr.step (Rgb2Ycbcr.params 8 8 8)) Rgb2Ycbcr.reset x u).source)
    (t + 8) (by rw [h8]; exact hfit)
  unfold chained roundTrip
  rw [show t + 12 = t + 8 + 4 from rfl, h4, h8]
  rfl

/-- **C25** Whatever the other pixels, a pixel whose YCbCr values are not clipped leaves the
two chained converters 12 clocks later with red and green changed by -3..+1 and blue by
-3..0. -/
theorem C25_roundtrip_error (x : Nat → Rgb) (t : Nat) (hx : RgbFits 8 (x t))
    (hy : luma 8 46 15 (x t) + 16 ≤ 255)
    (hcb : -128 ≤ 141 * ((x t).b - luma 8 46 15 (x t)) / 256 ∧
      141 * ((x t).b - luma 8 46 15 (x t)) / 256 ≤ 127)
    (hcr : -128 ≤ 166 * ((x t).r - luma 8 46 15 (x t)) / 256 ∧
      166 * ((x t).r - luma 8 46 15 (x t)) / 256 ≤ 127) :
    (-3 ≤ (chained x (t + 12)).r - (x t).r ∧ (chained x (t + 12)).r - (x t).r ≤ 1) ∧
    (-3 ≤ (chained x (t + 12)).g - (x t).g ∧ (chained x (t + 12)).g - (x t).g ≤ 1) ∧
    (-3 ≤ (chained x (t + 12)).b - (x t).b ∧ (chained x (t + 12)).b - (x t).b ≤ 0) := by
  rw [chained_eq x t hx]
  generalize x t = p at *
  obtain ⟨r, g, b⟩ := p
  obtain ⟨⟨hr0, hr1⟩, ⟨hg0, hg1⟩, ⟨hb0, hb1⟩⟩ := hx
  simp only [luma, Int.reducePow] at *
  simp only [roundTrip, ycbcr2rgb, rgb2ycbcr, luma, clamp, Int.reducePow, Nat.reduceSub, Int.reduceSub]
  refine ⟨?_, ?_, ?_⟩ <;> omega

theorem roundTrip_grey (v : Int) (h0 : 0 ≤ v) (h1 : v ≤ 239) :
    roundTrip ⟨v, v, v⟩ = ⟨v, v, v⟩ := by
  simp only [roundTrip, ycbcr2rgb, rgb2ycbcr, luma, clamp, Int.sub_self, Int.mul_zero, Int.add_zero,
    Int.zero_ediv, Int.zero_add, Int.reducePow, Nat.reduceSub, Int.reduceSub]
  have e1 : max 0 (min 255 (v + 16)) - 16 = v := by omega
  have e2 : max 0 (min 255 (128 : Int)) - 128 = 0 := by omega
  have e3 : max 0 (min 255 v) = v := by omega
  rw [e1, e2]
  simp [e3]

/-- **C25** Greys up to 239 come back unchanged. -/
theorem C25_grey (x : Nat → Rgb) (t : Nat) (v : Int) (h0 : 0 ≤ v) (h1 : v ≤ 239)
    (hx : x t = ⟨v, v, v⟩) : chained x (t + 12) = x t := by
  rw [chained_eq x t (by rw [hx]; simp only [RgbFits, Int.reducePow]; omega), hx]
  exact roundTrip_grey v h0 h1

/-- A pixel meeting the hypotheses of `C25_roundtrip_error`. -/
example : luma 8 46 15 ⟨10, 200, 90⟩ + 16 ≤ 255 ∧
    (-128 ≤ 141 * (90 - luma 8 46 15 ⟨10, 200, 90⟩) / 256 ∧
      141 * (90 - luma 8 46 15 ⟨10, 200, 90⟩) / 256 ≤ 127) ∧
    (-128 ≤ 166 * (10 - luma 8 46 15 ⟨10, 200, 90⟩) / 256 ∧
      166 * (10 - luma 8 46 15 ⟨10, 200, 90⟩) / 256 ≤ 127) := by decide

/-- Without the hypotheses the error is larger: clipping costs a saturated red 15 levels. -/
example : (roundTrip ⟨255, 0, 17⟩).r = 240 := by decide
example : roundTrip ⟨10, 200, 90⟩ = ⟨10, 198, 88⟩ := by decide

end Verif.Props
