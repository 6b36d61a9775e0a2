import Verif.Spec.Csc
import Verif.Spec.Stream
import Mathlib.Tactic.Linarith
import Mathlib.Tactic.Ring
import Mathlib.Tactic.Positivity

/-! Helper lemmas: the datapaths compute the formulas of `Spec/Csc.lean`. -/

namespace Verif.Csc

open Spec.Csc Spec.Stream

theorem saturate_eq_clamp (w : Nat) (x : Int) : saturate w x 0 (2 ^ w - 1) = clamp (2 ^ w - 1) x := by
  have hp := two_pow_pos_int w
  unfold saturate clamp
  split
  · rw [wrapU_of_range (by omega) (by omega)]; omega
  · split
    · rw [wrapU_of_range (by omega) (by omega)]; omega
    · rw [wrapU_of_range (by omega) (by omega)]; omega

namespace Rgb2Ycbcr

/-- What the eight stages compute, with every truncation. -/
def comp (p : Params) (x : Rgb) : Ycbcr :=
  let w := p.rgb_w
  let cw := p.coef_w
  let rg := wrapS (w + 1) (x.r - x.g)
  let bg := wrapS (w + 1) (x.b - x.g)
  let m1 := wrapS (w + cw + 1) (rg * p.ca)
  let m2 := wrapS (w + cw + 1) (bg * p.cb)
  let sum := wrapS (w + cw + 9) (m1 + m2)
  let yraw := wrapS (w + 3) (sliceFrom (w + cw + 9) cw sum + x.g)
  let by_ := wrapS (w + 4) (x.b - yraw)
  let ry := wrapS (w + 4) (x.r - yraw)
  let m3 := wrapS (w + cw + 4) (by_ * p.cc)
  let m4 := wrapS (w + cw + 4) (ry * p.cd)
  { y := saturate p.ycbcr_w (wrapS (w + 3) (yraw + 2 ^ (p.ycbcr_w - 4))) 0 (2 ^ p.ycbcr_w - 1)
    cb := saturate p.ycbcr_w (wrapS (w + 4) (sliceFrom (w + cw + 4) cw m3 + 2 ^ (p.ycbcr_w - 1)))
      0 (2 ^ p.ycbcr_w - 1)
    cr := saturate p.ycbcr_w (wrapS (w + 4) (sliceFrom (w + cw + 4) cw m4 + 2 ^ (p.ycbcr_w - 1)))
      0 (2 ^ p.ycbcr_w - 1) }

theorem computes (p : Params) : Computes (datapath p) latency (comp p) := by
  intro s x later h
  match later, h with
  | [_, _, _, _, _, _, _], _ => rfl

/-- Conditions on the coefficients under which no stage overflows. -/
structure Ok (p : Params) : Prop where
  ca : 0 ≤ p.ca
  cb : 0 ≤ p.cb
  sum : p.ca + p.cb ≤ 2 ^ p.coef_w
  cc : 0 ≤ p.cc
  cc' : p.cc ≤ 2 ^ p.coef_w
  cd : 0 ≤ p.cd
  cd' : p.cd ≤ 2 ^ p.coef_w
  w : p.ycbcr_w ≤ p.rgb_w + 2

theorem mul_range {a b A B : Int} (ha1 : -A ≤ a) (ha2 : a ≤ A) (hb1 : 0 ≤ b) (hb2 : b ≤ B)
    (_hA : 0 ≤ A) : -(A * B) ≤ a * b ∧ a * b ≤ A * B := by
  constructor <;> nlinarith

theorem ediv_range {a A K : Int} (hK : 0 < K) (h1 : -(A * K) ≤ a) (h2 : a ≤ A * K) :
    -A ≤ a / K ∧ a / K ≤ A := by
  constructor
  · apply Int.le_ediv_of_mul_le hK; linarith [h1, Int.neg_mul A K]
  · have : a / K ≤ (A * K) / K := Int.ediv_le_ediv hK h2
    rwa [Int.mul_ediv_cancel _ (by omega)] at this

/-- No overflow: the truncations are the identity and the result is the formula. -/
theorem comp_eq (p : Params) (hp : Ok p) (x : Rgb) (hx : RgbFits p.rgb_w x) :
    comp p x = rgb2ycbcr p.ycbcr_w p.coef_w p.ca p.cb p.cc p.cd x ∧
    0 ≤ luma p.coef_w p.ca p.cb x ∧ luma p.coef_w p.ca p.cb x < 2 ^ p.rgb_w := by
  obtain ⟨w, yw, cw, ca, cb, cc, cd⟩ := p
  obtain ⟨hca, hcb, hsum, hcc, hcc', hcd, hcd', hw⟩ := hp
  obtain ⟨⟨hr0, hr1⟩, ⟨hg0, hg1⟩, ⟨hb0, hb1⟩⟩ := hx
  obtain ⟨r, g, b⟩ := x
  simp only at *
  unfold comp rgb2ycbcr
  simp only
  have hW := two_pow_pos_int w
  have hK := two_pow_pos_int cw
  have eWK : (2:Int) ^ (w + cw) = 2 ^ w * 2 ^ cw := Int.pow_add 2 w cw
  have eW2 : (2:Int) ^ (w + 2) = 4 * 2 ^ w := by rw [Int.pow_add]; ring
  have eW3 : (2:Int) ^ (w + 3) = 8 * 2 ^ w := by rw [Int.pow_add]; ring
  have eWK3 : (2:Int) ^ (w + cw + 3) = 8 * (2 ^ w * 2 ^ cw) := by rw [Int.pow_add, Int.pow_add]; ring
  have eWK8 : (2:Int) ^ (w + cw + 8) = 256 * (2 ^ w * 2 ^ cw) := by
    rw [Int.pow_add, Int.pow_add]; ring
  -- stage 1
  have h1 : wrapS (w + 1) (r - g) = r - g := wrapS_of_range (by omega) (by omega)
  have h2 : wrapS (w + 1) (b - g) = b - g := wrapS_of_range (by omega) (by omega)
  rw [h1, h2]
  -- stage 2
  have hm1 := mul_range (a := r - g) (b := ca) (A := 2 ^ w - 1) (B := 2 ^ cw) (by omega) (by omega)
    hca (by omega) (by omega)
  have hm2 := mul_range (a := b - g) (b := cb) (A := 2 ^ w - 1) (B := 2 ^ cw) (by omega) (by omega)
    hcb (by omega) (by omega)
  have hlt : (2 ^ w - 1) * 2 ^ cw < (2:Int) ^ w * 2 ^ cw := by nlinarith
  have h3 : wrapS (w + cw + 1) ((r - g) * ca) = (r - g) * ca :=
    wrapS_of_range (by rw [eWK]; omega) (by rw [eWK]; omega)
  have h4 : wrapS (w + cw + 1) ((b - g) * cb) = (b - g) * cb :=
    wrapS_of_range (by rw [eWK]; omega) (by rw [eWK]; omega)
  rw [h3, h4]
  -- stage 3
  have hWK : 0 < (2:Int) ^ w * 2 ^ cw := Int.mul_pos hW hK
  have h5 : wrapS (w + cw + 9) ((r - g) * ca + (b - g) * cb) = (r - g) * ca + (b - g) * cb :=
    wrapS_of_range (w := w + cw + 8) (by rw [eWK8]; omega) (by rw [eWK8]; omega)
  rw [h5]
  -- stage 4
  rw [wrapS_slice_add (by omega)]
  have hL : ((r - g) * ca + (b - g) * cb) / 2 ^ cw + g = luma cw ca cb ⟨r, g, b⟩ := by
    unfold luma; simp only
    rw [Int.mul_comm (r - g) ca, Int.mul_comm (b - g) cb]
  rw [hL]
  have hlo : 0 ≤ luma cw ca cb ⟨r, g, b⟩ := by
    rw [← hL]
    have : -g ≤ ((r - g) * ca + (b - g) * cb) / 2 ^ cw := by
      apply Int.le_ediv_of_mul_le hK
      nlinarith [mul_nonneg hr0 hca, mul_nonneg hb0 hcb, mul_nonneg hg0 (sub_nonneg.2 hsum)]
    omega
  have hhi : luma cw ca cb ⟨r, g, b⟩ < 2 ^ w := by
    rw [← hL]
    have : ((r - g) * ca + (b - g) * cb) / 2 ^ cw ≤ 2 ^ w - 1 - g := by
      have h : (r - g) * ca + (b - g) * cb ≤ (2 ^ w - 1 - g) * 2 ^ cw := by
        nlinarith [mul_nonneg (show 0 ≤ 2 ^ w - 1 - r by omega) hca,
          mul_nonneg (show 0 ≤ 2 ^ w - 1 - b by omega) hcb,
          mul_nonneg (show 0 ≤ 2 ^ w - 1 - g by omega) (sub_nonneg.2 hsum)]
      have := Int.ediv_le_ediv hK h
      rwa [Int.mul_ediv_cancel _ (by omega)] at this
    omega
  generalize luma cw ca cb ⟨r, g, b⟩ = Y at hlo hhi ⊢
  have h6 : wrapS (w + 3) Y = Y := wrapS_of_range (w := w + 2) (by rw [eW2]; omega) (by rw [eW2]; omega)
  rw [h6]
  -- stage 5
  have h7 : wrapS (w + 4) (b - Y) = b - Y :=
    wrapS_of_range (w := w + 3) (by rw [eW3]; omega) (by rw [eW3]; omega)
  have h8 : wrapS (w + 4) (r - Y) = r - Y :=
    wrapS_of_range (w := w + 3) (by rw [eW3]; omega) (by rw [eW3]; omega)
  rw [h7, h8]
  -- stage 6
  have hm3 := mul_range (a := b - Y) (b := cc) (A := 2 ^ w) (B := 2 ^ cw) (by omega) (by omega)
    hcc (by omega) (by omega)
  have hm4 := mul_range (a := r - Y) (b := cd) (A := 2 ^ w) (B := 2 ^ cw) (by omega) (by omega)
    hcd (by omega) (by omega)
  have h9 : wrapS (w + cw + 4) ((b - Y) * cc) = (b - Y) * cc :=
    wrapS_of_range (w := w + cw + 3) (by rw [eWK3]; omega) (by rw [eWK3]; omega)
  have h10 : wrapS (w + cw + 4) ((r - Y) * cd) = (r - Y) * cd :=
    wrapS_of_range (w := w + cw + 3) (by rw [eWK3]; omega) (by rw [eWK3]; omega)
  rw [h9, h10]
  -- stage 7
  rw [wrapS_slice_add (by omega), wrapS_slice_add (by omega)]
  have hyo : (2:Int) ^ (yw - 4) ≤ 2 ^ w := by
    have : yw - 4 ≤ w := by omega
    exact_mod_cast Nat.pow_le_pow_right (by omega) this
  have hco : (2:Int) ^ (yw - 1) ≤ 2 ^ (w + 1) := by
    have : yw - 1 ≤ w + 1 := by omega
    exact_mod_cast Nat.pow_le_pow_right (by omega) this
  have eW1 : (2:Int) ^ (w + 1) = 2 * 2 ^ w := by rw [Int.pow_add]; ring
  have hyo0 := two_pow_pos_int (yw - 4)
  have hco0 := two_pow_pos_int (yw - 1)
  have h11 : wrapS (w + 3) (Y + 2 ^ (yw - 4)) = Y + 2 ^ (yw - 4) :=
    wrapS_of_range (w := w + 2) (by rw [eW2]; omega) (by rw [eW2]; omega)
  have hd3 := ediv_range hK hm3.1 hm3.2
  have hd4 := ediv_range hK hm4.1 hm4.2
  have h12 : wrapS (w + 4) ((b - Y) * cc / 2 ^ cw + 2 ^ (yw - 1)) =
      (b - Y) * cc / 2 ^ cw + 2 ^ (yw - 1) :=
    wrapS_of_range (w := w + 3) (by rw [eW3]; omega) (by rw [eW3]; omega)
  have h13 : wrapS (w + 4) ((r - Y) * cd / 2 ^ cw + 2 ^ (yw - 1)) =
      (r - Y) * cd / 2 ^ cw + 2 ^ (yw - 1) :=
    wrapS_of_range (w := w + 3) (by rw [eW3]; omega) (by rw [eW3]; omega)
  rw [h11, h12, h13, saturate_eq_clamp, saturate_eq_clamp, saturate_eq_clamp,
    Int.mul_comm (b - Y) cc, Int.mul_comm (r - Y) cd]
  exact ⟨rfl, hlo, hhi⟩

end Rgb2Ycbcr

theorem coef_nonneg {num den : Int} (hn : 0 ≤ num) (hd : 0 < den) (cw : Nat) :
    coef num den cw = num * 2 ^ cw / den ∧ 0 ≤ coef num den cw := by
  have hp := two_pow_pos_int cw
  have h : 0 ≤ num * 2 ^ cw := Int.mul_nonneg hn (by omega)
  unfold coef
  rw [Int.tdiv_eq_ediv_of_nonneg h]
  exact ⟨rfl, Int.ediv_nonneg h (by omega)⟩

theorem coef_le {num den : Int} (hn : 0 ≤ num) (hd : 0 < den) (hle : num ≤ den) (cw : Nat) :
    coef num den cw ≤ 2 ^ cw := by
  rw [(coef_nonneg hn hd cw).1]
  have hp := two_pow_pos_int cw
  have : num * 2 ^ cw ≤ 2 ^ cw * den := by rw [Int.mul_comm]; nlinarith
  have := Int.ediv_le_ediv hd this
  rwa [Int.mul_ediv_cancel _ (by omega)] at this

theorem Rgb2Ycbcr.params_ok (rgb_w ycbcr_w coef_w : Nat) (h : ycbcr_w ≤ rgb_w + 2) :
    Rgb2Ycbcr.Ok (Rgb2Ycbcr.params rgb_w ycbcr_w coef_w) := by
  refine ⟨(coef_nonneg (num := 1819) (den := 10000) (by norm_num) (by norm_num) coef_w).2,
    (coef_nonneg (num := 618) (den := 10000) (by norm_num) (by norm_num) coef_w).2, ?_,
    (coef_nonneg (num := 5512) (den := 10000) (by norm_num) (by norm_num) coef_w).2,
    coef_le (num := 5512) (den := 10000) (by norm_num) (by norm_num) (by norm_num) coef_w,
    (coef_nonneg (num := 6495) (den := 10000) (by norm_num) (by norm_num) coef_w).2,
    coef_le (num := 6495) (den := 10000) (by norm_num) (by norm_num) (by norm_num) coef_w, h⟩
  show coef 1819 10000 coef_w + coef 618 10000 coef_w ≤ 2 ^ coef_w
  rw [(coef_nonneg (by norm_num) (by norm_num) _).1, (coef_nonneg (by norm_num) (by norm_num) _).1]
  have hp := two_pow_pos_int coef_w
  omega

namespace Ycbcr2Rgb

/-- What the four stages compute, with every truncation. -/
def comp (p : Params) (x : Ycbcr) : Rgb :=
  let w := p.ycbcr_w
  let cw := p.coef_w
  let u := wrapS (w + 1) (x.cb - 2 ^ (p.rgb_w - 1))
  let v := wrapS (w + 1) (x.cr - 2 ^ (p.rgb_w - 1))
  let y := wrapS (w + 1) (x.y - 2 ^ (p.rgb_w - 4))
  let ma := wrapS (w + cw + 4) (v * p.acoef)
  let mb := wrapS (w + cw + 4) (u * p.bcoef)
  let mc := wrapS (w + cw + 4) (v * p.ccoef)
  let md := wrapS (w + cw + 4) (u * p.dcoef)
  { r := saturate p.rgb_w (wrapS (w + 4) (y + sliceFrom (w + cw + 4) (cw - 2) ma))
      0 (2 ^ p.rgb_w - 1)
    g := saturate p.rgb_w (wrapS (w + 4) (y + sliceFrom (w + cw + 4) (cw - 2) mb
          + sliceFrom (w + cw + 4) (cw - 2) mc)) 0 (2 ^ p.rgb_w - 1)
    b := saturate p.rgb_w (wrapS (w + 4) (y + sliceFrom (w + cw + 4) (cw - 2) md))
      0 (2 ^ p.rgb_w - 1) }

theorem computes (p : Params) : Computes (datapath p) latency (comp p) := by
  intro s x later h
  match later, h with
  | [_, _, _], _ => rfl

/-- Conditions under which no stage overflows. -/
structure Ok (p : Params) : Prop where
  cw : 2 ≤ p.coef_w
  w : p.rgb_w ≤ p.ycbcr_w
  w1 : 1 ≤ p.rgb_w
  a : -(2 * 2 ^ (p.coef_w - 2)) ≤ p.acoef
  a' : p.acoef ≤ 2 * 2 ^ (p.coef_w - 2)
  b : -(2 * 2 ^ (p.coef_w - 2)) ≤ p.bcoef
  b' : p.bcoef ≤ 2 * 2 ^ (p.coef_w - 2)
  c : -(2 * 2 ^ (p.coef_w - 2)) ≤ p.ccoef
  c' : p.ccoef ≤ 2 * 2 ^ (p.coef_w - 2)
  d : -(2 * 2 ^ (p.coef_w - 2)) ≤ p.dcoef
  d' : p.dcoef ≤ 2 * 2 ^ (p.coef_w - 2)

theorem mul_range {a b A B : Int} (ha1 : -A ≤ a) (ha2 : a ≤ A) (hb1 : -B ≤ b) (hb2 : b ≤ B) :
    -(A * B) ≤ a * b ∧ a * b ≤ A * B := by
  constructor <;> nlinarith

theorem wrapS_slice_add' {w v lo : Nat} (h : v + lo ≤ w) (x y : Int) :
    wrapS v (y + sliceFrom w lo x) = wrapS v (y + x / 2 ^ lo) := by
  rw [Int.add_comm, wrapS_slice_add h, Int.add_comm]

theorem wrapS_slice_add2 {w v lo : Nat} (h : v + lo ≤ w) (x x' y : Int) :
    wrapS v (y + sliceFrom w lo x + sliceFrom w lo x') = wrapS v (y + x / 2 ^ lo + x' / 2 ^ lo) := by
  rw [wrapS_slice_add' h]
  have e1 : y + sliceFrom w lo x + x' / 2 ^ lo = (y + x' / 2 ^ lo) + sliceFrom w lo x := by omega
  rw [e1, wrapS_slice_add' h]
  congr 1; omega

theorem comp_eq (p : Params) (hp : Ok p) (x : Ycbcr) (hx : YcbcrFits p.ycbcr_w x) :
    comp p x = ycbcr2rgb p.rgb_w (p.coef_w - 2) p.acoef p.bcoef p.ccoef p.dcoef x := by
  obtain ⟨w, rw_, cw, a, b, c, d⟩ := p
  obtain ⟨hcw, hw, hw1, ha, ha', hb, hb', hc, hc', hd, hd'⟩ := hp
  obtain ⟨⟨hy0, hy1⟩, ⟨hb0, hb1⟩, ⟨hr0, hr1⟩⟩ := hx
  obtain ⟨y, cb, cr⟩ := x
  simp only at *
  unfold comp ycbcr2rgb
  simp only
  obtain ⟨k, rfl⟩ : ∃ k, cw = k + 2 := ⟨cw - 2, by omega⟩
  simp only [Nat.add_sub_cancel] at *
  have hW := two_pow_pos_int w
  have hK := two_pow_pos_int k
  have hWK : 0 < (2:Int) ^ w * 2 ^ k := Int.mul_pos hW hK
  have eWK : (2:Int) ^ (w + (k + 2) + 3) = 32 * (2 ^ w * 2 ^ k) := by
    rw [Int.pow_add, Int.pow_add, Int.pow_add]; ring
  have eW3 : (2:Int) ^ (w + 3) = 8 * 2 ^ w := by rw [Int.pow_add]; ring
  have hco : (2:Int) ^ (rw_ - 1) ≤ 2 ^ w := by
    have : rw_ - 1 ≤ w := by omega
    exact_mod_cast Nat.pow_le_pow_right (by omega) this
  have hyo : (2:Int) ^ (rw_ - 4) ≤ 2 ^ w := by
    have : rw_ - 4 ≤ w := by omega
    exact_mod_cast Nat.pow_le_pow_right (by omega) this
  have hco0 := two_pow_pos_int (rw_ - 1)
  have hyo0 := two_pow_pos_int (rw_ - 4)
  generalize (2:Int) ^ (rw_ - 1) = co at *
  generalize (2:Int) ^ (rw_ - 4) = yo at *
  rw [wrapS_of_range (w := w) (x := cb - co) (by omega) (by omega),
    wrapS_of_range (w := w) (x := cr - co) (by omega) (by omega),
    wrapS_of_range (w := w) (x := y - yo) (by omega) (by omega)]
  have e4 : (2:Int) ^ w * (2 * 2 ^ k) = 2 * 2 ^ w * 2 ^ k := by ring
  have hma := mul_range (a := cr - co) (b := a) (A := 2 ^ w) (B := 2 * 2 ^ k) (by omega) (by omega) ha ha'
  have hmb := mul_range (a := cb - co) (b := b) (A := 2 ^ w) (B := 2 * 2 ^ k) (by omega) (by omega) hb hb'
  have hmc := mul_range (a := cr - co) (b := c) (A := 2 ^ w) (B := 2 * 2 ^ k) (by omega) (by omega) hc hc'
  have hmd := mul_range (a := cb - co) (b := d) (A := 2 ^ w) (B := 2 * 2 ^ k) (by omega) (by omega) hd hd'
  rw [e4] at hma hmb hmc hmd
  have e5 : 2 * 2 ^ w * 2 ^ k = 2 * ((2:Int) ^ w * 2 ^ k) := by ring
  have hfit : ∀ z : Int, -(2 * 2 ^ w * 2 ^ k) ≤ z ∧ z ≤ 2 * 2 ^ w * 2 ^ k →
      wrapS (w + (k + 2) + 4) z = z := by
    intro z hz
    rw [e5] at hz
    exact wrapS_of_range (w := w + (k + 2) + 3) (by rw [eWK]; omega) (by rw [eWK]; omega)
  rw [hfit _ hma, hfit _ hmb, hfit _ hmc, hfit _ hmd]
  rw [wrapS_slice_add2 (by omega), wrapS_slice_add' (by omega), wrapS_slice_add' (by omega)]
  have hda := Rgb2Ycbcr.ediv_range hK hma.1 hma.2
  have hdb := Rgb2Ycbcr.ediv_range hK hmb.1 hmb.2
  have hdc := Rgb2Ycbcr.ediv_range hK hmc.1 hmc.2
  have hdd := Rgb2Ycbcr.ediv_range hK hmd.1 hmd.2
  have hf : ∀ z : Int, -(8 * 2 ^ w) ≤ z → z < 8 * 2 ^ w → wrapS (w + 4) z = z := by
    intro z h1 h2
    exact wrapS_of_range (w := w + 3) (by rw [eW3]; omega) (by rw [eW3]; omega)
  rw [hf _ (by omega) (by omega), hf _ (by omega) (by omega), hf _ (by omega) (by omega),
    saturate_eq_clamp, saturate_eq_clamp, saturate_eq_clamp,
    Int.mul_comm _ a, Int.mul_comm _ b, Int.mul_comm _ c, Int.mul_comm _ d]

theorem coef_abs {num den : Int} (hd : 0 < den) (h1 : -(2 * den) ≤ num) (h2 : num ≤ 2 * den)
    (cw : Nat) : -(2 * 2 ^ cw) ≤ coef num den cw ∧ coef num den cw ≤ 2 * 2 ^ cw := by
  have hp := two_pow_pos_int cw
  unfold coef
  have hu : num * 2 ^ cw ≤ (2 * 2 ^ cw) * den := by nlinarith
  have hl : -((2 * 2 ^ cw) * den) ≤ num * 2 ^ cw := by nlinarith
  rcases Int.le_total 0 (num * 2 ^ cw) with h | h
  · rw [Int.tdiv_eq_ediv_of_nonneg h]
    have e := Rgb2Ycbcr.ediv_range hd hl hu
    exact e
  · have : Int.tdiv (num * 2 ^ cw) den = -((-(num * 2 ^ cw)) / den) := by
      rw [← Int.tdiv_eq_ediv_of_nonneg (by omega), Int.neg_tdiv, Int.neg_neg]
    rw [this]
    have e := Rgb2Ycbcr.ediv_range (a := -(num * 2 ^ cw)) (A := 2 * 2 ^ cw) hd (by omega) (by omega)
    omega

theorem params_ok (ycbcr_w rgb_w coef_w : Nat) (h2 : 2 ≤ coef_w) (h : rgb_w ≤ ycbcr_w)
    (h1 : 1 ≤ rgb_w) : Ok (params ycbcr_w rgb_w coef_w) := by
  have ha := coef_abs (num := 10000) (den := 6495) (by norm_num) (by norm_num) (by norm_num) (coef_w - 2)
  have hb := coef_abs (num := -(618 * 10000)) (den := 5512 * 7563) (by norm_num) (by norm_num)
    (by norm_num) (coef_w - 2)
  have hc := coef_abs (num := -(1819 * 10000)) (den := 6495 * 7563) (by norm_num) (by norm_num)
    (by norm_num) (coef_w - 2)
  have hd := coef_abs (num := 10000) (den := 5512) (by norm_num) (by norm_num) (by norm_num) (coef_w - 2)
  exact ⟨h2, h, h1, ha.1, ha.2, hb.1, hb.2, hc.1, hc.2, hd.1, hd.2⟩

end Ycbcr2Rgb

end Verif.Csc
