import Verif.Props.VideoOut

/-!
# C104, C105: from the frame buffer to a VGA connector
-/

namespace Verif.Props

open Verif.VideoOut Spec.VideoOut Spec.Output Spec.Stream Verif.Output

/-- The VGA pads at clock `t` of an output core in rgb mode. -/
def vgaPads (nr ng nb : Nat) (cfg : Core.Config) (i : Nat → Core.In) (t : Nat) : Vga.Pads nr ng nb :=
  Vga.pads nr ng nb (rgbPhy (coreBeat cfg i t))

/-- **C104** rgb mode, constant mode and constant frame buffer content, any memory latency: when the core
offers pixel `n`, the sync pads are low exactly in the sync pulses of the mode and the monitor is not sent
to sleep; if the pixel is active and its data available, the colour pads show the three low bytes of its
memory word as red, green, blue, to their precision. -/
theorem C104_memory_to_vga (nr ng nb : Nat) (hr : nr ≤ 8) (hg : ng ≤ 8) (hb : nb ≤ 8) (cfg : Core.Config)
    (p : Params) (hp : ValidMode p) (hraw : cfg.raw = false) (hpos : 0 < p.vres * p.hres)
    (hlen : p.length / 2 ^ cfg.shift % 2 ^ cfg.aw = p.vres * p.hres)
    (mem : Nat → Nat) (i : Nat → Core.In)
    (hi : ∀ t, (i t).pvalid = true ∧ (i t).p = p ∧ (i t).mem = mem) (t n : Nat)
    (hn : Core.beats cfg i t = n + 1) :
    let y := vgaPads nr ng nb cfg i t
    y.hsync_n = !isHsync p n ∧ y.vsync_n = !isVsync p n ∧ y.psave_n = true ∧
    (isActive p n = true → Core.valid (trace (Core.step cfg) Core.reset i t) (i t) = true →
      Shows y.r (byte 0 (mem (pixelAddress cfg p n))) ∧
      Shows y.g (byte 1 (mem (pixelAddress cfg p n))) ∧
      Shows y.b (byte 2 (mem (pixelAddress cfg p n)))) := by
  obtain ⟨-, h2, h3, h4⟩ := C40_frame cfg p hp hraw hpos hlen mem i hi t n hn
  refine ⟨by rw [← h2]; rfl, by rw [← h3]; rfl, rfl, fun ha hv => ?_⟩
  have hd : (coreBeat cfg i t).data.toNat = mem (pixelAddress cfg p n) % 2 ^ 24 := by
    show (BitVec.ofNat 24 (Core.data (trace (Core.step cfg) Core.reset i t))).toNat = _
    rw [h4 hv ha, BitVec.toNat_ofNat]
  have key : ∀ k, k < 3 → (((coreBeat cfg i t).data).extractLsb' (8 * k) 8).toNat =
      byte k (mem (pixelAddress cfg p n)) := by
    intro k hk
    rw [BitVec.extractLsb'_toNat, hd, Nat.shiftRight_eq_div_pow]
    match k, hk with
    | 0, _ => simp only [byte]; omega
    | 1, _ => simp only [byte]; omega
    | 2, _ => simp only [byte]; omega
  have k0 := C59_vga_component nr hr (((coreBeat cfg i t).data).extractLsb' 0 8)
  have k1 := C59_vga_component ng hg (((coreBeat cfg i t).data).extractLsb' 8 8)
  have k2 := C59_vga_component nb hb (((coreBeat cfg i t).data).extractLsb' 16 8)
  rw [key 0 (by decide)] at k0
  rw [key 1 (by decide)] at k1
  rw [key 2 (by decide)] at k2
  exact ⟨k0, k1, k2⟩

/-- The tiny mode of C40 with memory words `0x804020 * (a+1)`; pads of 3, 3 and 2 bits.  At clock 6 pixel 3
is offered; its word is `0x10080`: red 0x80. -/
def vgaRun (t : Nat) : Core.In := ⟨true, tiny, true, true, decide (t ≠ 9), fun a => 0x804020 * (a + 1)⟩

example : Core.beats ⟨8, 0, 3, false⟩ vgaRun 6 = 4 ∧
    Core.valid (trace (Core.step ⟨8, 0, 3, false⟩) Core.reset vgaRun 6) (vgaRun 6) = true ∧
    vgaPads 3 3 2 ⟨8, 0, 3, false⟩ vgaRun 6 = ⟨true, true, 4, 0, 0, true⟩ := by decide +kernel

/-! ## Blanking -/

/-- C105: outside the active area the colour pads are at black level. -/
def C105_statement : Prop :=
  ∀ (cfg : Core.Config) (p : Params), ValidMode p → cfg.raw = false → 0 < p.vres * p.hres →
    p.length / 2 ^ cfg.shift % 2 ^ cfg.aw = p.vres * p.hres →
    ∀ (mem : Nat → Nat) (i : Nat → Core.In),
      (∀ t, (i t).pvalid = true ∧ (i t).p = p ∧ (i t).mem = mem) →
      ∀ t n, Core.beats cfg i t = n + 1 → isActive p n = false →
        let y := vgaPads 8 8 8 cfg i t
        y.r = 0 ∧ y.g = 0 ∧ y.b = 0

/-- The next active pixel after a blanking one is the first of its line. -/
theorem next_active_col (p : Params) (hp : ValidMode p) (hpos : 0 < p.vres * p.hres) (n : Nat)
    (hn : isActive p n = false) :
    ∃ m, n < m ∧ isActive p m = true ∧ (∀ k, n ≤ k → k < m → isActive p k = false) ∧ col p m = 0 := by
  have hv : 0 < p.vres := by
    rcases Nat.eq_zero_or_pos p.vres with h | h
    · rw [h] at hpos; simp at hpos
    · exact h
  have hh : 0 < p.hres := by
    rcases Nat.eq_zero_or_pos p.hres with h | h
    · rw [h] at hpos; simp at hpos
    · exact h
  have hex : ∃ d, isActive p (n + d) = true := by
    have hF : 0 < frameLen p := Nat.mul_pos (by omega) (by omega)
    refine ⟨(n + 1) * frameLen p - n, ?_⟩
    have : n ≤ (n + 1) * frameLen p := by
      calc n ≤ n * frameLen p + frameLen p := by
            have := Nat.le_mul_of_pos_right n hF
            omega
        _ = (n + 1) * frameLen p := by rw [Nat.add_mul, Nat.one_mul]
    rw [show n + ((n + 1) * frameLen p - n) = (n + 1) * frameLen p by omega]
    have hL : 0 < lineLen p := Nat.succ_pos _
    have e : (n + 1) * frameLen p = (n + 1) * (p.vscan + 1) * lineLen p := by
      unfold frameLen lineLen; rw [Nat.mul_assoc]
    unfold isActive col line
    rw [e, Nat.mul_mod_left, Nat.mul_div_cancel _ hL, Nat.mul_mod_left]
    simp [hh, hv]
  -- the first one
  have least : ∀ d, isActive p (n + d) = true →
      ∃ m, n ≤ m ∧ isActive p m = true ∧ ∀ k, n ≤ k → k < m → isActive p k = false := by
    intro d
    induction d using Nat.strongRecOn with
    | _ d ih =>
      intro h
      by_cases hex : ∃ e, e < d ∧ isActive p (n + e) = true
      · obtain ⟨e, h1, h2⟩ := hex
        exact ih e h1 h2
      · refine ⟨n + d, by omega, h, fun k h1 h2 => ?_⟩
        cases hk : isActive p k
        · rfl
        · exact absurd ⟨k - n, by omega, by rw [show n + (k - n) = k by omega]; exact hk⟩ hex
  obtain ⟨d, hd⟩ := hex
  obtain ⟨m, h1, h2, h3⟩ := least d hd
  have hlt : n < m := by
    rcases Nat.lt_or_ge n m with h | h
    · exact h
    · rw [show m = n by omega, hn] at h2
      exact absurd h2 (by decide)
  refine ⟨m, hlt, h2, h3, ?_⟩
  apply Classical.byContradiction
  intro hc
  have hL : 0 < lineLen p := Nat.succ_pos _
  have hprev := h3 (m - 1) (by omega) (by omega)
  unfold isActive at h2 hprev
  rw [Bool.and_eq_true, decide_eq_true_eq, decide_eq_true_eq] at h2
  have hm : m = lineLen p * (m / lineLen p) + m % lineLen p := (Nat.div_add_mod _ _).symm
  have hc' : 0 < m % lineLen p := Nat.pos_of_ne_zero hc
  have hml := Nat.mod_lt m hL
  have e : m - 1 = lineLen p * (m / lineLen p) + (m % lineLen p - 1) := by omega
  have hdiv : (m - 1) / lineLen p = m / lineLen p := by
    rw [e, Nat.mul_add_div hL, Nat.div_eq_of_lt (show m % lineLen p - 1 < lineLen p by omega), Nat.add_zero]
  have hmod : (m - 1) % lineLen p = m % lineLen p - 1 := by
    rw [e, Nat.mul_add_mod, Nat.mod_eq_of_lt (show m % lineLen p - 1 < lineLen p by omega)]
  have h2a : m % lineLen p < p.hres := h2.1
  have h2b : m / lineLen p % (p.vscan + 1) < p.vres := h2.2
  unfold col line at hprev
  rw [hdiv, hmod] at hprev
  simp only [Bool.and_eq_false_iff, decide_eq_false_iff_not] at hprev
  omega

/-- **C105** What the code does instead: in blanking, when data is available, the pads show the next active
pixel, which is the first one of the next line. -/
theorem C105_next_pixel (cfg : Core.Config) (p : Params) (hp : ValidMode p) (hraw : cfg.raw = false)
    (hpos : 0 < p.vres * p.hres)
    (hlen : p.length / 2 ^ cfg.shift % 2 ^ cfg.aw = p.vres * p.hres)
    (mem : Nat → Nat) (i : Nat → Core.In)
    (hi : ∀ t, (i t).pvalid = true ∧ (i t).p = p ∧ (i t).mem = mem) (t n : Nat)
    (hn : Core.beats cfg i t = n + 1) (hblank : isActive p n = false)
    (hdata : (trace (Core.step cfg) Core.reset i t).fifo.isEmpty = false) :
    ∃ m, n < m ∧ isActive p m = true ∧ (∀ k, n ≤ k → k < m → isActive p k = false) ∧ col p m = 0 ∧
      Core.data (trace (Core.step cfg) Core.reset i t) = mem (pixelAddress cfg p m) := by
  obtain ⟨m, h1, h2, h3, h4⟩ := next_active_col p hp hpos n hblank
  refine ⟨m, h1, h2, h3, h4, ?_⟩
  have hL : DmaReader.words cfg.aw cfg.shift p.length = p.vres * p.hres := hlen
  obtain ⟨⟨q, hq, -⟩, -, -⟩ := Core.core_inv cfg p hp hraw (by omega) mem i hi t
  have hne : (trace (Core.step cfg) Core.reset i t).fifo ≠ [] := by
    intro h; rw [h] at hdata; simp at hdata
  have h := hq.head hne
  rw [hn, Nat.add_sub_cancel] at h
  have hsame : ∀ d, n + d ≤ m → activeBefore p (n + d) = activeBefore p n := by
    intro d
    induction d with
    | zero => intro _; rfl
    | succ d ih =>
      intro hd
      have e : activeBefore p (n + (d + 1)) = activeBefore p (n + d) +
          (if isActive p (n + d) then 1 else 0) := by
        simp [activeBefore, countIn, ← Nat.add_assoc]
      rw [e, ih (by omega), h3 (n + d) (by omega) (by omega)]
      rfl
  have e0 := hsame (m - n) (by omega)
  rw [show n + (m - n) = m by omega] at e0
  obtain ⟨e1, e2⟩ := activeBefore_active p hp m h2
  show (trace (Core.step cfg) Core.reset i t).fifo.headD 0 = _
  rw [h]
  simp only [Core.addr, pixelAddress, hL]
  rw [← e0, e1, Nat.add_comm (frame p m * _), Nat.add_mul_mod_self_right, Nat.mod_eq_of_lt e2]
  rfl

/-- **C105** holds if software keeps the first column of the frame buffer black (and data is available).
Missing: other pictures, for which it is false (`C105_violated`). -/
theorem C105_black_column_partial (nr ng nb : Nat) (cfg : Core.Config) (p : Params) (hp : ValidMode p)
    (hraw : cfg.raw = false) (hpos : 0 < p.vres * p.hres)
    (hlen : p.length / 2 ^ cfg.shift % 2 ^ cfg.aw = p.vres * p.hres)
    (mem : Nat → Nat)
    (hblack : ∀ m, isActive p m = true → col p m = 0 → mem (pixelAddress cfg p m) % 2 ^ 24 = 0)
    (i : Nat → Core.In)
    (hi : ∀ t, (i t).pvalid = true ∧ (i t).p = p ∧ (i t).mem = mem) (t n : Nat)
    (hn : Core.beats cfg i t = n + 1) (hblank : isActive p n = false)
    (hdata : (trace (Core.step cfg) Core.reset i t).fifo.isEmpty = false) :
    let y := vgaPads nr ng nb cfg i t
    y.r = 0 ∧ y.g = 0 ∧ y.b = 0 := by
  obtain ⟨m, -, h2, -, h4, h5⟩ :=
    C105_next_pixel cfg p hp hraw hpos hlen mem i hi t n hn hblank hdata
  have hd : (coreBeat cfg i t).data = 0 := by
    show BitVec.ofNat 24 (Core.data (trace (Core.step cfg) Core.reset i t)) = 0
    rw [h5]
    apply BitVec.eq_of_toNat_eq
    rw [BitVec.toNat_ofNat, hblack m h2 h4]
    rfl
  have z : ∀ k a, Vga.component k ((0 : BitVec 24).extractLsb' a 8) = 0 := by
    intro k a
    apply BitVec.eq_of_toNat_eq
    simp [Vga.component]
  intro y
  refine ⟨?_, ?_, ?_⟩
  · show Vga.component nr ((coreBeat cfg i t).data.extractLsb' 0 8) = 0
    rw [hd]; exact z _ _
  · show Vga.component ng ((coreBeat cfg i t).data.extractLsb' 8 8) = 0
    rw [hd]; exact z _ _
  · show Vga.component nb ((coreBeat cfg i t).data.extractLsb' 16 8) = 0
    rw [hd]; exact z _ _

/-- **C105** is false of the code: in the blanking after the first line the pads show the first pixel of
the next frame. -/
theorem C105_violated : ¬ C105_statement := by
  intro h
  have := h ⟨8, 0, 3, false⟩ tiny tiny_valid.toValidMode rfl (by decide) (by decide)
    (fun a => 0x804020 * (a + 1))
    (fun _ => ⟨true, tiny, true, true, true, fun a => 0x804020 * (a + 1)⟩) (fun t => ⟨rfl, rfl, rfl⟩) 8 5
    (by decide +kernel) (by decide)
  revert this
  decide +kernel

/-- A picture with a black first column meets the hypotheses of `C105_black_column_partial`. -/
example : ∀ m, isActive tiny m = true → col tiny m = 0 →
    (fun a => 0x804020 * a) (pixelAddress ⟨8, 0, 3, false⟩ tiny m) % 2 ^ 24 = 0 := by
  intro m ha hc
  have hl : line tiny m = 0 := by
    unfold isActive at ha
    rw [Bool.and_eq_true, decide_eq_true_eq, decide_eq_true_eq] at ha
    have : line tiny m < 1 := ha.2
    omega
  show 0x804020 * ((0 + (line tiny m * 4 + col tiny m)) % 2 ^ 8) % 2 ^ 24 = 0
  rw [hc, hl]; rfl

end Verif.Props
