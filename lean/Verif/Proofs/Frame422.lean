import Verif.Proofs.Frame
import Verif.Props.Csc
import Verif.Props.Resample

/-!
# Frame extraction in ycbcr422 mode: lemmas
-/

namespace Verif.Frame

open Spec.Frame Csc

/-! Delay lines. -/

theorem delay_get {α : Type} (z : α) (L : Nat) (d : Nat → List α) (x : Nat → α)
    (h0 : d 0 = List.replicate L z) (hs : ∀ t, d (t + 1) = (x t :: d t).dropLast) (t : Nat) :
    (d t).length = L ∧ ∀ k, k < L → (d t)[k]? = some (if k < t then x (t - 1 - k) else z) := by
  induction t with
  | zero =>
    refine ⟨by simp [h0], fun k hk => ?_⟩
    rw [h0, List.getElem?_replicate, if_pos hk]; simp
  | succ t ih =>
    refine ⟨by simp [hs, ih.1], fun k hk => ?_⟩
    rw [hs, List.getElem?_dropLast, if_pos (by simp [ih.1]; omega)]
    cases k with
    | zero => simp
    | succ k =>
      rw [List.getElem?_cons_succ, ih.2 k (by omega)]
      congr 1
      by_cases h : k < t
      · rw [if_pos h, if_pos (by omega)]; congr 1; omega
      · rw [if_neg h, if_neg (by omega)]

theorem delay_last {α : Type} (z : α) (L : Nat) (hL : 0 < L) (d : Nat → List α) (x : Nat → α)
    (h0 : d 0 = List.replicate L z) (hs : ∀ t, d (t + 1) = (x t :: d t).dropLast) (t : Nat) :
    (d t).getLastD z = if L ≤ t then x (t - L) else z := by
  obtain ⟨h1, h2⟩ := delay_get z L d x h0 hs t
  have h3 := h2 (L - 1) (by omega)
  rw [List.getLastD_eq_getLast?, List.getLast?_eq_getElem?, h1, h3, Option.getD_some]
  by_cases h : L ≤ t
  · rw [if_pos h, if_pos (by omega)]; congr 1; omega
  · rw [if_neg h, if_neg (by omega)]

namespace Ycbcr422

variable (pf : Nat) (x : Nat → In)

/-- State at clock `t`. -/
abbrev run (t : Nat) : State := trace (step pf) reset x t

theorem pipe_rgb (t : Nat) : PipelinedActor.pipeCe (run pf x t).rgb2ycbcr
    (PipelinedActor.pipeCe (run pf x t).down true) = true := by
  simp [PipelinedActor.pipeCe]

theorem rgb_valid (t : Nat) : (run pf x (t + 1)).rgb2ycbcr.valid =
    ((x t).valid_i :: (run pf x t).rgb2ycbcr.valid).dropLast := by
  show (PipelinedActor.step rgbDatapath (run pf x t).rgb2ycbcr _).valid = _
  unfold PipelinedActor.step
  rw [if_pos (pipe_rgb pf x t)]

theorem rgb_dp (t : Nat) : (run pf x (t + 1)).rgb2ycbcr.dp =
    Rgb2Ycbcr.step (Rgb2Ycbcr.params 8 8 8) (run pf x t).rgb2ycbcr.dp (rgbIn (x t)) := by
  show (PipelinedActor.step rgbDatapath (run pf x t).rgb2ycbcr _).dp = _
  unfold PipelinedActor.step
  rw [if_pos (pipe_rgb pf x t)]
  rfl

theorem down_valid (t : Nat) : (run pf x (t + 1)).down.valid =
    (PipelinedActor.sourceValid (run pf x t).rgb2ycbcr :: (run pf x t).down.valid).dropLast := by
  show (PipelinedActor.step downDatapath (run pf x t).down _).valid = _
  unfold PipelinedActor.step
  rw [if_pos (by simp [PipelinedActor.pipeCe])]

/-- Input of the downsampler's datapath. -/
def downIn (t : Nat) : To422.In :=
  { px := (run pf x t).rgb2ycbcr.dp.source, first := (x t).de && !(run pf x t).de_r }

theorem down_dp (t : Nat) : (run pf x (t + 1)).down.dp =
    To422.step 8 (run pf x t).down.dp (downIn pf x t) := by
  show (PipelinedActor.step downDatapath (run pf x t).down _).dp = _
  unfold PipelinedActor.step
  rw [if_pos (by simp [PipelinedActor.pipeCe])]
  rfl

theorem rgb_dp_trace (u k : Nat) : (run pf x (u + k)).rgb2ycbcr.dp =
    trace (Rgb2Ycbcr.step (Rgb2Ycbcr.params 8 8 8)) (run pf x u).rgb2ycbcr.dp
      (fun j => rgbIn (x (u + j))) k := by
  induction k with
  | zero => rfl
  | succ k ih => rw [← Nat.add_assoc, rgb_dp, ih]; rfl

theorem down_dp_trace (u k : Nat) : (run pf x (u + k)).down.dp =
    trace (To422.step 8) (run pf x u).down.dp (fun j => downIn pf x (u + j)) k := by
  induction k with
  | zero => rfl
  | succ k ih => rw [← Nat.add_assoc, down_dp, ih]; rfl

theorem rgb_fits (u : Nat) : Spec.Csc.RgbFits 8 (rgbIn (x u)) := by
  have h1 := (x u).r.isLt
  have h2 := (x u).g.isLt
  have h3 := (x u).b.isLt
  unfold Spec.Csc.RgbFits rgbIn
  simp only
  omega

theorem ycc_at (u : Nat) : (run pf x (u + 8)).rgb2ycbcr.dp.source =
    Spec.Csc.rgb2ycbcr 8 8 46 15 141 166 (rgbIn (x u)) := by
  rw [rgb_dp_trace]
  exact Props.C23_datapath (Rgb2Ycbcr.params 8 8 8) (Rgb2Ycbcr.params_ok 8 8 8 (by decide)) _ _ 0
    (rgb_fits x u)

theorem wrapU_range (w : Nat) (a : Int) : 0 ≤ wrapU w a ∧ wrapU w a < 2 ^ w := by
  have hp : (0 : Int) < 2 ^ w := by positivity
  unfold wrapU
  exact ⟨Int.emod_nonneg _ (by omega), Int.emod_lt_of_pos _ hp⟩

theorem saturate_range (a : Int) : 0 ≤ saturate 8 a 0 (2 ^ 8 - 1) ∧ saturate 8 a 0 (2 ^ 8 - 1) < 2 ^ 8 := by
  unfold saturate
  split
  · exact wrapU_range 8 _
  · split <;> exact wrapU_range 8 _

theorem ycc_fits (t : Nat) : Spec.Csc.YcbcrFits 8 (run pf x t).rgb2ycbcr.dp.source := by
  cases t with
  | zero =>
    have h : (0 : Int) ≤ 0 ∧ (0 : Int) < 2 ^ 8 := by decide
    exact ⟨h, h, h⟩
  | succ t =>
    rw [rgb_dp]
    exact ⟨saturate_range _, saturate_range _, saturate_range _⟩

theorem valid_at (t : Nat) : PipelinedActor.sourceValid (run pf x t).down =
    if 11 ≤ t then (x (t - 11)).valid_i else false := by
  have h1 := delay_last false 8 (by decide) (fun u => (run pf x u).rgb2ycbcr.valid)
    (fun u => (x u).valid_i) rfl (rgb_valid pf x)
  have h2 := delay_last false 3 (by decide) (fun u => (run pf x u).down.valid)
    (fun u => PipelinedActor.sourceValid (run pf x u).rgb2ycbcr) rfl (down_valid pf x) t
  unfold PipelinedActor.sourceValid
  rw [h2]
  unfold PipelinedActor.sourceValid
  rw [h1]
  by_cases h : 11 ≤ t
  · rw [if_pos (by omega), if_pos (by omega), if_pos h]; congr 2; 
  · rw [if_neg h]
    by_cases h3 : 3 ≤ t
    · rw [if_pos h3, if_neg (by omega)]
    · rw [if_neg h3]

theorem de_at (t : Nat) : (run pf x t).de_delay.getLastD false =
    if 11 ≤ t then (x (t - 11)).de else false :=
  delay_last false 11 (by decide) (fun u => (run pf x u).de_delay) (fun u => (x u).de) rfl
    (fun _ => rfl) t

theorem line_start (u : Nat) (hu : (x u).de = true) :
    lineOffset x u ≤ u ∧
    (∀ j, u - lineOffset x u ≤ j → j ≤ u → (x j).de = true) ∧
    (u - lineOffset x u = 0 ∨ (x (u - lineOffset x u - 1)).de = false) := by
  induction u with
  | zero =>
    refine ⟨Nat.le_refl _, fun j _ h => ?_, Or.inl rfl⟩
    obtain rfl : j = 0 := by omega
    exact hu
  | succ u ih =>
    by_cases h : (x u).de = true
    · obtain ⟨h1, h2, h3⟩ := ih h
      have e : lineOffset x (u + 1) = lineOffset x u + 1 := if_pos h
      rw [e, show u + 1 - (lineOffset x u + 1) = u - lineOffset x u by omega]
      refine ⟨by omega, fun j hj hju => ?_, h3⟩
      rcases Nat.lt_or_eq_of_le hju with hlt | rfl
      · exact h2 j hj (by omega)
      · exact hu
    · have e : lineOffset x (u + 1) = 0 := if_neg h
      rw [e]
      refine ⟨by omega, fun j hj hju => ?_, Or.inr ?_⟩
      · obtain rfl : j = u + 1 := by omega
        exact hu
      · exact Bool.eq_false_iff.2 h

theorem first_at (t : Nat) : (downIn pf x t).first =
    ((x t).de && !(if t = 0 then false else (x (t - 1)).de)) := by
  cases t <;> rfl

/-- After an active pixel no line starts within the blanking time. -/
theorem no_rise (n : Nat) (u : Nat) (hb : BlankingFrom u n x) (hu : (x u).de = true) (d : Nat)
    (h1 : 1 ≤ d) (h2 : d ≤ n) : ((x (u + d)).de && !(x (u + d - 1)).de) = false := by
  rw [Bool.eq_false_iff]
  intro h
  simp only [Bool.and_eq_true, Bool.not_eq_true'] at h
  -- last active clock before
  have key : ∀ m, (∀ j, j ≤ m → (x (u + j)).de = true) ∨
      ∃ e, e < m ∧ (x (u + e)).de = true ∧ (x (u + e + 1)).de = false := by
    intro m
    induction m with
    | zero =>
      left; intro j hj
      obtain rfl : j = 0 := by omega
      exact hu
    | succ m ih =>
      rcases ih with h | ⟨e, he, h3⟩
      · by_cases hm : (x (u + (m + 1))).de = true
        · left
          intro j hj
          rcases Nat.lt_or_eq_of_le hj with hlt | rfl
          · exact h j (by omega)
          · exact hm
        · right
          exact ⟨m, by omega, h m (Nat.le_refl _), Bool.eq_false_iff.2 hm⟩
      · right; exact ⟨e, by omega, h3⟩
  rcases key (d - 1) with h3 | ⟨e, he, h3, h4⟩
  · have := h3 (d - 1) (Nat.le_refl _)
    rw [show u + (d - 1) = u + d - 1 by omega, h.2] at this
    exact absurd this (by decide)
  · have := hb (u + e) (by omega) h3 h4 (d - e - 1) (by omega)
    rw [show u + e + 1 + (d - e - 1) = u + d by omega, h.1] at this
    exact absurd this (by decide)

theorem rgb2ycbcr_fits (p : Rgb) : Spec.Csc.YcbcrFits 8 (Spec.Csc.rgb2ycbcr 8 8 46 15 141 166 p) := by
  have h : ∀ a : Int, 0 ≤ Spec.Csc.clamp (2 ^ 8 - 1) a ∧ Spec.Csc.clamp (2 ^ 8 - 1) a < 2 ^ 8 := by
    intro a; unfold Spec.Csc.clamp; omega
  exact ⟨h _, h _, h _⟩

theorem encode_toNat (a b : Int) (ha : 0 ≤ a ∧ a < 2 ^ 8) (hb : 0 ≤ b ∧ b < 2 ^ 8) :
    (BitVec.ofInt 8 a ++ BitVec.ofInt 8 b).toNat = b.toNat + 256 * a.toNat := by
  rw [BitVec.toNat_append, BitVec.toNat_ofInt, BitVec.toNat_ofInt,
    ← Nat.shiftLeft_add_eq_or_of_lt (by omega), Nat.shiftLeft_eq]
  omega

/-- Eleven clocks after an active pixel its 4:2:2 value is at the packer. -/
theorem encoded_at (u : Nat) (hb : BlankingFrom u 11 x) (hu : (x u).de = true) :
    (encodedPixel (run pf x (u + 11))).toNat = pixel422 x u := by
  obtain ⟨h1, h2, h3⟩ := line_start x u hu
  obtain ⟨k, o, rfl, ho⟩ : ∃ k o, u = k + o ∧ lineOffset x u = o :=
    ⟨u - lineOffset x u, lineOffset x u, by omega, rfl⟩
  rw [ho, Nat.add_sub_cancel] at h2 h3
  have hf : (downIn pf x k).first = true := by
    rw [first_at, h2 k (Nat.le_refl _) (by omega)]
    rcases h3 with rfl | h3
    · rfl
    · by_cases hk : k = 0
      · rw [if_pos hk]; rfl
      · rw [if_neg hk, h3]; rfl
  have hnf : ∀ n, n < o + 11 → (downIn pf x (k + 1 + n)).first = false := by
    intro n hn
    rw [first_at, if_neg (by omega)]
    by_cases hno : n < o
    · rw [h2 (k + 1 + n - 1) (by omega) (by omega)]; simp
    · have := no_rise x 11 (k + o) hb hu (n + 1 - o) (by omega) (by omega)
      rw [show k + o + (n + 1 - o) = k + 1 + n by omega] at this
      exact this
  have hpx : ∀ n, (downIn pf x (n + 8)).px = ycc x n := fun n => ycc_at pf x n
  have hC := fun j (hj : 2 * j + 3 ≤ o + 11) => Props.C26_datapath 8 (run pf x 0).down.dp (downIn pf x) k j
    (fun t => ycc_fits pf x t) hf (fun n hn => hnf n (by omega))
  have hrun : ∀ t, (trace (To422.step 8) (run pf x 0).down.dp (downIn pf x) t) =
      (run pf x t).down.dp := by
    intro t
    have := down_dp_trace pf x 0 t
    simp only [Nat.zero_add] at this
    exact this.symm
  unfold encodedPixel pixel422
  show (BitVec.ofInt 8 (run pf x (k + o + 11)).down.dp.source.cb_cr ++
    BitVec.ofInt 8 (run pf x (k + o + 11)).down.dp.source.y).toNat = _
  rw [ho]
  have hfit := fun n => rgb2ycbcr_fits (rgbIn (x n))
  by_cases hpar : o % 2 = 0
  · obtain ⟨q, -⟩ := hC (o / 2 + 4) (by omega)
    rw [hrun, show k + 2 * (o / 2 + 4) + 3 = k + o + 11 by omega,
      show k + 2 * (o / 2 + 4) = k + o + 8 by omega,
      show k + o + 8 + 1 = k + o + 1 + 8 by omega, hpx, hpx] at q
    have e1 := hfit (k + o)
    have e2 := hfit (k + o + 1)
    change Spec.Csc.YcbcrFits 8 (ycc x (k + o)) at e1
    change Spec.Csc.YcbcrFits 8 (ycc x (k + o + 1)) at e2
    obtain ⟨a1, a2, a3⟩ := e1
    obtain ⟨b1, b2, b3⟩ := e2
    rw [if_pos hpar, q, encode_toNat _ _ (by simp only; omega) a1]
  · obtain ⟨-, q⟩ := hC (o / 2 + 4) (by omega)
    rw [hrun, show k + 2 * (o / 2 + 4) + 4 = k + o + 11 by omega,
      show k + 2 * (o / 2 + 4) + 1 = k + o + 8 by omega,
      show k + 2 * (o / 2 + 4) = k + o - 1 + 8 by omega, hpx, hpx] at q
    have e1 := hfit (k + o)
    have e2 := hfit (k + o - 1)
    change Spec.Csc.YcbcrFits 8 (ycc x (k + o)) at e1
    change Spec.Csc.YcbcrFits 8 (ycc x (k + o - 1)) at e2
    obtain ⟨a1, a2, a3⟩ := e1
    obtain ⟨b1, b2, b3⟩ := e2
    rw [if_neg hpar, q, encode_toNat _ _ (by simp only; omega) a1]

/-- Packer input at clock `t`. -/
def feed (t : Nat) : Packer.In (BitVec 16) := packerIn (run pf x t) (x t)

theorem packer_trace (t : Nat) :
    (run pf x t).packer = trace (Packer.step pf) (Packer.reset 0) (feed pf x) t := by
  induction t with
  | zero => rfl
  | succ t ih =>
    show Packer.step pf (run pf x t).packer _ = _
    rw [ih]; rfl

theorem feed_new_frame (t : Nat) :
    (feed pf x (t + 1)).new_frame = ((x (t + 1)).vsync && !(x t).vsync) := rfl

theorem feed_en (t : Nat) :
    (feed pf x t).en = if 11 ≤ t then (x (t - 11)).valid_i && (x (t - 11)).de else false := by
  show (PipelinedActor.sourceValid (run pf x t).down && (run pf x t).de_delay.getLastD false) = _
  rw [valid_at, de_at]
  split <;> rfl

end Ycbcr422

theorem pickIn_add {α : Type} (p : Nat → Bool) (x : Nat → α) (t a b : Nat) :
    pickIn p x t (a + b) = pickIn p x t a ++ pickIn p x (t + a) b := by
  induction b with
  | zero => simp [pickIn]
  | succ b ih =>
    rw [← Nat.add_assoc, pickIn, ih, pickIn, List.append_assoc, Nat.add_assoc]

theorem pickIn_none {α : Type} (p : Nat → Bool) (x : Nat → α) (t n : Nat)
    (h : ∀ j, j < n → p (t + j) = false) : pickIn p x t n = [] := by
  induction n with
  | zero => rfl
  | succ n ih =>
    rw [pickIn, ih fun j hj => h j (by omega), h n (by omega)]; rfl

theorem pickIn_shift {α : Type} (p q : Nat → Bool) (x y : Nat → α) (t t' n : Nat)
    (h1 : ∀ j, j < n → p (t + j) = q (t' + j))
    (h2 : ∀ j, j < n → q (t' + j) = true → x (t + j) = y (t' + j)) :
    pickIn p x t n = pickIn q y t' n := by
  induction n with
  | zero => rfl
  | succ n ih =>
    rw [pickIn, pickIn, ih (fun j hj => h1 j (by omega)) fun j hj => h2 j (by omega),
      h1 n (by omega)]
    by_cases h : q (t' + n) = true
    · rw [if_pos h, if_pos h, h2 n (by omega) h]
    · rw [if_neg h, if_neg h]

end Verif.Frame
