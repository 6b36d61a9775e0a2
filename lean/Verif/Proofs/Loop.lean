import Verif.Spec.Loop
import Verif.Proofs.Output
import Verif.Props.HdmiIn

/-!
# Raster video at the receiver: lemmas
-/

namespace Verif.Loop

open Verif.Output Verif.Spec.Output Verif.VideoOut Verif.Spec.Loop Verif.Spec.Stream Verif.Props
  Verif.Spec.Frame Verif.Spec.HdmiIn Verif.Spec.Receiver

/-- Picking the elements of a sequence that depend only on their index. -/
theorem pickIn_count {α : Type} (P : Nat → Bool) (h : Nat → α) (a n : Nat) :
    pickIn P (fun u => h (countIn P 0 u)) a n =
      (List.range (countIn P a n)).map fun j => h (countIn P 0 a + j) := by
  induction n with
  | zero => rfl
  | succ n ih =>
    rw [pickIn, ih, countIn]
    by_cases hp : P (a + n) = true
    · rw [if_pos hp, if_pos hp, List.range_succ, List.map_append]
      congr 1
      have := countIn_add P 0 a n
      rw [Nat.zero_add] at this
      simp [this]
    · rw [if_neg hp, if_neg hp]; simp

theorem count_le (P : Nat → Bool) (a n : Nat) : countIn P a n ≤ n := by
  induction n with
  | zero => exact Nat.le_refl _
  | succ n ih => rw [countIn]; split <;> omega

/-- With a constant input, a state that recurs recurs for ever. -/
theorem trace_periodic {σ ι : Type} (step : σ → ι → σ) (s0 : σ) (v : ι) (T P : Nat)
    (h : trace step s0 (fun _ => v) (T + P) = trace step s0 (fun _ => v) T) (n : Nat) :
    trace step s0 (fun _ => v) (T + n) = trace step s0 (fun _ => v) (T + n % P) := by
  have h1 : ∀ n, trace step s0 (fun _ => v) (T + P + n) = trace step s0 (fun _ => v) (T + n) := by
    intro n
    induction n with
    | zero => exact h
    | succ n ih =>
      show step _ v = step _ v
      rw [show trace step s0 (fun _ => v) ((T + P).add n) = _ from ih]
      rfl
  have h2 : ∀ q r, trace step s0 (fun _ => v) (T + (q * P + r)) =
      trace step s0 (fun _ => v) (T + r) := by
    intro q r
    induction q with
    | zero => rw [Nat.zero_mul, Nat.zero_add]
    | succ q ih =>
      rw [show T + ((q + 1) * P + r) = T + P + (q * P + r) by rw [Nat.succ_mul]; omega, h1, ih]
  have := h2 (n / P) (n % P)
  rw [Nat.mul_comm, Nat.div_add_mod] at this
  exact this

section

variable {p : Params}

theorem fl_eq (p : Params) : frameLen p = p.vscan * lineLen p + lineLen p := by
  unfold frameLen lineLen; rw [Nat.add_mul]; omega

theorem line_le (p : Params) (l : Nat) (h : l ≤ p.vscan) : l * lineLen p ≤ p.vscan * lineLen p :=
  Nat.mul_le_mul_right _ h

/-- The vertical sync pulse starts after pixel `m` iff `m + 1` is the first pixel of line
`vsync_start`. -/
theorem vstart_iff (hp : RealMode p) (m : Nat) :
    (isVsync p m = false ∧ isVsync p (m + 1) = true) ↔
      ∃ F, m + 1 = F * frameLen p + p.vsync_start * lineLen p := by
  have hl := hp.lines; have hv := hp.vporch; have hs := hp.vs; have he := hp.ve
  have hll : lineLen p = p.hscan + 1 := rfl
  constructor
  · rintro ⟨h1, h2⟩
    simp only [isVsync, Bool.and_eq_true, Bool.and_eq_false_iff, decide_eq_true_eq,
      decide_eq_false_iff_not] at h1 h2
    obtain ⟨n1, n2, n3⟩ := next_pixel p m
    by_cases hc : col p m = p.hscan
    · by_cases hl' : line p m = p.vscan
      · rw [(n3 hc hl').2.1] at h2; omega
      · rw [(n2 hc hl').2.1] at h2
        have hd := pixel_decomp p m
        refine ⟨frame p m, ?_⟩
        rw [show p.vsync_start = line p m + 1 by omega, Nat.add_mul, Nat.one_mul]
        omega
    · rw [(n1 hc).2.1] at h2; omega
  · rintro ⟨F, h⟩
    have e : m = F * frameLen p + (p.vsync_start - 1) * lineLen p + p.hscan := by
      have : p.vsync_start * lineLen p = (p.vsync_start - 1) * lineLen p + lineLen p := by
        rw [← Nat.succ_mul]; congr 1; omega
      omega
    obtain ⟨a1, -, -⟩ := frame_coord p F (p.vsync_start - 1) p.hscan (by omega) (Nat.le_refl _)
    obtain ⟨b1, -, -⟩ := frame_coord p F p.vsync_start 0 (by omega) (Nat.zero_le _)
    rw [Nat.add_zero, ← h] at b1
    rw [← e] at a1
    simp only [isVsync, a1, b1, Bool.and_eq_true, Bool.and_eq_false_iff, decide_eq_true_eq,
      decide_eq_false_iff_not]
    omega

/-- Active pixels in a window after the start of the vertical sync pulse. -/
theorem window_count (hp : RealMode p) (F m n : Nat)
    (hm : m + 1 = F * frameLen p + p.vsync_start * lineLen p) (hn : n ≤ frameLen p - 1) :
    countIn (isActive p) 0 (m + 2) = (F + 1) * (p.vres * p.hres) ∧
    countIn (isActive p) (m + 2) n ≤ p.vres * p.hres ∧
    (n = frameLen p - 1 → countIn (isActive p) (m + 2) n = p.vres * p.hres) := by
  have hv := hp.vporch; have hs := hp.vs; have he := hp.ve; have hlong := hp.long
  have hfl := fl_eq p
  have hll : lineLen p = p.hscan + 1 := rfl
  have h1 : countIn (isActive p) 0 (m + 2) = (F + 1) * (p.vres * p.hres) := by
    obtain ⟨b1, b2, b3⟩ := frame_coord p F p.vsync_start 1 (by omega) (by omega)
    rw [← hm] at b1 b2 b3
    have := activeBefore_eq p hp.toValidMode (m + 2)
    rw [show m + 2 = m + 1 + 1 by omega, b1, b3, if_neg (by omega),
      show min p.vsync_start p.vres = p.vres by omega] at this
    rw [Nat.add_mul, Nat.one_mul]
    exact this
  have h2 : countIn (isActive p) 0 (m + 2 + (frameLen p - 1)) = (F + 2) * (p.vres * p.hres) := by
    obtain ⟨b1, b2, b3⟩ := frame_coord p (F + 1) p.vsync_start 0 (by omega) (by omega)
    have e : m + 2 + (frameLen p - 1) = (F + 1) * frameLen p + p.vsync_start * lineLen p + 0 := by
      rw [Nat.add_mul, Nat.one_mul]; omega
    have := activeBefore_eq p hp.toValidMode (m + 2 + (frameLen p - 1))
    rw [e, b1, b3, if_neg (by omega), show min p.vsync_start p.vres = p.vres by omega] at this
    rw [e, show (F + 2) * (p.vres * p.hres) = (F + 1) * (p.vres * p.hres) + p.vres * p.hres by
      rw [← Nat.succ_mul]]
    exact this
  have h3 := countIn_add (isActive p) 0 (m + 2) (frameLen p - 1)
  rw [Nat.zero_add, h2, h1, show (F + 2) * (p.vres * p.hres) =
    (F + 1) * (p.vres * p.hres) + p.vres * p.hres by rw [← Nat.succ_mul]] at h3
  refine ⟨h1, ?_, fun hn => by rw [hn]; omega⟩
  have h4 := countIn_add (isActive p) (m + 2) n (frameLen p - 1 - n)
  rw [show n + (frameLen p - 1 - n) = frameLen p - 1 by omega] at h4
  omega

/-- Active pixels in such a window belong to the next frame. -/
theorem window_frame (hp : RealMode p) (F m u : Nat)
    (hm : m + 1 = F * frameLen p + p.vsync_start * lineLen p) (hu : m + 2 ≤ u)
    (hu2 : u < m + 1 + frameLen p) (hact : isActive p u = true) : frame p u = F + 1 := by
  have hv := hp.vporch; have hs := hp.vs; have he := hp.ve
  have hfl := fl_eq p
  have hll : lineLen p = p.hscan + 1 := rfl
  have hvl := line_le p p.vsync_start (by omega)
  have hd := pixel_decomp p u
  have hc := col_lt p u
  simp only [isActive, Bool.and_eq_true, decide_eq_true_eq] at hact
  have h1 : line p u * lineLen p + lineLen p ≤ p.vsync_start * lineLen p := by
    rw [← Nat.succ_mul]; exact Nat.mul_le_mul_right _ (by omega)
  have h2 : F < frame p u := by
    rcases Nat.lt_or_ge F (frame p u) with h | h
    · exact h
    · have := Nat.mul_le_mul_right (frameLen p) h; omega
  have h3 : frame p u < F + 2 := by
    rcases Nat.lt_or_ge (frame p u) (F + 2) with h | h
    · exact h
    · have := Nat.mul_le_mul_right (frameLen p) h
      rw [Nat.add_mul] at this; omega
  omega

/-- A window that contains an active pixel reaches into the next frame. -/
theorem window_begun (hp : RealMode p) (F m n : Nat)
    (hm : m + 1 = F * frameLen p + p.vsync_start * lineLen p) (hn : n ≤ frameLen p - 1)
    (h : countIn (isActive p) (m + 2) n ≠ 0) : (F + 1) * frameLen p < m + 2 + n := by
  rcases Nat.lt_or_ge ((F + 1) * frameLen p) (m + 2 + n) with hlt | hge
  · exact hlt
  · refine absurd ?_ h
    have quiet : ∀ j, j < n → isActive p (m + 2 + j) = false := by
      intro j hj
      rw [Bool.eq_false_iff]
      intro hact
      have hf := window_frame hp F m (m + 2 + j) hm (by omega) (by omega) hact
      have := pixel_decomp p (m + 2 + j)
      rw [hf] at this
      omega
    have hnone : ∀ i, i ≤ n → countIn (isActive p) (m + 2) i = 0 := by
      intro i
      induction i with
      | zero => intro _; rfl
      | succ i ih => intro hi; rw [countIn, ih (by omega), quiet i (by omega)]; rfl
    exact hnone n (Nat.le_refl _)

/-- In such a window the active pixels are the pixels of the next frame in raster order. -/
theorem window_pixels {α : Type} (hp : RealMode p) (F m n : Nat)
    (hm : m + 1 = F * frameLen p + p.vsync_start * lineLen p) (hn : n ≤ frameLen p - 1)
    (y : Nat → α) (v : Nat → α)
    (hy : ∀ u, m + 2 ≤ u → isActive p u = true → frame p u = F + 1 →
      y u = v (line p u * p.hres + col p u)) :
    pickIn (isActive p) y (m + 2) n =
      (List.range (countIn (isActive p) (m + 2) n)).map v := by
  obtain ⟨h1, h2, -⟩ := window_count hp F m n hm hn
  have e : pickIn (isActive p) y (m + 2) n = pickIn (isActive p)
      (fun u => v (countIn (isActive p) 0 u % (p.vres * p.hres))) (m + 2) n := by
    refine Frame.pickIn_shift _ _ _ _ _ _ n (fun _ _ => rfl) (fun j hjn hj => ?_)
    rw [hy _ (by omega) hj (window_frame hp F m _ hm (by omega) (by omega) hj)]
    obtain ⟨a1, a2⟩ := activeBefore_active p hp.toValidMode _ hj
    show _ = v (activeBefore p (m + 2 + j) % (p.vres * p.hres))
    rw [a1, Nat.mul_comm (frame p _), Nat.mul_add_mod, Nat.mod_eq_of_lt a2]
  rw [e, pickIn_count (isActive p) (fun q => v (q % (p.vres * p.hres)))]
  apply List.map_congr_left
  intro j hj
  rw [List.mem_range] at hj
  rw [h1, Nat.mul_comm, Nat.mul_add_mod, Nat.mod_eq_of_lt (by omega)]

/-- A picture of `N` words of `pf` pixels is determined by any window that contains `N` words. -/
theorem whole_picture {pf N V k : Nat} (hpf : 0 < pf) (hN : N * pf = V) (hk : k ≤ V) (v : Nat → Nat)
    (h : ((groups pf ((List.range k).map v)).take N).length = N) :
    (groups pf ((List.range k).map v)).take N = groups pf ((List.range V).map v) := by
  have hlen : ∀ k, (groups pf ((List.range k).map v)).length = k / pf := by
    intro k; simp [groups]
  have h1 : N ≤ k / pf := by
    rw [List.length_take, hlen] at h; omega
  have h2 : N * pf ≤ k := by
    have := Nat.div_mul_le_self k pf
    have h3 := Nat.mul_le_mul_right pf h1
    omega
  have : k = V := by omega
  subst this
  apply List.take_of_length_le
  rw [hlen, ← hN, Nat.mul_div_cancel _ hpf]

variable {x : Nat → Phy} {m0 d0 : Nat} {film : Nat → Nat → Colour}

theorem raster_start (hp : RealMode p) (hx : Film p x m0 d0 film) (m : Nat) (hm : m0 ≤ m) :
    FrameStarts (sent false x) (m + d0) ↔
      ∃ F, m + 1 = F * frameLen p + p.vsync_start * lineLen p := by
  rw [← vstart_iff hp m]
  unfold FrameStarts sent
  simp only [Bool.xor_false]
  rw [hx.vsync m hm, show m + d0 + 1 = m + 1 + d0 by omega, hx.vsync (m + 1) (by omega)]

/-- No frame start in a window means that the window is shorter than a frame. -/
theorem raster_short (hp : RealMode p) (hx : Film p x m0 d0 film) (m n F : Nat) (hm0 : m0 ≤ m)
    (hm : m + 1 = F * frameLen p + p.vsync_start * lineLen p)
    (hno : ∀ u, u < n → ¬ FrameStarts (sent false x) (m + d0 + 1 + u)) : n ≤ frameLen p - 1 := by
  have hfl := fl_eq p
  have hll : lineLen p = p.hscan + 1 := rfl
  rcases Nat.lt_or_ge (frameLen p - 1) n with h | h
  · exfalso
    apply hno _ h
    rw [show m + d0 + 1 + (frameLen p - 1) = (m + frameLen p) + d0 by omega,
      raster_start hp hx _ (by omega)]
    exact ⟨F + 1, by rw [Nat.add_mul, Nat.one_mul]; omega⟩
  · exact h

/-- Consecutive frame starts are one frame apart. -/
theorem raster_next (hp : RealMode p) (hx : Film p x m0 d0 film) (m n F : Nat) (hm0 : m0 ≤ m)
    (hm : m + 1 = F * frameLen p + p.vsync_start * lineLen p)
    (hno : ∀ u, u < n → ¬ FrameStarts (sent false x) (m + d0 + 1 + u))
    (hn : FrameStarts (sent false x) (m + d0 + 1 + n)) : n = frameLen p - 1 := by
  have h1 := raster_short hp hx m n F hm0 hm hno
  rw [show m + d0 + 1 + n = (m + 1 + n) + d0 by omega, raster_start hp hx _ (by omega)] at hn
  obtain ⟨G, hG⟩ := hn
  have hlt : F < G := by
    rcases Nat.lt_or_ge F G with h | h
    · exact h
    · have := Nat.mul_le_mul_right (frameLen p) h; omega
  have := Nat.mul_le_mul_right (frameLen p) hlt
  rw [Nat.succ_mul] at this
  omega

theorem raster_active (hp : RealMode p) (hx : Film p x m0 d0 film) (m n F : Nat) (hm0 : m0 ≤ m)
    (hm : m + 1 = F * frameLen p + p.vsync_start * lineLen p) (hn : n ≤ frameLen p - 1) :
    activePixels (sent false x) (m + d0 + 2) n =
      (List.range (countIn (isActive p) (m + 2) n)).map fun q => rgb24 (film (F + 1) q) := by
  rw [← window_pixels hp F m n hm hn (fun u => rgb24 ((x (u + d0)).r, (x (u + d0)).g, (x (u + d0)).b))
    (fun q => rgb24 (film (F + 1) q)) (fun u hu hact hF => by rw [hx.rgb u (by omega) hact, hF])]
  unfold activePixels
  refine Frame.pickIn_shift _ _ _ _ _ _ n (fun j _ => ?_) (fun j _ _ => ?_)
  · show (true && (x (m + d0 + 2 + j)).de) = _
    rw [Bool.true_and, show m + d0 + 2 + j = m + 2 + j + d0 by omega, hx.de _ (by omega)]
  · show ((x (m + d0 + 2 + j)).r.toNat * 256 + (x (m + d0 + 2 + j)).g.toNat) * 256 +
      (x (m + d0 + 2 + j)).b.toNat = _
    rw [show m + d0 + 2 + j = m + 2 + j + d0 by omega]
    rfl

theorem groups_range {pf N V : Nat} (hpf : 0 < pf) (hN : N * pf = V) (v : Nat → Nat) :
    (groups pf ((List.range V).map v)).length = N := by
  simp [groups, ← hN, Nat.mul_div_cancel _ hpf]

theorem raster_steady (hp : RealMode p) (hx : Film p x m0 d0 film) {pf N : Nat} (hpf : 2 ≤ pf)
    (hN : N * pf = p.vres * p.hres) : SteadyFrom pf N (m0 + d0) (sent false x) := by
  refine ⟨fun t n ht h1 h2 h3 => ?_⟩
  obtain ⟨m, rfl⟩ : ∃ m, t = m + d0 := ⟨t - d0, by omega⟩
  have hm0 : m0 ≤ m := by omega
  obtain ⟨F, hF⟩ := (raster_start hp hx m hm0).1 h1
  have hn := raster_next hp hx m n F hm0 hF h2 h3
  rw [raster_active hp hx m n F hm0 hF (by omega),
    (window_count hp F m n hF (by omega)).2.2 hn]
  constructor
  · rw [groups_range (by omega) hN]
  · rw [List.length_map, List.length_range, ← hN, Nat.mul_mod_left]
    omega

/-- The receiver can lock onto raster video. -/
theorem raster_training (hp : RealMode p) (hx : Film p x m0 d0 film) (F : Nat)
    (hF : m0 + lineLen p ≤ F * frameLen p) :
    Training x (F * frameLen p - lineLen p + d0) (F * frameLen p + d0)
      (F * frameLen p + p.hres + d0) := by
  have hfl := fl_eq p
  have hll : lineLen p = p.hscan + 1 := rfl
  have hlong := hp.long; have hpo := hp.hporch; have hs := hp.hs; have he := hp.he
  have hvr := hp.vres; have hwide := hp.wide; have hln := hp.lines
  -- the line before
  have hlast : ∀ c, c ≤ p.hscan → isActive p (F * frameLen p - lineLen p + c) = false := by
    intro c hc
    have e : F * frameLen p - lineLen p = (F - 1) * frameLen p + p.vscan * lineLen p := by
      have hF0 : F ≠ 0 := by rintro rfl; omega
      have : F * frameLen p = (F - 1) * frameLen p + frameLen p := by
        rw [← Nat.succ_mul]; congr 1; omega
      omega
    obtain ⟨b1, -, -⟩ := frame_coord p (F - 1) p.vscan c (Nat.le_refl _) hc
    rw [e]
    simp only [isActive, b1, Bool.and_eq_false_iff, decide_eq_false_iff_not]
    omega
  have hfirst : ∀ c, c ≤ p.hscan → isActive p (F * frameLen p + c) = decide (c < p.hres) := by
    intro c hc
    obtain ⟨b1, b2, -⟩ := frame_coord p F 0 c (Nat.zero_le _) hc
    rw [Nat.zero_mul, Nat.add_zero] at b1 b2
    simp only [isActive, b1, b2, show 0 < p.vres by omega, decide_true, Bool.and_true]
  refine ⟨fun n h1 h2 => ?_, fun n h1 h2 => ?_, by omega, ?_, fun n h1 h2 => ?_, ?_, by omega⟩
  · rw [show n = (F * frameLen p - lineLen p + (n - (F * frameLen p - lineLen p + d0))) + d0 by omega,
      hx.de _ (by omega)]
    exact hlast _ (by omega)
  · obtain ⟨m, rfl⟩ : ∃ m, n = m + d0 := ⟨n - d0, by omega⟩
    rw [show m + d0 + 1 = m + 1 + d0 by omega, hx.de _ (by omega)] at h2
    rw [show m + d0 + 2 = m + 2 + d0 by omega, hx.de _ (by omega), hx.de _ (by omega)]
    rcases Bool.eq_false_or_eq_true (isActive p m) with hact | hact
    · right
      simp only [isActive, Bool.and_eq_true, Bool.and_eq_false_iff, decide_eq_true_eq,
        decide_eq_false_iff_not] at hact h2 ⊢
      obtain ⟨n1, -, -⟩ := next_pixel p m
      obtain ⟨k1, -, -⟩ := next_pixel p (m + 1)
      have a := n1 (by omega)
      have b : col p (m + 2) = _ ∧ _ := k1 (by omega)
      omega
    · exact .inl hact
  · rw [show F * frameLen p + d0 - 1 = (F * frameLen p - lineLen p + p.hscan) + d0 by omega,
      hx.de _ (by omega)]
    exact hlast _ (Nat.le_refl _)
  · rw [show n = (F * frameLen p + (n - (F * frameLen p + d0))) + d0 by omega, hx.de _ (by omega),
      hfirst _ (by omega)]
    exact decide_eq_true (by omega)
  · rw [hx.de _ (by omega), hfirst _ (by omega)]
    exact decide_eq_false (by omega)

theorem raster_standard (hp : RealMode p) (hx : Film p x m0 d0 film) (F : Nat)
    (hF : m0 ≤ F * frameLen p) :
    StandardSyncs x false false (F * frameLen p + p.hres - 1 + d0) := by
  have hfl := fl_eq p
  have hll : lineLen p = p.hscan + 1 := rfl
  have hlong := hp.long; have hpo := hp.hporch; have hs := hp.hs; have he := hp.he
  have hvr := hp.vres; have hwide := hp.wide; have hln := hp.lines; have hvp := hp.vporch
  have hvs := hp.vs; have hve := hp.ve
  have hfirst : ∀ c, c ≤ p.hscan → isActive p (F * frameLen p + c) = decide (c < p.hres) := by
    intro c hc
    obtain ⟨b1, b2, -⟩ := frame_coord p F 0 c (Nat.zero_le _) hc
    rw [Nat.zero_mul, Nat.add_zero] at b1 b2
    simp only [isActive, b1, b2, show 0 < p.vres by omega, decide_true, Bool.and_true]
  refine ⟨⟨?_, ?_⟩, fun n hn h => ?_, fun n hn h => ?_⟩
  · rw [show F * frameLen p + p.hres - 1 + d0 = F * frameLen p + (p.hres - 1) + d0 by omega,
      hx.de _ (by omega), hfirst _ (by omega)]
    exact decide_eq_true (by omega)
  · rw [show F * frameLen p + p.hres - 1 + d0 + 1 = F * frameLen p + p.hres + d0 by omega,
      hx.de _ (by omega), hfirst _ (by omega)]
    exact decide_eq_false (by omega)
  · obtain ⟨m, rfl⟩ : ∃ m, n = m + d0 := ⟨n - d0, by omega⟩
    obtain ⟨h1, h2⟩ := h
    rw [hx.de _ (by omega)] at h1
    rw [show m + d0 + 1 = m + 1 + d0 by omega] at h2 ⊢
    rw [hx.de _ (by omega)] at h2
    rw [hx.hsync _ (by omega), hx.vsync _ (by omega)]
    simp only [isActive, isHsync, isVsync, Bool.and_eq_true, Bool.and_eq_false_iff,
      decide_eq_true_eq, decide_eq_false_iff_not] at h1 h2 ⊢
    have := (next_pixel p m).1 (by omega)
    omega
  · obtain ⟨m, rfl⟩ : ∃ m, n = m + d0 := ⟨n - d0, by omega⟩
    rw [show m + d0 + 1 = m + 1 + d0 by omega] at h ⊢
    rw [hx.de _ (by omega)] at h
    rw [hx.hsync _ (by omega), hx.vsync _ (by omega), hx.hsync _ (by omega), hx.vsync _ (by omega)]
    obtain ⟨n1, n2, n3⟩ := next_pixel p m
    have hc := col_lt p m
    have hl := line_lt p m
    have e : ∀ a b : Bool, a = false → b = false → a = b := fun a b h1 h2 => h1.trans h2.symm
    simp only [isActive, Bool.and_eq_true, decide_eq_true_eq] at h
    constructor <;> apply e <;>
      simp only [isHsync, isVsync, Bool.and_eq_false_iff, decide_eq_false_iff_not] <;>
      by_cases hcs : col p m = p.hscan <;> by_cases hls : line p m = p.vscan <;>
      simp only [hcs, hls, true_implies, not_true_eq_false, false_implies, ne_eq, not_false_eq_true,
        implies_true] at n1 n2 n3 <;> omega

/-- The offset in the line is the column. -/
theorem raster_offset (hp : RealMode p) (hx : Film p x m0 d0 film) (c : Nat) :
    ∀ m, col p m = c → isActive p m = true → m0 + c < m →
      lineOffset (sent false x) (m + d0) = c := by
  have hr := hp.hres
  induction c with
  | zero =>
    intro m hc hact hm
    obtain ⟨m, rfl⟩ : ∃ j, m = j + 1 := ⟨m - 1, by omega⟩
    rw [show m + 1 + d0 = (m + d0) + 1 by omega, lineOffset]
    have hd : (sent false x (m + d0)).de = false := by
      show (x (m + d0)).de = false
      rw [hx.de _ (by omega)]
      obtain ⟨n1, -, -⟩ := next_pixel p m
      have hcs : col p m = p.hscan := by
        rcases Nat.lt_or_ge 0 1 with h | h
        · by_cases hcs : col p m = p.hscan
          · exact hcs
          · have := (n1 hcs).1; omega
        · omega
      simp only [isActive, Bool.and_eq_false_iff, decide_eq_false_iff_not]
      omega
    rw [hd]; rfl
  | succ c ih =>
    intro m hc hact hm
    obtain ⟨m, rfl⟩ : ∃ j, m = j + 1 := ⟨m - 1, by omega⟩
    obtain ⟨n1, n2, n3⟩ := next_pixel p m
    have hcs : col p m ≠ p.hscan := by
      intro h
      by_cases hl : line p m = p.vscan
      · have := (n3 h hl).1; omega
      · have := (n2 h hl).1; omega
    have a := n1 hcs
    have hact' : isActive p m = true := by
      simp only [isActive, Bool.and_eq_true, decide_eq_true_eq] at hact ⊢
      omega
    rw [show m + 1 + d0 = (m + d0) + 1 by omega, lineOffset]
    have hd : (sent false x (m + d0)).de = true := by
      show (x (m + d0)).de = true
      rw [hx.de _ (by omega), hact']
    rw [hd, if_pos rfl, ih m (by omega) hact' (by omega)]

theorem raster_ycc (hx : Film p x m0 d0 film) (m : Nat) (hm : m0 ≤ m)
    (hact : isActive p m = true) :
    Spec.Frame.ycc (sent false x) (m + d0) = Spec.Loop.ycc (film (frame p m) (line p m * p.hres + col p m)) := by
  rw [← hx.rgb m hm hact]; rfl

theorem raster_pixel422 (hp : RealMode p) (hx : Film p x m0 d0 film) (hev : p.hres % 2 = 0) (m : Nat)
    (hm : m0 + p.hres ≤ m) (hact : isActive p m = true) :
    pixel422 (sent false x) (m + d0) = pic422 (film (frame p m)) (line p m * p.hres + col p m) := by
  have hact0 := hact
  have hr := hp.hres
  simp only [isActive, Bool.and_eq_true, decide_eq_true_eq] at hact0
  have hpar : (line p m * p.hres + col p m) % 2 = col p m % 2 := by
    rw [Nat.add_mod, Nat.mul_mod, hev, Nat.mul_zero, Nat.zero_mod, Nat.zero_add, Nat.mod_mod]
  unfold pixel422 pic422
  rw [raster_offset hp hx _ m rfl hact (by omega), hpar, raster_ycc hx m (by omega) hact]
  by_cases hc : col p m % 2 = 0
  · rw [if_pos hc, if_pos hc]
    have a := (next_pixel p m).1 (by omega)
    have h1 : isActive p (m + 1) = true := by
      simp only [isActive, Bool.and_eq_true, decide_eq_true_eq]; omega
    rw [show m + d0 + 1 = m + 1 + d0 by omega, raster_ycc hx (m + 1) (by omega) h1, a.1, a.2.1, a.2.2,
      ← Nat.add_assoc]
  · rw [if_neg hc, if_neg hc]
    obtain ⟨k, rfl⟩ : ∃ j, m = j + 1 := ⟨m - 1, by omega⟩
    obtain ⟨n1, n2, n3⟩ := next_pixel p k
    have hcs : col p k ≠ p.hscan := by
      intro h
      by_cases hl : line p k = p.vscan
      · have := (n3 h hl).1; omega
      · have := (n2 h hl).1; omega
    have a := n1 hcs
    have h1 : isActive p k = true := by
      simp only [isActive, Bool.and_eq_true, decide_eq_true_eq]; omega
    rw [show k + 1 + d0 - 1 = k + d0 by omega, raster_ycc hx k (by omega) h1, a.1, a.2.1, a.2.2,
      ← Nat.add_assoc, Nat.add_sub_cancel]

theorem raster_active422 (hp : RealMode p) (hx : Film p x m0 d0 film) (hev : p.hres % 2 = 0)
    (m n F : Nat) (hm0 : m0 + p.hres ≤ m)
    (hm : m + 1 = F * frameLen p + p.vsync_start * lineLen p) (hn : n ≤ frameLen p - 1) :
    activePixels422 (sent false x) (m + d0 + 2) n =
      (List.range (countIn (isActive p) (m + 2) n)).map (pic422 (film (F + 1))) := by
  rw [← window_pixels hp F m n hm hn (fun u => pixel422 (sent false x) (u + d0))
    (pic422 (film (F + 1))) (fun u hu hact hF => by
      rw [← hF]; exact raster_pixel422 hp hx hev u (by omega) hact)]
  unfold activePixels422
  refine Frame.pickIn_shift _ _ _ _ _ _ n (fun j _ => ?_) (fun j _ _ => ?_)
  · show (true && (x (m + d0 + 2 + j)).de) = _
    rw [Bool.true_and, show m + d0 + 2 + j = m + 2 + j + d0 by omega, hx.de _ (by omega)]
  · rw [show m + d0 + 2 + j = m + 2 + j + d0 by omega]

theorem raster_even (hp : RealMode p) (hx : Film p x m0 d0 film) (hev : p.hres % 2 = 0) (c : Nat)
    (hc : m0 + p.hres ≤ c) : EvenLines (c + d0) (sent false x) := by
  intro u hu h1 h2
  have hr := hp.hres
  obtain ⟨m, rfl⟩ : ∃ m, u = m + d0 := ⟨u - d0, by omega⟩
  have h1 : (x (m + d0)).de = true := h1
  rw [hx.de _ (by omega)] at h1
  have h3 := h1
  simp only [isActive, Bool.and_eq_true, decide_eq_true_eq] at h3
  rw [raster_offset hp hx _ m rfl h1 (by omega)] at h2
  have a := (next_pixel p m).1 (by omega)
  show (x (m + d0 + 1)).de = true
  rw [show m + d0 + 1 = m + 1 + d0 by omega, hx.de _ (by omega)]
  simp only [isActive, Bool.and_eq_true, decide_eq_true_eq]
  omega

theorem raster_steady422 (hp : RealMode p) (hx : Film p x m0 d0 film) (hev : p.hres % 2 = 0)
    (hbl : p.hres + 10 ≤ p.hscan) {pf N : Nat} (hpf : 2 ≤ pf) (hN : N * pf = p.vres * p.hres)
    (c : Nat) (hc : m0 + p.hres + 11 ≤ c) : SteadyFrom422 pf N (c + d0) (sent false x) := by
  have hll : lineLen p = p.hscan + 1 := rfl
  refine ⟨fun u hu h1 h2 i hi => ?_, fun t ht h1 => ⟨h1, fun u hu hu2 => ?_⟩, fun t n ht h1 h2 h3 => ?_⟩
  · obtain ⟨m, rfl⟩ : ∃ m, u = m + d0 := ⟨u - d0, by omega⟩
    have h1 : (x (m + d0)).de = true := h1
    have h2 : (x (m + d0 + 1)).de = false := h2
    rw [hx.de _ (by omega)] at h1
    rw [show m + d0 + 1 = m + 1 + d0 by omega, hx.de _ (by omega)] at h2
    show (x (m + d0 + 1 + i)).de = false
    rw [show m + d0 + 1 + i = m + 1 + i + d0 by omega, hx.de _ (by omega)]
    simp only [isActive, Bool.and_eq_true, Bool.and_eq_false_iff, decide_eq_true_eq,
      decide_eq_false_iff_not] at h1 h2 ⊢
    have a := (next_pixel p m).1 (by omega)
    have hd := pixel_decomp p m
    obtain ⟨-, b2, -⟩ := frame_coord p (frame p m) (line p m) (col p m + 1 + i)
      (by have := line_lt p m; omega) (by omega)
    rw [show frame p m * frameLen p + line p m * lineLen p + (col p m + 1 + i) = m + 1 + i by omega]
      at b2
    omega
  · obtain ⟨m, rfl⟩ : ∃ m, t = m + d0 := ⟨t - d0, by omega⟩
    obtain ⟨F, hF⟩ := (raster_start hp hx m (by omega)).1 h1
    obtain ⟨w, rfl⟩ : ∃ w, u = w + d0 := ⟨u - d0, by omega⟩
    show (true && (x (w + d0)).de) = false
    rw [Bool.true_and, hx.de _ (by omega)]
    have hv := hp.vporch; have hve := hp.ve; have hvs := hp.vs; have hln := hp.lines
    simp only [isActive, Bool.and_eq_false_iff, decide_eq_false_iff_not]
    by_cases hw : w = m + 1
    · obtain ⟨b1, -, -⟩ := frame_coord p F p.vsync_start 0 (by omega) (by omega)
      rw [Nat.add_zero, ← hF, ← hw] at b1
      omega
    · have e : p.vsync_start * lineLen p = (p.vsync_start - 1) * lineLen p + lineLen p := by
        rw [← Nat.succ_mul]; congr 1; omega
      obtain ⟨-, b2, -⟩ := frame_coord p F (p.vsync_start - 1) (p.hscan - (m - w)) (by omega)
        (by omega)
      rw [show F * frameLen p + (p.vsync_start - 1) * lineLen p + (p.hscan - (m - w)) = w by omega]
        at b2
      omega
  · obtain ⟨m, rfl⟩ : ∃ m, t = m + d0 := ⟨t - d0, by omega⟩
    obtain ⟨F, hF⟩ := (raster_start hp hx m (by omega)).1 h1
    have hn := raster_next hp hx m n F (by omega) hF h2 h3
    rw [raster_active422 hp hx hev m n F (by omega) hF (by omega),
      (window_count hp F m n hF (by omega)).2.2 hn]
    constructor
    · rw [groups_range (by omega) hN]
    · rw [List.length_map, List.length_range, ← hN, Nat.mul_mod_left]
      omega

end

end Verif.Loop
