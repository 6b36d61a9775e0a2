import Verif.Proofs.Pattern

/-!
# C45, C46 and C58: test patterns
-/

namespace Verif.Props

open Verif.Pattern Spec.Pattern Spec.Stream

/-- Constant parameters and a consumer with the ready schedule `r`. -/
def patternIn (hres : Nat) (r : Nat → Bool) (t : Nat) : Pattern.In := ⟨true, hres, r t⟩

/-- **C45** With a consumer that is always ready the colour bar generator delivers pixel `n` of
the documented bars at clock `n+1`, for every `hres ≥ 8`. -/
theorem C45_bars (hres : Nat) (h8 : 8 ≤ hres) (hb : hres < 2 ^ 12) (n : Nat) :
    let s := trace ColorBars.step ColorBars.reset (patternIn hres fun _ => true) (n + 1)
    s.valid = true ∧ s.px = barPixel hres n := by
  intro s
  refine ⟨(valid_all _ (fun _ => rfl) n).1, ?_⟩
  obtain ⟨-, h⟩ := ColorBars.inv hres h8 hb (patternIn hres fun _ => true) (fun _ => ⟨rfl, rfl⟩) n
  show ColorBars.color (trace ColorBars.step ColorBars.reset _ n).bar = _
  rw [h, count_ready _ (fun _ => rfl), ColorBars.color_eq _ (by omega)]
  rfl

/-- **C45** If `hres` is a multiple of 8 every line shows the same eight equal bars. -/
theorem C45_lines (k y x : Nat) (hk : 0 < k) (hb : 8 * k < 2 ^ 12) (hx : x < 8 * k) :
    (trace ColorBars.step ColorBars.reset (patternIn (8 * k) fun _ => true) (y * (8 * k) + x + 1)).px
      = bars.getD (x / k) black := by
  rw [(C45_bars (8 * k) (by omega) hb _).2, barPixel]
  have e : 8 * k / 8 = k := by omega
  have e2 : (y * (8 * k) + x) / k = y * 8 + x / k := by
    rw [← Nat.mul_assoc, Nat.add_comm, Nat.add_mul_div_right _ _ hk, Nat.add_comm]
  have e3 : x / k < 8 := Nat.div_lt_of_lt_mul (by rw [Nat.mul_comm]; exact hx)
  rw [e, e2]
  rw [Nat.mul_comm y 8, Nat.mul_add_mod, Nat.mod_eq_of_lt e3]

/-- The condition "multiple of 8" is needed: at `hres = 12` (bars one pixel wide) the first pixel
of the second line is magenta, not white. -/
theorem C45_drift :
    (trace ColorBars.step ColorBars.reset (patternIn 12 fun _ => true) (12 + 1)).px
      = ⟨255, 0, 255⟩ := by decide +kernel

example : barPixel 640 79 = ⟨255, 255, 255⟩ ∧ barPixel 640 80 = ⟨255, 255, 0⟩ ∧
    barPixel 640 639 = ⟨0, 0, 0⟩ ∧ barPixel 640 640 = ⟨255, 255, 255⟩ := by decide

/-- **C46** With a consumer that is always ready the vertical line generator alternates black and
white pixels. -/
theorem C46_lines (hres n : Nat) :
    let s := trace VerticalLines.step VerticalLines.reset (patternIn hres fun _ => true) (n + 1)
    s.valid = true ∧ s.px = linePixel n := by
  intro s
  refine ⟨(valid_all _ (fun _ => rfl) n).2.1, ?_⟩
  have h := VerticalLines.inv (patternIn hres fun _ => true) (fun _ => rfl) n
  show bw (trace VerticalLines.step VerticalLines.reset _ n).parity = _
  rw [h, count_ready _ (fun _ => rfl), bw_eq]
  rfl

/-- **C46** With a consumer that is always ready the dot generator delivers, for every even
`hres`, a checkerboard. -/
theorem C46_dots (hres : Nat) (h1 : 1 ≤ hres) (he : hres % 2 = 0) (hb : hres < 2 ^ 12) (n : Nat) :
    let s := trace Dots.step Dots.reset (patternIn hres fun _ => true) (n + 1)
    s.valid = true ∧ s.px = dotPixel hres n := by
  intro s
  refine ⟨(valid_all _ (fun _ => rfl) n).2.2, ?_⟩
  obtain ⟨-, h⟩ := Dots.inv hres h1 hb (patternIn hres fun _ => true) (fun _ => ⟨rfl, rfl⟩) n
  show bw (trace Dots.step Dots.reset _ n).parity = _
  rw [h, count_ready _ (fun _ => rfl), bw_eq, dotPixel]
  have e : n / hres * (hres - 1) % 2 = n / hres % 2 := by
    rw [Nat.mul_mod]
    have : (hres - 1) % 2 = 1 := by omega
    rw [this]; omega
  have e2 : (n % hres + n / hres * (hres - 1)) % 2 = (n % hres + n / hres) % 2 := by
    generalize n / hres * (hres - 1) = m at *
    omega
  rw [e2]

/-- **C46** For odd `hres` the dot generator delivers vertical lines instead: the colour depends
on the column only. -/
theorem C46_dots_odd (hres : Nat) (he : hres % 2 = 1) (hb : hres < 2 ^ 12) (n : Nat) :
    (trace Dots.step Dots.reset (patternIn hres fun _ => true) (n + 1)).px =
      linePixel (n % hres) := by
  obtain ⟨-, h⟩ := Dots.inv hres (by omega) hb (patternIn hres fun _ => true) (fun _ => ⟨rfl, rfl⟩) n
  show bw (trace Dots.step Dots.reset _ n).parity = _
  rw [h, count_ready _ (fun _ => rfl), bw_eq, linePixel]
  have e : n / hres * (hres - 1) % 2 = 0 := by
    rw [Nat.mul_mod]
    have : (hres - 1) % 2 = 0 := by omega
    rw [this]; omega
  have e2 : (n % hres + n / hres * (hres - 1)) % 2 = n % hres % 2 := by
    generalize n / hres * (hres - 1) = m at *
    omega
  rw [e2]

example : dotPixel 640 0 = black ∧ dotPixel 640 1 = white ∧ dotPixel 640 640 = white ∧
    linePixel 3 = white := by decide

/-- Pixels the consumer has taken before clock `t+1` (the source is valid from clock 1 on). -/
def taken (r : Nat → Bool) (t : Nat) : Nat := countIn r 1 t

/-- C58: under every ready schedule the pixel offered is the one after those taken so far, for all three
generators. -/
def C58_statement : Prop :=
  ∀ hres, 8 ≤ hres → hres < 2 ^ 12 → ∀ (r : Nat → Bool) (t : Nat),
    (trace ColorBars.step ColorBars.reset (patternIn hres r) (t + 1)).px =
      barPixel hres (taken r t) ∧
    (trace VerticalLines.step VerticalLines.reset (patternIn hres r) (t + 1)).px =
      linePixel (taken r t) ∧
    (hres % 2 = 0 → (trace Dots.step Dots.reset (patternIn hres r) (t + 1)).px =
      dotPixel hres (taken r t))

/-- **C58**, violated.  A stream source must hold its pixel until the consumer takes it and then
offer the next one.  With `hres = 8` and a consumer that stalls for the clocks before clock 2, the
generator offers bar 0, then the consumer takes bar 0 and then bar 0 again; and with a consumer
that stalls at clock 2 only, the pixel offered changes under the stall from bar 1 to bar 2. -/
theorem C58_violated : ¬ C58_statement ∧
    (let s := trace ColorBars.step ColorBars.reset (patternIn 8 fun t => decide (2 ≤ t))
     (s 2).px = barPixel 8 0 ∧ (s 3).px = barPixel 8 0 ∧ barPixel 8 0 ≠ barPixel 8 1) ∧
    (let s := trace ColorBars.step ColorBars.reset (patternIn 8 fun t => decide (t ≠ 2))
     (s 2).px = barPixel 8 1 ∧ (s 3).px = barPixel 8 2 ∧ barPixel 8 1 ≠ barPixel 8 2) := by
  refine ⟨fun h => ?_, by decide +kernel⟩
  have := (h 8 (by decide) (by decide) (fun t => decide (t ≠ 2)) 2).1
  exact absurd this (by decide +kernel)

theorem taken_eq (r : Nat → Bool) (t : Nat) :
    taken r t + (if r 0 then 1 else 0) = countIn r 0 t + (if r t then 1 else 0) := by
  induction t with
  | zero => simp [taken, countIn]
  | succ t ih =>
    unfold taken at *
    simp only [countIn, Nat.zero_add, Nat.add_comm 1 t]
    omega

/-- **C58**, the part that holds.  Under every ready schedule the pixel offered at clock `t+1` is
pixel `m`, where `m` differs from the number `k` of pixels taken so far by at most one:
`m + [ready at t] = k + [ready at 0]`.  So a consumer ready at clock 0 gets every pixel right
except in the clocks that follow a stalled clock.  The full property would have `m = k`. -/
theorem C58_offered_partial (hres : Nat) (h8 : 8 ≤ hres) (hb : hres < 2 ^ 12) (r : Nat → Bool)
    (t : Nat) :
    ∃ m, m + (if r t then 1 else 0) = taken r t + (if r 0 then 1 else 0) ∧
      (trace ColorBars.step ColorBars.reset (patternIn hres r) (t + 1)).px = barPixel hres m ∧
      (trace VerticalLines.step VerticalLines.reset (patternIn hres r) (t + 1)).px =
        linePixel m ∧
      (hres % 2 = 0 →
        (trace Dots.step Dots.reset (patternIn hres r) (t + 1)).px = dotPixel hres m) := by
  refine ⟨countIn r 0 t, (taken_eq r t).symm, ?_, ?_, ?_⟩
  · obtain ⟨-, h⟩ := ColorBars.inv hres h8 hb (patternIn hres r) (fun _ => ⟨rfl, rfl⟩) t
    show ColorBars.color (trace ColorBars.step ColorBars.reset _ t).bar = _
    rw [h, ColorBars.color_eq _ (by omega)]
    rfl
  · have h := VerticalLines.inv (patternIn hres r) (fun _ => rfl) t
    show bw (trace VerticalLines.step VerticalLines.reset _ t).parity = _
    rw [h, bw_eq]
    rfl
  · intro he
    obtain ⟨-, h⟩ := Dots.inv hres (by omega) hb (patternIn hres r) (fun _ => ⟨rfl, rfl⟩) t
    show bw (trace Dots.step Dots.reset _ t).parity = _
    rw [h, bw_eq, dotPixel]
    show (if (countIn r 0 t % hres + countIn r 0 t / hres * (hres - 1)) % 2 = 1 then _ else _) = _
    generalize countIn r 0 t = n
    have e : n / hres * (hres - 1) % 2 = n / hres % 2 := by
      rw [Nat.mul_mod]
      have : (hres - 1) % 2 = 1 := by omega
      rw [this]; omega
    have e2 : (n % hres + n / hres * (hres - 1)) % 2 = (n % hres + n / hres) % 2 := by
      generalize n / hres * (hres - 1) = m at *
      omega
    rw [e2]

end Verif.Props
