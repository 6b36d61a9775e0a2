import Verif.Spec.Output

/-!
# Lemmas about the output core
-/

namespace Verif.Output

open Spec.Output Spec.Stream

theorem divmod_succ (n H : Nat) (hH : 0 < H) :
    (n % H + 1 < H → (n + 1) % H = n % H + 1 ∧ (n + 1) / H = n / H) ∧
    (n % H + 1 = H → (n + 1) % H = 0 ∧ (n + 1) / H = n / H + 1) := by
  have h1 := Nat.div_add_mod n H
  have h2 := Nat.mod_lt n hH
  constructor
  · intro h
    have := (Nat.div_mod_unique (a := n + 1) (b := H) (c := n % H + 1) (d := n / H) hH).2
      ⟨by omega, h⟩
    exact ⟨this.2, this.1⟩
  · intro h
    have := (Nat.div_mod_unique (a := n + 1) (b := H) (c := 0) (d := n / H + 1) hH).2
      ⟨by rw [Nat.mul_add]; omega, hH⟩
    exact ⟨this.2, this.1⟩

theorem col_lt (p : Params) (n : Nat) : col p n ≤ p.hscan := by
  have := Nat.mod_lt n (show 0 < lineLen p by unfold lineLen; omega)
  unfold col lineLen at *; omega

theorem line_lt (p : Params) (n : Nat) : line p n ≤ p.vscan := by
  have := Nat.mod_lt (n / lineLen p) (show 0 < p.vscan + 1 by omega)
  unfold line; omega

/-- Advancing one pixel. -/
theorem next_pixel (p : Params) (n : Nat) :
    (col p n ≠ p.hscan →
      col p (n + 1) = col p n + 1 ∧ line p (n + 1) = line p n ∧ frame p (n + 1) = frame p n) ∧
    (col p n = p.hscan → line p n ≠ p.vscan →
      col p (n + 1) = 0 ∧ line p (n + 1) = line p n + 1 ∧ frame p (n + 1) = frame p n) ∧
    (col p n = p.hscan → line p n = p.vscan →
      col p (n + 1) = 0 ∧ line p (n + 1) = 0 ∧ frame p (n + 1) = frame p n + 1) := by
  have hc := col_lt p n
  have hl := line_lt p n
  have h1 := divmod_succ n (lineLen p) (by unfold lineLen; omega)
  have h2 := divmod_succ (n / lineLen p) (p.vscan + 1) (by omega)
  unfold col line frame at *
  refine ⟨fun h => ?_, fun h h' => ?_, fun h h' => ?_⟩
  · have := h1.1 (by unfold lineLen at *; omega)
    rw [this.1, this.2]
    exact ⟨rfl, rfl, rfl⟩
  · have a := h1.2 (by unfold lineLen at *; omega)
    rw [a.1, a.2]
    exact ⟨rfl, h2.1 (by omega)⟩
  · have a := h1.2 (by unfold lineLen at *; omega)
    rw [a.1, a.2]
    exact ⟨rfl, h2.2 (by omega)⟩

theorem pixel_zero (p : Params) : col p 0 = 0 ∧ line p 0 = 0 ∧ frame p 0 = 0 := by
  simp [col, line, frame]

namespace Timing

/-- Register contents when pixel `n` is on the output, parameters `p` in use. -/
structure At (p : Params) (n : Nat) (s : State) : Prop where
  hactive : s.hactive = decide (col p n < p.hres)
  vactive : s.vactive = decide (line p n < p.vres)
  hcounter : s.hcounter = col p (n + 1)
  vcounter : s.vcounter = line p (n + 1)
  last : s.last = isLast p n

/-- The sync outputs. -/
structure SyncAt (p : Params) (n : Nat) (s : State) : Prop where
  hsync : s.hsync = isHsync p n
  vsync : s.vsync = isVsync p n

/-- Advancing from pixel `n` to `n+1`. -/
theorem At.next {p : Params} (hp : ValidMode p) {n : Nat} {s : State} (h : At p n s) :
    At p (n + 1) (advance s p) := by
  obtain ⟨h1, h2, h3, h4, h5⟩ := h
  have hc := col_lt p (n + 1)
  have hl := line_lt p (n + 1)
  have hc0 := col_lt p n
  have hl0 := line_lt p n
  obtain ⟨a, b, c⟩ := next_pixel p n
  obtain ⟨a', b', c'⟩ := next_pixel p (n + 1)
  obtain ⟨hr, vr, hs, he, vs, ve, hb, vb⟩ := hp
  constructor
  · simp only [advance, h3, h1]
    split
    · simp; omega
    · split
      · simp; omega
      · simp only [decide_eq_decide]; omega
  · simp only [advance, h4, h2]
    split
    · simp; omega
    · split
      · simp; omega
      · simp only [decide_eq_decide]; omega
  · simp only [advance, h3]
    split <;> omega
  · simp only [advance, h3, h4]
    split
    · split <;> omega
    · omega
  · simp only [advance, h3, h4, isLast]

theorem SyncAt.next {p : Params} (hp : ValidMode p) {n : Nat} {s : State} (h : At p n s)
    (hy : SyncAt p n s) : SyncAt p (n + 1) (advance s p) := by
  obtain ⟨h1, h2, h3, h4, h5⟩ := h
  obtain ⟨h6, h7⟩ := hy
  have hc := col_lt p (n + 1)
  have hl := line_lt p (n + 1)
  have hc0 := col_lt p n
  have hl0 := line_lt p n
  obtain ⟨a, b, c⟩ := next_pixel p n
  obtain ⟨hr, vr, hs, he, vs, ve, hb, vb⟩ := hp
  constructor
  · simp only [advance, h3, h6, isHsync]
    split
    · simp; omega
    · split
      · simp; omega
      · rw [← Bool.decide_and, ← Bool.decide_and, decide_eq_decide]; omega
  · simp only [advance, h4, h7, isVsync]
    split
    · simp; omega
    · split
      · simp; omega
      · rw [← Bool.decide_and, ← Bool.decide_and, decide_eq_decide]; omega

/-- The first advance, from cleared counters: pixel 0 appears. -/
theorem At.first {p : Params} (hp : ValidMode p) {s : State} (h : s.hcounter = 0)
    (hv : s.vcounter = 0) : At p 0 (advance s p) := by
  obtain ⟨hr, vr, hs, he, vs, ve, hb', vb'⟩ := hp
  obtain ⟨z1, z2, -⟩ := pixel_zero p
  obtain ⟨a, b, c⟩ := next_pixel p 0
  constructor
  · simp only [advance, h, z1]
    split
    · simp; omega
    · simp; omega
  · simp only [advance, hv, z2]
    split
    · simp; omega
    · simp; omega
  · simp only [advance, h]
    split <;> omega
  · simp only [advance, h, hv]
    split
    · split <;> omega
    · omega
  · simp only [advance, h, hv, isLast, z1, z2]

theorem SyncAt.first {p : Params} (hp : ValidMode p) {s : State} (h : s.hcounter = 0)
    (hv : s.vcounter = 0) (ha : s.hsync = false) (hb : s.vsync = false) :
    SyncAt p 0 (advance s p) := by
  obtain ⟨hr, vr, hs, he, vs, ve, hb', vb'⟩ := hp
  obtain ⟨z1, z2, -⟩ := pixel_zero p
  constructor
  · simp only [advance, h, isHsync, z1, ha]
    split
    · omega
    · split
      · simp; omega
      · simp; omega
  · simp only [advance, hv, isVsync, z2, hb]
    split
    · omega
    · split
      · simp; omega
      · simp; omega

/-- The sync outputs once their first event has passed; before it they may be stale after a
restart. -/
structure SyncLate (p : Params) (n : Nat) (s : State) : Prop where
  hsync : p.hsync_start ≤ n → s.hsync = isHsync p n
  vsync : p.vsync_start * lineLen p ≤ n → s.vsync = isVsync p n

theorem SyncLate.next {p : Params} (hp : ValidMode p) {n : Nat} {s : State} (h : At p n s)
    (hy : SyncLate p n s) : SyncLate p (n + 1) (advance s p) := by
  obtain ⟨h1, h2, h3, h4, h5⟩ := h
  obtain ⟨h6, h7⟩ := hy
  have hc := col_lt p (n + 1)
  have hl := line_lt p (n + 1)
  have hc0 := col_lt p n
  have hl0 := line_lt p n
  obtain ⟨a, b, c⟩ := next_pixel p n
  obtain ⟨hr, vr, hs, he, vs, ve, hb, vb⟩ := hp
  constructor
  · intro hn
    simp only [advance, h3, isHsync]
    split
    · simp; omega
    · split
      · simp; omega
      · by_cases hq : p.hsync_start ≤ n
        · rw [h6 hq, isHsync]
          rw [← Bool.decide_and, ← Bool.decide_and, decide_eq_decide]; omega
        · exfalso
          have hcol : col p (n + 1) = n + 1 := by
            unfold col lineLen; exact Nat.mod_eq_of_lt (by omega)
          omega
  · intro hn
    simp only [advance, h4, isVsync]
    split
    · simp; omega
    · split
      · simp; omega
      · by_cases hq : p.vsync_start * lineLen p ≤ n
        · rw [h7 hq, isVsync]
          rw [← Bool.decide_and, ← Bool.decide_and, decide_eq_decide]; omega
        · exfalso
          have e : n + 1 = p.vsync_start * lineLen p := by omega
          have : line p (n + 1) = p.vsync_start := by
            unfold line
            rw [e, Nat.mul_div_cancel _ (by unfold lineLen; omega)]
            exact Nat.mod_eq_of_lt (by omega)
          omega

theorem SyncLate.first {p : Params} (hp : ValidMode p) {s : State} (h : s.hcounter = 0)
    (hv : s.vcounter = 0) : SyncLate p 0 (advance s p) := by
  obtain ⟨hr, vr, hs, he, vs, ve, hb', vb'⟩ := hp
  obtain ⟨z1, z2, -⟩ := pixel_zero p
  constructor
  · intro hn
    simp only [advance, h, isHsync, z1]
    split
    · omega
    · split
      · simp; omega
      · omega
  · intro hn
    have : p.vsync_start = 0 := by
      rcases Nat.eq_zero_of_le_zero hn |> Nat.mul_eq_zero.1 with h | h
      · exact h
      · unfold lineLen at h; omega
    simp only [advance, hv, isVsync, z2]
    split
    · omega
    · split
      · simp; omega
      · omega

/-- Hand-over to the next parameter set on the last pixel of a frame. -/
theorem handoff {p q : Params} (hp : ValidMode p) (hq : ValidMode q)
    (hp1 : 0 < p.hres) (hp2 : 0 < p.vres) (hp3 : 0 < p.hsync_start) (hp4 : 0 < p.vsync_start)
    (hq1 : 0 < q.hres) (hq2 : 0 < q.vres) (hq3 : 0 < q.hsync_start) (hq4 : 0 < q.vsync_start)
    {n : Nat} {s : State} (hl : isLast p n = true) (h : At p n s) (hy : SyncAt p n s) :
    At q 0 (advance s p) ∧ SyncAt q 0 (advance s p) := by
  obtain ⟨h1, h2, h3, h4, h5⟩ := h
  obtain ⟨h6, h7⟩ := hy
  obtain ⟨z1, z2, -⟩ := pixel_zero q
  obtain ⟨a, -, -⟩ := next_pixel q 0
  obtain ⟨-, -, c⟩ := next_pixel p n
  obtain ⟨hr, vr, hs, he, vs, ve, hb, vb⟩ := hp
  obtain ⟨hr', vr', hs', he', vs', ve', hb', vb'⟩ := hq
  unfold isLast at hl
  rw [Bool.and_eq_true, decide_eq_true_eq, decide_eq_true_eq] at hl
  obtain ⟨l1, l2⟩ := hl
  obtain ⟨c1, c2, -⟩ := c l1 l2
  have a := a (by omega)
  rw [c1] at h3
  rw [c2] at h4
  have h6' : s.hsync = false := by rw [h6, isHsync]; simp; omega
  have h7' : s.vsync = false := by rw [h7, isVsync]; simp; omega
  refine ⟨⟨?_, ?_, ?_, ?_, ?_⟩, ⟨?_, ?_⟩⟩
  · simp only [advance, h3, z1]
    rw [if_neg (by omega), if_pos trivial]; simp [hq1]
  · simp only [advance, h4, z2]
    rw [if_neg (by omega), if_pos trivial]; simp [hq2]
  · simp only [advance, h3]
    rw [if_neg (by omega)]; omega
  · simp only [advance, h3, h4]
    rw [if_neg (by omega)]; omega
  · simp only [advance, h3, h4, isLast, z1, z2]
    rw [← Bool.decide_and, ← Bool.decide_and, decide_eq_decide]; omega
  · simp only [advance, h3, isHsync, z1, h6']
    rw [if_neg (by omega), if_neg (by omega)]; simp; omega
  · simp only [advance, h4, isVsync, z2, h7']
    rw [if_neg (by omega), if_neg (by omega)]; simp; omega

end Timing

/-! ## Counting -/

theorem countIn_congr (p q : Nat → Bool) (a b n : Nat) (h : ∀ k, k < n → p (a + k) = q (b + k)) :
    countIn p a n = countIn q b n := by
  induction n with
  | zero => rfl
  | succ n ih =>
    simp only [countIn]
    rw [ih (fun k hk => h k (by omega)), h n (by omega)]

theorem countIn_add (p : Nat → Bool) (a m n : Nat) :
    countIn p a (m + n) = countIn p a m + countIn p (a + m) n := by
  induction n with
  | zero => rfl
  | succ n ih =>
    rw [show m + (n + 1) = (m + n) + 1 by omega]
    simp only [countIn]
    rw [ih, show a + m + n = a + (m + n) by omega]
    omega

/-- Closed form of the number of active pixels before pixel `n`. -/
theorem activeBefore_eq (p : Params) (hp : ValidMode p) (n : Nat) :
    activeBefore p n = frame p n * (p.vres * p.hres) + min (line p n) p.vres * p.hres +
      (if line p n < p.vres then min (col p n) p.hres else 0) := by
  obtain ⟨hr, vr, hs, he, vs, ve, hb', vb'⟩ := hp
  induction n with
  | zero =>
    obtain ⟨z1, z2, z3⟩ := pixel_zero p
    rw [z1, z2, z3]; simp [activeBefore, countIn]
  | succ n ih =>
    have e : activeBefore p (n + 1) = activeBefore p n + (if isActive p n then 1 else 0) := by
      simp [activeBefore, countIn]
    have hc0 := col_lt p n
    have hl0 := line_lt p n
    obtain ⟨a, b, c⟩ := next_pixel p n
    rw [e, ih]
    by_cases h1 : col p n = p.hscan
    · by_cases h2 : line p n = p.vscan
      · obtain ⟨e1, e2, e3⟩ := c h1 h2
        rw [e1, e2, e3]
        have hna : isActive p n = false := by simp [isActive]; omega
        rw [hna, if_neg (by omega), Nat.add_mul]
        simp only [Bool.false_eq_true, if_false, Nat.zero_min, Nat.zero_mul, ite_self]
        rw [show min (line p n) p.vres = p.vres by omega]
        omega
      · obtain ⟨e1, e2, e3⟩ := b h1 h2
        rw [e1, e2, e3]
        have hna : isActive p n = false := by simp [isActive]; omega
        rw [hna]
        simp only [Bool.false_eq_true, if_false, Nat.zero_min, ite_self]
        by_cases h3 : line p n < p.vres
        · rw [if_pos h3, show min (line p n) p.vres = line p n by omega,
            show min (line p n + 1) p.vres = line p n + 1 by omega,
            show min (col p n) p.hres = p.hres by omega, Nat.add_mul]
          omega
        · rw [if_neg h3, show min (line p n) p.vres = p.vres by omega,
            show min (line p n + 1) p.vres = p.vres by omega]
    · obtain ⟨e1, e2, e3⟩ := a h1
      rw [e1, e2, e3]
      by_cases h3 : line p n < p.vres
      · rw [if_pos h3, if_pos h3]
        by_cases h4 : col p n < p.hres
        · have hna : isActive p n = true := by simp [isActive]; omega
          rw [hna, if_pos rfl]; omega
        · have hna : isActive p n = false := by simp [isActive]; omega
          rw [hna]; simp only [Bool.false_eq_true, if_false]; omega
      · have hna : isActive p n = false := by simp [isActive]; omega
        rw [hna, if_neg h3, if_neg h3]; simp

theorem frame_start (p : Params) (f : Nat) :
    col p (f * frameLen p) = 0 ∧ line p (f * frameLen p) = 0 ∧ frame p (f * frameLen p) = f := by
  have e : f * frameLen p = (f * (p.vscan + 1)) * lineLen p := by
    unfold frameLen lineLen; rw [Nat.mul_assoc]
  have h : f * frameLen p / lineLen p = f * (p.vscan + 1) := by
    rw [e]; exact Nat.mul_div_cancel _ (by unfold lineLen; omega)
  unfold col line frame
  rw [h]
  exact ⟨by rw [e]; exact Nat.mul_mod_left _ _, Nat.mul_mod_left _ _,
    Nat.mul_div_cancel _ (by omega)⟩

/-- Pixel numbers in terms of frame, line and column. -/
theorem pixel_decomp (p : Params) (n : Nat) :
    n = frame p n * frameLen p + line p n * lineLen p + col p n := by
  have h1 := Nat.div_add_mod n (lineLen p)
  have h2 := Nat.div_add_mod (n / lineLen p) (p.vscan + 1)
  unfold frame line col frameLen
  have e : (n / lineLen p / (p.vscan + 1)) * ((p.vscan + 1) * (p.hscan + 1))
      + (n / lineLen p % (p.vscan + 1)) * lineLen p = lineLen p * (n / lineLen p) := by
    rw [← Nat.mul_assoc, show p.hscan + 1 = lineLen p from rfl, ← Nat.add_mul,
      Nat.mul_comm (lineLen p)]
    congr 1
    rw [Nat.mul_comm]; exact h2
  omega

theorem isLast_iff (p : Params) (n : Nat) :
    isLast p n = true ↔ (n + 1) % frameLen p = 0 := by
  have hc := col_lt p n
  have hl := line_lt p n
  have hd := pixel_decomp p n
  unfold isLast
  rw [Bool.and_eq_true, decide_eq_true_eq, decide_eq_true_eq]
  have hmul : line p n * lineLen p ≤ p.vscan * lineLen p := Nat.mul_le_mul_right _ hl
  have hfl : frameLen p = p.vscan * lineLen p + lineLen p := by
    unfold frameLen lineLen; rw [Nat.add_mul]; omega
  have hll : lineLen p = p.hscan + 1 := rfl
  have hm : (n + 1) % frameLen p = (line p n * lineLen p + col p n + 1) % frameLen p := by
    rw [show n + 1 = line p n * lineLen p + col p n + 1 + frame p n * frameLen p by omega]
    exact Nat.add_mul_mod_self_right _ _ _
  rw [hm]
  constructor
  · rintro ⟨h1, h2⟩
    rw [h1, h2, show p.vscan * lineLen p + p.hscan + 1 = frameLen p by omega, Nat.mod_self]
  · intro h
    by_cases hlt : line p n * lineLen p + col p n + 1 < frameLen p
    · rw [Nat.mod_eq_of_lt hlt] at h; omega
    · have : col p n = p.hscan := by omega
      refine ⟨this, ?_⟩
      by_cases hv : line p n = p.vscan
      · exact hv
      · exfalso
        have : (line p n + 1) * lineLen p ≤ p.vscan * lineLen p :=
          Nat.mul_le_mul_right _ (by omega)
        rw [Nat.add_mul] at this
        omega

end Verif.Output

namespace Verif.Output

open Spec.Output Spec.Stream

theorem countIn_interval (a b n : Nat) :
    countIn (fun k => decide (a ≤ k) && decide (k < b)) 0 n = min n b - min n a := by
  induction n with
  | zero => simp [countIn]
  | succ n ih =>
    simp only [countIn, ih, Nat.zero_add]
    by_cases h : a ≤ n ∧ n < b
    · rw [if_pos (by simp; exact h)]; omega
    · rw [if_neg (by simp; omega)]; omega

theorem countIn_const (v : Bool) (a n : Nat) :
    countIn (fun _ => v) a n = if v then n else 0 := by
  induction n with
  | zero => cases v <;> rfl
  | succ n ih => simp only [countIn, ih]; cases v <;> simp

/-- Counting blocks of `H` equal values. -/
theorem countIn_blocks (P q : Nat → Bool) (H a m : Nat)
    (h : ∀ l c, l < m → c < H → P (a + l * H + c) = q l) :
    countIn P a (m * H) = countIn q 0 m * H := by
  induction m with
  | zero => simp [countIn]
  | succ m ih =>
    rw [Nat.add_mul, Nat.one_mul, countIn_add, ih (fun l c hl hc => h l c (by omega) hc)]
    rw [countIn_congr P (fun _ => q m) (a + m * H) 0 H (fun k hk => h m k (by omega) hk),
      countIn_const]
    simp only [countIn, Nat.zero_add]
    cases q m
    · simp
    · simp [Nat.add_mul]

theorem hsync_per_line (p : Params) (hp : ValidMode p) (l : Nat) :
    countIn (isHsync p) (l * lineLen p) (lineLen p) = p.hsync_end - p.hsync_start := by
  have e : countIn (isHsync p) (l * lineLen p) (lineLen p) =
      countIn (fun k => decide (p.hsync_start ≤ k) && decide (k < p.hsync_end)) 0
        (lineLen p) := by
    apply countIn_congr
    intro k hk
    have : col p (l * lineLen p + k) = k := by
      unfold col
      rw [Nat.add_comm, Nat.add_mul_mod_self_right]
      exact Nat.mod_eq_of_lt hk
    rw [isHsync, this, Nat.zero_add]
  rw [e, countIn_interval]
  have := hp.he
  have := hp.hs
  unfold lineLen
  omega

theorem frame_coord (p : Params) (f l c : Nat) (hl : l ≤ p.vscan) (hc : c ≤ p.hscan) :
    line p (f * frameLen p + l * lineLen p + c) = l ∧
    col p (f * frameLen p + l * lineLen p + c) = c ∧
    frame p (f * frameLen p + l * lineLen p + c) = f := by
  have e : f * frameLen p + l * lineLen p + c = c + (f * (p.vscan + 1) + l) * lineLen p := by
    unfold frameLen lineLen
    rw [Nat.add_mul (f * (p.vscan + 1)) l, Nat.mul_assoc]; omega
  have hpos : 0 < lineLen p := by unfold lineLen; omega
  have hd : (f * frameLen p + l * lineLen p + c) / lineLen p = f * (p.vscan + 1) + l := by
    rw [e, Nat.add_mul_div_right _ _ hpos, Nat.div_eq_of_lt (by unfold lineLen; omega)]
    omega
  refine ⟨?_, ?_, ?_⟩
  · unfold line
    rw [hd, Nat.add_comm, Nat.add_mul_mod_self_right]
    exact Nat.mod_eq_of_lt (by omega)
  · unfold col
    rw [e, Nat.add_mul_mod_self_right]
    exact Nat.mod_eq_of_lt (by unfold lineLen; omega)
  · unfold frame
    rw [hd, Nat.add_comm, Nat.add_mul_div_right _ _ (by omega), Nat.div_eq_of_lt (by omega)]
    omega

theorem vsync_per_frame (p : Params) (hp : ValidMode p) (f : Nat) :
    countIn (isVsync p) (f * frameLen p) (frameLen p) =
      (p.vsync_end - p.vsync_start) * lineLen p := by
  have e : countIn (isVsync p) (f * frameLen p) ((p.vscan + 1) * lineLen p) =
      countIn (fun k => decide (p.vsync_start ≤ k) && decide (k < p.vsync_end)) 0
        (p.vscan + 1) * lineLen p := by
    apply countIn_blocks
    intro l c hl hc
    have := (frame_coord p f l c (by omega) (by unfold lineLen at hc; omega)).1
    rw [isVsync, this]
  rw [show frameLen p = (p.vscan + 1) * lineLen p from rfl] at *
  rw [e, countIn_interval]
  have := hp.ve
  have := hp.vs
  rw [show min (p.vscan + 1) p.vsync_end - min (p.vscan + 1) p.vsync_start =
    p.vsync_end - p.vsync_start by omega]

theorem active_per_frame (p : Params) (hp : ValidMode p) (f : Nat) :
    countIn (isActive p) (f * frameLen p) (frameLen p) = p.hres * p.vres := by
  have h := countIn_add (isActive p) 0 (f * frameLen p) (frameLen p)
  have h1 := activeBefore_eq p hp (f * frameLen p)
  have h2 := activeBefore_eq p hp ((f + 1) * frameLen p)
  obtain ⟨a1, a2, a3⟩ := frame_start p f
  obtain ⟨b1, b2, b3⟩ := frame_start p (f + 1)
  rw [a1, a2, a3] at h1
  rw [b1, b2, b3] at h2
  simp only [Nat.zero_min, Nat.zero_mul, ite_self, Nat.add_zero, activeBefore] at h1 h2
  rw [show f * frameLen p + frameLen p = (f + 1) * frameLen p by rw [Nat.add_mul]; omega, h2, h1,
    Nat.zero_add, Nat.add_mul, Nat.one_mul, Nat.mul_comm p.vres] at h
  omega

/-- Index of an active pixel within its frame buffer. -/
theorem activeBefore_active (p : Params) (hp : ValidMode p) (n : Nat)
    (h : isActive p n = true) :
    activeBefore p n = frame p n * (p.vres * p.hres) + (line p n * p.hres + col p n) ∧
    line p n * p.hres + col p n < p.vres * p.hres := by
  have e := activeBefore_eq p hp n
  unfold isActive at h
  rw [Bool.and_eq_true, decide_eq_true_eq, decide_eq_true_eq] at h
  rw [if_pos h.2, show min (line p n) p.vres = line p n by omega,
    show min (col p n) p.hres = col p n by omega] at e
  have h2 : (line p n + 1) * p.hres ≤ p.vres * p.hres := Nat.mul_le_mul_right _ (by omega)
  rw [Nat.add_mul] at h2
  omega

/-! ## Timing generator on a trace -/

namespace Timing

/-- Constant parameters, always valid, from cleared counters. -/
theorem trace_at (p : Params) (hp : ValidMode p) (s0 : State) (h : s0.hcounter = 0)
    (hv : s0.vcounter = 0) (i : Nat → In) (hi : ∀ t, (i t).valid = true ∧ (i t).p = p) (t : Nat) :
    (countIn (fun u => (i u).ready) 0 t = 0 → trace step s0 i t = s0) ∧
    (∀ n, countIn (fun u => (i u).ready) 0 t = n + 1 →
      At p n (trace step s0 i t) ∧ SyncLate p n (trace step s0 i t) ∧
      (s0.hsync = false → s0.vsync = false → SyncAt p n (trace step s0 i t))) := by
  induction t with
  | zero => exact ⟨fun _ => rfl, fun n hn => by simp [countIn] at hn⟩
  | succ t ih =>
    obtain ⟨hva, hpa⟩ := hi t
    simp only [countIn, Nat.zero_add, trace_succ]
    cases hr : (i t).ready
    · have e : step (trace step s0 i t) (i t) = trace step s0 i t := by
        simp [step, hva, hr]
      rw [e]; simpa using ih
    · have e : step (trace step s0 i t) (i t) = advance (trace step s0 i t) p := by
        simp [step, hva, hr, hpa]
      rw [e]
      simp only [if_true]
      refine ⟨fun h => by omega, fun n hn => ?_⟩
      cases n with
      | zero =>
        rw [ih.1 (by omega)]
        exact ⟨At.first hp h hv, SyncLate.first hp h hv, SyncAt.first hp h hv⟩
      | succ n =>
        obtain ⟨a, b, c⟩ := ih.2 n (by omega)
        exact ⟨a.next hp, b.next hp a, fun h1 h2 => (c h1 h2).next hp a⟩

/-- Restarting after an invalid clock. -/
theorem step_invalid (s : State) (i : In) (h : i.valid = false) :
    (step s i).hcounter = 0 ∧ (step s i).vcounter = 0 ∧ de (step s i) true = false := by
  simp [step, h, de]

end Timing
end Verif.Output

namespace Verif.Output.Timing

open Spec.Output Spec.Stream

/-- Parameters changing at each hand-over. -/
theorem trace_modes (P : Nat → Params) (hP : ∀ f, DisplayMode (P f)) (i : Nat → In)
    (hv : ∀ t, (i t).valid = true) (hp : ∀ t, (i t).p = P (pops i t)) (t : Nat) :
    (countIn (fun u => (i u).ready) 0 t = 0 → trace step reset i t = reset ∧ pops i t = 0) ∧
    (0 < countIn (fun u => (i u).ready) 0 t → ∃ n,
      countIn (fun u => (i u).ready) 0 t = frameStart P (pops i t) + n + 1 ∧
      n < frameLen (P (pops i t)) ∧
      At (P (pops i t)) n (trace step reset i t) ∧
      SyncAt (P (pops i t)) n (trace step reset i t)) := by
  induction t with
  | zero => exact ⟨fun _ => ⟨rfl, rfl⟩, fun h => by simp [countIn] at h⟩
  | succ t ih =>
    have hps : pops i (t + 1) = pops i t +
        (if sinkReady (trace step reset i t) (i t).ready then 1 else 0) := by
      simp [pops, countIn]
    simp only [countIn, Nat.zero_add, trace_succ]
    cases hr : (i t).ready
    · have e : step (trace step reset i t) (i t) = trace step reset i t := by
        simp [step, hv t, hr]
      have hq : pops i (t + 1) = pops i t := by rw [hps]; simp [sinkReady, hr]
      rw [e, hq]; simpa using ih
    · have e : step (trace step reset i t) (i t) = advance (trace step reset i t) (P (pops i t)) := by
        simp [step, hv t, hr, hp t]
      rw [e]
      simp only [if_true]
      refine ⟨fun h => by omega, fun _ => ?_⟩
      by_cases h0 : countIn (fun u => (i u).ready) 0 t = 0
      · obtain ⟨hs, hz⟩ := ih.1 h0
        have hq : pops i (t + 1) = 0 := by rw [hps, hs, hz]; simp [sinkReady, reset]
        rw [hs, hz, hq, h0]
        have hm := (hP 0).toValidMode
        exact ⟨0, by simp [frameStart], by simp [frameLen], At.first hm rfl rfl,
          SyncAt.first hm rfl rfl rfl rfl⟩
      · obtain ⟨n, h1, h2, h3, h4⟩ := ih.2 (by omega)
        have hl := isLast_iff (P (pops i t)) n
        cases hlast : isLast (P (pops i t)) n
        · have hq : pops i (t + 1) = pops i t := by
            rw [hps]; simp [sinkReady, hr, h3.last, hlast]
          rw [hq]
          have hne : n + 1 ≠ frameLen (P (pops i t)) := by
            intro hh
            rw [hlast, hh, Nat.mod_self] at hl
            simp at hl
          exact ⟨n + 1, by omega, by omega, h3.next (hP _).toValidMode,
            h4.next (hP _).toValidMode h3⟩
        · have hq : pops i (t + 1) = pops i t + 1 := by
            rw [hps]; simp [sinkReady, hr, h3.last, hlast]
          rw [hq]
          have hz := hl.1 hlast
          have hfull : n + 1 = frameLen (P (pops i t)) := by
            by_cases hlt : n + 1 < frameLen (P (pops i t))
            · rw [Nat.mod_eq_of_lt hlt] at hz; omega
            · omega
          obtain ⟨a, b⟩ := handoff (hP _).toValidMode (hP (pops i t + 1)).toValidMode
            (hP _).hres_pos (hP _).vres_pos (hP _).hsync_pos (hP _).vsync_pos
            (hP _).hres_pos (hP _).vres_pos (hP _).hsync_pos (hP _).vsync_pos hlast h3 h4
          refine ⟨0, ?_, by simp [frameLen], a, b⟩
          simp only [frameStart]; omega

end Verif.Output.Timing
