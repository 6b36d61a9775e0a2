import Verif.Proofs.ChanSync

/-!
# Channel synchronisation: properties
-/

namespace Verif.Props

open Verif.ChanSync Verif.Spec.ChanSync

/-- The meaning of `age`: from any start, once the buffer has been filled, the word shown is the
one received `age` clocks ago. -/
theorem C08_age (nchan depth : Nat) (s0 : State) (h0 : InRange nchan depth s0) (x : Nat → In)
    (t i : Nat) (hi : i < nchan) (ht : depth ≤ t) :
    let s := trace (step nchan depth) s0 x t
    dataOut s i = (x (t - age depth (s.buf i))).data_in i ∧
      1 ≤ age depth (s.buf i) ∧ age depth (s.buf i) ≤ depth :=
  ⟨shows h0 t i hi ht, age_range (inRange h0 t i hi).1 (inRange h0 t i hi).2⟩

/-- **C08** Once the channels are aligned on source word `n`, they stay aligned: at every later
clock all of them show the next word, none skipped and none repeated. -/
theorem C08_stays_aligned (nchan depth : Nat) (s0 : State) (h0 : InRange nchan depth s0)
    (S : Source) (valid : Nat → Bool) (t n : Nat) (ht : depth ≤ t)
    (ha : AlignedOn S nchan depth t n (chanSync nchan depth s0 S valid t)) (k : Nat) :
    ∀ i, i < nchan → dataOut (chanSync nchan depth s0 S valid (t + k)) i = S.w i (n + k) :=
  fun i hi => aligned_shows h0 (t + k) (n + k) (by omega) (aligned_add h0 t n ht ha k) i hi

/-- **C08** From the first aligned control word on, `chan_synced` stays set as long as `valid_i`
is set. -/
theorem C08_stays_synced (nchan depth : Nat) (hn : 0 < nchan) (s0 : State)
    (h0 : InRange nchan depth s0) (S : Source) (valid : Nat → Bool) (t n : Nat) (ht : depth ≤ t)
    (ha : AlignedOn S nchan depth t n (chanSync nchan depth s0 S valid t)) (hc : S.de n = false)
    (k : Nat) (hv : ∀ u, u ≤ k → valid (t + u) = true) :
    (chanSync nchan depth s0 S valid (t + k + 1)).chan_synced = true := by
  induction k with
  | zero =>
    have := aligned_synced h0 hn t n ht ha (hv 0 (Nat.le_refl _))
    rw [hc] at this
    exact this
  | succ k ih =>
    have h := aligned_synced h0 hn (t + (k + 1)) (n + (k + 1)) (by omega)
      (aligned_add h0 t n ht ha (k + 1)) (hv (k + 1) (Nat.le_refl _))
    rw [show (chanSync nchan depth s0 S valid (t + (k + 1))).chan_synced = true from
      ih fun u hu => hv u (by omega)] at h
    rw [h, Bool.or_true]

/-- `chan_synced` is 0 one clock after `valid_i` is 0, whatever the channels carry. -/
theorem C08_invalid (nchan depth : Nat) (s0 : State) (x : Nat → In) (t : Nat)
    (hv : (x t).valid_i = false) :
    (trace (step nchan depth) s0 x (t + 1)).chan_synced = false := by
  show (if !(x t).valid_i then _ else _) = _
  rw [hv]; rfl

/-- `chan_synced` is 0 one clock after some channels, but not all, show a control word. -/
theorem C08_misaligned (nchan depth : Nat) (s0 : State) (x : Nat → In) (t i j : Nat)
    (hi : i < nchan) (hj : j < nchan)
    (h1 : (dataOut (trace (step nchan depth) s0 x t) i).de = false)
    (h2 : (dataOut (trace (step nchan depth) s0 x t) j).de = true) :
    (trace (step nchan depth) s0 x (t + 1)).chan_synced = false := by
  show (if !(x t).valid_i then _ else _) = _
  cases (x t).valid_i
  · rfl
  · rw [if_neg (by decide), if_pos ((someControl_iff _ _).2 ⟨i, hi, h1⟩), if_neg]
    intro h
    rw [(allControl_iff _ _).1 h j hj] at h2
    exact absurd h2 (by decide)

/-- **C09** Suppose at clock `t0` every channel shows an active word, the first control word after
it is `e` on every channel, and the distance between the most advanced and the most delayed channel
fits in the free buffer space.  Let `ts` be the clock at which the slowest channel reaches word `e`.
Then from `ts` on all channels show the same source words, beginning with `e`, and `chan_synced` is
set at the next clock if `valid_i` is. -/
theorem C09_acquire (nchan depth : Nat) (hn : 0 < nchan) (s0 : State)
    (h0 : InRange nchan depth s0) (S : Source) (valid : Nat → Bool) (t0 ts e : Nat)
    (ht : depth ≤ t0)
    (hdata : ∀ i, i < nchan → ∀ n,
      t0 + S.a i ≤ n + age depth ((chanSync nchan depth s0 S valid t0).buf i) → n < e →
        S.de n = true)
    (hle : ∀ i, i < nchan →
      t0 + S.a i ≤ e + age depth ((chanSync nchan depth s0 S valid t0).buf i))
    (hctl : S.de e = false)
    (hslow : ∃ j, j < nchan ∧
      e + age depth ((chanSync nchan depth s0 S valid t0).buf j) = ts + S.a j)
    (hmax : ∀ j, j < nchan →
      e + age depth ((chanSync nchan depth s0 S valid t0).buf j) ≤ ts + S.a j)
    (hfit : ∀ j, j < nchan → ts + S.a j ≤ e + depth) :
    (∀ k i, i < nchan → dataOut (chanSync nchan depth s0 S valid (ts + k)) i = S.w i (e + k)) ∧
    (valid ts = true → (chanSync nchan depth s0 S valid (ts + 1)).chan_synced = true) := by
  have ha := acquire h0 t0 ts e ht hdata hle hctl hslow hmax hfit
  have hts : depth ≤ ts := by
    obtain ⟨j, hj, h⟩ := hslow
    have := hle j hj
    omega
  refine ⟨fun k i hi => C08_stays_aligned nchan depth s0 h0 S valid ts e hts ha k i hi, fun hv => ?_⟩
  exact C08_stays_synced nchan depth hn s0 h0 S valid ts e hts ha hctl 0
    (fun u hu => by rw [show u = 0 by omega]; exact hv)

/-- The clock at which all channels become aligned (for C64). -/
theorem chan_stabilises (nchan depth skew : Nat) (hn : 0 < nchan) (s0 : State)
    (h0 : InRange nchan depth s0) (S : Source) (valid : Nat → Bool)
    (hskew : ∀ i, i < nchan → S.a i ≤ skew) (hsk : skew < depth) (f g : Nat)
    (hf : depth + skew ≤ f) (hlen : f + depth + skew ≤ g) (hc1 : S.de (f - 1) = false)
    (hd2 : ∀ n, f ≤ n → n < g → S.de n = true) (hc2 : S.de g = false) :
    ∃ ts, g + 1 ≤ ts + skew ∧ ts ≤ g + depth ∧ depth ≤ ts ∧
      AlignedOn S nchan depth ts g (chanSync nchan depth s0 S valid ts) := by
  have hG := stabilise h0 (f - skew) (g - skew) f g (by omega) (by omega)
    (fun i hi => by have := hskew i hi; omega) (fun i hi => by have := hskew i hi; omega)
    hc1 hd2 (fun i j hi hj => by have := hskew i hi; omega) (valid := valid)
  have hage := fun i hi => age_at h0 (g - skew) i hi (S := S) (valid := valid)
  obtain ⟨A, hA'⟩ : ∃ A : Nat → Nat,
      ∀ i, age depth ((chanSync nchan depth s0 S valid (g - skew)).buf i) = A i := ⟨_, fun _ => rfl⟩
  have hG : ∀ i j, i < nchan → j < nchan → A j + S.a i ≤ depth + S.a j :=
    fun i j hi hj => hA' j ▸ hG i j hi hj
  have hage : ∀ i, i < nchan → 1 ≤ A i ∧ A i ≤ depth := fun i hi => hA' i ▸ hage i hi
  obtain ⟨j, hj, hm⟩ := exists_max (fun i => A i + skew - S.a i) nchan hn
  have hsj := hskew j hj
  have haj := hage j hj
  have hal : AlignedOn S nchan depth (g + A j - S.a j) g
      (chanSync nchan depth s0 S valid (g + A j - S.a j)) := by
    refine acquire h0 (g - skew) (g + A j - S.a j) g (by omega) ?_ ?_ hc2 ⟨j, hj, ?_⟩ ?_ ?_
    · intro i hi n h1 h2
      rw [hA' i] at h1
      have := hage i hi
      exact hd2 n (by omega) h2
    · intro i hi
      rw [hA' i]
      have := hskew i hi
      omega
    · rw [hA' j]; omega
    · intro i hi
      rw [hA' i]
      have h1 := hm i hi
      have h2 := hskew i hi
      omega
    · intro i hi
      have h1 := hG i j hi hj
      omega
  exact ⟨g + A j - S.a j, by omega, by omega, by omega, hal⟩

/-- **C64** Alignment is self-stabilising.  Whatever the buffers contain and wherever their
pointers are, the first control word after one complete active period of at least `depth + skew`
words (begun when the buffers have been filled once) aligns all channels for good, for every skew
below `depth`. -/
theorem C64_self_stabilising (nchan depth skew : Nat) (hn : 0 < nchan) (s0 : State)
    (h0 : InRange nchan depth s0) (S : Source) (valid : Nat → Bool)
    (hskew : ∀ i, i < nchan → S.a i ≤ skew) (hsk : skew < depth) (f g : Nat)
    (hf : depth + skew ≤ f) (hlen : f + depth + skew ≤ g) (hc1 : S.de (f - 1) = false)
    (hd2 : ∀ n, f ≤ n → n < g → S.de n = true) (hc2 : S.de g = false) :
    ∃ ts, g + 1 ≤ ts + skew ∧ ts ≤ g + depth ∧
      (∀ k i, i < nchan → dataOut (chanSync nchan depth s0 S valid (ts + k)) i = S.w i (g + k)) ∧
      (∀ k, (∀ u, u ≤ k → valid (ts + u) = true) →
        (chanSync nchan depth s0 S valid (ts + k + 1)).chan_synced = true) := by
  obtain ⟨ts, h1, h2, h3, hal⟩ := chan_stabilises nchan depth skew hn s0 h0 S valid hskew hsk f g hf hlen
    hc1 hd2 hc2
  refine ⟨ts, h1, h2, fun k i hi => ?_, fun k hv => ?_⟩
  · exact C08_stays_aligned nchan depth s0 h0 S valid _ g (by omega) hal k i hi
  · exact C08_stays_synced nchan depth hn s0 h0 S valid _ g (by omega) hal hc2 k hv

/-- A three-channel source with lines of 14 active and 6 control words, numbered words, and
channels 0, 2 and 1 words ahead. -/
def lines20 : Source :=
  { w := fun i n => { raw := BitVec.ofNat 10 (n + 300 * i), d := 0, c := 0, de := n % 20 < 14 }
    de := fun n => n % 20 < 14
    a := fun i => if i = 1 then 2 else if i = 2 then 1 else 0
    common := fun _ _ => rfl }

/-- The hypotheses of `C64_self_stabilising` are met from reset with 8-word buffers and these
lines: the channels are aligned from the second line end on; before that they are not. -/
example : InRange 3 8 reset ∧ (∀ i, i < 3 → lines20.a i ≤ 2) ∧
    8 + 2 ≤ 20 ∧ 20 + 8 + 2 ≤ 34 ∧ lines20.de (20 - 1) = false ∧
    (∀ n, n < 34 → 20 ≤ n → lines20.de n = true) ∧ lines20.de 34 = false := by
  refine ⟨fun i _ => ⟨Nat.zero_lt_succ _, Nat.zero_lt_succ _⟩, ?_, by decide, by decide, by decide, by decide,
    by decide⟩
  decide

example : (chanSync 3 8 reset lines20 (fun _ => true) 45).chan_synced = true ∧
    (dataOut (chanSync 3 8 reset lines20 (fun _ => true) 45) 0).raw = 44 ∧
    (dataOut (chanSync 3 8 reset lines20 (fun _ => true) 45) 1).raw = 344 ∧
    (dataOut (chanSync 3 8 reset lines20 (fun _ => true) 45) 2).raw = 644 ∧
    (chanSync 3 8 reset lines20 (fun _ => true) 22).chan_synced = false := by decide +kernel

/-- The hypothesis of the `C08` theorems is met at that clock, and that of `C09_acquire` at clock
30 (all channels active, ages 1, first control word 34, slowest channel at clock 35). -/
example : AlignedOn lines20 3 8 45 44 (chanSync 3 8 reset lines20 (fun _ => true) 45) := by
  unfold AlignedOn; decide +kernel

example : let s := chanSync 3 8 reset lines20 (fun _ => true) 30
    (∀ i, i < 3 → 30 + lines20.a i ≤ 34 + age 8 (s.buf i)) ∧
    34 + age 8 (s.buf 0) = 35 + lines20.a 0 ∧
    (∀ i, i < 3 → 34 + age 8 (s.buf i) ≤ 35 + lines20.a i) ∧
    (∀ i, i < 3 → 35 + lines20.a i ≤ 34 + 8) := by decide +kernel

/-- The limit on the skew is sharp: with two channels, a 2-word buffer and skew 2 the channels
never get aligned by this source: at clock 200, in a control period, they show words two apart. -/
theorem C64_skew_limit :
    let S : Source := { w := fun _ n => { raw := BitVec.ofNat 10 n, d := 0, c := 0, de := n % 20 < 14 }
                        de := fun n => n % 20 < 14, a := fun i => if i = 0 then 2 else 0
                        common := fun _ _ => rfl }
    ∀ k, k < 20 → (dataOut (chanSync 2 2 reset S (fun _ => true) (200 + k)) 0).raw ≠
      (dataOut (chanSync 2 2 reset S (fun _ => true) (200 + k)) 1).raw := by decide +kernel

/-- C65: `chan_synced` set means that all channels show the same source word. -/
def C65_statement : Prop :=
  ∀ (nchan depth : Nat) (S : Source) (valid : Nat → Bool) (t : Nat), 2 ≤ depth → depth ≤ t →
    (chanSync nchan depth reset S valid t).chan_synced = true →
    ∃ n, AlignedOn S nchan depth t n (chanSync nchan depth reset S valid t)

/-- **C65** is false of the code: the empty buffers look like control words on all channels, which
sets `chan_synced` right after reset.  In the witness it is set at clock 20 while the channels show
words 12, 14 and 13. -/
theorem C65_violated : ¬ C65_statement := by
  intro h
  obtain ⟨n, hn⟩ := h 3 8 lines20 (fun _ => true) 20 (by decide) (by decide) (by decide +kernel)
  have h0 := hn 0 (by decide)
  have h1 := hn 1 (by decide)
  rw [show age 8 ((chanSync 3 8 reset lines20 (fun _ => true) 20).buf 0) = 8 by decide +kernel] at h0
  rw [show age 8 ((chanSync 3 8 reset lines20 (fun _ => true) 20).buf 1) = 8 by decide +kernel] at h1
  simp [lines20] at h0 h1
  omega

/-- After a clock with a control word on some channel `chan_synced` is only set if `valid_i` was
set and all channels showed control words. -/
theorem C65_all_control (nchan depth : Nat) (s0 : State) (x : Nat → In) (t i : Nat)
    (hi : i < nchan) (hc : (dataOut (trace (step nchan depth) s0 x t) i).de = false)
    (hs : (trace (step nchan depth) s0 x (t + 1)).chan_synced = true) :
    (x t).valid_i = true ∧
      ∀ j, j < nchan → (dataOut (trace (step nchan depth) s0 x t) j).de = false := by
  refine ⟨?_, fun j hj => ?_⟩
  · rcases Bool.eq_false_or_eq_true (x t).valid_i with h | h
    · exact h
    · rw [C08_invalid nchan depth s0 x t h] at hs; exact absurd hs (by decide)
  · rcases Bool.eq_false_or_eq_true (dataOut (trace (step nchan depth) s0 x t) j).de with h | h
    · rw [C08_misaligned nchan depth s0 x t i j hi hj hc h] at hs; exact absurd hs (by decide)
    · exact h

/-- **C65**, the part that holds: at the end of an active period `chan_synced` tells the truth.
If all channels show words of the same active period (its first control word is `e`) at clock `t`,
some channel shows a control word at `t+1` and `chan_synced` is set at `t+2`, then all channels
showed word `e` at `t+1`. -/
theorem C65_line_end_partial (nchan depth : Nat) (s0 : State) (h0 : InRange nchan depth s0)
    (S : Source) (valid : Nat → Bool) (t e i : Nat) (ht : depth ≤ t)
    (hdata : ∀ j, j < nchan → ∀ n,
      t + S.a j ≤ n + age depth ((chanSync nchan depth s0 S valid t).buf j) → n < e →
        S.de n = true)
    (hlt : ∀ j, j < nchan →
      t + S.a j < e + age depth ((chanSync nchan depth s0 S valid t).buf j))
    (hi : i < nchan) (hc : (dataOut (chanSync nchan depth s0 S valid (t + 1)) i).de = false)
    (hs : (chanSync nchan depth s0 S valid (t + 2)).chan_synced = true) :
    AlignedOn S nchan depth (t + 1) e (chanSync nchan depth s0 S valid (t + 1)) := by
  obtain ⟨-, hall⟩ := C65_all_control nchan depth s0 (S.input valid) (t + 1) i hi hc hs
  intro j hj
  have hr := age_at h0 t j hj (S := S) (valid := valid)
  have h1 := hlt j hj
  have hd : (dataOut (chanSync nchan depth s0 S valid t) j).de = true := by
    rw [de_src h0 t j hj ht]
    apply hdata j hj <;> omega
  have hage := age_succ h0 t j hj (S := S) (valid := valid)
  rw [re_data hd, if_pos rfl] at hage
  have hcj := hall j hj
  rw [de_src h0 (t + 1) j hj (by omega), hage] at hcj
  refine Nat.le_antisymm ?_ ?_
  · refine Nat.le_of_not_lt fun hgt => ?_
    rw [hage] at hgt
    rw [hdata j hj _ (by omega) (by omega)] at hcj
    exact absurd hcj (by decide)
  · rw [hage]; omega

end Verif.Props
