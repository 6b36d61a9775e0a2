import Verif.Spec.ChanSync

/-!
# Lemmas on channel synchronisation
-/

namespace Verif.ChanSync

open Spec.ChanSync

theorem inc_lt {depth x : Nat} (h : x < depth) : inc depth x < depth := by
  unfold inc; split <;> omega

theorem age_range {depth : Nat} {b : Buffer.State} (hp : b.produce < depth)
    (hc : b.consume < depth) : 1 ≤ age depth b ∧ age depth b ≤ depth := by
  unfold age; split <;> omega

theorem age_step {depth : Nat} {b : Buffer.State} (hp : b.produce < depth)
    (hc : b.consume < depth) (x : Word) (r : Bool) :
    age depth (Buffer.step depth b x r) =
      if r then age depth b else if age depth b = depth then 1 else age depth b + 1 := by
  cases r <;> simp only [Buffer.step, age, inc, Bool.false_eq_true, if_false, if_true] <;>
    (repeat' split) <;> omega

variable {nchan depth : Nat} {s0 : State} {x : Nat → In}

theorem inRange (h0 : InRange nchan depth s0) (t : Nat) :
    InRange nchan depth (trace (step nchan depth) s0 x t) := by
  induction t with
  | zero => exact h0
  | succ t ih =>
    intro i hi
    obtain ⟨h1, h2⟩ := ih i hi
    refine ⟨inc_lt h1, ?_⟩
    show (if _ then _ else _) < depth
    split
    · exact inc_lt h2
    · exact h2

/-- Address of the word received `D` clocks ago. -/
def slot (depth p D : Nat) : Nat := if D ≤ p then p - D else p + depth - D

/-- The last `depth` words received are in the memory. -/
theorem stored (h0 : InRange nchan depth s0) (t i : Nat) (hi : i < nchan) (D : Nat)
    (h1 : 1 ≤ D) (hD : D ≤ depth) (ht : D ≤ t) :
    ((trace (step nchan depth) s0 x t).buf i).storage
      (slot depth ((trace (step nchan depth) s0 x t).buf i).produce D) =
      (x (t - D)).data_in i := by
  induction t generalizing D with
  | zero => omega
  | succ t ih =>
    obtain ⟨hp, -⟩ := inRange h0 t i hi (x := x)
    simp only [trace_succ, step, Buffer.step]
    by_cases hD1 : D = 1
    · subst hD1
      rw [if_pos (by unfold slot inc; (repeat' split) <;> omega)]; rfl
    · have e : slot depth (inc depth ((trace (step nchan depth) s0 x t).buf i).produce) D =
          slot depth ((trace (step nchan depth) s0 x t).buf i).produce (D - 1) := by
        unfold slot inc; (repeat' split) <;> omega
      have e2 : slot depth ((trace (step nchan depth) s0 x t).buf i).produce (D - 1) ≠
          ((trace (step nchan depth) s0 x t).buf i).produce := by unfold slot; split <;> omega
      rw [e, if_neg e2, ih (D - 1) (by omega) (by omega) (by omega)]
      congr 2; omega

/-- After `depth` clocks a buffer shows the word received `age` clocks ago. -/
theorem shows (h0 : InRange nchan depth s0) (t i : Nat) (hi : i < nchan) (ht : depth ≤ t) :
    dataOut (trace (step nchan depth) s0 x t) i =
      (x (t - age depth ((trace (step nchan depth) s0 x t).buf i))).data_in i := by
  obtain ⟨hp, hc⟩ := inRange h0 t i hi (x := x)
  have hr := age_range hp hc
  have := stored h0 t i hi (x := x) _ hr.1 hr.2 (by omega)
  rw [← this]
  show Buffer.State.storage _ _ = _
  congr 1
  unfold slot age
  (repeat' split) <;> omega

theorem allControl_iff (nchan : Nat) (s : State) :
    allControl nchan s = true ↔ ∀ i, i < nchan → (dataOut s i).de = false := by
  simp [allControl, isControl]

theorem someControl_iff (nchan : Nat) (s : State) :
    someControl nchan s = true ↔ ∃ i, i < nchan ∧ (dataOut s i).de = false := by
  simp [someControl, isControl]

/-! Skewed channels that need not agree on data-enable all the time. -/

/-- Aligned channels show the same index, and stay aligned as long as they agree on data-enable. -/
theorem aligned_raw (h0 : InRange nchan depth s0) {w : Nat → Nat → Word} {a : Nat → Nat}
    (hx : ∀ u i, i < nchan → (x u).data_in i = w i (u + a i)) (t n : Nat) (ht : depth ≤ t)
    (ha : ∀ i, i < nchan → n + age depth ((trace (step nchan depth) s0 x t).buf i) = t + a i)
    (d : Nat → Bool) (j : Nat) (hc : ∀ m, n ≤ m → m < n + j → ∀ i, i < nchan → (w i m).de = d m) :
    (∀ i, i < nchan →
      n + j + age depth ((trace (step nchan depth) s0 x (t + j)).buf i) = t + j + a i) ∧
    ∀ i, i < nchan → dataOut (trace (step nchan depth) s0 x (t + j)) i = w i (n + j) := by
  have sh : ∀ j, (∀ i, i < nchan →
      n + j + age depth ((trace (step nchan depth) s0 x (t + j)).buf i) = t + j + a i) →
      ∀ i, i < nchan → dataOut (trace (step nchan depth) s0 x (t + j)) i = w i (n + j) := by
    intro j h i hi
    obtain ⟨hp, hq⟩ := inRange h0 (t + j) i hi (x := x)
    have hr := age_range hp hq
    have h := h i hi
    rw [shows h0 (t + j) i hi (by omega), hx _ i hi]
    congr 1
    omega
  suffices h : ∀ i, i < nchan →
      n + j + age depth ((trace (step nchan depth) s0 x (t + j)).buf i) = t + j + a i from
    ⟨h, sh j h⟩
  induction j with
  | zero => exact ha
  | succ j ih =>
    have ih := ih fun m h1 h2 => hc m h1 (by omega)
    have hs := sh j ih
    intro i hi
    obtain ⟨hp, hq⟩ := inRange h0 (t + j) i hi (x := x)
    have hst := age_step hp hq ((x (t + j)).data_in i)
      (re nchan (trace (step nchan depth) s0 x (t + j)) i)
    have hre : re nchan (trace (step nchan depth) s0 x (t + j)) i = true := by
      have hcj := hc (n + j) (by omega) (by omega)
      cases hd : d (n + j)
      · simp only [re, Bool.or_eq_true, allControl_iff]
        exact .inr fun i' hi' => by rw [hs i' hi', hcj i' hi', hd]
      · simp [re, isControl, hs i hi, hcj i hi, hd]
    rw [hre, if_pos rfl] at hst
    have := ih i hi
    have e : age depth ((trace (step nchan depth) s0 x (t + (j + 1))).buf i) =
        age depth (Buffer.step depth ((trace (step nchan depth) s0 x (t + j)).buf i)
          ((x (t + j)).data_in i) true) := by
      rw [← hre]; rfl
    rw [e, hst]
    omega

/-! A source and its skewed channels. -/

variable {S : Source} {valid : Nat → Bool}

theorem age_at (h0 : InRange nchan depth s0) (t i : Nat) (hi : i < nchan) :
    1 ≤ age depth ((chanSync nchan depth s0 S valid t).buf i) ∧
      age depth ((chanSync nchan depth s0 S valid t).buf i) ≤ depth :=
  let h := inRange h0 t i hi (x := S.input valid)
  age_range h.1 h.2

/-- The word shown, by source index. -/
theorem shows_src (h0 : InRange nchan depth s0) (t i : Nat) (hi : i < nchan) (ht : depth ≤ t) :
    dataOut (chanSync nchan depth s0 S valid t) i =
      S.w i (t + S.a i - age depth ((chanSync nchan depth s0 S valid t).buf i)) := by
  have h := shows h0 t i hi ht (x := S.input valid)
  have hr := age_at h0 t i hi (S := S) (valid := valid)
  rw [h]
  show S.w i _ = _
  congr 1
  simp only [chanSync] at hr ⊢
  omega

theorem de_src (h0 : InRange nchan depth s0) (t i : Nat) (hi : i < nchan) (ht : depth ≤ t) :
    (dataOut (chanSync nchan depth s0 S valid t) i).de =
      S.de (t + S.a i - age depth ((chanSync nchan depth s0 S valid t).buf i)) := by
  rw [shows_src h0 t i hi ht, S.common]

/-- How the age changes. -/
theorem age_succ (h0 : InRange nchan depth s0) (t i : Nat) (hi : i < nchan) :
    age depth ((chanSync nchan depth s0 S valid (t + 1)).buf i) =
      if re nchan (chanSync nchan depth s0 S valid t) i then
        age depth ((chanSync nchan depth s0 S valid t).buf i)
      else if age depth ((chanSync nchan depth s0 S valid t).buf i) = depth then 1
      else age depth ((chanSync nchan depth s0 S valid t).buf i) + 1 :=
  let h := inRange h0 t i hi (x := S.input valid)
  age_step h.1 h.2 _ _

theorem re_data {s : State} {i : Nat} (h : (dataOut s i).de = true) : re nchan s i = true := by
  simp [re, isControl, h]

theorem re_control {s : State} {i : Nat} (h : (dataOut s i).de = false) :
    re nchan s i = allControl nchan s := by
  simp [re, isControl, h]

theorem synced_succ (t : Nat) (hv : valid t = true) :
    (chanSync nchan depth s0 S valid (t + 1)).chan_synced =
      if someControl nchan (chanSync nchan depth s0 S valid t) then
        allControl nchan (chanSync nchan depth s0 S valid t)
      else (chanSync nchan depth s0 S valid t).chan_synced := by
  show (if !(valid t) then _ else _) = _
  rw [hv]
  simp

/-- Alignment is preserved by one clock. -/
theorem aligned_succ (h0 : InRange nchan depth s0) (t n : Nat) (ht : depth ≤ t)
    (ha : AlignedOn S nchan depth t n (chanSync nchan depth s0 S valid t)) :
    AlignedOn S nchan depth (t + 1) (n + 1) (chanSync nchan depth s0 S valid (t + 1)) := by
  have hde : ∀ i, i < nchan → (dataOut (chanSync nchan depth s0 S valid t) i).de = S.de n := by
    intro i hi
    rw [de_src h0 t i hi ht]
    congr 1
    have := ha i hi
    omega
  intro i hi
  rw [age_succ h0 t i hi]
  have hre : re nchan (chanSync nchan depth s0 S valid t) i = true := by
    cases hd : S.de n
    · rw [re_control (by rw [hde i hi, hd]), allControl_iff]
      intro j hj; rw [hde j hj, hd]
    · exact re_data (by rw [hde i hi, hd])
  rw [hre, if_pos rfl]
  have := ha i hi
  omega

theorem aligned_add (h0 : InRange nchan depth s0) (t n : Nat) (ht : depth ≤ t)
    (ha : AlignedOn S nchan depth t n (chanSync nchan depth s0 S valid t)) (k : Nat) :
    AlignedOn S nchan depth (t + k) (n + k) (chanSync nchan depth s0 S valid (t + k)) := by
  induction k with
  | zero => exact ha
  | succ k ih => exact aligned_succ h0 (t + k) (n + k) (by omega) ih

/-- What aligned channels show. -/
theorem aligned_shows (h0 : InRange nchan depth s0) (t n : Nat) (ht : depth ≤ t)
    (ha : AlignedOn S nchan depth t n (chanSync nchan depth s0 S valid t)) (i : Nat) (hi : i < nchan) :
    dataOut (chanSync nchan depth s0 S valid t) i = S.w i n := by
  rw [shows_src h0 t i hi ht]
  congr 1
  have := ha i hi
  omega

/-- `chan_synced` after an aligned clock. -/
theorem aligned_synced (h0 : InRange nchan depth s0) (hn : 0 < nchan) (t n : Nat) (ht : depth ≤ t)
    (ha : AlignedOn S nchan depth t n (chanSync nchan depth s0 S valid t)) (hv : valid t = true) :
    (chanSync nchan depth s0 S valid (t + 1)).chan_synced =
      (!S.de n || (chanSync nchan depth s0 S valid t).chan_synced) := by
  have hde : ∀ i, i < nchan → (dataOut (chanSync nchan depth s0 S valid t) i).de = S.de n := by
    intro i hi; rw [aligned_shows h0 t n ht ha i hi, S.common]
  rw [synced_succ t hv]
  cases hd : S.de n
  · rw [if_pos ((someControl_iff _ _).2 ⟨0, hn, by rw [hde 0 hn, hd]⟩)]
    rw [(allControl_iff _ _).2 (fun i hi => by rw [hde i hi, hd])]
    rfl
  · rw [if_neg]
    · rfl
    · rw [someControl_iff]
      rintro ⟨i, hi, h⟩
      rw [hde i hi, hd] at h
      exact absurd h (by decide)

/-- Acquisition: channel `i` is at its first control word `e` at the latest when all are. -/
theorem acquire (h0 : InRange nchan depth s0) (t0 ts e : Nat) (ht : depth ≤ t0)
    (hdata : ∀ i, i < nchan → ∀ n,
      t0 + S.a i ≤ n + age depth ((chanSync nchan depth s0 S valid t0).buf i) → n < e → S.de n = true)
    (hle : ∀ i, i < nchan → t0 + S.a i ≤ e + age depth ((chanSync nchan depth s0 S valid t0).buf i))
    (hctl : S.de e = false)
    (hslow : ∃ j, j < nchan ∧ e + age depth ((chanSync nchan depth s0 S valid t0).buf j) = ts + S.a j)
    (hmax : ∀ j, j < nchan → e + age depth ((chanSync nchan depth s0 S valid t0).buf j) ≤ ts + S.a j)
    (hfit : ∀ j, j < nchan → ts + S.a j ≤ e + depth) :
    AlignedOn S nchan depth ts e (chanSync nchan depth s0 S valid ts) := by
  obtain ⟨j, hj, hjs⟩ := hslow
  have h0s : t0 ≤ ts := by have := hle j hj; omega
  -- the age is the larger of the initial one and the one at which word `e` is shown
  have key : ∀ k, t0 + k ≤ ts → ∀ i, i < nchan →
      age depth ((chanSync nchan depth s0 S valid (t0 + k)).buf i) =
        max (age depth ((chanSync nchan depth s0 S valid t0).buf i)) (t0 + k + S.a i - e) := by
    intro k
    induction k with
    | zero =>
      intro _ i hi
      have h1 := hle i hi
      rw [Nat.add_zero]
      omega
    | succ k ih =>
      intro hk i hi
      have ihk := ih (by omega)
      have hcur := ihk i hi
      have hr := age_at h0 t0 i hi (S := S) (valid := valid)
      rw [show t0 + (k + 1) = t0 + k + 1 from rfl, age_succ h0 (t0 + k) i hi]
      have h1 := hle i hi
      have h2 := hmax i hi
      have h3 := hfit i hi
      by_cases hpos : t0 + k + S.a i < e + age depth ((chanSync nchan depth s0 S valid t0).buf i)
      · have hde : (dataOut (chanSync nchan depth s0 S valid (t0 + k)) i).de = true := by
          rw [de_src h0 (t0 + k) i hi (by omega)]
          apply hdata i hi <;> omega
        rw [re_data hde, if_pos rfl]
        omega
      · have hde : (dataOut (chanSync nchan depth s0 S valid (t0 + k)) i).de = false := by
          rw [de_src h0 (t0 + k) i hi (by omega), hcur]
          rw [show t0 + k + S.a i - max (age depth ((chanSync nchan depth s0 S valid t0).buf i))
            (t0 + k + S.a i - e) = e by omega]
          exact hctl
        have hna : allControl nchan (chanSync nchan depth s0 S valid (t0 + k)) = false := by
          rw [Bool.eq_false_iff]
          intro hall
          have hx := (allControl_iff _ _).1 hall j hj
          have hcj := ihk j hj
          have h1j := hle j hj
          have hrj := age_at h0 t0 j hj (S := S) (valid := valid)
          rw [de_src h0 (t0 + k) j hj (by omega)] at hx
          rw [hdata j hj _ (by omega) (by omega)] at hx
          exact absurd hx (by decide)
        rw [re_control hde, hna]
        simp only [Bool.false_eq_true, if_false]
        rw [if_neg (by omega)]
        omega
  intro i hi
  have hk := key (ts - t0) (by omega) i hi
  rw [show t0 + (ts - t0) = ts by omega] at hk
  rw [hk]
  have h2 := hmax i hi
  have h1 := hle i hi
  have hr := age_at h0 t0 i hi (S := S) (valid := valid)
  omega

/-- One active period following a control word makes the ages small enough. -/
theorem stabilise (h0 : InRange nchan depth s0) (t0 t1 f g : Nat) (ht : depth ≤ t0)
    (h01 : t0 ≤ t1)
    (hs0 : ∀ i, i < nchan → t0 + S.a i ≤ f)
    (hs1 : ∀ i, i < nchan → f + depth ≤ t1 + S.a i ∧ t1 + S.a i ≤ g)
    (hc : S.de (f - 1) = false) (hd2 : ∀ n, f ≤ n → n < g → S.de n = true)
    (hskew : ∀ i j, i < nchan → j < nchan → S.a i + 1 ≤ S.a j + depth) :
    ∀ i j, i < nchan → j < nchan →
      age depth ((chanSync nchan depth s0 S valid t1).buf j) + S.a i ≤ depth + S.a j := by
  have key : ∀ k, t0 + k ≤ t1 → ∀ j, j < nchan →
      t0 + k + S.a j < f + age depth ((chanSync nchan depth s0 S valid (t0 + k)).buf j) ∨
      ∀ i, i < nchan →
        age depth ((chanSync nchan depth s0 S valid (t0 + k)).buf j) + S.a i ≤ depth + S.a j := by
    intro k
    induction k with
    | zero =>
      intro _ j hj
      have h1 := hs0 j hj
      have h3 := age_at h0 t0 j hj (S := S) (valid := valid)
      exact Or.inl (by rw [Nat.add_zero]; omega)
    | succ k ih =>
      intro hk j hj
      have hpos : ∀ m, m < nchan →
          t0 + k + S.a m - age depth ((chanSync nchan depth s0 S valid (t0 + k)).buf m) < g ∧
          age depth ((chanSync nchan depth s0 S valid (t0 + k)).buf m) ≤ depth ∧
          depth ≤ t0 + k + S.a m := by
        intro m hm
        have h1 := hs0 m hm
        have h2 := hs1 m hm
        have h3 := age_at h0 (t0 + k) m hm (S := S) (valid := valid)
        omega
      have hpj := hpos j hj
      have hde := de_src h0 (t0 + k) j hj (by omega) (S := S) (valid := valid)
      rw [show t0 + (k + 1) = t0 + k + 1 from rfl, age_succ h0 (t0 + k) j hj]
      rcases ih (by omega) j hj with hlt | hG
      · by_cases hlast : t0 + k + 1 + S.a j <
          f + age depth ((chanSync nchan depth s0 S valid (t0 + k)).buf j)
        · split
          · exact Or.inl hlast
          · split
            · right; intro i hi; have := hskew i j hi hj; omega
            · left; omega
        · have hcj : (dataOut (chanSync nchan depth s0 S valid (t0 + k)) j).de = false := by
            rw [hde, ← hc]; congr 1; omega
          rw [re_control hcj]
          split
          · rename_i hall
            right
            intro i hi
            have hci := (allControl_iff _ _).1 hall i hi
            have hpi := hpos i hi
            rw [de_src h0 (t0 + k) i hi (by omega)] at hci
            have hlt : t0 + k + S.a i - age depth ((chanSync nchan depth s0 S valid (t0 + k)).buf i) < f := by
              refine Nat.lt_of_not_le fun hge => ?_
              rw [hd2 _ hge hpi.1] at hci
              exact absurd hci (by decide)
            omega
          · split
            · right; intro i hi; have := hskew i j hi hj; omega
            · left; omega
      · by_cases hlt : t0 + k + S.a j < f + age depth ((chanSync nchan depth s0 S valid (t0 + k)).buf j)
        · split
          · exact Or.inr hG
          · split
            · right; intro i hi; have := hskew i j hi hj; omega
            · left; omega
        · have hdj : (dataOut (chanSync nchan depth s0 S valid (t0 + k)) j).de = true := by
            rw [hde]; apply hd2 <;> omega
          rw [re_data hdj, if_pos rfl]
          exact Or.inr hG
  intro i j hi hj
  have hk := key (t1 - t0) (by omega) j hj
  rw [show t0 + (t1 - t0) = t1 by omega] at hk
  rcases hk with h | h
  · have h2 := hs1 j hj
    have h3 := age_at h0 t1 j hj (S := S) (valid := valid)
    omega
  · exact h i hi

/-- A finite set of channels has one that arrives last. -/
theorem exists_max (f : Nat → Nat) : ∀ n, 0 < n → ∃ j, j < n ∧ ∀ i, i < n → f i ≤ f j := by
  intro n
  induction n with
  | zero => omega
  | succ n ih =>
    intro _
    rcases Nat.eq_zero_or_pos n with h | h
    · subst h; exact ⟨0, by omega, fun i hi => by rw [show i = 0 by omega]; exact Nat.le_refl _⟩
    · obtain ⟨j, hj, hm⟩ := ih h
      by_cases hc : f n ≤ f j
      · refine ⟨j, by omega, fun i hi => ?_⟩
        by_cases hin : i = n
        · rw [hin]; exact hc
        · exact hm i (by omega)
      · refine ⟨n, by omega, fun i hi => ?_⟩
        by_cases hin : i = n
        · rw [hin]; exact Nat.le_refl _
        · have := hm i (by omega); omega

end Verif.ChanSync
