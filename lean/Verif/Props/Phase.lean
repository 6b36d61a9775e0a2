import Verif.Props.DataCapture
import Verif.Spec.Eye
import Verif.Model.Encoder

/-!
# C108: the phase status never points the wrong way
-/

namespace Verif.Props

open DataCapture Spec.Phase Spec.Stream Spec.Eye

theorem chunk_bit (line : Nat → Bool) (p j : Nat) (hj : j < 8) : (chunk line p).getLsbD j = line (p + j) := by
  rw [chunk, getLsbD_ofBits]; simp [hj]

/-- The slave agrees with a late master only in a run of nine equal bits. -/
theorem late_agrees (line : Nat → Bool) (p : Nat) (h : chunk line p = chunk line (p + 1)) (j : Nat)
    (hj : j < 8) : line (p + j) = line (p + j + 1) := by
  rw [← chunk_bit line p j hj, h, chunk_bit line (p + 1) j hj]
  congr 1; omega

section
variable {n : Nat} {x : Nat → S7.In} {line : Nat → Bool} {q p : Nat}

/-- The samples at the last edge. -/
theorem last_chunk {late : Bool} (hs : Samples late line x q p) (t m : Nat)
    (hm : countIn (fun u => (x u).pixEdge) q t = m + 1) : lastData x (q + t) = chunk line (p + 8 * m) := by
  induction t generalizing m with
  | zero => simp [countIn] at hm
  | succ t ih =>
    rw [countIn] at hm
    show (if (x (q + t)).pixEdge then (x (q + t)).mdata else lastData x (q + t)) = _
    cases he : (x (q + t)).pixEdge
    · rw [he] at hm
      exact ih m (by simpa using hm)
    · rw [he] at hm
      simp only [if_true] at hm ⊢
      rw [(hs t he).1, show countIn (fun u => (x u).pixEdge) q t = m by omega]

/-- Events of one kind only: the total moves by one at each change. -/
theorem total_changes {late : Bool} (hs : Samples late line x q p) (mid : Int)
    (hkind : late = true → ShortRuns line) (t : Nat) :
    let m := countIn (fun u => (x u).pixEdge) q t
    let tot := total mid (fun k => event7 x (q + k)) t
    (late = false → tot ≤ mid - changes line p (m - 1)) ∧
    (late = true → mid + changes line p (m - 1) ≤ tot) := by
  induction t with
  | zero =>
    simp [total, countIn, changes]
  | succ t ih =>
    intro m tot
    simp only at ih
    have hm : m = countIn (fun u => (x u).pixEdge) q t + (if (x (q + t)).pixEdge then 1 else 0) := rfl
    have ht : tot = total mid (fun k => event7 x (q + k)) t + event7 x (q + t) := rfl
    cases he : (x (q + t)).pixEdge
    · have e0 : event7 x (q + t) = 0 := by simp [event7, he]
      rw [he] at hm
      rw [ht, hm, e0]
      simpa using ih
    · rw [he] at hm
      simp only [if_true] at hm
      obtain ⟨h1, h2⟩ := hs t he
      have hev : event7 x (q + t) = if lastData x (q + t) ≠ (x (q + t)).mdata then
          (if late then 1 else -1) else 0 := by
        unfold event7
        rw [he, Bool.true_and]
        by_cases hc : lastData x (q + t) = (x (q + t)).mdata
        · simp [hc]
        · simp only [ne_eq, hc, not_false_eq_true, decide_true, if_true]
          cases hl : late
          · rw [h1, h2, hl]; simp
          · rw [hl] at h2
            rw [if_neg]
            · simp
            · intro e
              rw [h1, h2] at e
              obtain ⟨j, hj, hne⟩ := hkind hl (p + 8 * countIn (fun u => (x u).pixEdge) q t)
              exact hne (late_agrees line _ e j hj)
      cases hk : countIn (fun u => (x u).pixEdge) q t with
      | zero =>
        rw [hk] at ih hm
        rw [ht, hm, hev]
        simp only [Nat.zero_add, Nat.sub_self, Nat.zero_sub] at ih ⊢
        cases late <;> split <;> simp at ih ⊢ <;> omega
      | succ k =>
        rw [hk] at ih hm h1
        have hd := last_chunk hs t k hk
        have hc : changes line p (k + 1) = changes line p k +
            if chunk line (p + 8 * k) ≠ chunk line (p + 8 * (k + 1)) then 1 else 0 := by
          simp [changes, countIn]
        rw [ht, hm, hev, hd, h1, Nat.add_sub_cancel]
        rw [Nat.add_sub_cancel] at ih
        rw [hc]
        cases late <;> split <;> simp at ih ⊢ <;> omega

end

/-- The phase status points the right way at instant `q + t`: not to "late" if the sampling is early, not to
"early" if it is late. -/
def PointsRight (late : Bool) (n lateness : Nat) : Prop :=
  (if late then tooEarly lateness else tooLate n lateness) = false

/-- **C108** (full statement) Whatever pixels the transmitter sends, wherever the receiver's groups of eight
bits fall in its words: after a restart of the accumulator the phase status points the right way. -/
def C108_statement : Prop :=
  ∀ (n : Nat) (late : Bool) (e : Nat → Encoder.In) (lead : Nat → Bool) (k : Nat) (x : Nat → S7.In)
    (q p t : Nat), 2 ≤ n → Restart7 n x q → NoReset7 n x q t →
    Samples late (Spec.Serial.serialise k lead fun u => (trace Encoder.step Encoder.reset e u).out) x q p →
    PointsRight late n (s7 n x (q + t)).lateness

theorem mid_facts (n : Nat) (hn : 2 ≤ n) :
    (0 : Int) < 2 ^ (n - 1) ∧ (2 : Int) ^ (n - 1) < 2 ^ n - 1 ∧ (2 : Int) ^ n = 2 * 2 ^ (n - 1) := by
  obtain ⟨m, rfl⟩ := Nat.exists_eq_add_of_le' hn
  have h : 0 < 2 ^ m := Nat.two_pow_pos m
  have h1 : (2 : Int) ^ (m + 2 - 1) = 2 * 2 ^ m := by
    rw [show m + 2 - 1 = m + 1 by omega, Int.pow_succ, Int.mul_comm]
  have h2 : (2 : Int) ^ (m + 2) = 4 * 2 ^ m := by
    rw [Int.pow_succ, Int.pow_succ]; omega
  have h3 : (0 : Int) < 2 ^ m := by exact_mod_cast h
  rw [h1, h2]
  omega

/-- **C108** Too early sampling is never reported as too late, for any bits on the line. -/
theorem C108_early_partial (n : Nat) (hn : 2 ≤ n) (line : Nat → Bool) (x : Nat → S7.In) (q p t : Nat)
    (hq : Restart7 n x q) (hno : NoReset7 n x q t) (hs : Samples false line x q p) :
    PointsRight false n (s7 n x (q + t)).lateness := by
  obtain ⟨m1, m2, -⟩ := mid_facts n hn
  show tooLate n _ = false
  cases h : tooLate n (s7 n x (q + t)).lateness
  · rfl
  · obtain ⟨k, hk, h1, -⟩ := (C21_accumulator_s7 n (by omega) x q t hq hno).2.1.mp h
    have := (total_changes hs (2 ^ (n - 1)) (by simp) k).1 rfl
    omega

/-- **C108** Too late sampling is never reported as too early if the line has no run of nine equal bits.
Missing: lines with such runs, for which it is false (`C108_violated`). -/
theorem C108_late_partial (n : Nat) (hn : 2 ≤ n) (line : Nat → Bool) (hr : ShortRuns line) (x : Nat → S7.In)
    (q p t : Nat) (hq : Restart7 n x q) (hno : NoReset7 n x q t) (hs : Samples true line x q p) :
    PointsRight true n (s7 n x (q + t)).lateness := by
  obtain ⟨m1, m2, -⟩ := mid_facts n hn
  show tooEarly _ = false
  cases h : tooEarly (s7 n x (q + t)).lateness
  · rfl
  · obtain ⟨k, hk, h1, -⟩ := (C21_accumulator_s7 n (by omega) x q t hq hno).2.2.1.mp h
    have := (total_changes hs (2 ^ (n - 1)) (fun _ => hr) k).2 rfl
    omega

/-- The total of single steps that is below (above) a bound has been at the bound. -/
theorem event7_step (x : Nat → S7.In) (t : Nat) : -1 ≤ event7 x t ∧ event7 x t ≤ 1 := by
  unfold event7
  split
  · split <;> omega
  · omega

theorem first_exit (mid top : Int) (ev : Nat → Int) (hev : ∀ k, -1 ≤ ev k ∧ ev k ≤ 1) (h0 : 0 < mid)
    (h1 : mid < top) (t : Nat) (h : total mid ev t ≤ 0 ∨ top ≤ total mid ev t) :
    Reaches mid top ev t 0 ∨ Reaches mid top ev t top := by
  induction t with
  | zero => simp only [total] at h; omega
  | succ t ih =>
    by_cases hc : ∃ k, k ≤ t ∧ (total mid ev k ≤ 0 ∨ top ≤ total mid ev k)
    · obtain ⟨k, hk, hb⟩ := hc
      by_cases hb' : total mid ev t ≤ 0 ∨ top ≤ total mid ev t
      · rcases ih hb' with ⟨k, a, b⟩ | ⟨k, a, b⟩
        · exact Or.inl ⟨k, by omega, b⟩
        · exact Or.inr ⟨k, by omega, b⟩
      · -- the first one
        clear ih h hb'
        induction k using Nat.strongRecOn with
        | _ k ihk =>
          by_cases hf : ∃ j, j < k ∧ (total mid ev j ≤ 0 ∨ top ≤ total mid ev j)
          · obtain ⟨j, hj, hb2⟩ := hf
            exact ihk j hj (by omega) hb2
          · have hin : ∀ j, j < k → 0 < total mid ev j ∧ total mid ev j < top := by
              intro j hj
              have : ¬ (total mid ev j ≤ 0 ∨ top ≤ total mid ev j) := fun h => hf ⟨j, hj, h⟩
              omega
            cases k with
            | zero => simp only [total] at hb; omega
            | succ k =>
              have h3 := hin k (by omega)
              have h4 : total mid ev (k + 1) = total mid ev k + ev k := rfl
              have h5 := hev k
              rcases hb with hb | hb
              · exact Or.inl ⟨k + 1, by omega, by omega, hin⟩
              · exact Or.inr ⟨k + 1, by omega, by omega, hin⟩
    · have hin : ∀ j, j < t + 1 → 0 < total mid ev j ∧ total mid ev j < top := by
        intro j hj
        have : ¬ (total mid ev j ≤ 0 ∨ top ≤ total mid ev j) := fun h => hc ⟨j, by omega, h⟩
        omega
      have h3 := hin t (by omega)
      have h4 : total mid ev (t + 1) = total mid ev t + ev t := rfl
      have h5 := hev t
      rcases h with hb | hb
      · exact Or.inl ⟨t + 1, by omega, by omega, hin⟩
      · exact Or.inr ⟨t + 1, by omega, by omega, hin⟩

/-- **C108** The flags are raised: after `2 ^ (n - 1)` changes from one group of eight bits to the next,
too early sampling is reported as such, and so is too late sampling of a line without long runs. -/
theorem C108_reported_partial (n : Nat) (hn : 2 ≤ n) (late : Bool) (line : Nat → Bool)
    (hr : late = true → ShortRuns line) (x : Nat → S7.In) (q p t : Nat)
    (hq : Restart7 n x q) (hno : NoReset7 n x q t) (hs : Samples late line x q p)
    (hc : 2 ^ (n - 1) ≤ changes line p (countIn (fun u => (x u).pixEdge) q t - 1)) :
    (if late then tooLate n (s7 n x (q + t)).lateness else tooEarly (s7 n x (q + t)).lateness) = true := by
  obtain ⟨m1, m2, m3⟩ := mid_facts n hn
  obtain ⟨-, c1, c2, -⟩ := C21_accumulator_s7 n (by omega) x q t hq hno
  have hcz : (2 : Int) ^ (n - 1) ≤ changes line p (countIn (fun u => (x u).pixEdge) q t - 1) := by
    exact_mod_cast hc
  have hev : ∀ k, -1 ≤ event7 x (q + k) ∧ event7 x (q + k) ≤ 1 := fun k => event7_step x (q + k)
  cases late with
  | false =>
    have h := (total_changes hs (2 ^ (n - 1)) hr t).1 rfl
    rcases first_exit (2 ^ (n - 1)) (2 ^ n - 1) _ hev m1 m2 t (Or.inl (by omega)) with h1 | h1
    · exact c2.mpr h1
    · obtain ⟨k, hk, e, -⟩ := h1
      have := (total_changes hs (2 ^ (n - 1)) hr k).1 rfl
      omega
  | true =>
    have h := (total_changes hs (2 ^ (n - 1)) hr t).2 rfl
    rcases first_exit (2 ^ (n - 1)) (2 ^ n - 1) _ hev m1 m2 t (Or.inr (by omega)) with h1 | h1
    · obtain ⟨k, hk, e, -⟩ := h1
      have := (total_changes hs (2 ^ (n - 1)) hr k).2 rfl
      omega
    · exact c1.mpr h1

/-! ## The full statement does not hold -/

/-- A picture whose columns repeat with period 8. -/
def columns (u : Nat) : Encoder.In :=
  { d := [0, 65, 1, 251, 1, 0, 227, 254].getD (u % 8) 0, c := 0, de := true }

/-- The words on the line. -/
def columnWords (u : Nat) : BitVec 10 := (trace Encoder.step Encoder.reset columns u).out

theorem column_state (u : Nat) : trace Encoder.step Encoder.reset columns (u + 24 + 8) =
    trace Encoder.step Encoder.reset columns (u + 24) := by
  induction u with
  | zero => decide +kernel
  | succ u ih =>
    have hc : columns (u + 24 + 8) = columns (u + 24) := by
      unfold columns
      rw [Nat.add_mod_right]
    show Encoder.step (trace Encoder.step Encoder.reset columns (u + 24 + 8)) (columns (u + 24 + 8)) =
      Encoder.step (trace Encoder.step Encoder.reset columns (u + 24)) (columns (u + 24))
    rw [ih, hc]

theorem column_period (u : Nat) : columnWords (24 + u) = columnWords (24 + u % 8) := by
  induction u using Nat.strongRecOn with
  | _ u ih =>
    rcases Nat.lt_or_ge u 8 with h | h
    · rw [Nat.mod_eq_of_lt h]
    · have e : columnWords (24 + u) = columnWords (24 + (u - 8)) := by
        have := column_state (u - 8)
        unfold columnWords
        rw [show 24 + u = u - 8 + 24 + 8 by omega, this, Nat.add_comm]
      rw [e, ih (u - 8) (by omega), ← Nat.mod_eq_sub_mod h]

theorem column_words (r : Nat) (h : r < 8) :
    columnWords (24 + r) = [768, 1023, 11, 0, 1023, 960, 511, 3].getD r 0 := by
  revert r h; decide +kernel

/-- The bits on the line. -/
def columnLine : Nat → Bool := Spec.Serial.serialise 0 (fun _ => false) columnWords

/-- One period of the line. -/
def columnBit (j : Nat) : Bool :=
  ([768, 1023, 11, 0, 1023, 960, 511, 3].getD (j % 80 / 10) (0 : BitVec 10)).getLsbD (j % 80 % 10)

theorem columnLine_bit (j : Nat) : columnLine (240 + j) = columnBit j := by
  unfold columnLine Spec.Serial.serialise columnBit
  rw [if_neg (by omega), Nat.sub_zero, show (240 + j) / 10 = 24 + j / 10 by omega,
    show (240 + j) % 10 = j % 80 % 10 by omega, column_period]
  rw [show j / 10 % 8 = j % 80 / 10 by omega, column_words _ (by omega)]

/-- The groups of eight bits on the line repeat with period 10. -/
theorem column_chunk (m a : Nat) :
    chunk columnLine (240 + 8 * m + a) = chunk columnBit (8 * (m % 10) + a) := by
  unfold chunk
  congr 1
  funext j
  rw [show 240 + 8 * m + a + j = 240 + (8 * m + a + j) by omega, columnLine_bit]
  unfold columnBit
  rw [show (8 * m + a + j) % 80 = (8 * (m % 10) + a + j) % 80 by omega]

/-- The receiver samples that line too late, from bit 240 on; every instant is an edge of its clock. -/
def columnRun (t : Nat) : S7.In :=
  { pixEdge := true, sysEdge := true, mdata := chunk columnLine (240 + 8 * t)
    sdata := chunk columnLine (240 + 8 * t + 1), phase_reset := false }

/-- The events of one period. -/
def columnEvent (r : Nat) : Int := [0, -1, 1, -1, 0, -1, 1, -1, 1, -1].getD r 0

theorem column_event (t : Nat) : event7 columnRun t = columnEvent (t % 10) := by
  have hl : lastData columnRun t = chunk columnBit (8 * ((t + 9) % 10)) := by
    cases t with
    | zero => decide +kernel
    | succ t =>
      show chunk columnLine (240 + 8 * t) = _
      rw [show 240 + 8 * t = 240 + 8 * t + 0 from rfl, column_chunk]
      rw [show t % 10 = (t + 1 + 9) % 10 by omega, Nat.add_zero]
  have hm : (columnRun t).mdata = chunk columnBit (8 * (t % 10)) := column_chunk t 0
  have hd : (columnRun t).sdata = chunk columnBit (8 * (t % 10) + 1) := column_chunk t 1
  have key : ∀ r, r < 10 → (if decide (chunk columnBit (8 * ((r + 9) % 10)) ≠ chunk columnBit (8 * r)) then
      (if chunk columnBit (8 * r) = chunk columnBit (8 * r + 1) then (-1 : Int) else 1) else 0) =
      columnEvent r := by decide +kernel
  unfold event7
  rw [show (columnRun t).pixEdge = true from rfl, Bool.true_and, hl, hm, hd,
    show (t + 9) % 10 = (t % 10 + 9) % 10 by omega]
  exact key (t % 10) (Nat.mod_lt _ (by omega))

/-- Every ten groups the total falls by two. -/
theorem column_total (t : Nat) : total 128 (event7 columnRun) t =
    128 - 2 * (t / 10 : Nat) + [0, 0, -1, 0, -1, -1, -2, -1, -2, -1].getD (t % 10) 0 := by
  induction t with
  | zero => decide
  | succ t ih =>
    have key : ∀ r, r < 10 →
        [0, 0, -1, 0, -1, -1, -2, -1, -2, -1].getD r (0 : Int) + columnEvent r =
        [0, 0, -1, 0, -1, -1, -2, -1, -2, -1].getD ((r + 1) % 10) 0 - 2 * ((r + 1) / 10 : Nat) := by
      decide +kernel
    have k := key (t % 10) (Nat.mod_lt _ (by omega))
    show total 128 (event7 columnRun) t + event7 columnRun t = _
    rw [ih, column_event, Int.add_assoc, k, show (t % 10 + 1) % 10 = (t + 1) % 10 by omega,
      show (t + 1) / 10 = t / 10 + (t % 10 + 1) / 10 by omega]
    push_cast
    omega

theorem column_bound (t : Nat) : total 128 (event7 columnRun) t ≤ 128 := by
  have key : ∀ r, r < 10 → [0, 0, -1, 0, -1, -1, -2, -1, -2, -1].getD r (0 : Int) ≤ 0 := by decide
  have := key (t % 10) (Nat.mod_lt _ (by omega))
  rw [column_total]
  omega

theorem column_noReset (t : Nat) : (s7 8 columnRun t).doReset = Pulse.rest := by
  induction t with
  | zero => rfl
  | succ t ih =>
    show ((s7 8 columnRun t).doReset.step true false true) = _
    rw [ih]; rfl

theorem every_edge (x : Nat → S7.In) (h : ∀ t, (x t).pixEdge = true) (t : Nat) :
    countIn (fun u => (x u).pixEdge) 0 t = t := by
  induction t with
  | zero => rfl
  | succ t ih => rw [countIn, ih, Nat.zero_add, h]; rfl

/-- **C108** The full statement is false: of a picture with some particular columns, too late sampling is
reported as too early, with the default width of the accumulator. -/
theorem C108_violated : ¬ C108_statement := by
  intro h
  have hno : NoReset7 8 columnRun 0 640 := by
    intro u _ _
    rw [column_noReset]; rfl
  have hs : Samples true columnLine columnRun 0 240 := by
    intro t _
    rw [every_edge columnRun (fun _ => rfl), Nat.zero_add]
    exact ⟨rfl, rfl⟩
  have hw := h 8 true columns (fun _ => false) 0 columnRun 0 240 640 (by omega) (Or.inl rfl) hno hs
  have hr : Reaches 128 255 (event7 columnRun) 640 0 := by
    rcases first_exit 128 255 (event7 columnRun) (event7_step columnRun) (by omega) (by omega) 640
      (Or.inl (by rw [column_total]; decide)) with h1 | ⟨k, -, e, -⟩
    · exact h1
    · have := column_bound k
      omega
  have ht := (C21_accumulator_s7 8 (by omega) columnRun 0 640 (Or.inl rfl) hno).2.2.1.mpr (by
    simp only [Nat.zero_add]
    exact hr)
  rw [PointsRight, if_pos rfl, ht] at hw
  exact absurd hw (by decide)

/-! A line with runs of five and six bits, sampled early or late: the hypotheses of the theorems above are
met, the first two groups differ from their successors so often that the flag is raised. -/

/-- Five ones, six zeros. -/
def shortRunLine (p : Nat) : Bool := decide (p % 11 < 5)

def shortRunSamples (late : Bool) (t : Nat) : S7.In :=
  { pixEdge := true, sysEdge := true, mdata := chunk shortRunLine (8 * t)
    sdata := chunk shortRunLine (8 * t + if late then 1 else 0), phase_reset := false }

example : ShortRuns shortRunLine := by
  intro p
  have key : ∀ r, r < 11 → ∃ j, j < 8 ∧ shortRunLine (r + j) ≠ shortRunLine (r + j + 1) := by decide +kernel
  obtain ⟨j, hj, h⟩ := key (p % 11) (Nat.mod_lt _ (by omega))
  refine ⟨j, hj, ?_⟩
  unfold shortRunLine at h ⊢
  rw [show (p + j) % 11 = (p % 11 + j) % 11 by omega, show (p + j + 1) % 11 = (p % 11 + j + 1) % 11 by omega]
  exact h

example (late : Bool) : Restart7 3 (shortRunSamples late) 0 ∧ NoReset7 3 (shortRunSamples late) 0 9 ∧
    Samples late shortRunLine (shortRunSamples late) 0 0 ∧ 2 ^ (3 - 1) ≤ changes shortRunLine 0 (9 - 1) ∧
    (s7 3 (shortRunSamples late) 9).lateness = if late then 7 else 0 := by
  refine ⟨Or.inl rfl, ?_, ?_, by decide +kernel, by cases late <;> decide +kernel⟩
  · have key : ∀ u, u < 9 → ((shortRunSamples late u).pixEdge && (s7 3 (shortRunSamples late) u).doReset.o) = false := by
      cases late <;> decide +kernel
    intro u _ hu
    exact key u (by omega)
  · intro t _
    rw [every_edge (shortRunSamples late) (fun _ => rfl), Nat.zero_add, Nat.zero_add]
    exact ⟨rfl, rfl⟩

end Verif.Props
