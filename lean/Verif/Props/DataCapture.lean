import Verif.Proofs.DataCapture
import Verif.Spec.Stream
import Verif.Spec.Serial

/-!
# Data capture: phase accumulators, delay control, deserialiser (C21, C54, C74, C75)
-/

namespace Verif.Props

open DataCapture Spec.Phase Spec.Stream
open Frame.Overflow (Pulse)

/-! ## Phase-error accumulators -/

/-- The Spartan-6 capture block from reset. -/
abbrev s6 (n : Nat) (inv : Bool) (x : Nat → S6.In) (t : Nat) : S6.State :=
  trace (S6.step n inv) (S6.reset n) x t

/-- The 7-series capture block from reset. -/
abbrev s7 (n : Nat) (x : Nat → S7.In) (t : Nat) : S7.State := trace (S7.step n) (S7.reset n) x t

/-- A phase event of the Spartan-6 block: +1 for a late sample, -1 for an early one; the detector
does not count while a delay line is moving. -/
def event6 (x : S6.In) : Int :=
  if x.pix2xEdge && x.pd_valid && !x.master_busy && !x.slave_busy then (if x.pd_incdec then -1 else 1)
  else 0

/-- The master samples at the last edge before instant `t` (0 before the first). -/
def lastData (x : Nat → S7.In) : Nat → BitVec 8
  | 0 => 0
  | t + 1 => if (x t).pixEdge then (x t).mdata else lastData x t

/-- A phase event of the 7-series block: when the samples have changed, -1 if the slave samples agree
with the master's (too early), +1 if not (too late). -/
def event7 (x : Nat → S7.In) (t : Nat) : Int :=
  if (x t).pixEdge && decide (lastData x t ≠ (x t).mdata) then
    (if (x t).mdata = (x t).sdata then -1 else 1)
  else 0

/-- The accumulator starts afresh at instant `q`: from power-up, or because a reset pulse has
arrived at the edge before. -/
def Restart6 (n : Nat) (inv : Bool) (x : Nat → S6.In) (q : Nat) : Prop :=
  q = 0 ∨ ∃ p, q = p + 1 ∧ (x p).pix2xEdge = true ∧ (s6 n inv x p).doReset.o = true

/-- No reset pulse arrives in the `t` instants from `q` on. -/
def NoReset6 (n : Nat) (inv : Bool) (x : Nat → S6.In) (q t : Nat) : Prop :=
  ∀ u, q ≤ u → u < q + t → ((x u).pix2xEdge && (s6 n inv x u).doReset.o) = false

def Restart7 (n : Nat) (x : Nat → S7.In) (q : Nat) : Prop :=
  q = 0 ∨ ∃ p, q = p + 1 ∧ (x p).pixEdge = true ∧ (s7 n x p).doReset.o = true

def NoReset7 (n : Nat) (x : Nat → S7.In) (q t : Nat) : Prop :=
  ∀ u, q ≤ u → u < q + t → ((x u).pixEdge && (s7 n x u).doReset.o) = false

theorem pow_facts (n : Nat) (hn : 1 ≤ n) :
    0 < 2 ^ (n - 1) ∧ 2 ^ (n - 1) ≤ 2 ^ n - 1 ∧ 2 ≤ 2 ^ n := by
  obtain ⟨m, rfl⟩ := Nat.exists_eq_add_of_le' hn
  have : 0 < 2 ^ m := Nat.two_pow_pos m
  rw [Nat.pow_succ, Nat.add_sub_cancel]
  omega

/-- One edge of an accumulator, as integers. -/
theorem acc_up {n v : Nat} (h : v < 2 ^ n - 1) : (v + 1) % 2 ^ n = v + 1 :=
  Nat.mod_eq_of_lt (by omega)

theorem acc_down {n v : Nat} (h0 : v ≠ 0) (h : v < 2 ^ n) : (v + 2 ^ n - 1) % 2 ^ n = v - 1 := by
  rw [show v + 2 ^ n - 1 = (v - 1) + 2 ^ n by omega, Nat.add_mod_right]
  exact Nat.mod_eq_of_lt (by omega)

theorem s6_le (n : Nat) (hn : 1 ≤ n) (inv : Bool) (x : Nat → S6.In) (t : Nat) :
    (s6 n inv x t).lateness ≤ 2 ^ n - 1 := by
  obtain ⟨p1, p2, p3⟩ := pow_facts n hn
  induction t with
  | zero => exact p2
  | succ t ih =>
    show (if _ then S6.accumulate n _ _ else _) ≤ _
    have hm : ∀ a, a % 2 ^ n ≤ 2 ^ n - 1 := fun a => by
      have := Nat.mod_lt a (show 2 ^ n > 0 by omega); omega
    unfold S6.accumulate
    repeat' split
    all_goals first | exact hm _ | exact ih | exact p2

theorem s6_acc (n : Nat) (hn : 1 ≤ n) (inv : Bool) (x : Nat → S6.In) (t : Nat)
    (hr : ((x t).pix2xEdge && (s6 n inv x t).doReset.o) = false) :
    ((s6 n inv x (t + 1)).lateness : Int) =
      if (s6 n inv x t).lateness = 0 ∨ (s6 n inv x t).lateness = 2 ^ n - 1 then
        ((s6 n inv x t).lateness : Int)
      else (s6 n inv x t).lateness + event6 (x t) := by
  obtain ⟨p1, p2, p3⟩ := pow_facts n hn
  have hle := s6_le n hn inv x t
  have e : (s6 n inv x (t + 1)).lateness =
      if (x t).pix2xEdge then S6.accumulate n (s6 n inv x t) (x t) else (s6 n inv x t).lateness := rfl
  rw [e]
  generalize s6 n inv x t = s at *
  unfold S6.accumulate event6 tooLate tooEarly
  by_cases hl : s.lateness = 0 ∨ s.lateness = 2 ^ n - 1
  · rw [if_pos hl]
    have : (!decide (s.lateness = 2 ^ n - 1) && !decide (s.lateness = 0)) = false := by
      rcases hl with h | h <;> simp [h]
    cases hp : (x t).pix2xEdge
    · simp
    · rw [hp, Bool.true_and] at hr
      simp [hr, Bool.and_assoc, this]
  · rw [if_neg hl]
    have e1 : s.lateness ≠ 0 := by omega
    have e2 : s.lateness ≠ 2 ^ n - 1 := by omega
    cases hp : (x t).pix2xEdge
    · simp
    · rw [hp, Bool.true_and] at hr
      rw [hr, acc_up (by omega), acc_down e1 (by omega)]
      cases (x t).master_busy <;> cases (x t).slave_busy <;> cases (x t).pd_valid <;>
        cases (x t).pd_incdec <;> simp [e1, e2] <;> omega

theorem s7_le (n : Nat) (hn : 1 ≤ n) (x : Nat → S7.In) (t : Nat) :
    (s7 n x t).lateness ≤ 2 ^ n - 1 := by
  obtain ⟨p1, p2, p3⟩ := pow_facts n hn
  induction t with
  | zero => exact p2
  | succ t ih =>
    show (if _ then S7.accumulate n _ _ else _) ≤ _
    have hm : ∀ a, a % 2 ^ n ≤ 2 ^ n - 1 := fun a => by
      have := Nat.mod_lt a (show 2 ^ n > 0 by omega); omega
    unfold S7.accumulate
    repeat' split
    all_goals first | exact hm _ | exact ih | exact p2

theorem s7_data (n : Nat) (x : Nat → S7.In) (t : Nat) : (s7 n x t).mdata_d = lastData x t := by
  induction t with
  | zero => rfl
  | succ t ih =>
    show (if _ then _ else (s7 n x t).mdata_d) = _
    rw [ih]; rfl

theorem s7_acc (n : Nat) (hn : 1 ≤ n) (x : Nat → S7.In) (t : Nat)
    (hr : ((x t).pixEdge && (s7 n x t).doReset.o) = false) :
    ((s7 n x (t + 1)).lateness : Int) =
      if (s7 n x t).lateness = 0 ∨ (s7 n x t).lateness = 2 ^ n - 1 then
        ((s7 n x t).lateness : Int)
      else (s7 n x t).lateness + event7 x t := by
  obtain ⟨p1, p2, p3⟩ := pow_facts n hn
  have hle := s7_le n hn x t
  have hd := s7_data n x t
  have e : (s7 n x (t + 1)).lateness =
      if (x t).pixEdge then S7.accumulate n (s7 n x t) (x t) else (s7 n x t).lateness := rfl
  rw [e]
  generalize s7 n x t = s at *
  unfold S7.accumulate event7 tooLate tooEarly S7.inc S7.dec
  rw [hd]
  by_cases hl : s.lateness = 0 ∨ s.lateness = 2 ^ n - 1
  · rw [if_pos hl]
    have : (!decide (s.lateness = 2 ^ n - 1) && !decide (s.lateness = 0)) = false := by
      rcases hl with h | h <;> simp [h]
    cases hp : (x t).pixEdge
    · simp
    · rw [hp, Bool.true_and] at hr
      simp only [hr, this, if_true, Bool.false_eq_true, if_false]
  · rw [if_neg hl]
    have e1 : s.lateness ≠ 0 := by omega
    have e2 : s.lateness ≠ 2 ^ n - 1 := by omega
    cases hp : (x t).pixEdge
    · simp
    · rw [hp, Bool.true_and] at hr
      rw [hr, acc_up (by omega), acc_down e1 (by omega)]
      generalize lastData x t = l, (x t).mdata = m, (x t).sdata = d
      by_cases h2 : m = d
      · subst h2
        by_cases h1 : l = m <;> simp [e1, e2, h1]
        omega
      · by_cases h1 : l = m <;> simp [e1, e2, h1, h2]

/-- **C21** (Spartan-6) From a restart at instant `q` on, as long as no reset pulse arrives: the
accumulator holds mid-scale plus late minus early events as long as these totals stay strictly
inside the range; `too_late` is 1 exactly if the total has reached full scale before reaching 0,
`too_early` exactly if it has reached 0 before full scale; they are never both 1. -/
theorem C21_accumulator_s6 (n : Nat) (hn : 1 ≤ n) (inv : Bool) (x : Nat → S6.In) (q t : Nat)
    (hq : Restart6 n inv x q) (hno : NoReset6 n inv x q t) :
    let mid : Int := 2 ^ (n - 1)
    let top : Int := 2 ^ n - 1
    let ev : Nat → Int := fun k => event6 (x (q + k))
    let lateness := (s6 n inv x (q + t)).lateness
    ((∀ j, j < t → 0 < total mid ev j ∧ total mid ev j < top) → (lateness : Int) = total mid ev t) ∧
    (tooLate n lateness = true ↔ Reaches mid top ev t top) ∧
    (tooEarly lateness = true ↔ Reaches mid top ev t 0) ∧
    ¬ (tooLate n lateness = true ∧ tooEarly lateness = true) := by
  obtain ⟨p1, p2, p3⟩ := pow_facts n hn
  have ht : ((2 ^ n - 1 : Nat) : Int) = 2 ^ n - 1 := by
    rw [Int.natCast_sub (by omega)]; norm_cast
  have hm : ((2 ^ (n - 1) : Nat) : Int) = 2 ^ (n - 1) := by norm_cast
  have h0 : (fun k => (s6 n inv x (q + k)).lateness) 0 = 2 ^ (n - 1) := by
    rcases hq with rfl | ⟨p, rfl, hp, ho⟩
    · rfl
    · show (if _ then S6.accumulate n _ _ else _) = _
      rw [if_pos hp, S6.accumulate, if_pos ho]
  have hs : ∀ u, u < t → (((fun k => (s6 n inv x (q + k)).lateness) (u + 1) : Nat) : Int) = _ :=
    fun u hu => s6_acc n hn inv x (q + u) (hno _ (by omega) (by omega))
  have hle : ∀ u, u ≤ t → (fun k => (s6 n inv x (q + k)).lateness) u ≤ 2 ^ n - 1 :=
    fun u _ => s6_le n hn inv x _
  intro mid top ev lateness
  have r1 := reaches_iff h0 hs hle (2 ^ n - 1) (Or.inr rfl)
  have r2 := reaches_iff h0 hs hle 0 (Or.inl rfl)
  have r3 := inside_eq h0 hs hle
  simp only [ht, hm] at r1 r2 r3
  refine ⟨r3, ?_, ?_, ?_⟩
  · rw [tooLate, decide_eq_true_iff]; exact r1
  · rw [tooEarly, decide_eq_true_iff]; exact r2
  · rw [tooLate, tooEarly, decide_eq_true_iff, decide_eq_true_iff]; omega

/-- **C21** (7-series), likewise. -/
theorem C21_accumulator_s7 (n : Nat) (hn : 1 ≤ n) (x : Nat → S7.In) (q t : Nat)
    (hq : Restart7 n x q) (hno : NoReset7 n x q t) :
    let mid : Int := 2 ^ (n - 1)
    let top : Int := 2 ^ n - 1
    let ev : Nat → Int := fun k => event7 x (q + k)
    let lateness := (s7 n x (q + t)).lateness
    ((∀ j, j < t → 0 < total mid ev j ∧ total mid ev j < top) → (lateness : Int) = total mid ev t) ∧
    (tooLate n lateness = true ↔ Reaches mid top ev t top) ∧
    (tooEarly lateness = true ↔ Reaches mid top ev t 0) ∧
    ¬ (tooLate n lateness = true ∧ tooEarly lateness = true) := by
  obtain ⟨p1, p2, p3⟩ := pow_facts n hn
  have ht : ((2 ^ n - 1 : Nat) : Int) = 2 ^ n - 1 := by
    rw [Int.natCast_sub (by omega)]; norm_cast
  have hm : ((2 ^ (n - 1) : Nat) : Int) = 2 ^ (n - 1) := by norm_cast
  have h0 : (fun k => (s7 n x (q + k)).lateness) 0 = 2 ^ (n - 1) := by
    rcases hq with rfl | ⟨p, rfl, hp, ho⟩
    · rfl
    · show (if _ then S7.accumulate n _ _ else _) = _
      rw [if_pos hp, S7.accumulate, if_pos ho]
  have hs : ∀ u, u < t → (((fun k => (s7 n x (q + k)).lateness) (u + 1) : Nat) : Int) = _ :=
    fun u hu => s7_acc n hn x (q + u) (hno _ (by omega) (by omega))
  have hle : ∀ u, u ≤ t → (fun k => (s7 n x (q + k)).lateness) u ≤ 2 ^ n - 1 :=
    fun u _ => s7_le n hn x _
  intro mid top ev lateness
  have r1 := reaches_iff (ev := ev) h0 hs hle (2 ^ n - 1) (Or.inr rfl)
  have r2 := reaches_iff (ev := ev) h0 hs hle 0 (Or.inl rfl)
  have r3 := inside_eq (ev := ev) h0 hs hle
  simp only [ht, hm] at r1 r2 r3
  refine ⟨r3, ?_, ?_, ?_⟩
  · rw [tooLate, decide_eq_true_iff]; exact r1
  · rw [tooEarly, decide_eq_true_iff]; exact r2
  · rw [tooLate, tooEarly, decide_eq_true_iff, decide_eq_true_iff]; omega

/-- With 3 bits: the total goes 4, 5, 6, 7 and latches although early events follow (C21). -/
example : let x : Nat → S6.In := fun t =>
      ⟨true, false, true, false, false, true, decide (3 ≤ t), 0, ⟨false, false, false, false, false, false⟩, false⟩
    Restart6 3 false x 0 ∧ NoReset6 3 false x 0 9 ∧
    (List.range 9).map (fun t => (s6 3 false x t).lateness) = [4, 5, 6, 7, 7, 7, 7, 7, 7] := by
  refine ⟨Or.inl rfl, ?_, by decide⟩
  intro u h0 hu
  clear h0
  rw [Nat.zero_add] at hu
  revert u
  decide +kernel

/-- Likewise for the 7-series: the samples change at every edge and the slave agrees. -/
example : let x : Nat → S7.In := fun t =>
      ⟨true, true, BitVec.ofNat 8 (t + 1), BitVec.ofNat 8 (t + 1), false⟩
    Restart7 3 x 0 ∧ NoReset7 3 x 0 9 ∧
    (List.range 9).map (fun t => (s7 3 x t).lateness) = [4, 3, 2, 1, 0, 0, 0, 0, 0] := by
  refine ⟨Or.inl rfl, ?_, by decide⟩
  intro u h0 hu
  clear h0
  rw [Nat.zero_add] at hu
  revert u
  decide +kernel

/-! ## Reading the phase flags after a reset -/

/-- The synchroniser has passed on everything it was given. -/
def AtRest (p : Pulse) : Prop := p.m0 = p.toggle ∧ p.m1 = p.toggle ∧ p.last = p.toggle

/-- The age of a pulse sent at `r` is the number of target edges since. -/
theorem pulse_age (p : Nat → Pulse) (src i dst : Nat → Bool)
    (hp : ∀ t, p (t + 1) = (p t).step (src t) (i t) (dst t)) (r : Nat) (h0 : AtRest (p r))
    (hr : src r = true ∧ i r = true) (d : Nat)
    (hno : ∀ u, r < u → u < r + 1 + d → (src u && i u) = false) :
    PulseAt (p (r + 1 + d)) (countIn dst (r + 1) d) := by
  induction d with
  | zero =>
    rw [Nat.add_zero, hp, hr.1, hr.2]
    exact pulse_start (k := 3) (by omega) h0 _
  | succ d ih =>
    have := pulse_step (ih fun u h1 h2 => hno u h1 (by omega)) (src (r + 1 + d)) (i (r + 1 + d))
      (dst (r + 1 + d)) (hno _ (by omega) (by omega))
    rw [← hp] at this
    rw [show r + 1 + (d + 1) = r + 1 + d + 1 by omega]
    show PulseAt _ (countIn dst (r + 1) d + if dst (r + 1 + d) then 1 else 0)
    cases hd : dst (r + 1 + d)
    · rw [hd] at this; exact this
    · rw [hd] at this; exact this

theorem count_mono (p : Nat → Bool) (t m n : Nat) (h : m ≤ n) : countIn p t m ≤ countIn p t n := by
  induction n with
  | zero => rw [Nat.le_zero.1 h]; exact Nat.le_refl _
  | succ n ih =>
    by_cases e : m = n + 1
    · rw [e]; exact Nat.le_refl _
    · exact Nat.le_trans (ih (by omega)) (Nat.le_add_right _ _)

/-- `p` is the third instant after `r` at which `edge` holds. -/
def ThirdAfter (edge : Nat → Bool) (r p : Nat) : Prop :=
  r < p ∧ edge p = true ∧ countIn edge (r + 1) (p - (r + 1)) = 2

/-- At instant `t` the value that a two-register synchroniser shows was taken at `u`: the last but
one edge. -/
def TakenAt (edge : Nat → Bool) (u t : Nat) : Prop :=
  ∃ u', u < u' ∧ u' < t ∧ edge u = true ∧ edge u' = true ∧
    (∀ v, u < v → v < u' → edge v = false) ∧ (∀ v, u' < v → v < t → edge v = false)

theorem hold {α : Type} (f : Nat → α) (edge : Nat → Bool) (g : Nat → α)
    (h : ∀ t, f (t + 1) = if edge t then g t else f t) (u d : Nat) (hu : edge u = true)
    (hn : ∀ v, u < v → v < u + 1 + d → edge v = false) : f (u + 1 + d) = g u := by
  induction d with
  | zero => rw [Nat.add_zero, h, hu]; rfl
  | succ d ih =>
    rw [show u + 1 + (d + 1) = u + 1 + d + 1 by omega, h, hn _ (by omega) (by omega)]
    exact ih fun v h1 h2 => hn v h1 (by omega)

theorem taken_at_eq {α : Type} (f0 f : Nat → α) (edge : Nat → Bool) (g : Nat → α)
    (h0 : ∀ t, f0 (t + 1) = if edge t then g t else f0 t)
    (h : ∀ t, f (t + 1) = if edge t then f0 t else f t) (u t : Nat) (ht : TakenAt edge u t) :
    f t = g u := by
  obtain ⟨u', h1, h2, h3, h4, h5, h6⟩ := ht
  have a := hold f edge f0 h u' (t - (u' + 1)) h4 (fun v a b => h6 v a (by omega))
  have b := hold f0 edge g h0 u (u' - (u + 1)) h3 (fun v a b => h5 v a (by omega))
  rw [show u' + 1 + (t - (u' + 1)) = t by omega] at a
  rw [show u + 1 + (u' - (u + 1)) = u' by omega] at b
  rw [a, b]

/-- The reset written at `r` arrives at the third edge `p`, and only then. -/
theorem reset_arrives (p : Nat → Pulse) (src i dst : Nat → Bool)
    (hp : ∀ t, p (t + 1) = (p t).step (src t) (i t) (dst t)) (r p3 u : Nat) (h0 : AtRest (p r))
    (hr : src r = true ∧ i r = true) (hno : ∀ v, r < v → v < u → (src v && i v) = false)
    (h3 : ThirdAfter dst r p3) (hu : p3 < u) :
    (p p3).o = true ∧ ∀ v, p3 < v → v < u → (p v).o = false := by
  obtain ⟨a, b, c⟩ := h3
  constructor
  · have := pulse_age p src i dst hp r h0 hr (p3 - (r + 1)) (fun v h1 h2 => hno v h1 (by omega))
    rw [c, show r + 1 + (p3 - (r + 1)) = p3 by omega] at this
    rw [pulse_o this]; rfl
  · intro v h1 h2
    have := pulse_age p src i dst hp r h0 hr (v - (r + 1)) (fun w h1 h2 => hno w h1 (by omega))
    rw [show r + 1 + (v - (r + 1)) = v by omega] at this
    rw [pulse_o this, decide_eq_false_iff_not]
    have hm := count_mono dst (r + 1) (p3 - (r + 1) + 1) (v - (r + 1)) (by omega)
    have : countIn dst (r + 1) (p3 - (r + 1) + 1) = 3 := by
      show countIn dst (r + 1) (p3 - (r + 1)) + _ = 3
      rw [c, show r + 1 + (p3 - (r + 1)) = p3 by omega, b]; rfl
    omega

/-- C74: flags read after a phase reset tell about events after it: `too_late` reads 1 only if a
late event has occurred since. -/
def C74_full : Prop := ∀ (n : Nat), 2 ≤ n → ∀ (x : Nat → S6.In) (r t : Nat), r < t →
  (x r).sysEdge = true → (x r).phase_reset = true → (s6 n false x t).phase.1 = true →
  ∃ u, r < u ∧ u < t ∧ event6 (x u) = 1

/-- **C74** is false of the code: directly after the reset the flags of the time before are read. -/
theorem C74_violated : ¬ C74_full := by
  intro h
  let x : Nat → S6.In := fun t =>
    ⟨true, false, true, false, false, t == 0, false, 0, ⟨false, false, false, false, false, false⟩, t == 5⟩
  obtain ⟨u, h1, h2, h3⟩ := h 2 (by decide) x 5 6 (by decide) rfl rfl (by decide)
  omega

/-- **C74**, what holds (Spartan-6).  Software writes the phase reset at `r`, no earlier reset being
under way.  The reset acts at the third following `pix2x` edge `p`; flags read at `t` whose value was
taken from the accumulator at `u > p` are exactly about the events from `p + 1` to `u`, and are never
both 1.  Missing: values taken before, for which it is false (`C74_violated`). -/
theorem C74_phase_flags_s6_partial (n : Nat) (hn : 1 ≤ n) (inv : Bool) (x : Nat → S6.In)
    (r p u t : Nat) (hrest : AtRest (s6 n inv x r).doReset)
    (hr : (x r).sysEdge = true ∧ (x r).phase_reset = true)
    (hno : ∀ v, r < v → v < u → ((x v).sysEdge && (x v).phase_reset) = false)
    (hp : ThirdAfter (fun v => (x v).pix2xEdge) r p) (hu : p < u)
    (ht : TakenAt (fun v => (x v).sysEdge) u t) :
    let mid : Int := 2 ^ (n - 1)
    let top : Int := 2 ^ n - 1
    let ev : Nat → Int := fun k => event6 (x (p + 1 + k))
    ((s6 n inv x t).phase.1 = true ↔ Reaches mid top ev (u - (p + 1)) top) ∧
    ((s6 n inv x t).phase.2 = true ↔ Reaches mid top ev (u - (p + 1)) 0) ∧
    (s6 n inv x t).phase ≠ (true, true) := by
  obtain ⟨a1, a2⟩ := reset_arrives (fun t => (s6 n inv x t).doReset) (fun v => (x v).sysEdge)
    (fun v => (x v).phase_reset) (fun v => (x v).pix2xEdge) (fun t => rfl) r p u hrest hr hno hp hu
  have hphase : (s6 n inv x t).phase =
      (tooLate n (s6 n inv x u).lateness, tooEarly (s6 n inv x u).lateness) :=
    taken_at_eq (fun t => (s6 n inv x t).phase0) (fun t => (s6 n inv x t).phase)
      (fun v => (x v).sysEdge) (fun u => (tooLate n (s6 n inv x u).lateness,
        tooEarly (s6 n inv x u).lateness)) (fun t => rfl) (fun t => rfl) u t ht
  have hc := C21_accumulator_s6 n hn inv x (p + 1) (u - (p + 1)) (Or.inr ⟨p, rfl, hp.2.1, a1⟩)
    (fun v h1 h2 => by rw [a2 v (by omega) (by omega), Bool.and_false])
  rw [show p + 1 + (u - (p + 1)) = u by omega] at hc
  obtain ⟨-, c1, c2, c3⟩ := hc
  rw [hphase]
  refine ⟨c1, c2, fun e => c3 ?_⟩
  rw [Prod.mk.injEq] at e
  exact e

/-- **C74**, what holds (7-series), likewise. -/
theorem C74_phase_flags_s7_partial (n : Nat) (hn : 1 ≤ n) (x : Nat → S7.In)
    (r p u t : Nat) (hrest : AtRest (s7 n x r).doReset)
    (hr : (x r).sysEdge = true ∧ (x r).phase_reset = true)
    (hno : ∀ v, r < v → v < u → ((x v).sysEdge && (x v).phase_reset) = false)
    (hp : ThirdAfter (fun v => (x v).pixEdge) r p) (hu : p < u)
    (ht : TakenAt (fun v => (x v).sysEdge) u t) :
    let mid : Int := 2 ^ (n - 1)
    let top : Int := 2 ^ n - 1
    let ev : Nat → Int := fun k => event7 x (p + 1 + k)
    ((s7 n x t).phase.1 = true ↔ Reaches mid top ev (u - (p + 1)) top) ∧
    ((s7 n x t).phase.2 = true ↔ Reaches mid top ev (u - (p + 1)) 0) ∧
    (s7 n x t).phase ≠ (true, true) := by
  obtain ⟨a1, a2⟩ := reset_arrives (fun t => (s7 n x t).doReset) (fun v => (x v).sysEdge)
    (fun v => (x v).phase_reset) (fun v => (x v).pixEdge) (fun t => rfl) r p u hrest hr hno hp hu
  have hphase : (s7 n x t).phase =
      (tooLate n (s7 n x u).lateness, tooEarly (s7 n x u).lateness) :=
    taken_at_eq (fun t => (s7 n x t).phase0) (fun t => (s7 n x t).phase)
      (fun v => (x v).sysEdge) (fun u => (tooLate n (s7 n x u).lateness,
        tooEarly (s7 n x u).lateness)) (fun t => rfl) (fun t => rfl) u t ht
  have hc := C21_accumulator_s7 n hn x (p + 1) (u - (p + 1)) (Or.inr ⟨p, rfl, hp.2.1, a1⟩)
    (fun v h1 h2 => by rw [a2 v (by omega) (by omega), Bool.and_false])
  rw [show p + 1 + (u - (p + 1)) = u by omega] at hc
  obtain ⟨-, c1, c2, c3⟩ := hc
  rw [hphase]
  refine ⟨c1, c2, fun e => c3 ?_⟩
  rw [Prod.mk.injEq] at e
  exact e

/-- Both clocks at every instant, reset at 5: it acts at 8; at 20 the flags were taken at 18. -/
example : let x : Nat → S6.In := fun t =>
      ⟨true, false, true, false, false, t == 0, false, 0, ⟨false, false, false, false, false, false⟩, t == 5⟩
    AtRest (s6 2 false x 5).doReset ∧ ThirdAfter (fun v => (x v).pix2xEdge) 5 8 ∧
    TakenAt (fun v => (x v).sysEdge) 18 20 ∧ (s6 2 false x 7).phase = (true, false) ∧
    (s6 2 false x 20).phase = (false, false) := by
  refine ⟨⟨by decide, by decide, by decide⟩, ⟨by decide, by decide, by decide⟩,
    ⟨19, by decide, by decide, rfl, rfl, fun v h1 h2 => by omega, fun v h1 h2 => by omega⟩,
    by decide +kernel, by decide +kernel⟩

/-! ## Delay control -/

/-- Software asks the master delay line to calibrate or step at this instant. -/
def masterRequest (x : S6.In) : Bool := x.sysEdge && (x.ctl.master_cal || x.ctl.inc || x.ctl.dec)

def slaveRequest (x : S6.In) : Bool := x.sysEdge && (x.ctl.slave_cal || x.ctl.inc || x.ctl.dec)

def masterOf (s : S6.State) : Delay.State :=
  { cal := s.doMasterCal, inc := s.doInc, dec := s.doDec, pending := s.master_pending
    doneI := s.masterDoneI, done := s.masterDone, flag := s.sys_master_pending }

def masterIn (x : S6.In) : Delay.In :=
  { pixEdge := x.pix2xEdge, sysEdge := x.sysEdge, busy := x.master_busy, cal := x.ctl.master_cal
    inc := x.ctl.inc, dec := x.ctl.dec }

def slaveOf (s : S6.State) : Delay.State :=
  { cal := s.doSlaveCal, inc := s.doInc, dec := s.doDec, pending := s.slave_pending
    doneI := s.slaveDoneI, done := s.slaveDone, flag := s.sys_slave_pending }

def slaveIn (x : S6.In) : Delay.In :=
  { pixEdge := x.pix2xEdge, sysEdge := x.sysEdge, busy := x.slave_busy, cal := x.ctl.slave_cal
    inc := x.ctl.inc, dec := x.ctl.dec }

theorem master_trace (n : Nat) (inv : Bool) (x : Nat → S6.In) (t : Nat) :
    masterOf (s6 n inv x t) =
      trace Delay.step (masterOf (S6.reset n)) (fun t => masterIn (x t)) t := by
  induction t with
  | zero => rfl
  | succ t ih =>
    rw [trace_succ, ← ih]
    rfl

theorem slave_trace (n : Nat) (inv : Bool) (x : Nat → S6.In) (t : Nat) :
    slaveOf (s6 n inv x t) =
      trace Delay.step (slaveOf (S6.reset n)) (fun t => slaveIn (x t)) t := by
  induction t with
  | zero => rfl
  | succ t ih =>
    rw [trace_succ, ← ih]
    rfl

theorem idle_reset (n : Nat) : Delay.Good .idle (masterOf (S6.reset n)) ∧
    Delay.Good .idle (slaveOf (S6.reset n)) :=
  ⟨⟨⟨rfl, rfl, rfl⟩, ⟨rfl, rfl, rfl⟩, ⟨rfl, rfl, rfl⟩, rfl, rfl, ⟨rfl, rfl, rfl⟩, rfl⟩,
    ⟨⟨rfl, rfl, rfl⟩, ⟨rfl, rfl, rfl⟩, ⟨rfl, rfl, rfl⟩, rfl, rfl, ⟨rfl, rfl, rfl⟩, rfl⟩⟩

/-- **C54** (master delay line) Software that asks only while the busy flag reads 0 asks at instant
`r`.  At every later instant `t` the flag reads 1, unless the delay line has got exactly the command
asked for at some `pix2x` edge `e` and was not busy at a later edge `e'`. -/
theorem C54_master_busy (n : Nat) (inv : Bool) (x : Nat → S6.In)
    (hpol : ∀ t, masterRequest (x t) = true → (s6 n inv x t).sys_master_pending = false) (r t : Nat)
    (hr : masterRequest (x r) = true) (ht : r < t) :
    (s6 n inv x t).sys_master_pending = true ∨
    ∃ e e', r < e ∧ e < e' ∧ e' < t ∧ (x e).pix2xEdge = true ∧
      (s6 n inv x e).doMasterCal.o = (x r).ctl.master_cal ∧
      (s6 n inv x e).doInc.o = (x r).ctl.inc ∧ (s6 n inv x e).doDec.o = (x r).ctl.dec ∧
      (x e').pix2xEdge = true ∧ (x e').master_busy = false := by
  have hp : ∀ t, (masterIn (x t)).request = true →
      (trace Delay.step (masterOf (S6.reset n)) (fun t => masterIn (x t)) t).flag = false :=
    fun t h => by rw [← master_trace n inv]; exact hpol t h
  obtain ⟨d, rfl⟩ := Nat.exists_eq_add_of_lt ht
  rw [show r + d + 1 = r + 1 + d by omega]
  rcases Delay.covers (idle_reset n).1 hp r hr d with ⟨e, e', h1, h2, h3, h4, h5, h6⟩ | ⟨k, h⟩ |
    ⟨e, h1, h2, h3, h⟩
  · refine Or.inr ⟨e, e', h1, h2, h3, h4.1, ?_, ?_, ?_, h5, h6⟩
    · have := h4.2.1; rw [← master_trace n inv] at this; exact this
    · have := h4.2.2.1; rw [← master_trace n inv] at this; exact this
    · have := h4.2.2.2; rw [← master_trace n inv] at this; exact this
  · have := (Delay.good_flag h).2 (by simp)
    rw [← master_trace n inv] at this
    exact Or.inl this
  · have := (Delay.good_flag h).2 (by simp)
    rw [← master_trace n inv] at this
    exact Or.inl this

/-- **C54** (slave delay line), likewise. -/
theorem C54_slave_busy (n : Nat) (inv : Bool) (x : Nat → S6.In)
    (hpol : ∀ t, slaveRequest (x t) = true → (s6 n inv x t).sys_slave_pending = false) (r t : Nat)
    (hr : slaveRequest (x r) = true) (ht : r < t) :
    (s6 n inv x t).sys_slave_pending = true ∨
    ∃ e e', r < e ∧ e < e' ∧ e' < t ∧ (x e).pix2xEdge = true ∧
      (s6 n inv x e).doSlaveCal.o = (x r).ctl.slave_cal ∧
      (s6 n inv x e).doInc.o = (x r).ctl.inc ∧ (s6 n inv x e).doDec.o = (x r).ctl.dec ∧
      (x e').pix2xEdge = true ∧ (x e').slave_busy = false := by
  have hp : ∀ t, (slaveIn (x t)).request = true →
      (trace Delay.step (slaveOf (S6.reset n)) (fun t => slaveIn (x t)) t).flag = false :=
    fun t h => by rw [← slave_trace n inv]; exact hpol t h
  obtain ⟨d, rfl⟩ := Nat.exists_eq_add_of_lt ht
  rw [show r + d + 1 = r + 1 + d by omega]
  rcases Delay.covers (idle_reset n).2 hp r hr d with ⟨e, e', h1, h2, h3, h4, h5, h6⟩ | ⟨k, h⟩ |
    ⟨e, h1, h2, h3, h⟩
  · refine Or.inr ⟨e, e', h1, h2, h3, h4.1, ?_, ?_, ?_, h5, h6⟩
    · have := h4.2.1; rw [← slave_trace n inv] at this; exact this
    · have := h4.2.2.1; rw [← slave_trace n inv] at this; exact this
    · have := h4.2.2.2; rw [← slave_trace n inv] at this; exact this
  · have := (Delay.good_flag h).2 (by simp)
    rw [← slave_trace n inv] at this
    exact Or.inl this
  · have := (Delay.good_flag h).2 (by simp)
    rw [← slave_trace n inv] at this
    exact Or.inl this

/-- **C54** The busy flags are cleared: if both clocks keep running and each delay line is idle at
some `pix2x` edge again and again, then for software that asks only while a flag reads 0 that flag
reads 0 at some instant from any `t` on. -/
theorem C54_cleared (n : Nat) (inv : Bool) (x : Nat → S6.In)
    (hsys : ∀ n, ∃ m, n ≤ m ∧ (x m).sysEdge = true) (t : Nat) :
    ((∀ t, masterRequest (x t) = true → (s6 n inv x t).sys_master_pending = false) →
      (∀ n, ∃ m, n ≤ m ∧ ((x m).pix2xEdge && !(x m).master_busy) = true) →
      ∃ t', t ≤ t' ∧ (s6 n inv x t').sys_master_pending = false) ∧
    ((∀ t, slaveRequest (x t) = true → (s6 n inv x t).sys_slave_pending = false) →
      (∀ n, ∃ m, n ≤ m ∧ ((x m).pix2xEdge && !(x m).slave_busy) = true) →
      ∃ t', t ≤ t' ∧ (s6 n inv x t').sys_slave_pending = false) := by
  constructor
  · intro hpol hpix
    have hp : ∀ t, (masterIn (x t)).request = true →
        (trace Delay.step (masterOf (S6.reset n)) (fun t => masterIn (x t)) t).flag = false :=
      fun t h => by rw [← master_trace n inv]; exact hpol t h
    obtain ⟨st, h⟩ := Delay.stage_at (idle_reset n).1 hp t
    obtain ⟨t', h1, h2⟩ := Delay.clears hp hpix hsys st t h
    rw [← master_trace n inv] at h2
    exact ⟨t', h1, h2⟩
  · intro hpol hpix
    have hp : ∀ t, (slaveIn (x t)).request = true →
        (trace Delay.step (slaveOf (S6.reset n)) (fun t => slaveIn (x t)) t).flag = false :=
      fun t h => by rw [← slave_trace n inv]; exact hpol t h
    obtain ⟨st, h⟩ := Delay.stage_at (idle_reset n).2 hp t
    obtain ⟨t', h1, h2⟩ := Delay.clears hp hpix hsys st t h
    rw [← slave_trace n inv] at h2
    exact ⟨t', h1, h2⟩

/-- A calibration of the master at instant 2, during which it is busy for four clocks. -/
def calibration (t : Nat) : S6.In :=
  ⟨true, false, true, decide (6 ≤ t ∧ t < 10), false, false, false, 0,
    ⟨t == 2, false, false, false, false, false⟩, false⟩

/-- It meets the hypotheses of C54; the flag reads 1 from 3 to 14. -/
example : (∀ t, masterRequest (calibration t) = true →
      (s6 8 false calibration t).sys_master_pending = false) ∧
    masterRequest (calibration 2) = true ∧
    (∀ n, ∃ m, n ≤ m ∧ (calibration m).sysEdge = true) ∧
    (∀ n, ∃ m, n ≤ m ∧ ((calibration m).pix2xEdge && !(calibration m).master_busy) = true) ∧
    (∀ t, t < 20 → (s6 8 false calibration t).sys_master_pending = decide (3 ≤ t ∧ t < 15)) := by
  refine ⟨fun t h => ?_, rfl, fun n => ⟨n, Nat.le_refl _, rfl⟩, fun n => ⟨n + 10, by omega, ?_⟩,
    by decide +kernel⟩
  · have : t = 2 := by
      simp [masterRequest, calibration] at h
      exact h
    subst this
    decide +kernel
  · simp [calibration]

/-- **C54** needs software to wait: a step asked for at instant 7, while the acknowledge of an
earlier one (at 0) is under way, is not covered: the flag reads 0 at instant 9, before the delay line
has got the command. -/
theorem C54_overlap : ∃ (x : Nat → S6.In), masterRequest (x 7) = true ∧
    (s6 8 false x 9).sys_master_pending = false ∧
    (∀ e, 7 < e → e < 10 → ((s6 8 false x e).doMasterCal.o || S6.delayCe (s6 8 false x e)) = false) ∧
    ((x 10).pix2xEdge && S6.delayCe (s6 8 false x 10)) = true := by
  refine ⟨fun t => ⟨true, false, true, false, false, false, false, 0,
    ⟨false, false, false, false, t == 0 || t == 7, false⟩, false⟩, rfl, by decide +kernel, fun e h1 h2 => ?_,
    by decide +kernel⟩
  revert h1
  revert e
  decide +kernel

/-! ## Spartan-6 deserialiser -/

/-- Number of `pix2x` edges before instant `t`. -/
def edges2x (x : Nat → S6.In) (t : Nat) : Nat := countIn (fun v => (x v).pix2xEdge) 0 t

/-- Bit `j` of the shift register. -/
theorem dsr_bit (n : Nat) (inv : Bool) (x : Nat → S6.In) (bits : Nat → Bool)
    (hx : ∀ t, (x t).pix2xEdge = true → (x t).dsr2 = ofBits 5 fun j => bits (5 * edges2x x t + j))
    (t : Nat) : ∀ j, j < 10 → 10 ≤ 5 * edges2x x t + j →
      (s6 n inv x t).dsr.getLsbD j = bits (5 * edges2x x t + j - 10) := by
  induction t with
  | zero => intro j h1 h2; exact absurd h2 (by show ¬ 10 ≤ 5 * 0 + j; omega)
  | succ t ih =>
    intro j h1 h2
    have e : edges2x x (t + 1) = edges2x x t + if (x (0 + t)).pix2xEdge then 1 else 0 := rfl
    rw [Nat.zero_add] at e
    show (if (x t).pix2xEdge then _ else _ : BitVec 10).getLsbD j = _
    cases hp : (x t).pix2xEdge
    · rw [hp] at e
      simp only [Bool.false_eq_true, if_false, Nat.add_zero] at e ⊢
      rw [e] at h2 ⊢
      exact ih j h1 h2
    · rw [hp] at e
      simp only [if_true] at e ⊢
      rw [e] at h2 ⊢
      rw [hx t hp, BitVec.getLsbD_append]
      by_cases hj : j < 5
      · rw [if_pos hj, BitVec.getLsbD_extractLsb', ih (5 + j) (by omega) (by omega)]
        simp only [hj, decide_true, Bool.true_and]
        congr 1
        omega
      · rw [if_neg hj, getLsbD_ofBits, decide_eq_true (by omega), Bool.true_and]
        congr 1
        omega

/-- **C75** The SERDES hands over the serial bits five at a time.  The word taken at a pixel clock
edge `t` is the ten latest bits in order of arrival, least significant first (complemented on an
inverted pad): after `m` `pix2x` edges, the bits `5 m - 10, ..., 5 m - 1`.  So with two `pix2x` edges
per pixel clock consecutive words are adjacent and no bit is lost or repeated. -/
theorem C75_deserialised (n : Nat) (inv : Bool) (x : Nat → S6.In) (bits : Nat → Bool)
    (hx : ∀ t, (x t).pix2xEdge = true → (x t).dsr2 = ofBits 5 fun j => bits (5 * edges2x x t + j))
    (t m : Nat) (ht : (x t).pixEdge = true) (hm : edges2x x t = m + 2) :
    (s6 n inv x (t + 1)).d =
      if inv then ~~~(Spec.Serial.wordAt bits (5 * m)) else Spec.Serial.wordAt bits (5 * m) := by
  have hw : (s6 n inv x t).dsr = Spec.Serial.wordAt bits (5 * m) := by
    apply BitVec.eq_of_getLsbD_eq
    intro j hj
    rw [dsr_bit n inv x bits hx t j hj (by omega), hm, Spec.Serial.wordAt, getLsbD_ofBits, decide_eq_true hj,
      Bool.true_and]
    congr 1
    omega
  show (if (x t).pixEdge then _ else _) = _
  rw [ht, hw]
  rfl

/-- `pix2x` at every instant, the pixel clock at the odd ones: the word taken at instant 5 is the
bits 15 to 24 (C75). -/
example : let bits : Nat → Bool := fun p => p % 3 == 0
    let x : Nat → S6.In := fun t => ⟨true, t % 2 == 1, false, false, false, false, false,
      ofBits 5 fun j => bits (5 * t + j), ⟨false, false, false, false, false, false⟩, false⟩
    (∀ t, (x t).pix2xEdge = true → (x t).dsr2 = ofBits 5 fun j => bits (5 * edges2x x t + j)) ∧
    (x 5).pixEdge = true ∧ edges2x x 5 = 3 + 2 ∧ (s6 8 false x 6).d = 0b1001001001#10 := by
  refine ⟨fun t _ => ?_, rfl, rfl, by decide +kernel⟩
  have : ∀ t, edges2x (fun t => ⟨true, t % 2 == 1, false, false, false, false, false,
      ofBits 5 fun j => (5 * t + j) % 3 == 0, ⟨false, false, false, false, false, false⟩, false⟩) t = t := by
    intro t
    induction t with
    | zero => rfl
    | succ t ih => show edges2x _ t + 1 = _; rw [ih]
  simp only [this]

end Verif.Props
