import Verif.Spec.Underflow
import Verif.Proofs.BusSync

/-!
# Lemmas about the underflow counter with its two clocks
-/

namespace Verif.Proofs.Underflow

open Verif.Output Verif.Spec.Stream Verif.Spec.Underflow
open BusSync (At Pulse)
open UnderflowCdc

variable (i : Nat → UnderflowCdc.In)

theorem run_succ (t : Nat) : run i (t + 1) = step (run i t) (i t) := rfl

theorem mix_same (a e : BitVec 32) : (a &&& e) ||| (a &&& ~~~e) = a := by
  ext k hk
  simp only [BitVec.getElem_or, BitVec.getElem_and, BitVec.getElem_not]
  cases a[k] <;> cases e[k] <;> rfl

/-- The enable does not change at instant `t`: the counter follows it. -/
theorem counter_succ (t : Nat) (h : (run i (t + 1)).m1 = (run i t).m1) :
    (run i (t + 1)).counter =
      if (i t).cdEdge then count (run i t).m1 (i t).valid (run i t).counter else (run i t).counter := by
  have h' : (if (i t).sysEdge then (run i t).m0 else (run i t).m1) = (run i t).m1 := h
  rw [run_succ]
  simp only [step, h', mix_same]

theorem countIn_split (p : Nat → Bool) (t m n : Nat) :
    countIn p t (m + n) = countIn p t m + countIn p (t + m) n := by
  induction n with
  | zero => rfl
  | succ n ih =>
    rw [← Nat.add_assoc, countIn, ih, countIn, Nat.add_assoc t m n, Nat.add_assoc]

theorem countIn_front (p : Nat → Bool) {a b : Nat} (h : a < b) :
    countIn p a (b - a) = (if p a then 1 else 0) + countIn p (a + 1) (b - (a + 1)) := by
  rw [show b - a = 1 + (b - (a + 1)) by omega, countIn_split]
  simp [countIn]

theorem countIn_back (p : Nat → Bool) {a b : Nat} (h : a ≤ b) :
    countIn p a (b + 1 - a) = countIn p a (b - a) + if p b then 1 else 0 := by
  rw [show b + 1 - a = (b - a) + 1 by omega, countIn, show a + (b - a) = b by omega]

theorem countIn_eq_zero (p : Nat → Bool) (a n : Nat) :
    countIn p a n = 0 ↔ ∀ v, a ≤ v → v < a + n → p v = false := by
  induction n with
  | zero => exact ⟨fun _ v h1 h2 => by omega, fun _ => rfl⟩
  | succ n ih =>
    rw [countIn]
    constructor
    · intro h v h1 h2
      by_cases hv : v = a + n
      · subst hv
        cases hp : p (a + n)
        · rfl
        · rw [hp] at h; simp at h
      · exact ih.1 (by omega) v h1 (by omega)
    · intro h
      rw [ih.2 (fun v h1 h2 => h v h1 (by omega)), h (a + n) (by omega) (by omega)]
      rfl

theorem countIn_le_of (p q : Nat → Bool) (h : ∀ v, p v = true → q v = true) (a n : Nat) :
    countIn p a n ≤ countIn q a n := by
  induction n with
  | zero => exact Nat.le_refl _
  | succ n ih =>
    rw [countIn, countIn]
    cases hp : p (a + n)
    · simp only [Bool.false_eq_true, if_false]; split <;> omega
    · rw [h _ hp]; simp only [if_true]; omega

/-! ### The enable and the counter -/

/-- While the enable is off and two edges of the system clock have passed, the two stages are off. -/
theorem stages_off {o : Nat} (n : Nat) (h : ∀ t, o ≤ t → t < o + n → (i t).enable = false) :
    (1 ≤ countIn (sys i) o n → (run i (o + n)).m0 = false) ∧
    (2 ≤ countIn (sys i) o n → (run i (o + n)).m1 = false) := by
  induction n with
  | zero => exact ⟨fun h => by simp [countIn] at h, fun h => by simp [countIn] at h⟩
  | succ n ih =>
    obtain ⟨i0, i1⟩ := ih (fun t h1 h2 => h t h1 (by omega))
    rw [← Nat.add_assoc, run_succ, countIn]
    simp only [step, sys]
    by_cases he : (i (o + n)).sysEdge = true
    · simp only [he, if_true]
      exact ⟨fun _ => h _ (by omega) (by omega), fun hc => i0 (by omega)⟩
    · simp only [he]
      exact ⟨i0, i1⟩

/-- State in which the counter is off for good. -/
def Off (s : State) : Prop := s.m0 = false ∧ s.m1 = false ∧ s.counter = 0

theorem stages_stay {p : Nat} (h0 : (run i p).m0 = false ∧ (run i p).m1 = false) (n : Nat)
    (h : ∀ t, p ≤ t → t < p + n → (i t).enable = false) :
    (run i (p + n)).m0 = false ∧ (run i (p + n)).m1 = false := by
  induction n with
  | zero => exact h0
  | succ n ih =>
    obtain ⟨i0, i1⟩ := ih (fun t h1 h2 => h t h1 (by omega))
    rw [← Nat.add_assoc, run_succ]
    simp only [step, i0, i1, h (p + n) (by omega) (by omega), ite_self, and_self]

theorem counter_cleared {p : Nat} (h0 : (run i p).m0 = false ∧ (run i p).m1 = false) (n : Nat)
    (h : ∀ t, p ≤ t → t < p + n → (i t).enable = false)
    (hc : (run i p).counter = 0 ∨ 1 ≤ countIn (cd i) p n) : (run i (p + n)).counter = 0 := by
  induction n with
  | zero => exact hc.resolve_right (by simp [countIn])
  | succ n ih =>
    have a := stages_stay i h0 n (fun t h1 h2 => h t h1 (by omega))
    have b := stages_stay i h0 (n + 1) h
    rw [← Nat.add_assoc] at b ⊢
    rw [counter_succ i (p + n) (by rw [a.2, b.2])]
    by_cases he : (i (p + n)).cdEdge = true
    · simp only [he, if_true, a.2, count, Bool.false_eq_true, if_false]
    · simp only [he]
      refine ih (fun t h1 h2 => h t h1 (by omega)) (hc.imp id fun hc => ?_)
      rw [countIn] at hc
      simp only [cd, he] at hc ⊢
      exact hc

theorem off_of_offUntil {w : Nat} (h : OffUntil i w) : Off (run i w) := by
  obtain ⟨o, p, hop, hpw, hoff, hc⟩ := h
  rcases hc with rfl | ⟨hs, hc⟩
  · have h0 : (run i 0).m0 = false ∧ (run i 0).m1 = false := ⟨rfl, rfl⟩
    have ho : ∀ t, 0 ≤ t → t < 0 + w → (i t).enable = false := fun t _ h => hoff t (by omega) (by omega)
    have a := stages_stay i h0 w ho
    have b := counter_cleared i h0 w ho (Or.inl rfl)
    rw [Nat.zero_add] at a b
    exact ⟨a.1, a.2, b⟩
  · have a := stages_off i (o := o) (p - o) (fun t h1 h2 => hoff t h1 (by omega))
    rw [show o + (p - o) = p by omega] at a
    have h0 := And.intro (a.1 (by omega)) (a.2 hs)
    have ho : ∀ t, p ≤ t → t < p + (w - p) → (i t).enable = false := fun t h1 h2 =>
      hoff t (by omega) (by omega)
    have b := stages_stay i h0 (w - p) ho
    have c := counter_cleared i h0 (w - p) ho (Or.inr hc)
    rw [show p + (w - p) = w by omega] at b c
    exact ⟨b.1, b.2, c⟩

/-- From `w` to the second edge of the system clock the counter stays at 0. -/
theorem waiting {w : Nat} (h0 : Off (run i w)) (n : Nat)
    (hon : ∀ t, w ≤ t → t < w + n → (i t).enable = true) (hn : countIn (sys i) w n ≤ 1) :
    (run i (w + n)).m0 = decide (countIn (sys i) w n = 1) ∧ (run i (w + n)).m1 = false ∧
      (run i (w + n)).counter = 0 := by
  induction n with
  | zero => exact ⟨by rw [Nat.add_zero, h0.1]; rfl, h0.2.1, h0.2.2⟩
  | succ n ih =>
    have hn' : countIn (sys i) w n ≤ 1 := by rw [countIn] at hn; omega
    obtain ⟨a, b, c⟩ := ih (fun t h1 h2 => hon t h1 (by omega)) hn'
    have m1 : (run i (w + n + 1)).m1 = false := by
      rw [run_succ]; simp only [step, b]
      by_cases he : (i (w + n)).sysEdge = true
      · rw [if_pos he, a, decide_eq_false]
        rw [countIn] at hn; simp only [sys, he, if_true] at hn ⊢; omega
      · rw [if_neg he]
    rw [← Nat.add_assoc]
    refine ⟨?_, m1, ?_⟩
    · rw [run_succ]; simp only [step, countIn]
      by_cases he : (i (w + n)).sysEdge = true
      · rw [countIn] at hn
        simp only [sys, he, if_true] at hn ⊢
        rw [hon _ (by omega) (by omega)]; symm; rw [decide_eq_true_iff]; omega
      · simp only [sys, he]; exact a
    · rw [counter_succ i _ (by rw [m1, b]), b, c]
      simp [count]

theorem mix_one (e : BitVec 32) (v : Bool) :
    (count true v 0 &&& e) ||| (count false v 0 &&& ~~~e) = 0 ∨
    v = false ∧ (count true v 0 &&& e) ||| (count false v 0 &&& ~~~e) = 1 := by
  cases v
  · rcases h : e.getLsbD 0
    · refine Or.inl ?_
      apply BitVec.eq_of_getLsbD_eq
      intro k hk
      rcases k with _ | k
      · simpa [count] using h
      · simp [count, BitVec.getLsbD_one]
    · refine Or.inr ⟨rfl, ?_⟩
      apply BitVec.eq_of_getLsbD_eq
      intro k hk
      rcases k with _ | k
      · simp [count, h]
      · simp [count, BitVec.getLsbD_one]
  · exact Or.inl (by simp [count])

/-- The counter starts at the second edge of the system clock. -/
theorem starts {w s : Nat} (h0 : Off (run i w)) (hs : SecondEdge i w s)
    (hon : ∀ t, w ≤ t → t < s → (i t).enable = true) :
    (run i (s + 1)).m1 = true  ∧
      ((run i (s + 1)).counter = 0 ∨ stalled i s = true ∧ (run i (s + 1)).counter = 1) := by
  obtain ⟨h1, h2, h3⟩ := hs
  have a := waiting i h0 (s - w) (fun t ha hb => hon t ha (by omega)) (by omega)
  rw [show w + (s - w) = s by omega, h3] at a
  obtain ⟨a0, a1, a2⟩ := a
  rw [run_succ]
  refine ⟨by simp [step, h2, a0], ?_⟩
  simp only [step, h2, if_true, a0, a1, a2, decide_true, stalled]
  by_cases he : (i s).cdEdge = true
  · simp only [he, if_true, Bool.true_and]
    rcases mix_one (i s).early (i s).valid with h | ⟨hv, h⟩
    · exact Or.inl h
    · exact Or.inr ⟨by rw [hv]; rfl, h⟩
  · rw [if_neg he]; exact Or.inl rfl

theorem m0_on {s : Nat} (h2 : (i s).sysEdge = true) (hon : (i s).enable = true) :
    (run i (s + 1)).m0 = true := by rw [run_succ]; simp [step, h2, hon]

/-- While the enable stays on, the counter counts the stalled clocks. -/
theorem counts {a : Nat} (h0 : (run i a).m0 = true) (h1 : (run i a).m1 = true) (n : Nat)
    (hon : ∀ t, a ≤ t → t < a + n → (i t).enable = true) :
    (run i (a + n)).m0 = true ∧ (run i (a + n)).m1 = true ∧
    (run i (a + n)).counter.toNat = ((run i a).counter.toNat + countIn (stalled i) a n) % 2 ^ 32 := by
  induction n with
  | zero => exact ⟨h0, h1, (Nat.mod_eq_of_lt (BitVec.isLt _)).symm⟩
  | succ n ih =>
    obtain ⟨i0, i1, ic⟩ := ih (fun t ha hb => hon t ha (by omega))
    have m1 : (run i (a + n + 1)).m1 = true := by
      rw [run_succ]; simp only [step, i0, i1, ite_self]
    rw [← Nat.add_assoc]
    refine ⟨?_, m1, ?_⟩
    · rw [run_succ]; simp only [step, i0, hon (a + n) (by omega) (by omega), ite_self]
    · rw [counter_succ i _ (by rw [m1, i1]), i1, countIn]
      by_cases he : (i (a + n)).cdEdge = true
      · cases hv : (i (a + n)).valid
        · simp only [he, if_true, count, hv, Bool.not_false, stalled, Bool.and_self, BitVec.toNat_add, ic]
          rw [show BitVec.toNat (1 : BitVec 32) = 1 from rfl]
          omega
        · simp only [he, if_true, count, hv, Bool.not_true, stalled, Bool.and_false, Bool.false_eq_true,
            if_false, ic, Nat.add_zero]
      · simp only [Bool.not_eq_true] at he
        simp only [he, Bool.false_eq_true, if_false, stalled, Bool.false_and, ic, Nat.add_zero]

/-! ### The request -/

theorem pulse_succ (t : Nat) : (run i (t + 1)).pulse =
    (run i t).pulse.step (i t).sysEdge (i t).update (i t).cdEdge (i t).pulseEarly := rfl

/-- Without requests the pulse synchroniser comes to rest, whatever its state. -/
theorem settles (q n : Nat) (h : ∀ v, q ≤ v → v < q + n → asks i v = false) :
    (1 ≤ countIn (cd i) q n → (run i (q + n)).pulse.m0 = (run i (q + n)).pulse.toggle) ∧
    (2 ≤ countIn (cd i) q n → (run i (q + n)).pulse.m1 = (run i (q + n)).pulse.toggle) ∧
    (3 ≤ countIn (cd i) q n → (run i (q + n)).pulse.last = (run i (q + n)).pulse.toggle) := by
  induction n with
  | zero => simp [countIn]
  | succ n ih =>
    obtain ⟨a, b, c⟩ := ih (fun t ha hb => h t ha (by omega))
    have hi : ((i (q + n)).sysEdge && (i (q + n)).update) = false := h _ (by omega) (by omega)
    rw [← Nat.add_assoc, pulse_succ, countIn]
    by_cases he : (i (q + n)).cdEdge = true
    · simp only [Pulse.step, hi, he, cd, if_true, Bool.false_eq_true, if_false, ite_self]
      exact ⟨fun _ => trivial, fun hc => a (by omega), fun hc => b (by omega)⟩
    · simp only [Pulse.step, hi, he, cd, if_false, Bool.false_eq_true]
      exact ⟨a, b, c⟩

theorem rest_run {q : Nat} (h0 : At (run i q).pulse 3) (n : Nat)
    (h : ∀ v, q ≤ v → v < q + n → asks i v = false) : At (run i (q + n)).pulse 3 := by
  induction n with
  | zero => exact h0
  | succ n ih =>
    exact BusSync.rest_stays (ih fun v ha hb => h v ha (by omega)) _ _ _ _ (h (q + n) (by omega) (by omega))

theorem rest_before {u : Nat} (h : ∃ q, q ≤ u ∧ (∀ v, q ≤ v → v < u → asks i v = false) ∧
    (q = 0 ∨ 3 ≤ countIn (cd i) q (u - q))) : At (run i u).pulse 3 := by
  obtain ⟨q, hq, hn, h⟩ := h
  rcases h with rfl | h
  · have := rest_run i (q := 0) ⟨rfl, rfl, rfl⟩ u (fun v ha hb => hn v ha (by omega))
    rwa [Nat.zero_add] at this
  · have := settles i q (u - q) (fun v ha hb => hn v ha (by omega))
    rw [show q + (u - q) = u by omega] at this
    exact ⟨this.1 (by omega), this.2.1 (by omega), this.2.2 h⟩

/-- A pulse of age `k` on its way. -/
theorem moves {a k : Nat} (h0 : At (run i a).pulse k) (n : Nat)
    (h : ∀ v, a ≤ v → v < a + n → asks i v = false) :
    At (run i (a + n)).pulse (k + countIn (cd i) a n) := by
  induction n with
  | zero => exact h0
  | succ n ih =>
    have := BusSync.at_move (ih fun v ha hb => h v ha (by omega)) (i (a + n)).sysEdge (i (a + n)).update
      (i (a + n)).cdEdge (i (a + n)).pulseEarly (h (a + n) (by omega) (by omega))
    rw [← Nat.add_assoc, pulse_succ, countIn]
    cases hc : (i (a + n)).cdEdge <;> rw [hc] at this <;> simpa [cd, hc, Nat.add_assoc] using this

/-- The `m`-th later edge exists if enough edges follow. -/
theorem find_edge (p : Nat → Bool) (a m : Nat) : ∀ n, m < countIn p a n →
    ∃ z, a ≤ z ∧ z < a + n ∧ p z = true ∧ countIn p a (z - a) = m := by
  intro n
  induction n with
  | zero => intro h; simp [countIn] at h
  | succ n ih =>
    intro h
    by_cases hm : m < countIn p a n
    · obtain ⟨z, h1, h2, h3⟩ := ih hm
      exact ⟨z, h1, by omega, h3⟩
    · rw [countIn] at h
      cases hp : p (a + n)
      · rw [hp] at h; simp at h; omega
      · rw [hp] at h; simp only [if_true] at h
        exact ⟨a + n, by omega, by omega, hp, by rw [Nat.add_sub_cancel_left]; omega⟩

/-- The status stays while no pulse comes out. -/
theorem status_stays {a : Nat} (n : Nat)
    (h : ∀ v, a ≤ v → v < a + n → (run i v).pulse.o = false ∨ (i v).cdEdge = false) :
    (run i (a + n)).status = (run i a).status := by
  induction n with
  | zero => rfl
  | succ n ih =>
    rw [← Nat.add_assoc, run_succ]
    simp only [step]
    rw [if_neg, ih fun v ha hb => h v ha (by omega)]
    rcases h (a + n) (by omega) (by omega) with h | h <;> simp [h]

/-- A request makes the status the value that the counter has at the second or third later clock of the
port. -/
theorem taken {u t : Nat} (h : Request i u t) :
    ∃ z, u < z ∧ z < t ∧ (i z).cdEdge = true ∧
      1 ≤ countIn (cd i) (u + 1) (z - (u + 1)) ∧ countIn (cd i) (u + 1) (z - (u + 1)) ≤ 2 ∧
      (run i t).status = (run i z).counter := by
  have hr := rest_before i h.before
  have ha := h.asked
  have hl := h.long
  simp only [asks, Bool.and_eq_true] at ha
  have ht : u + 1 ≤ t := by
    rcases Nat.lt_or_ge u t with h' | h'
    · exact h'
    · rw [show t - (u + 1) = 0 by omega] at hl; simp [countIn] at hl
  have hk := BusSync.at_launch (by omega : 2 ≤ 3) hr (i u).cdEdge (i u).pulseEarly (by omega)
  have hp : At (run i (u + 1)).pulse (if (i u).cdEdge && (i u).pulseEarly then 1 else 0) := by
    rw [pulse_succ, ha.1, ha.2]; exact hk
  generalize hkk : (if (i u).cdEdge && (i u).pulseEarly then 1 else 0) = k at hp
  have hk1 : k ≤ 1 := by rw [← hkk]; split <;> omega
  obtain ⟨z, h1, h2, h3, h4⟩ := find_edge (cd i) (u + 1) (2 - k) (t - (u + 1)) (by omega)
  have hz : ∀ v, u + 1 ≤ v → v ≤ t → At (run i v).pulse (k + countIn (cd i) (u + 1) (v - (u + 1))) := by
    intro v hv1 hv2
    have := moves i hp (v - (u + 1)) (fun x hx1 hx2 => h.after x (by omega) (by omega))
    rwa [show u + 1 + (v - (u + 1)) = v by omega] at this
  refine ⟨z, by omega, by omega, h3, by omega, by omega, ?_⟩
  have ho : (run i z).pulse.o = true := by
    rw [BusSync.at_o (hz z h1 (by omega)), h4, decide_eq_true]; omega
  have hst : (run i (z + 1)).status = (run i z).counter := by
    have h3' : (i z).cdEdge = true := h3
    rw [run_succ]; simp only [step, h3', ho, Bool.and_self, if_true]
  rw [← hst]
  have hfin := status_stays i (a := z + 1) (t - (z + 1)) (by
    intro v hv1 hv2
    refine Or.inl ?_
    rw [BusSync.at_o (hz v (by omega) (by omega)), decide_eq_false]
    have e1 := countIn_back (cd i) h1
    rw [h3, h4] at e1
    have e2 := countIn_split (cd i) (u + 1) (z + 1 - (u + 1)) (v - (z + 1))
    rw [show z + 1 - (u + 1) + (v - (z + 1)) = v - (u + 1) by omega] at e2
    simp only [if_true] at e1
    omega)
  rwa [show z + 1 + (t - (z + 1)) = t by omega] at hfin

end Verif.Proofs.Underflow
