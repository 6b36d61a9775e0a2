import Verif.Proofs.GrayFifo
import Verif.Props.GrayFifo
import Verif.Proofs.AsyncFifo

/-!
# Progress of the asynchronous FIFO
-/

namespace Verif.GrayFifo

open Spec.Stream

variable {α : Type} {n : Nat} {s0 : State n α} {x : Nat → In n α}

theorem written_eq (hn : 1 ≤ n) (h0 : Settled s0) (hr : ∀ t, (x t).writeRst = false) (t : Nat) :
    AsyncFifo.written (2 ^ n) (queueIn s0 x) t = given s0 x t := by
  unfold AsyncFifo.written given
  induction t with
  | zero => rfl
  | succ t ih =>
    simp only [transferred]
    rw [ih]
    have := (Props.C100_queue n hn s0 h0 x hr t).1
    have e : ((queueIn s0 x t).push && AsyncFifo.sinkReady (2 ^ n)
        (trace (AsyncFifo.step (2 ^ n)) [] (queueIn s0 x) t) (queueIn s0 x t)) = enters s0 x t := by
      show (_ && AsyncFifo.sinkReady (2 ^ n) (queue s0 x t) (queueIn s0 x t)) = _
      rw [← this]; rfl
    rw [e]; rfl

theorem readOut_eq (hn : 1 ≤ n) (h0 : Settled s0) (hr : ∀ t, (x t).writeRst = false) (t : Nat) :
    AsyncFifo.readOut (2 ^ n) (queueIn s0 x) t = taken s0 x t := by
  unfold AsyncFifo.readOut taken
  induction t with
  | zero => rfl
  | succ t ih =>
    simp only [transferred, List.flatten_append]
    rw [ih]
    obtain ⟨-, h1, h2, -⟩ := Props.C100_queue n hn s0 h0 x hr t
    have e : ((queueIn s0 x t).pop && AsyncFifo.sourceValid
        (trace (AsyncFifo.step (2 ^ n)) [] (queueIn s0 x) t) (queueIn s0 x t)) = leaves s0 x t := by
      show (_ && AsyncFifo.sourceValid (queue s0 x t) (queueIn s0 x t)) = _
      rw [← h1]; rfl
    rw [e]
    cases hl : leaves s0 x t
    · rfl
    · have hread : readable (fifo s0 x t) = true := by
        unfold leaves at hl
        simp only [Bool.and_eq_true] at hl
        exact hl.2
      show _ ++ [_].flatten = _
      have := h2 hread
      show _ ++ [(queue s0 x t).head?.toList].flatten = _
      rw [this]; rfl

/-- What has left is a prefix of what has entered. -/
theorem order (hn : 1 ≤ n) (h0 : Settled s0) (hr : ∀ t, (x t).writeRst = false) (t : Nat) :
    given s0 x t = taken s0 x t ++ queue s0 x t ∧ (queue s0 x t).length ≤ 2 ^ n := by
  have := AsyncFifo.conserve (2 ^ n) (queueIn s0 x) t
  rw [written_eq hn h0 hr, readOut_eq hn h0 hr] at this
  exact this

theorem count_zero {p : Nat → Bool} {a m : Nat} (h : ∀ u, a ≤ u → u < a + m → p u = false) :
    countIn p a m = 0 := by
  induction m with
  | zero => rfl
  | succ m ih =>
    rw [countIn, ih (fun u h1 h2 => h u h1 (by omega)), h (a + m) (by omega) (by omega)]
    rfl

theorem count_pos {p : Nat → Bool} {a m u : Nat} (h1 : a ≤ u) (h2 : u < a + m) (h : p u = true) :
    1 ≤ countIn p a m := by
  have e := count_split p a (u - a) (m - (u - a))
  rw [show u - a + (m - (u - a)) = m by omega, show a + (u - a) = u by omega] at e
  have e2 := count_split p u 1 (m - (u - a) - 1)
  rw [show 1 + (m - (u - a) - 1) = m - (u - a) by omega] at e2
  have : countIn p u 1 = 1 := by simp [countIn, h]
  omega

/-- Three edges of a clock that does not stop. -/
theorem three {p : Nat → Bool} (h : ∀ T, ∃ u, T ≤ u ∧ p u = true) (T : Nat) :
    ∃ t, T ≤ t ∧ p t = true ∧ ∀ v, v ≤ T → 3 ≤ countIn p v (t - v) := by
  obtain ⟨a, ha, pa⟩ := h T
  obtain ⟨b, hb, pb⟩ := h (a + 1)
  obtain ⟨c, hc, pc⟩ := h (b + 1)
  obtain ⟨d, hd, pd⟩ := h (c + 1)
  refine ⟨d, by omega, pd, fun v hv => ?_⟩
  have e1 := count_split p v (a + 1 - v) (d - (a + 1))
  have e2 := count_split p (a + 1) (b + 1 - (a + 1)) (d - (b + 1))
  rw [show a + 1 - v + (d - (a + 1)) = d - v by omega, show v + (a + 1 - v) = a + 1 by omega] at e1
  rw [show b + 1 - (a + 1) + (d - (b + 1)) = d - (a + 1) by omega,
    show a + 1 + (b + 1 - (a + 1)) = b + 1 by omega] at e2
  have f1 := count_pos (p := p) (a := v) (m := a + 1 - v) (u := a) (by omega) (by omega) pa
  have f2 := count_pos (p := p) (a := a + 1) (m := b + 1 - (a + 1)) (u := b) (by omega) (by omega) pb
  have f3 := count_pos (p := p) (a := b + 1) (m := d - (b + 1)) (u := c) (by omega) (by omega) pc
  omega

theorem length_between (hn : 1 ≤ n) (h0 : Settled s0) (hr : ∀ t, (x t).writeRst = false) {v t : Nat}
    (h : v ≤ t) : (queue s0 x t).length + countIn (leaves s0 x) v (t - v) =
      (queue s0 x v).length + countIn (enters s0 x) v (t - v) := by
  obtain ⟨_, _, _, _, hv⟩ := inv_all hn h0 hr v
  obtain ⟨_, _, _, _, ht⟩ := inv_all hn h0 hr t
  have h1 := hv.length
  have h2 := ht.length
  have h3 := count_from (enters s0 x) h
  have h4 := count_from (leaves s0 x) h
  unfold entered left at h1 h2
  omega

/-- A word in the queue is offered some time later, as long as the read clock runs. -/
theorem offers_later (hn : 1 ≤ n) (h0 : Settled s0) (hr : ∀ t, (x t).writeRst = false)
    (hrun : ∀ T, ∃ u, T ≤ u ∧ (x u).readEdge = true) (T : Nat) (hq : queue s0 x T ≠ []) :
    ∃ u, T ≤ u ∧ readable (fifo s0 x u) = true := by
  apply Classical.byContradiction
  intro hno
  have hdark : ∀ u, T ≤ u → readable (fifo s0 x u) = false := by
    intro u hu
    cases h : readable (fifo s0 x u)
    · rfl
    · exact absurd ⟨u, hu, h⟩ hno
  have hstay : ∀ u, T ≤ u → leaves s0 x u = false := by
    intro u hu
    unfold leaves
    rw [hdark u hu, Bool.and_false]
  obtain ⟨t, hT, -, h3⟩ := three hrun T
  obtain ⟨v, hv, hc, hlen⟩ := Props.C100_hides n hn s0 h0 x hr t (hdark t hT)
  have hTv : T ≤ v := by
    apply Nat.le_of_not_lt
    intro h
    have := h3 v (by omega)
    omega
  have e1 := length_between hn h0 hr hv
  have e2 := length_between hn h0 hr hTv
  rw [count_zero (p := leaves s0 x) (fun u h1 _ => hstay u (by omega))] at e1
  rw [count_zero (p := leaves s0 x) (fun u h1 _ => hstay u (by omega))] at e2
  have : 1 ≤ (queue s0 x T).length := List.length_pos_iff.mpr hq
  omega

/-- A word that is offered to the circuit for ever is accepted, as long as the write clock runs and the
reader takes what it is shown. -/
theorem accepts_later (hn : 1 ≤ n) (h0 : Settled s0) (hr : ∀ t, (x t).writeRst = false)
    (hrun : ∀ T, ∃ u, T ≤ u ∧ (x u).readEdge = true)
    (hwrun : ∀ T, ∃ u, T ≤ u ∧ (x u).writeEdge = true)
    (htake : ∀ T, readable (fifo s0 x T) = true → ∃ u, T ≤ u ∧ leaves s0 x u = true)
    (T : Nat) (hwe : ∀ u, T ≤ u → (x u).we = true) : ∃ u, T ≤ u ∧ enters s0 x u = true := by
  apply Classical.byContradiction
  intro hno
  have hnot : ∀ u, T ≤ u → enters s0 x u = false := by
    intro u hu
    cases h : enters s0 x u
    · rfl
    · exact absurd ⟨u, hu, h⟩ hno
  -- the queue runs empty
  have hempty : ∀ m T', T ≤ T' → (queue s0 x T').length ≤ m → ∃ t, T' ≤ t ∧ queue s0 x t = [] := by
    intro m
    induction m with
    | zero => intro T' _ h; exact ⟨T', Nat.le_refl _, List.eq_nil_of_length_eq_zero (by omega)⟩
    | succ m ih =>
      intro T' hT' h
      by_cases hq : queue s0 x T' = []
      · exact ⟨T', Nat.le_refl _, hq⟩
      · obtain ⟨u, hu, hread⟩ := offers_later hn h0 hr hrun T' hq
        obtain ⟨w, hw, hl⟩ := htake u hread
        have e := length_between hn h0 hr (show T' ≤ w + 1 by omega)
        rw [count_zero (p := enters s0 x) (fun u h1 _ => hnot u (by omega))] at e
        have := count_pos (p := leaves s0 x) (a := T') (m := w + 1 - T') (u := w) (by omega) (by omega) hl
        obtain ⟨t, ht, hq⟩ := ih (w + 1) (by omega) (by omega)
        exact ⟨t, by omega, hq⟩
  obtain ⟨t0, ht0, hq0⟩ := hempty _ T (Nat.le_refl _) (Nat.le_refl _)
  have hq : ∀ t, t0 ≤ t → (queue s0 x t).length = 0 := by
    intro t ht
    have e := length_between hn h0 hr ht
    rw [count_zero (p := enters s0 x) (fun u h1 _ => hnot u (by omega)), hq0, List.length_nil] at e
    omega
  obtain ⟨t, ht, hedge, h3⟩ := three hwrun t0
  have hwr : writable (fifo s0 x t) = false := by
    cases h : writable (fifo s0 x t)
    · rfl
    · have := hnot t (by omega)
      unfold enters at this
      rw [h, hedge, hwe t (by omega)] at this
      exact absurd this (by decide)
  obtain ⟨v, hv, hc, hlen⟩ := Props.C100_refuses n hn s0 h0 x hr t hwr
  have hTv : t0 ≤ v := by
    apply Nat.le_of_not_lt
    intro h
    have := h3 v (by omega)
    omega
  rw [hq v hTv, count_zero (p := enters s0 x) (fun u h1 _ => hnot u (by omega))] at hlen
  have := Nat.two_pow_pos n
  omega

end Verif.GrayFifo
