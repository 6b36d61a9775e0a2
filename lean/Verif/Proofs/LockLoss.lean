import Verif.Proofs.CaptureCdc
import Mathlib.Order.Basic
import Mathlib.Data.Nat.Init

/-!
# Lemmas about the asynchronous FIFO around a reset of its write side
-/

namespace Verif.GrayFifo

open Spec.Stream

section

variable {α : Type} {n : Nat} {s0 : State n α} {x : Nat → In n α}

/-- What has entered is what has left and what is still queued. -/
theorem conserve (hn : 1 ≤ n) (h0 : Settled s0) (hr : ∀ t, (x t).writeRst = false) (t : Nat) :
    given s0 x t = taken s0 x t ++ queue s0 x t := by
  induction t with
  | zero => rfl
  | succ t ih =>
    obtain ⟨v0, v1, u0, u1, h⟩ := inv_all hn h0 hr t
    have hg : given s0 x (t + 1) = given s0 x t ++ (if enters s0 x t then [(x t).din] else []) := rfl
    have ht : taken s0 x (t + 1) =
      taken s0 x t ++ (if leaves s0 x t then [(fifo s0 x t).dout] else []) := rfl
    rw [hg, ht, h.queue_succ hn, ih]
    cases hb : leaves s0 x t
    · simp
    · have hread : readable (fifo s0 x t) = true := by
        simp only [leaves, Bool.and_eq_true] at hb
        exact hb.2
      have hh := h.head (h.readable_iff.1 hread)
      cases hq : queue s0 x t with
      | nil => rw [hq] at hh; exact absurd hh (by simp)
      | cons a l =>
        rw [hq, List.head?_cons, Option.some.injEq] at hh
        simp [hh]

/-- Nothing changes the write counter at the instants before `T`. -/
def Quiet (s0 : State n α) (x : Nat → In n α) (T : Nat) : Prop :=
  ∀ t, t < T → produceNext (fifo s0 x t) (x t) = s0.produce

theorem quiet_produce {T : Nat} (hq : Quiet s0 x T) {t : Nat} (ht : t ≤ T) :
    (fifo s0 x t).produce = s0.produce := by
  cases t with
  | zero => rfl
  | succ t => exact hq t (by omega)

theorem quiet_of {T : Nat}
    (h : ∀ t, t < T → (x t).writeEdge = true → (x t).we = false ∧ (x t).writeRst = false) :
    Quiet s0 x T := by
  intro t
  induction t using Nat.strongRecOn with
  | _ t ih =>
    intro ht
    have hp : (fifo s0 x t).produce = s0.produce := by
      cases t with
      | zero => rfl
      | succ t => exact ih t (by omega) (by omega)
    unfold produceNext
    cases he : (x t).writeEdge
    · simpa using hp
    · obtain ⟨h1, h2⟩ := h t ht he
      simp [h1, h2, hp]

theorem count_succ (p : Nat → Bool) (t : Nat) :
    countIn p 0 (t + 1) = countIn p 0 t + (if p t then 1 else 0) := by
  rw [countIn, Nat.zero_add]

/-- The read side sees the write counter after two of its clocks. -/
theorem quiet_synced {T : Nat} (hq : Quiet s0 x T) (t : Nat) (ht : t ≤ T) :
    (1 ≤ countIn (fun u => (x u).readEdge) 0 t → (fifo s0 x t).produce_r.s0 = gray s0.produce) ∧
    (2 ≤ countIn (fun u => (x u).readEdge) 0 t → (fifo s0 x t).produce_r.status = gray s0.produce) := by
  induction t with
  | zero => exact ⟨fun h => absurd h (by decide : ¬ 1 ≤ 0), fun h => absurd h (by decide : ¬ 2 ≤ 0)⟩
  | succ t ih =>
    obtain ⟨h1, h2⟩ := ih (by omega)
    have hstep : (fifo s0 x (t + 1)).produce_r = if (x t).readEdge then
        ⟨gray s0.produce, (fifo s0 x t).produce_r.s0⟩ else (fifo s0 x t).produce_r := by
      show Status.Multi.step _ _ (gray (fifo s0 x t).produce) (gray (produceNext (fifo s0 x t) (x t))) _ = _
      rw [hq t (by omega), quiet_produce hq (by omega : t ≤ T), Status.Multi.step, sample_same]
    have hc := count_succ (fun u => (x u).readEdge) t
    rw [hc, hstep]
    cases he : (x t).readEdge
    · simp only [Bool.false_eq_true, if_false, Nat.add_zero]; exact ⟨h1, h2⟩
    · simp only [if_true]
      exact ⟨fun _ => trivial, fun h => h1 (by omega)⟩

theorem eq_of_sub {w : Nat} {a b : BitVec w} (h : (a - b).toNat = 0) : b = a := by
  have h1 : a - b = 0#w := BitVec.eq_of_toNat_eq (by rw [h]; simp)
  rw [← BitVec.sub_add_cancel a b, h1, BitVec.zero_add]

/-- Words that the read side believes it has: how far its counter is behind. -/
def behind (s0 : State n α) (x : Nat → In n α) (t : Nat) : Nat :=
  (s0.produce - (fifo s0 x t).consume).toNat

theorem behind_readable {t : Nat} (hs : (fifo s0 x t).produce_r.status = gray s0.produce) :
    readable (fifo s0 x t) = decide (behind s0 x t ≠ 0) := by
  rw [readable, hs, behind]
  by_cases h : (fifo s0 x t).consume = s0.produce
  · rw [h]; simp
  · have h1 : gray (fifo s0 x t).consume ≠ gray s0.produce := fun he => h (gray_inj he)
    have h2 : (s0.produce - (fifo s0 x t).consume).toNat ≠ 0 := fun h3 => h (eq_of_sub h3)
    rw [decide_eq_true h2, bne_iff_ne]
    exact h1

theorem behind_succ {t : Nat} (hs : (fifo s0 x t).produce_r.status = gray s0.produce) :
    behind s0 x (t + 1) + (if leaves s0 x t then 1 else 0) = behind s0 x t := by
  have hc : (fifo s0 x (t + 1)).consume =
      if leaves s0 x t then (fifo s0 x t).consume + 1 else (fifo s0 x t).consume := by
    show (if (x t).readEdge then consumeNext _ _ else _) = _
    unfold consumeNext leaves
    cases (x t).readEdge <;> cases readable (fifo s0 x t) <;> cases (x t).re <;> rfl
  unfold behind
  rw [hc]
  cases hl : leaves s0 x t
  · rfl
  · have hread : readable (fifo s0 x t) = true := by
      simp only [leaves, Bool.and_eq_true] at hl
      exact hl.2
    rw [behind_readable hs, decide_eq_true_eq, behind] at hread
    simp only [if_true]
    rw [← BitVec.sub_sub]
    generalize s0.produce - (fifo s0 x t).consume = d at *
    rw [BitVec.toNat_sub]
    have h1 : (1#(n + 1)).toNat = 1 := by
      rw [BitVec.toNat_ofNat, Nat.mod_eq_of_lt (Nat.one_lt_two_pow (by omega))]
    have h2 : (1 : BitVec (n + 1)).toNat = 1 := h1
    rw [h2]
    have := d.isLt
    rw [show 2 ^ (n + 1) - 1 + d.toNat = 2 ^ (n + 1) + (d.toNat - 1) by omega, Nat.add_mod_left,
      Nat.mod_eq_of_lt (by omega)]
    omega

/-- After two read clocks, each further read clock with `re` takes the read counter closer. -/
theorem quiet_drains {T : Nat} (hq : Quiet s0 x T)
    (hre : ∀ t, t < T → (x t).readEdge = true → (x t).re = true) (t : Nat) (ht : t ≤ T) (k : Nat)
    (hk : 2 + k ≤ countIn (fun u => (x u).readEdge) 0 t) :
    behind s0 x t + k < 2 ^ (n + 1) ∨ behind s0 x t = 0 := by
  induction t generalizing k with
  | zero => exact absurd (show 2 + k ≤ 0 from hk) (by omega)
  | succ t ih =>
    have hc := count_succ (fun u => (x u).readEdge) t
    rw [hc] at hk
    by_cases h2 : 2 ≤ countIn (fun u => (x u).readEdge) 0 t
    · have hs := (quiet_synced hq t (by omega)).2 h2
      have hb := behind_succ hs
      cases he : (x t).readEdge
      · rw [he] at hk
        have := ih (by omega) k (by simpa using hk)
        have hl : leaves s0 x t = false := by simp [leaves, he]
        rw [hl] at hb
        simp at hb
        omega
      · rw [he] at hk
        simp only [if_true] at hk
        have hl : leaves s0 x t = decide (behind s0 x t ≠ 0) := by
          rw [leaves, he, hre t (by omega) he, behind_readable hs]; rfl
        rw [hl] at hb
        by_cases h0 : behind s0 x t = 0
        · right
          rw [h0] at hb; simp at hb; exact hb
        · simp only [h0, ne_eq, not_false_eq_true, decide_true, if_true] at hb
          cases k with
          | zero =>
            left
            have : behind s0 x t < 2 ^ (n + 1) := BitVec.isLt _
            omega
          | succ k =>
            have := ih (by omega) k (by omega)
            omega
    · cases he : (x t).readEdge
      · rw [he] at hk
        exact absurd hk (by simp; omega)
      · rw [he] at hk
        simp only [if_true] at hk
        have : behind s0 x (t + 1) < 2 ^ (n + 1) := BitVec.isLt _
        left
        omega

theorem behind_zero {t : Nat} (h : behind s0 x t = 0) : (fifo s0 x t).consume = s0.produce := eq_of_sub h

/-- Once the read counter has caught up, nothing leaves. -/
theorem quiet_empty {T A : Nat} (hq : Quiet s0 x T) (h2 : 2 ≤ countIn (fun u => (x u).readEdge) 0 A)
    (h0 : behind s0 x A = 0) (t : Nat) (hA : A ≤ t) (ht : t ≤ T) :
    (fifo s0 x t).consume = s0.produce := by
  suffices behind s0 x t = 0 from behind_zero this
  induction t, hA using Nat.le_induction with
  | base => exact h0
  | succ t hA ih =>
    have hm : 2 ≤ countIn (fun u => (x u).readEdge) 0 t := by
      rw [count_from _ hA]; omega
    have := behind_succ (x := x) ((quiet_synced hq t (by omega)).2 hm)
    have := ih (by omega)
    omega

theorem quiet_settled {T A : Nat} (hq : Quiet s0 x T) (h2 : 2 ≤ countIn (fun u => (x u).readEdge) 0 A)
    (h0 : behind s0 x A = 0) (t : Nat) (hA : A ≤ t) (ht : t ≤ T) :
    (1 ≤ countIn (fun u => (x u).writeEdge) A (t - A) →
      (fifo s0 x t).consume_w.s0 = gray s0.produce) ∧
    (2 ≤ countIn (fun u => (x u).writeEdge) A (t - A) →
      (fifo s0 x t).consume_w.status = gray s0.produce) := by
  induction t, hA using Nat.le_induction with
  | base =>
    rw [Nat.sub_self]
    exact ⟨fun h => absurd h (by decide : ¬ 1 ≤ 0), fun h => absurd h (by decide : ¬ 2 ≤ 0)⟩
  | succ t hA ih =>
    obtain ⟨h3, h4⟩ := ih (by omega)
    have hc1 := quiet_empty hq h2 h0 t hA (by omega)
    have hc2 := quiet_empty hq h2 h0 (t + 1) (by omega) ht
    have hc2 : (if (x t).readEdge then consumeNext (fifo s0 x t) (x t) else (fifo s0 x t).consume) =
      s0.produce := hc2
    have hstep : (fifo s0 x (t + 1)).consume_w = if (x t).writeEdge then
        ⟨gray s0.produce, (fifo s0 x t).consume_w.s0⟩ else (fifo s0 x t).consume_w := by
      show Status.Multi.step _ _ (gray (fifo s0 x t).consume) (gray (if (x t).readEdge then _ else _)) _ = _
      rw [hc2, hc1, Status.Multi.step, sample_same]
    have hc := count_next (fun u => (x u).writeEdge) hA
    rw [hc, hstep]
    cases he : (x t).writeEdge
    · simp only [Bool.false_eq_true, if_false, Nat.add_zero]; exact ⟨h3, h4⟩
    · simp only [if_true]
      exact ⟨fun _ => trivial, fun h => h3 (by omega)⟩

end

end Verif.GrayFifo
