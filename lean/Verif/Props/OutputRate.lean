import Verif.Proofs.OutputRate
import Verif.Props.Loop

/-!
# C98: a memory that is fast enough never lets the display starve
-/

namespace Verif.Props

open Verif.Output Verif.Spec.Output Verif.Spec.Stream Verif.Output.Core

section

variable (cfg : Core.Config) (p : Params) (hp : ValidMode p) (hraw : cfg.raw = false)
  (hvr : 0 < p.vres) (hhr : 0 < p.hres)
  (hlen : p.length / 2 ^ cfg.shift % 2 ^ cfg.aw = p.vres * p.hres) (i : Nat → Core.In)
  (hi : ∀ t, (i t).pvalid = true ∧ (i t).p = p) (hr : ∀ t, (i t).ready = true) (L r : Nat)
  (hans : AnswersWithin cfg i L) (href : RefusesAtMost i p r)
  (hblank : r + 2 ≤ lineLen p - p.hres) (hdepth : L + r + 2 < cfg.depth)

include hp hraw hvr hhr hlen hi hr hans href hblank hdepth

/-- **C98** The display does not starve.  A memory answers each read within `L` clocks and refuses
commands at no more than `r` clocks of any line time; the blanking of a line is at least `r + 2` clocks
and the reader's FIFO is deeper than `L + r + 2` words.  Then, `L + r + 3` line times after reset, the
output core hands over a pixel at every clock: for every mode, and whatever the memory does within
these limits. -/
theorem C98_no_underflow :
    (∀ t, (L + r + 3) * lineLen p ≤ t → Core.valid (core cfg i t) (i t) = true) ∧
    ∀ n, Core.beats cfg i ((L + r + 3) * lineLen p + n) =
      Core.beats cfg i ((L + r + 3) * lineLen p) + n := by
  have h := no_underflow hraw hp hvr hhr hlen hi hr hans href hblank hdepth
  refine ⟨h, fun n => ?_⟩
  induction n with
  | zero => rfl
  | succ n ih =>
    have h1 : Core.valid (trace (Core.step cfg) Core.reset i ((L + r + 3) * lineLen p + n))
        (i ((L + r + 3) * lineLen p + n)) = true := h ((L + r + 3) * lineLen p + n) (Nat.le_add_right _ _)
    unfold Core.beats at ih ⊢
    rw [← Nat.add_assoc, countIn, ih, Nat.zero_add, h1, hr]
    rfl

/-- **C98** Software that clears the underflow counter after that time (by disabling it at clock `t`)
and enables it reads 0 at every later update, as long as the counter stays enabled.  `u` are the inputs
of the underflow detector, `valid` being that of the output. -/
theorem C98_counter (u : Nat → Underflow.In)
    (hu : ∀ t, (u t).valid = Core.valid (core cfg i t) (i t)) (t n : Nat)
    (ht : (L + r + 3) * lineLen p ≤ t) (hoff : (u t).enable = false)
    (hon : ∀ k, k < n → (u (t + 1 + k)).enable = true) (hup : (u (t + 1 + n)).update = true) :
    (trace Underflow.step Underflow.reset u (t + 1 + n + 1)).status = 0 := by
  have h := (C98_no_underflow cfg p hp hraw hvr hhr hlen i hi hr L r hans href hblank hdepth).1
  rw [show t + 1 + n + 1 = t + 1 + n + 1 + 0 from rfl,
    C42_status Underflow.reset u (t + 1 + n) 0 hup (fun k hk => absurd hk (Nat.not_lt_zero k)),
    C42_count Underflow.reset u t n hoff hon]
  have : ∀ n, countIn (fun v => !(u v).valid) (t + 1) n = 0 := by
    intro n
    induction n with
    | zero => rfl
    | succ n ih =>
      rw [countIn, ih, hu, h _ (by omega)]
      rfl
  rw [this]

end

/-! ### A concrete case -/

/-- The frame buffer of the example of C85; the memory refuses commands at clock 5 of each 27 and
answers at once. -/
def busyIn (t : Nat) : Core.In := { loopIn with memReady := !decide ((t + 22) % 27 < 1) }

theorem answers_at_once (cfg : Core.Config) (i : Nat → Core.In) (hraw : cfg.raw = false)
    (h : ∀ t, (i t).pvalid = true ∧ (i t).ready = true ∧ (i t).answer = true) :
    AnswersWithin cfg i 1 := by
  have hl := lengths (cfg := cfg) (i := i) hraw (fun t => (h t).1) (fun t => (h t).2.1)
  have h2 : ∀ t, answers cfg i t = !(core cfg i t).pending.isEmpty := by
    intro t
    unfold answers
    rw [(h t).2.2, Bool.true_and]
  have hp : ∀ t, (core cfg i t).pending.length ≤ 1 := by
    intro t
    induction t with
    | zero => exact Nat.zero_le 1
    | succ t ih =>
      have h1 := (lengths_next (cfg := cfg) (i := i) hraw (fun t => (h t).1) (fun t => (h t).2.1) t).1
      rw [h2] at h1
      cases hq : (core cfg i t).pending with
      | nil =>
        rw [hq] at h1
        revert h1
        cases accepts cfg i t <;> simp +contextual
      | cons a l =>
        rw [hq] at h1 ih
        revert h1 ih
        cases accepts cfg i t <;> simp +contextual
  intro t
  have h1 := (hl t).1
  rw [countIn, Nat.zero_add, h2]
  have := hp t
  cases hq : (core cfg i t).pending with
  | nil => rw [hq] at h1; simp at h1; simp [h1]
  | cons a l => rw [hq] at h1 this; simp at h1 this; simp [this] at h1; simp; omega

theorem busy_answers : AnswersWithin loopCfg busyIn 1 :=
  answers_at_once loopCfg busyIn rfl fun _ => ⟨rfl, rfl, rfl⟩

theorem busy_refuses : RefusesAtMost busyIn loopMode 1 := by
  intro t
  have h := count_residues 27 1 (t + 22) (by decide)
  refine Nat.le_of_eq ?_
  rw [← h]
  show countIn (fun u => !!decide ((u + 22) % 27 < 1)) t 27 = _
  have : ∀ n, countIn (fun u => !!decide ((u + 22) % 27 < 1)) t n =
      countIn (fun u => decide (u % 27 < 1)) (t + 22) n := by
    intro n
    induction n with
    | zero => rfl
    | succ n ih =>
      rw [countIn, countIn, ih, Bool.not_not, show t + n + 22 = t + 22 + n by omega]
  exact this 27

/-- All hypotheses of C98. -/
example : ValidMode loopMode ∧ loopCfg.raw = false ∧ 0 < loopMode.vres ∧ 0 < loopMode.hres ∧
    loopMode.length / 2 ^ loopCfg.shift % 2 ^ loopCfg.aw = loopMode.vres * loopMode.hres ∧
    (∀ t, (busyIn t).pvalid = true ∧ (busyIn t).p = loopMode) ∧ (∀ t, (busyIn t).ready = true) ∧
    AnswersWithin loopCfg busyIn 1 ∧ RefusesAtMost busyIn loopMode 1 ∧
    1 + 2 ≤ lineLen loopMode - loopMode.hres ∧ 1 + 1 + 2 < loopCfg.depth ∧
    (busyIn 5).memReady = false ∧ Core.valid (core loopCfg busyIn 1) (busyIn 1) = false :=
  ⟨loopMode_real.toValidMode, rfl, by decide, by decide, by decide, fun _ => ⟨rfl, rfl⟩, fun _ => rfl,
    busy_answers, busy_refuses, by decide, by decide, by decide, by decide⟩

end Verif.Props
