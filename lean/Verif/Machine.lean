/-!
# Synchronous machines

A Migen module clocked by one clock is a deterministic machine: registers
(`σ`), inputs during one clock period (`ι`) and a next-state function.
`trace step s0 i t` is the register content during clock period `t`, i.e. after
`t` rising edges, when the inputs are `i 0, i 1, ...`.
-/

namespace Verif

/-- Register contents during clock period `t` (after `t` edges). -/
def trace {σ ι : Type} (step : σ → ι → σ) (s0 : σ) (i : Nat → ι) : Nat → σ
  | 0 => s0
  | t + 1 => step (trace step s0 i t) (i t)

@[simp] theorem trace_zero {σ ι : Type} (step : σ → ι → σ) (s0 : σ) (i : Nat → ι) :
    trace step s0 i 0 = s0 := rfl

theorem trace_succ {σ ι : Type} (step : σ → ι → σ) (s0 : σ) (i : Nat → ι) (t : Nat) :
    trace step s0 i (t + 1) = step (trace step s0 i t) (i t) := rfl

/-- Restarting a trace after `m` clocks. -/
theorem trace_add {σ ι : Type} (step : σ → ι → σ) (s0 : σ) (i : Nat → ι) (m n : Nat) :
    trace step s0 i (m + n) = trace step (trace step s0 i m) (fun k => i (m + k)) n := by
  induction n with
  | zero => rfl
  | succ n ih => rw [Nat.add_succ, trace_succ, trace_succ, ih]

/-- A trace depends only on the inputs so far. -/
theorem trace_congr {σ ι : Type} (step : σ → ι → σ) (s0 : σ) (i i' : Nat → ι) (t : Nat)
    (h : ∀ k, k < t → i k = i' k) : trace step s0 i t = trace step s0 i' t := by
  induction t with
  | zero => rfl
  | succ t ih => rw [trace_succ, trace_succ, ih fun k hk => h k (by omega), h t (by omega)]

/-- An invariant of `step` holds in every reachable state. -/
theorem trace_inv {σ ι : Type} {step : σ → ι → σ} {s0 : σ} {i : Nat → ι} (P : σ → Prop)
    (h0 : P s0) (hs : ∀ s x, P s → P (step s x)) (t : Nat) : P (trace step s0 i t) := by
  induction t with
  | zero => exact h0
  | succ t ih => exact hs _ _ ih

end Verif
