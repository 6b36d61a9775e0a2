import Verif.Proofs.Float
import Verif.Props.Stream

/-!
# C30-C33, C51: half-precision arithmetic
-/

namespace Verif.Props

open Float16 Spec.Half Spec.Stream

/-- Patterns of non-negative finite half floats are ordered like their values, so `w + 1` is the
next larger half float (used by `RoundDown`). -/
theorem halfVal_lt_succ (w : Nat) (h : Finite w) : halfVal w < halfVal (w + 1) := by
  unfold Finite at h
  by_cases h0 : w < 1024
  · by_cases h1 : w = 1023
    · subst h1; decide
    · unfold halfVal
      rw [if_pos (by omega), if_pos (by omega)]
      omega
  · have a := halfVal_pack (w / 1024) (w % 1024) (by omega) (by omega) (by omega)
    have b := halfVal_pack_succ (w / 1024) (w % 1024) (by omega) (by omega) (by omega)
    rw [show w / 1024 * 1024 + w % 1024 = w by omega] at a b
    rw [a, b]
    exact Nat.mul_lt_mul_of_pos_right (by omega) (Nat.two_pow_pos _)

/-- **C51** For every width and every non-zero input that fits, `LeadOne` returns `dw-1` minus
the position of the most significant 1. -/
theorem C51_leadone (dw x : Nat) (h : x < 2 ^ dw) (p : Nat) (hset : x.testBit p = true)
    (htop : ∀ q, p < q → x.testBit q = false) : leadOne dw x = dw - 1 - p := by
  have h0 : x ≠ 0 := by intro e; rw [e] at hset; simp at hset
  have hp : Nat.log2 x = p := by
    have h1 : p ≤ Nat.log2 x := by
      rw [Nat.le_log2 h0]
      exact Nat.ge_two_pow_of_testBit hset
    by_cases h2 : p = Nat.log2 x
    · exact h2.symm
    · have := htop (Nat.log2 x) (by omega)
      rw [Nat.testBit_log2 h0] at this
      exact absurd this (by decide)
  rw [leadOne_eq dw x h0 h, hp]

/-- **C51** and 0 for 0. -/
theorem C51_zero (dw : Nat) : leadOne dw 0 = 0 := leadOne_zero dw

example : leadOne 12 0b000010110000 = 4 ∧ (0b000010110000).testBit 7 = true := by decide

/-! ## Multiplication -/

/-- Output of `FloatMult`'s datapath at enabled clock `t`, from register contents `s`. -/
def multOut (s : Mult.State) (x : Nat → Pair) (t : Nat) : Nat := (trace Mult.step s x t).out

/-- **C30** Operands held for two enabled clocks, whatever the registers contained and whatever
follows: five clocks later the output is the exact product rounded toward zero, provided the
product is at least `2^-13` (exponent field 2 or more) and below `2^16`.  Subnormal operands
included.  Missing: products in `[2^-14, 2^-13)`, for which the claim is false
(`C30_violated`). -/
theorem C30_product_partial (s : Mult.State) (x : Nat → Pair) (t a b : Nat)
    (h0 : x t = ⟨a, b⟩) (h1 : x (t + 1) = ⟨a, b⟩) (ha : Finite a) (hb : Finite b)
    (hlo : 2 ^ 35 ≤ halfVal a * halfVal b) (hhi : halfVal a * halfVal b < 2 ^ 64) :
    RoundDown48 (halfVal a * halfVal b) (multOut s x (t + 5)) := by
  have h := Mult.held (trace Mult.step s x t) ⟨a, b⟩ (x (t + 2)) (x (t + 3)) (x (t + 4))
  have e : multOut s x (t + 5) = Mult.comp ⟨a, b⟩ := by
    rw [← h]
    simp only [multOut, trace_succ, h0, h1]
  rw [e]
  exact Mult.product_normal a b ha hb hlo hhi

/-- **C30** also for normal operands whose product is subnormal. -/
theorem C30_subnormal_result (s : Mult.State) (x : Nat → Pair) (t a b : Nat)
    (h0 : x t = ⟨a, b⟩) (h1 : x (t + 1) = ⟨a, b⟩) (ha : PosNormal a) (hb : PosNormal b)
    (hhi : halfVal a * halfVal b < 2 ^ 34) :
    RoundDown48 (halfVal a * halfVal b) (multOut s x (t + 5)) := by
  have h := Mult.held (trace Mult.step s x t) ⟨a, b⟩ (x (t + 2)) (x (t + 3)) (x (t + 4))
  have e : multOut s x (t + 5) = Mult.comp ⟨a, b⟩ := by
    rw [← h]
    simp only [multOut, trace_succ, h0, h1]
  rw [e]
  exact Mult.product_subnormal a b ha hb hhi

/-- **C30** A zero operand gives zero, without any holding. -/
theorem C30_zero (s : Mult.State) (x : Nat → Pair) (t : Nat)
    (h : (x t).in1 = 0 ∨ (x t).in2 = 0) : multOut s x (t + 5) = 0 := by
  simp only [multOut, trace_succ]
  have hz : expOf 0 = 0 ∧ fracOf 0 = 0 := by decide
  rcases h with h | h
  · simp only [Mult.step, h, if_pos hz, if_true]
  · simp only [Mult.step, h, if_pos hz, ite_self, if_true]

/-- C30 as stated in the property list: normal operands, normal product, constant operands. -/
def C30_statement : Prop :=
  ∀ a b, PosNormal a → PosNormal b →
    2 ^ 34 ≤ halfVal a * halfVal b → halfVal a * halfVal b < 2 ^ 64 →
    RoundDown48 (halfVal a * halfVal b) (multOut Mult.reset (fun _ => ⟨a, b⟩) 5)

/-- **C30** is false for results with exponent field 1: `1.5*2^-14 * 1.5*2^-1` is
`1.125*2^-14`, a normal number; the output is the subnormal `0.125*2^-14`. -/
theorem C30_violated : ¬ C30_statement := by
  intro h
  have := h 0x0600 0x3A00 ⟨by decide, by decide⟩ ⟨by decide, by decide⟩ (by decide) (by decide)
  have e : multOut Mult.reset (fun _ => ⟨0x0600, 0x3A00⟩) 5 = 0x0080 := by decide
  rw [e] at this
  exact absurd this.2.2 (by decide)

/-- `1.5 * 1.5 = 2.25`; `(1 + 2^-10) * (1 + 2^-10)` is rounded down to `1 + 2^-9`. -/
example : multOut Mult.reset (fun _ => ⟨0x3E00, 0x3E00⟩) 5 = 0x4080 ∧
    multOut Mult.reset (fun _ => ⟨0x3C01, 0x3C01⟩) 5 = 0x3C02 ∧
    2 ^ 35 ≤ halfVal 0x3E00 * halfVal 0x3E00 ∧ halfVal 0x3E00 * halfVal 0x3E00 < 2 ^ 64 := by decide

example : halfVal 0x0401 * halfVal 0x3801 < 2 ^ 34 ∧
    multOut Mult.reset (fun _ => ⟨0x0401, 0x3801⟩) 5 = 0x0201 := by decide

/-- C31: each pair of a stream of normal operands with normal products (exponent field 2 or
more) yields its own product. -/
def C31_statement : Prop :=
  ∀ (x : Nat → Pair),
    (∀ t, PosNormal (x t).in1 ∧ PosNormal (x t).in2 ∧
      2 ^ 35 ≤ halfVal (x t).in1 * halfVal (x t).in2 ∧
      halfVal (x t).in1 * halfVal (x t).in2 < 2 ^ 64) →
    ∀ t, RoundDown48 (halfVal (x t).in1 * halfVal (x t).in2) (multOut Mult.reset x (t + 5))

/-- **C31** is false of the code: stage 4 shifts the product of the *following* pair.  `1*1`
followed by `1.25*1` gives 1.25 for the first. -/
theorem C31_violated : ¬ C31_statement := by
  intro h
  have := h (fun t => if t = 0 then ⟨0x3C00, 0x3C00⟩ else ⟨0x3D00, 0x3C00⟩) (by
    intro t
    by_cases ht : t = 0
    · subst ht
      exact ⟨⟨by decide, by decide⟩, ⟨by decide, by decide⟩, by decide, by decide⟩
    · simp only [ht, if_false]
      exact ⟨⟨by decide, by decide⟩, ⟨by decide, by decide⟩, by decide, by decide⟩) 0
  have e : multOut Mult.reset
    (fun t => if t = 0 then ⟨0x3C00, 0x3C00⟩ else ⟨0x3D00, 0x3C00⟩) 5 = 0x3D00 := by decide
  rw [Nat.zero_add, e] at this
  exact absurd this.2.1 (by decide)

/-- **C31** holds for the pairs that are repeated on the following enabled clock. -/
theorem C31_held_partial (s : Mult.State) (x : Nat → Pair) (t : Nat)
    (hheld : x (t + 1) = x t) (ha : Finite (x t).in1) (hb : Finite (x t).in2)
    (hlo : 2 ^ 35 ≤ halfVal (x t).in1 * halfVal (x t).in2)
    (hhi : halfVal (x t).in1 * halfVal (x t).in2 < 2 ^ 64) :
    RoundDown48 (halfVal (x t).in1 * halfVal (x t).in2) (multOut s x (t + 5)) :=
  C30_product_partial s x t _ _ rfl hheld ha hb hlo hhi

/-- **C30**, **C31** for the `FloatMult` actor: for every valid/ready schedule in which the producer leaves
each pair on the sink for one more enabled clock, the delivered words are, in order, the products of the
accepted pairs, at most 5 late.  Without that the claim is false (`C31_violated`). -/
theorem C31_stream_partial : ∃ f : Pair → Nat,
    (∀ a b, Finite a → Finite b → 2 ^ 35 ≤ halfVal a * halfVal b → halfVal a * halfVal b < 2 ^ 64 →
      RoundDown48 (halfVal a * halfVal b) (f ⟨a, b⟩)) ∧
    ∀ (i : Nat → PipelinedActor.In Pair), Held Mult.datapath Mult.latency i → ∀ t,
      delivered Mult.datapath Mult.latency i t <+: (accepted Mult.datapath Mult.latency i t).map f ∧
      (accepted Mult.datapath Mult.latency i t).length ≤
        (delivered Mult.datapath Mult.latency i t).length + 5 := by
  have hc : ComputesHeld Mult.datapath Mult.latency Mult.comp := by
    intro s x later h
    match later, h with
    | [a, b, c], _ => exact Mult.held s x a b c
  refine ⟨Mult.comp, fun a b => Mult.product_normal a b, fun i hi t => ?_⟩
  have h : delivered Mult.datapath Mult.latency i t ++
      (PipelinedActor.inflight Mult.datapath Mult.latency i t).map Mult.comp =
      (accepted Mult.datapath Mult.latency i t).map Mult.comp :=
    PipelinedActor.flow_of Mult.datapath Mult.latency i Mult.comp (by decide)
      (fun t x hx => PipelinedActor.ghost_outputs_held Mult.datapath Mult.latency i Mult.comp (by decide)
        hc hi t (Mult.latency - 1) x hx [] (by decide) (fun h => absurd h (by decide))) t
  refine ⟨⟨_, h⟩, ?_⟩
  have h2 := congrArg List.length h
  simp only [List.length_append, List.length_map] at h2
  have h3 : (PipelinedActor.inflight Mult.datapath Mult.latency i t).length ≤ 5 :=
    PipelinedActor.inflight_length Mult.datapath Mult.latency i (by decide) t
  omega

/-- A producer that offers each pair once and leaves it there for a second clock; the consumer is always
ready. -/
def pairRun (t : Nat) : PipelinedActor.In Pair :=
  ⟨t % 2 == 0, if t / 2 % 2 = 0 then ⟨0x3E00, 0x3E00⟩ else ⟨0x3C01, 0x3C01⟩, true⟩

theorem pairRun_held : Held Mult.datapath Mult.latency pairRun := by
  intro t u htu hv _ _ hno
  have h1 : u = t + 1 := by
    rcases Nat.lt_or_ge (t + 1) u with h | h
    · have := hno (t + 1) (by omega) h
      simp [PipelinedActor.pipeCe, pairRun] at this
    · omega
  have h2 : t % 2 = 0 := by simpa [pairRun] using hv
  subst h1
  simp only [pairRun]
  rw [show (t + 1) / 2 = t / 2 by omega]

example : delivered Mult.datapath Mult.latency pairRun 10 = [0x4080, 0x3C02, 0x4080] := by decide +kernel

/-! ## Addition -/

/-- Output of `FloatAdd`'s datapath at enabled clock `t`, from register contents `s`. -/
def addOut (s : Add.State) (x : Nat → Pair) (t : Nat) : Nat := (trace Add.step s x t).out

/-- **C32** A pair of positive normal half floats whose sum is below `2^16` comes out five
enabled clocks later as the exact sum rounded toward zero, whatever precedes and follows it. -/
theorem C32_sum (s : Add.State) (x : Nat → Pair) (t : Nat)
    (ha : PosNormal (x t).in1) (hb : PosNormal (x t).in2)
    (hS : halfVal (x t).in1 + halfVal (x t).in2 < 2 ^ 40) :
    RoundDown (halfVal (x t).in1 + halfVal (x t).in2) (addOut s x (t + 5)) := by
  have h := Add.sum_round _ _ ha hb hS
  exact h

/-- **C32**, **C29** for the `FloatAdd` actor: for every valid/ready schedule the delivered words
are, in order, the sums of the accepted pairs, at most 5 late. -/
theorem C32_stream : ∃ f : Pair → Nat,
    (∀ a b, PosNormal a → PosNormal b → halfVal a + halfVal b < 2 ^ 40 →
      RoundDown (halfVal a + halfVal b) (f ⟨a, b⟩)) ∧
    ∀ (i : Nat → PipelinedActor.In Pair) (t : Nat),
      delivered Add.datapath Add.latency i t <+: (accepted Add.datapath Add.latency i t).map f ∧
      (accepted Add.datapath Add.latency i t).length ≤
        (delivered Add.datapath Add.latency i t).length + 5 :=
  ⟨Add.comp, Add.sum_round, fun i t =>
    C29_in_order_lossless Add.datapath Add.latency (by decide) _ Add.computes i t⟩

/-- `1 + 2^-11` rounds down to 1; `1.5 + 2.75 = 4.25`. -/
example : addOut Add.reset (fun _ => ⟨0x3C00, 0x1000⟩) 5 = 0x3C00 ∧
    addOut Add.reset (fun _ => ⟨0x3E00, 0x4180⟩) 5 = 0x4440 ∧
    halfVal 0x3E00 + halfVal 0x4180 < 2 ^ 40 := by decide

/-- **C33** Zero is neutral for positive normal half floats. -/
theorem C33_normal_partial (s : Add.State) (x : Nat → Pair) (t a : Nat) (ha : PosNormal a)
    (h : x t = ⟨a, 0⟩ ∨ x t = ⟨0, a⟩) : addOut s x (t + 5) = a := by
  have e : addOut s x (t + 5) = Add.comp (x t) := rfl
  rw [e]
  rcases h with h | h
  · rw [h]; exact (Add.add_zero a ha).1
  · rw [h]; exact (Add.add_zero a ha).2

/-- C33 for every non-negative finite half float. -/
def C33_statement : Prop :=
  ∀ a, Finite a → addOut Add.reset (fun _ => ⟨a, 0⟩) 5 = a ∧
    addOut Add.reset (fun _ => ⟨0, a⟩) 5 = a

/-- **C33** is false for zero itself (`0 + 0` is `2^-13`) and for subnormals (the smallest one
plus zero is 160). -/
theorem C33_violated : ¬ C33_statement ∧
    addOut Add.reset (fun _ => ⟨0, 0⟩) 5 = 0x0800 ∧
    addOut Add.reset (fun _ => ⟨1, 0⟩) 5 = 0x5C00 := by
  refine ⟨fun h => ?_, by decide, by decide⟩
  have := (h 0 (by unfold Finite; decide)).1
  exact absurd this (by decide)

end Verif.Props
