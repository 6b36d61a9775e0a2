import Verif.Model.Float
import Verif.Spec.Half
import Verif.Proofs.PipelinedActor
import Mathlib.Tactic.Ring
import Mathlib.Tactic.Linarith

/-! Helper lemmas for half-precision arithmetic (C30-C33, C51). -/

namespace Verif.Float16

open Spec.Half

theorem lt_two_pow_bitsFor (n : Nat) : n < 2 ^ bitsFor n := by
  unfold bitsFor
  split
  · subst n; decide
  · exact Nat.lt_log2_self

theorem leadOne_eq (dw x : Nat) (h0 : x ≠ 0) (h : x < 2 ^ dw) :
    leadOne dw x = dw - 1 - Nat.log2 x := by
  have hL : Nat.log2 x < dw := (Nat.log2_lt h0).2 h
  have hset : x.testBit (Nat.log2 x) = true := Nat.testBit_log2 h0
  have hclr : ∀ j, Nat.log2 x < j → x.testBit j = false := by
    intro j hj
    apply Nat.testBit_lt_two_pow
    exact Nat.lt_of_lt_of_le Nat.lt_log2_self (Nat.pow_le_pow_right (by decide) hj)
  have key : ∀ n, Nat.log2 x < n → (List.range n).foldl (init := 0) (fun acc j =>
      if x.testBit j then (dw - j - 1) % 2 ^ bitsFor (dw - 1) else acc) = dw - 1 - Nat.log2 x := by
    intro n hn
    induction n with
    | zero => omega
    | succ n ih =>
      rw [List.range_succ, List.foldl_append]
      simp only [List.foldl_cons, List.foldl_nil]
      by_cases hnl : Nat.log2 x = n
      · rw [← hnl, hset, if_pos rfl, Nat.mod_eq_of_lt]
        · omega
        · exact Nat.lt_of_le_of_lt (by omega) (lt_two_pow_bitsFor (dw - 1))
      · rw [hclr n (by omega)]
        simp only [Bool.false_eq_true, if_false]
        exact ih (by omega)
  exact key dw hL

theorem leadOne_zero (dw : Nat) : leadOne dw 0 = 0 := by
  unfold leadOne
  generalize List.range dw = l
  induction l with
  | nil => rfl
  | cons a l ih => simpa using ih

/-- The range of a number with a given leading one. -/
theorem leadOne_bounds (dw x : Nat) (h0 : x ≠ 0) (h : x < 2 ^ dw) :
    ∃ k, leadOne dw x = k ∧ k + 1 ≤ dw ∧ 2 ^ (dw - 1) ≤ x * 2 ^ k ∧ x * 2 ^ k < 2 ^ dw := by
  have hL : Nat.log2 x < dw := (Nat.log2_lt h0).2 h
  refine ⟨dw - 1 - Nat.log2 x, leadOne_eq dw x h0 h, by omega, ?_, ?_⟩
  · calc 2 ^ (dw - 1) = 2 ^ Nat.log2 x * 2 ^ (dw - 1 - Nat.log2 x) := by
          rw [← Nat.pow_add]; congr 1; omega
      _ ≤ _ := Nat.mul_le_mul_right _ (Nat.log2_self_le h0)
  · calc x * 2 ^ (dw - 1 - Nat.log2 x) < 2 ^ (Nat.log2 x + 1) * 2 ^ (dw - 1 - Nat.log2 x) :=
          Nat.mul_lt_mul_of_pos_right Nat.lt_log2_self (Nat.two_pow_pos _)
      _ = 2 ^ dw := by rw [← Nat.pow_add]; congr 1; omega

theorem halfVal_pack (e f : Nat) (he : 1 ≤ e) (he' : e < 32) (hf : f < 1024) :
    halfVal (e * 1024 + f) = (1024 + f) * 2 ^ (e - 1) := by
  unfold halfVal
  rw [show (e * 1024 + f) / 1024 % 32 = e by omega, show (e * 1024 + f) % 1024 = f by omega,
    if_neg (by omega)]

theorem halfVal_pack_succ (e f : Nat) (he : 1 ≤ e) (he' : e < 31) (hf : f < 1024) :
    halfVal (e * 1024 + f + 1) = (1024 + f + 1) * 2 ^ (e - 1) := by
  by_cases h : f = 1023
  · subst h
    rw [show e * 1024 + 1023 + 1 = (e + 1) * 1024 + 0 by omega,
      halfVal_pack _ _ (by omega) (by omega) (by omega)]
    obtain ⟨d, rfl⟩ : ∃ d, e = d + 1 := ⟨e - 1, by omega⟩
    simp only [Nat.add_sub_cancel, Nat.pow_succ]
    omega
  · rw [show e * 1024 + f + 1 = e * 1024 + (f + 1) by omega,
      halfVal_pack _ _ he (by omega) (by omega), Nat.add_assoc]

theorem halfVal_mant (w : Nat) : halfVal w = mantOf w * 2 ^ (exp1Of w - 1) := by
  unfold halfVal mantOf exp1Of expOf fracOf
  simp only [Nat.reducePow]
  split
  · rename_i h; rw [h]; simp
  · rw [Nat.add_comm]


theorem unpack (w : Nat) (h : PosNormal w) :
    ∃ e f, w = e * 1024 + f ∧ 1 ≤ e ∧ e ≤ 30 ∧ f < 1024 ∧ expOf w = e ∧ exp1Of w = e ∧
      mantOf w = 1024 + f ∧ halfVal w = (1024 + f) * 2 ^ (e - 1) := by
  obtain ⟨h1, h2⟩ := h
  have he : expOf w = w / 1024 := by
    unfold expOf; simp only [Nat.reducePow]; omega
  refine ⟨w / 1024, w % 1024, by omega, by omega, by omega, by omega, he, ?_, ?_, ?_⟩
  · unfold exp1Of; rw [he, if_neg (by omega)]
  · unfold mantOf fracOf; rw [he, if_neg (by omega)]; simp only [Nat.reducePow]; omega
  · have := halfVal_pack (w / 1024) (w % 1024) (by omega) (by omega) (by omega)
    rwa [show w / 1024 * 1024 + w % 1024 = w by omega] at this

theorem two_pow_pred (e : Nat) (h : 1 ≤ e) : 2 ^ e = 2 * 2 ^ (e - 1) := by
  obtain ⟨d, rfl⟩ : ∃ d, e = d + 1 := ⟨e - 1, by omega⟩
  simp only [Nat.add_sub_cancel, Nat.pow_succ]; omega

namespace Add

/-- The value computed for one operand pair. -/
def comp (x : Pair) : Nat :=
  (step (step (step (step (step reset x) ⟨0, 0⟩) ⟨0, 0⟩) ⟨0, 0⟩) ⟨0, 0⟩).out

theorem computes : Spec.Stream.Computes datapath latency comp := by
  intro s x later h
  match later, h with
  | [_, _, _, _], _ => rfl

/-- Stages 4 and 5 applied to an aligned sum. -/
def pack (sum e : Nat) : Nat :=
  sum % 2 ^ 12 * 2 ^ (leadOne 12 (sum % 2 ^ 12) % 2 ^ 4) % 2 ^ 12 / 2 % 2 ^ 10
    + (((e : Int) - (leadOne 12 (sum % 2 ^ 12) % 2 ^ 4 : Nat) + 1) % 2 ^ 5).toNat * 2 ^ 10
    + (sum / 2 ^ 12 % 2) * 2 ^ 15

theorem comp_nonneg (x : Pair) (h : 0 ≤ (exp1Of x.in1 : Int) - expOf x.in2) :
    comp x = pack (mantOf x.in1 + mantOf x.in2 / 2 ^ (exp1Of x.in1 - expOf x.in2)) (exp1Of x.in1) := by
  have h1 : exp1Of x.in1 < 32 := by
    unfold exp1Of; split <;> (try unfold expOf) <;> simp only [Nat.reducePow] <;> omega
  have hw : wrapS 6 ((exp1Of x.in1 : Int) - expOf x.in2) = (exp1Of x.in1 : Int) - expOf x.in2 :=
    wrapS_of_range (w := 5) (by omega) (by omega)
  unfold comp pack
  simp only [step, hw, if_pos h]
  rw [show ((exp1Of x.in1 : Int) - expOf x.in2).toNat = exp1Of x.in1 - expOf x.in2 by omega]

theorem comp_neg (x : Pair) (h : ¬ 0 ≤ (exp1Of x.in1 : Int) - expOf x.in2) :
    comp x = pack (mantOf x.in1 / 2 ^ (expOf x.in2 - exp1Of x.in1) + mantOf x.in2) (exp1Of x.in2) := by
  have h1 : expOf x.in2 < 32 := by
    unfold expOf; simp only [Nat.reducePow]; omega
  have hw : wrapS 6 ((exp1Of x.in1 : Int) - expOf x.in2) = (exp1Of x.in1 : Int) - expOf x.in2 :=
    wrapS_of_range (w := 5) (by omega) (by omega)
  unfold comp pack
  simp only [step, hw, if_neg h]
  rw [show (-((exp1Of x.in1 : Int) - expOf x.in2)).toNat = expOf x.in2 - exp1Of x.in1 by omega]

theorem pack_lo (sum e : Nat) (h1 : 1024 ≤ sum) (h2 : sum < 2048) (he : e < 32) :
    pack sum e = e * 1024 + (sum - 1024) := by
  have hk : leadOne 12 (sum % 2 ^ 12) = 1 := by
    obtain ⟨k, hk, hle, ha, hb⟩ := leadOne_bounds 12 sum (by omega) (by simp only [Nat.reducePow]; omega)
    rw [show sum % 2 ^ 12 = sum by simp only [Nat.reducePow]; omega, hk]
    simp only [Nat.reducePow] at ha hb
    match k with
    | 0 => simp only [Nat.pow_zero] at ha; omega
    | 1 => rfl
    | k + 2 =>
      have : sum * 2 ^ (k + 2) = sum * 2 ^ k * 4 := by rw [Nat.pow_add]; ring
      have h3 : 1 ≤ 2 ^ k := Nat.one_le_two_pow
      have h4 : sum ≤ sum * 2 ^ k := Nat.le_mul_of_pos_right _ h3
      omega
  unfold pack
  rw [hk, show sum % 2 ^ 12 = sum by simp only [Nat.reducePow]; omega,
    show sum / 2 ^ 12 = 0 by simp only [Nat.reducePow]; omega]
  simp only [Nat.reducePow, Nat.reduceMod, Int.reducePow]
  omega

theorem pack_hi (sum e : Nat) (h1 : 2048 ≤ sum) (h2 : sum < 4096) (he : e < 31) :
    pack sum e = (e + 1) * 1024 + (sum / 2 - 1024) := by
  have hk : leadOne 12 (sum % 2 ^ 12) = 0 := by
    obtain ⟨k, hk, hle, ha, hb⟩ := leadOne_bounds 12 sum (by omega) (by simp only [Nat.reducePow]; omega)
    rw [show sum % 2 ^ 12 = sum by simp only [Nat.reducePow]; omega, hk]
    simp only [Nat.reducePow] at ha hb
    match k with
    | 0 => rfl
    | k + 1 =>
      have : sum * 2 ^ (k + 1) = sum * 2 ^ k * 2 := by rw [Nat.pow_add]; ring
      have h3 : 1 ≤ 2 ^ k := Nat.one_le_two_pow
      have h4 : sum ≤ sum * 2 ^ k := Nat.le_mul_of_pos_right _ h3
      omega
  unfold pack
  rw [hk, show sum % 2 ^ 12 = sum by simp only [Nat.reducePow]; omega,
    show sum / 2 ^ 12 = 0 by simp only [Nat.reducePow]; omega]
  simp only [Nat.reducePow, Nat.reduceMod, Int.reducePow]
  omega

/-- Packing an aligned sum that truncates `S` rounds `S` down. -/
theorem pack_round (S sum e : Nat) (he : 1 ≤ e) (he' : e ≤ 30) (h1 : 1024 ≤ sum) (h2 : sum < 4096)
    (hlo : sum * 2 ^ (e - 1) ≤ S) (hhi : S < (sum + 1) * 2 ^ (e - 1)) (hS : S < 2 ^ 40) :
    RoundDown S (pack sum e) := by
  by_cases hs : sum < 2048
  · rw [pack_lo sum e h1 hs (by omega)]
    refine ⟨?_, ?_, ?_⟩
    · unfold Finite; omega
    · rw [halfVal_pack _ _ he (by omega) (by omega), show 1024 + (sum - 1024) = sum by omega]
      exact hlo
    · rw [halfVal_pack_succ _ _ he (by omega) (by omega), show 1024 + (sum - 1024) = sum by omega]
      exact hhi
  · have he30 : e < 30 := by
      by_contra hc
      have : e = 30 := by omega
      subst this
      have : 2048 * 2 ^ (30 - 1) ≤ sum * 2 ^ (30 - 1) := Nat.mul_le_mul_right _ (by omega)
      norm_num at this hS hlo
      omega
    rw [pack_hi sum e (by omega) h2 (by omega)]
    have hp := two_pow_pred e he
    refine ⟨?_, ?_, ?_⟩
    · unfold Finite; omega
    · rw [halfVal_pack _ _ (by omega) (by omega) (by omega),
        show 1024 + (sum / 2 - 1024) = sum / 2 by omega, Nat.add_sub_cancel, hp]
      have : sum / 2 * 2 ≤ sum := Nat.div_mul_le_self _ _
      have := Nat.mul_le_mul_right (2 ^ (e - 1)) this
      calc sum / 2 * (2 * 2 ^ (e - 1)) = sum / 2 * 2 * 2 ^ (e - 1) := by ring
        _ ≤ _ := this
        _ ≤ S := hlo
    · rw [halfVal_pack_succ _ _ (by omega) (by omega) (by omega),
        show 1024 + (sum / 2 - 1024) = sum / 2 by omega, Nat.add_sub_cancel, hp]
      have : sum + 1 ≤ (sum / 2 + 1) * 2 := by omega
      have := Nat.mul_le_mul_right (2 ^ (e - 1)) this
      calc S < _ := hhi
        _ ≤ _ := this
        _ = _ := by ring

/-- Aligning truncates. -/
theorem align (m d e : Nat) (hd : d < e) :
    m / 2 ^ d * 2 ^ (e - 1) ≤ m * 2 ^ (e - d - 1) ∧
    m * 2 ^ (e - d - 1) < (m / 2 ^ d + 1) * 2 ^ (e - 1) := by
  have hp : 2 ^ (e - 1) = 2 ^ d * 2 ^ (e - d - 1) := by rw [← Nat.pow_add]; congr 1; omega
  rw [hp]
  constructor
  · rw [← Nat.mul_assoc]
    exact Nat.mul_le_mul_right _ (Nat.div_mul_le_self _ _)
  · rw [← Nat.mul_assoc]
    apply Nat.mul_lt_mul_of_pos_right _ (Nat.two_pow_pos _)
    rw [Nat.add_mul, Nat.one_mul]
    exact Nat.lt_div_mul_add (Nat.two_pow_pos d)

theorem sum_round (a b : Nat) (ha : PosNormal a) (hb : PosNormal b)
    (hS : halfVal a + halfVal b < 2 ^ 40) : RoundDown (halfVal a + halfVal b) (comp ⟨a, b⟩) := by
  obtain ⟨e1, f1, _, h11, h12, hf1, hx1, hy1, hm1, hv1⟩ := unpack a ha
  obtain ⟨e2, f2, _, h21, h22, hf2, hx2, hy2, hm2, hv2⟩ := unpack b hb
  by_cases h : e2 ≤ e1
  · rw [comp_nonneg _ (by simp only [hy1, hx2]; omega)]
    simp only [hy1, hx2, hm1, hm2]
    have hal := align (1024 + f2) (e1 - e2) e1 (by omega)
    rw [show e1 - (e1 - e2) - 1 = e2 - 1 by omega] at hal
    have hle : (1024 + f2) / 2 ^ (e1 - e2) ≤ 1024 + f2 := Nat.div_le_self _ _
    rw [hv1, hv2] at hS ⊢
    generalize (1024 + f2) / 2 ^ (e1 - e2) = q at *
    generalize (1024 + f2) * 2 ^ (e2 - 1) = v2 at *
    exact pack_round _ _ _ h11 h12 (by omega) (by omega) (by grind) (by grind) hS
  · rw [comp_neg _ (by simp only [hy1, hx2]; omega)]
    simp only [hy1, hy2, hx2, hm1, hm2]
    have hal := align (1024 + f1) (e2 - e1) e2 (by omega)
    rw [show e2 - (e2 - e1) - 1 = e1 - 1 by omega] at hal
    have hle : (1024 + f1) / 2 ^ (e2 - e1) ≤ 1024 + f1 := Nat.div_le_self _ _
    rw [hv1, hv2] at hS ⊢
    generalize (1024 + f1) / 2 ^ (e2 - e1) = q at *
    generalize (1024 + f1) * 2 ^ (e1 - 1) = v1 at *
    exact pack_round _ _ _ h21 h22 (by omega) (by omega) (by grind) (by grind) hS

theorem add_zero (a : Nat) (ha : PosNormal a) : comp ⟨a, 0⟩ = a ∧ comp ⟨0, a⟩ = a := by
  obtain ⟨e, f, hw, h1, h2, hf, hx, hy, hm, hv⟩ := unpack a ha
  have z1 : expOf 0 = 0 := rfl
  have z2 : exp1Of 0 = 1 := rfl
  have z3 : mantOf 0 = 0 := rfl
  constructor
  · rw [comp_nonneg _ (by simp only [z1]; omega)]
    simp only [hy, z1, z3, hm, Nat.zero_div, Nat.add_zero]
    rw [pack_lo _ _ (by omega) (by omega) (by omega)]; omega
  · by_cases he : e = 1
    · rw [comp_nonneg _ (by simp only [z2, hx]; omega)]
      simp only [hx, z2, z3, hm, he, Nat.sub_self, Nat.pow_zero, Nat.div_one, Nat.zero_add]
      rw [pack_lo _ _ (by omega) (by omega) (by omega)]; omega
    · rw [comp_neg _ (by simp only [z2, hx]; omega)]
      simp only [hy, z3, hm, Nat.zero_div, Nat.zero_add]
      rw [pack_lo _ _ (by omega) (by omega) (by omega)]; omega

end Add

namespace Mult

/-- Stages 2 to 5 on a pair of mantissas and exponents. -/
def pack (p : Nat) (e : Int) : Nat :=
  let k : Nat := leadOne 22 (p % 2 ^ 22) % 2 ^ 5
  if wrapS 7 e - k < 1 then
    shr (p % 2 ^ 22) (0 - wrapS 7 e) * 2 % 2 ^ 22 / 2 ^ 12 + ((0 : Int) % 2 ^ 5).toNat * 2 ^ 10
  else
    p % 2 ^ 22 * 2 ^ (k + 1) % 2 ^ 22 / 2 ^ 12 +
      (wrapS 7 (wrapS 7 e + 1 - k) % 2 ^ 5).toNat * 2 ^ 10

/-- The value computed for an operand pair held for two enabled clocks. -/
def comp (x : Pair) : Nat :=
  if expOf x.in1 = 0 ∧ fracOf x.in1 = 0 then 0
  else if expOf x.in2 = 0 ∧ fracOf x.in2 = 0 then 0
  else pack (mantOf x.in1 * mantOf x.in2) ((exp1Of x.in1 : Int) + exp1Of x.in2 - 15)

theorem held (s : State) (x y3 y4 y5 : Pair) :
    (step (step (step (step (step s x) x) y3) y4) y5).out = comp x := by
  unfold comp pack
  by_cases h1 : expOf x.in1 = 0 ∧ fracOf x.in1 = 0
  · simp only [step, if_pos h1, if_true]
  · by_cases h2 : expOf x.in2 = 0 ∧ fracOf x.in2 = 0
    · simp only [step, if_neg h1, if_pos h2, if_true]
    · simp only [step, if_neg h1, if_neg h2, show ¬ (3 = 0) by decide, if_false, if_true]
      split <;> rfl

theorem mant_lt (w : Nat) : mantOf w < 2 ^ 11 := by
  unfold mantOf fracOf
  simp only [Nat.reducePow]
  split <;> omega

theorem exp1_range (w : Nat) (h : Finite w) : 1 ≤ exp1Of w ∧ exp1Of w ≤ 30 := by
  unfold Finite at h
  unfold exp1Of expOf
  simp only [Nat.reducePow]
  split <;> omega

theorem mant_pos (w : Nat) (h : halfVal w ≠ 0) : mantOf w ≠ 0 := by
  intro hm
  rw [halfVal_mant, hm, Nat.zero_mul] at h
  exact h rfl

theorem not_zero (w : Nat) (h : halfVal w ≠ 0) : ¬ (expOf w = 0 ∧ fracOf w = 0) := by
  intro ⟨h1, h2⟩
  apply mant_pos w h
  unfold mantOf
  rw [if_pos h1, h2]

theorem prod_eq (a b : Nat) (ha : Finite a) (hb : Finite b) :
    halfVal a * halfVal b = mantOf a * mantOf b * 2 ^ (exp1Of a + exp1Of b - 2) := by
  have h1 := exp1_range a ha
  have h2 := exp1_range b hb
  rw [halfVal_mant a, halfVal_mant b,
    show exp1Of a + exp1Of b - 2 = (exp1Of a - 1) + (exp1Of b - 1) by omega, Nat.pow_add]
  ring

/-- Product with a normal result of exponent at least 2. -/
theorem pack_normal (p x : Nat) (hp : p ≠ 0) (hp' : p < 2 ^ 22) (hx : 2 ≤ x) (hx' : x ≤ 60)
    (hlo : 2 ^ 35 ≤ p * 2 ^ (x - 2)) (hhi : p * 2 ^ (x - 2) < 2 ^ 64) :
    RoundDown48 (p * 2 ^ (x - 2)) (pack p ((x : Int) - 15)) := by
  obtain ⟨k, hk, hk1, hka, hkb⟩ := leadOne_bounds 22 p hp hp'
  have hmod : p % 2 ^ 22 = p := Nat.mod_eq_of_lt hp'
  have hk32 : k % 2 ^ 5 = k := Nat.mod_eq_of_lt (by simp only [Nat.reducePow]; omega)
  have hw : wrapS 7 ((x : Int) - 15) = (x : Int) - 15 :=
    wrapS_of_range (w := 6) (by omega) (by omega)
  -- bounds on the exponent
  have hxk : 16 + k ≤ x := by
    by_contra hc
    have h1 : p * 2 ^ (x - 2) * 2 ^ k = p * 2 ^ k * 2 ^ (x - 2) := by ring
    have h2 : p * 2 ^ k * 2 ^ (x - 2) < 2 ^ 22 * 2 ^ (x - 2) :=
      Nat.mul_lt_mul_of_pos_right hkb (Nat.two_pow_pos _)
    have h3 : 2 ^ 35 * 2 ^ k ≤ p * 2 ^ (x - 2) * 2 ^ k := Nat.mul_le_mul_right _ hlo
    rw [← Nat.pow_add] at h2 h3
    have h4 : 2 ^ (35 + k) < 2 ^ (22 + (x - 2)) := by omega
    have := (Nat.pow_lt_pow_iff_right (by decide : 1 < 2)).1 h4
    omega
  have hxk2 : x - 14 - k ≤ 30 := by
    by_contra hc
    have h1 : p * 2 ^ (x - 2) * 2 ^ k = p * 2 ^ k * 2 ^ (x - 2) := by ring
    have h2 : 2 ^ (22 - 1) * 2 ^ (x - 2) ≤ p * 2 ^ k * 2 ^ (x - 2) := Nat.mul_le_mul_right _ hka
    have h3 : p * 2 ^ (x - 2) * 2 ^ k < 2 ^ 64 * 2 ^ k :=
      Nat.mul_lt_mul_of_pos_right hhi (Nat.two_pow_pos _)
    rw [← Nat.pow_add] at h2 h3
    have h4 : 2 ^ (22 - 1 + (x - 2)) < 2 ^ (64 + k) := by omega
    have := (Nat.pow_lt_pow_iff_right (by decide : 1 < 2)).1 h4
    omega
  obtain ⟨j, rfl⟩ : ∃ j, x = 15 + k + j := ⟨x - 15 - k, by omega⟩
  have hw2 : wrapS 7 (((15 + k + j : Nat) : Int) - 15 + 1 - k) = ((j + 1 : Nat) : Int) := by
    rw [show ((15 + k + j : Nat) : Int) - 15 + 1 - k = ((j + 1 : Nat) : Int) by push_cast; ring]
    exact wrapS_of_range (w := 6) (by omega) (by omega)
  have hpk : pack p (((15 + k + j : Nat) : Int) - 15) =
      (j + 1) * 1024 + (p * 2 ^ (k + 1) / 2 ^ 12 - 1024) := by
    unfold pack
    simp only [hmod, hk, hk32, hw, hw2]
    rw [if_neg (by push_cast; omega)]
    have e1 : p * 2 ^ (k + 1) = p * 2 ^ k * 2 := by rw [Nat.pow_succ]; ring
    rw [e1]
    generalize p * 2 ^ k = q at *
    simp only [Nat.reducePow, Int.reducePow] at *
    omega
  have e1 : p * 2 ^ (k + 1) = p * 2 ^ k * 2 := by rw [Nat.pow_succ]; ring
  have hm1 : 1024 ≤ p * 2 ^ (k + 1) / 2 ^ 12 := by
    rw [e1]; simp only [Nat.reducePow] at *; omega
  have hm2 : p * 2 ^ (k + 1) / 2 ^ 12 < 2048 := by
    rw [e1]; simp only [Nat.reducePow] at *; omega
  rw [hpk]
  have hf : p * 2 ^ (k + 1) / 2 ^ 12 - 1024 < 1024 := by omega
  have hP : p * 2 ^ (15 + k + j - 2) = p * 2 ^ (k + 1) * 2 ^ (12 + j) := by
    rw [Nat.mul_assoc, ← Nat.pow_add]; congr 2; omega
  refine ⟨?_, ?_, ?_⟩
  · unfold Finite; omega
  · rw [halfVal_pack _ _ (by omega) (by omega) hf, Nat.add_sub_cancel,
      show 1024 + (p * 2 ^ (k + 1) / 2 ^ 12 - 1024) = p * 2 ^ (k + 1) / 2 ^ 12 by omega, hP]
    have := Nat.div_mul_le_self (p * 2 ^ (k + 1)) (2 ^ 12)
    have := Nat.mul_le_mul_right (2 ^ (12 + j)) this
    calc p * 2 ^ (k + 1) / 2 ^ 12 * 2 ^ j * 2 ^ 24
        = p * 2 ^ (k + 1) / 2 ^ 12 * 2 ^ 12 * 2 ^ (12 + j) := by rw [Nat.pow_add]; ring
      _ ≤ _ := this
  · rw [halfVal_pack_succ _ _ (by omega) (by omega) hf, Nat.add_sub_cancel,
      show 1024 + (p * 2 ^ (k + 1) / 2 ^ 12 - 1024) = p * 2 ^ (k + 1) / 2 ^ 12 by omega, hP]
    have h1 : p * 2 ^ (k + 1) < (p * 2 ^ (k + 1) / 2 ^ 12 + 1) * 2 ^ 12 := by
      rw [Nat.add_mul, Nat.one_mul]; exact Nat.lt_div_mul_add (by decide)
    have := Nat.mul_lt_mul_of_pos_right h1 (Nat.two_pow_pos (12 + j))
    calc _ < _ := this
      _ = (p * 2 ^ (k + 1) / 2 ^ 12 + 1) * 2 ^ j * 2 ^ 24 := by rw [Nat.pow_add]; ring

theorem product_normal (a b : Nat) (ha : Finite a) (hb : Finite b)
    (hlo : 2 ^ 35 ≤ halfVal a * halfVal b) (hhi : halfVal a * halfVal b < 2 ^ 64) :
    RoundDown48 (halfVal a * halfVal b) (comp ⟨a, b⟩) := by
  have hab : halfVal a ≠ 0 ∧ halfVal b ≠ 0 := by
    constructor <;> (intro h; rw [h] at hlo; simp at hlo)
  have h1 := exp1_range a ha
  have h2 := exp1_range b hb
  have hp : mantOf a * mantOf b < 2 ^ 22 := by
    have := mant_lt a; have := mant_lt b
    calc mantOf a * mantOf b < 2 ^ 11 * 2 ^ 11 := Nat.mul_lt_mul'' ‹_› ‹_›
      _ = 2 ^ 22 := by norm_num
  unfold comp
  rw [if_neg (not_zero a hab.1), if_neg (not_zero b hab.2)]
  rw [prod_eq a b ha hb] at hlo hhi ⊢
  have := pack_normal (mantOf a * mantOf b) (exp1Of a + exp1Of b)
    (Nat.mul_ne_zero (mant_pos a hab.1) (mant_pos b hab.2)) hp (by omega) (by omega) hlo hhi
  push_cast at this
  exact this

/-- Product of normals with a subnormal result. -/
theorem product_subnormal (a b : Nat) (ha : PosNormal a) (hb : PosNormal b)
    (hhi : halfVal a * halfVal b < 2 ^ 34) :
    RoundDown48 (halfVal a * halfVal b) (comp ⟨a, b⟩) := by
  have ha' : Finite a := ha.2
  have hb' : Finite b := hb.2
  obtain ⟨e1, f1, _, h11, h12, hf1, hx1, hy1, hm1, hv1⟩ := unpack a ha
  obtain ⟨e2, f2, _, h21, h22, hf2, hx2, hy2, hm2, hv2⟩ := unpack b hb
  have hab : halfVal a ≠ 0 ∧ halfVal b ≠ 0 := by
    rw [hv1, hv2]
    exact ⟨Nat.mul_ne_zero (by omega) (by positivity), Nat.mul_ne_zero (by omega) (by positivity)⟩
  unfold comp
  rw [if_neg (not_zero a hab.1), if_neg (not_zero b hab.2)]
  rw [prod_eq a b ha' hb'] at hhi ⊢
  simp only [hy1, hy2]
  rw [hy1, hy2] at hhi
  have hp : mantOf a * mantOf b < 2 ^ 22 := by
    have := mant_lt a; have := mant_lt b
    calc mantOf a * mantOf b < 2 ^ 11 * 2 ^ 11 := Nat.mul_lt_mul'' ‹_› ‹_›
      _ = 2 ^ 22 := by norm_num
  have hp2 : 2 ^ 20 ≤ mantOf a * mantOf b := by
    rw [hm1, hm2]
    calc 2 ^ 20 = 1024 * 1024 := by norm_num
      _ ≤ _ := Nat.mul_le_mul (by omega) (by omega)
  generalize mantOf a * mantOf b = p at *
  clear hv1 hv2 hm1 hm2 hx1 hx2 hy1 hy2 hab
  obtain ⟨k, hk, hk1, hka, hkb⟩ := leadOne_bounds 22 p (by simp only [Nat.reducePow] at hp2; omega) hp
  have hmod : p % 2 ^ 22 = p := Nat.mod_eq_of_lt hp
  have hk1' : k ≤ 1 := by
    by_contra hc
    obtain ⟨j, rfl⟩ : ∃ j, k = j + 2 := ⟨k - 2, by omega⟩
    have h3 : 1 ≤ 2 ^ j := Nat.one_le_two_pow
    have h4 : p ≤ p * 2 ^ j := Nat.le_mul_of_pos_right _ h3
    have h5 : p * 2 ^ (j + 2) = p * 2 ^ j * 4 := by rw [Nat.pow_add]; ring
    simp only [Nat.reducePow] at *
    omega
  have hk32 : k % 2 ^ 5 = k := Nat.mod_eq_of_lt (by simp only [Nat.reducePow]; omega)
  have hw : wrapS 7 ((e1 : Int) + e2 - 15) = (e1 : Int) + e2 - 15 :=
    wrapS_of_range (w := 6) (by omega) (by omega)
  have hx : e1 + e2 + 1 ≤ 15 + k := by
    by_contra hc
    have h1 : p * 2 ^ (e1 + e2 - 2) * 2 ^ k = p * 2 ^ k * 2 ^ (e1 + e2 - 2) := by ring
    have h2 : 2 ^ (22 - 1) * 2 ^ (e1 + e2 - 2) ≤ p * 2 ^ k * 2 ^ (e1 + e2 - 2) :=
      Nat.mul_le_mul_right _ hka
    have h3 : p * 2 ^ (e1 + e2 - 2) * 2 ^ k < 2 ^ 34 * 2 ^ k :=
      Nat.mul_lt_mul_of_pos_right hhi (Nat.two_pow_pos _)
    rw [← Nat.pow_add] at h2 h3
    have h4 : 2 ^ (22 - 1 + (e1 + e2 - 2)) < 2 ^ (34 + k) := by omega
    have := (Nat.pow_lt_pow_iff_right (by decide : 1 < 2)).1 h4
    omega
  obtain ⟨d, hd⟩ : ∃ d, e1 + e2 + d = 15 := ⟨15 - e1 - e2, by omega⟩
  have hpd : p / 2 ^ d < 2 ^ 21 := by
    by_cases hd0 : d = 0
    · have : k = 1 := by omega
      subst this
      rw [hd0, Nat.pow_zero, Nat.div_one]
      simp only [Nat.reducePow] at *
      omega
    · rw [Nat.div_lt_iff_lt_mul (Nat.two_pow_pos d)]
      calc p < 2 ^ 22 := hp
        _ ≤ 2 ^ (21 + d) := Nat.pow_le_pow_right (by decide) (by omega)
        _ = _ := Nat.pow_add _ _ _
  have hpk : pack p ((e1 : Int) + e2 - 15) = p / 2 ^ d / 2 ^ 11 := by
    unfold pack
    simp only [hmod, hk, hk32, hw]
    rw [if_pos (by omega)]
    unfold shr
    rw [if_pos (by omega), show (0 - ((e1 : Int) + e2 - 15)).toNat = d by omega]
    simp only [Int.zero_emod, Int.toNat_zero, Nat.zero_mul, Nat.add_zero]
    generalize p / 2 ^ d = q at hpd ⊢
    simp only [Nat.reducePow] at hpd ⊢
    omega
  rw [hpk]
  have hP : p * 2 ^ (e1 + e2 - 2) * 2 ^ d = p * 2 ^ 13 := by
    rw [Nat.mul_assoc, ← Nat.pow_add]; congr 2; omega
  have hq : p / 2 ^ d / 2 ^ 11 = p / 2 ^ (d + 11) := by rw [Nat.div_div_eq_div_mul, Nat.pow_add]
  have hsmall : p / 2 ^ d / 2 ^ 11 < 1024 := by
    simp only [Nat.reducePow] at *; omega
  have hv : halfVal (p / 2 ^ d / 2 ^ 11) = p / 2 ^ d / 2 ^ 11 := by
    generalize p / 2 ^ d / 2 ^ 11 = w at *
    unfold halfVal
    rw [if_pos (by omega)]; omega
  have hv' : halfVal (p / 2 ^ d / 2 ^ 11 + 1) = p / 2 ^ d / 2 ^ 11 + 1 := by
    generalize p / 2 ^ d / 2 ^ 11 = w at *
    by_cases hw1 : w = 1023
    · subst hw1; rfl
    · unfold halfVal
      rw [if_pos (by omega)]; omega
  have hsplit : p * 2 ^ 13 = p * 2 ^ 13 := rfl
  refine ⟨?_, ?_, ?_⟩
  · unfold Finite; omega
  · rw [hv, hq]
    apply Nat.le_of_mul_le_mul_right _ (Nat.two_pow_pos d)
    rw [hP]
    calc p / 2 ^ (d + 11) * 2 ^ 24 * 2 ^ d = p / 2 ^ (d + 11) * 2 ^ (d + 11) * 2 ^ 13 := by
          rw [Nat.pow_add]; ring
      _ ≤ p * 2 ^ 13 := Nat.mul_le_mul_right _ (Nat.div_mul_le_self _ _)
  · rw [hv', hq]
    apply Nat.lt_of_mul_lt_mul_right (a := 2 ^ d)
    rw [hP]
    have h1 : p < (p / 2 ^ (d + 11) + 1) * 2 ^ (d + 11) := by
      rw [Nat.add_mul, Nat.one_mul]; exact Nat.lt_div_mul_add (Nat.two_pow_pos _)
    calc p * 2 ^ 13 < (p / 2 ^ (d + 11) + 1) * 2 ^ (d + 11) * 2 ^ 13 :=
          Nat.mul_lt_mul_of_pos_right h1 (by decide)
      _ = _ := by rw [Nat.pow_add]; ring

end Mult
end Verif.Float16
