import Verif.Spec.GrayFifo

/-!
# Lemmas about Gray codes and the asynchronous FIFO
-/

namespace Verif.GrayFifo

open Status

theorem gray_bit {w : Nat} (x : BitVec w) (i : Nat) :
    (gray x).getLsbD i = (x.getLsbD i ^^ x.getLsbD (i + 1)) := by
  simp [gray, Nat.add_comm]

/-- The Gray code determines the number. -/
theorem gray_inj {w : Nat} {x y : BitVec w} (h : gray x = gray y) : x = y := by
  have key : ∀ k i, w ≤ i + k → x.getLsbD i = y.getLsbD i := by
    intro k
    induction k with
    | zero =>
      intro i hi
      rw [BitVec.getLsbD_of_ge x i hi, BitVec.getLsbD_of_ge y i hi]
    | succ k ih =>
      intro i hi
      have h1 := gray_bit x i
      have h2 := gray_bit y i
      rw [h, h2, ih (i + 1) (by omega)] at h1
      revert h1
      cases x.getLsbD i <;> cases y.getLsbD i <;> cases y.getLsbD (i + 1) <;> simp
  exact BitVec.eq_of_getLsbD_eq fun i hi => key w i (by omega)

theorem testBit_succ (a i : Nat) :
    (a + 1).testBit i = (a.testBit i ^^ decide (a % 2 ^ i = 2 ^ i - 1)) := by
  have hp : 0 < 2 ^ i := Nat.two_pow_pos i
  rw [Nat.testBit_eq_decide_div_mod_eq, Nat.testBit_eq_decide_div_mod_eq]
  have hm := Nat.mod_lt a hp
  have hd := Nat.div_add_mod a (2 ^ i)
  by_cases h : a % 2 ^ i = 2 ^ i - 1
  · have : (a + 1) / 2 ^ i = a / 2 ^ i + 1 := by
      rw [Nat.div_eq_iff hp]
      have : 2 ^ i * (a / 2 ^ i) = a / 2 ^ i * 2 ^ i := Nat.mul_comm _ _
      have e : (a / 2 ^ i + 1) * 2 ^ i = a / 2 ^ i * 2 ^ i + 2 ^ i := Nat.succ_mul _ _
      omega
    rw [this]
    by_cases h2 : a / 2 ^ i % 2 = 1
    · have : ¬ (a / 2 ^ i + 1) % 2 = 1 := by omega
      simp [h, h2, this]
    · have : (a / 2 ^ i + 1) % 2 = 1 := by omega
      simp [h, h2, this]
  · have : (a + 1) / 2 ^ i = a / 2 ^ i := by
      rw [Nat.div_eq_iff hp]
      have : 2 ^ i * (a / 2 ^ i) = a / 2 ^ i * 2 ^ i := Nat.mul_comm _ _
      omega
    rw [this]
    simp [h]

theorem ones_down (a i : Nat) (h : a % 2 ^ (i + 1) = 2 ^ (i + 1) - 1) : a % 2 ^ i = 2 ^ i - 1 := by
  have hp : 0 < 2 ^ i := Nat.two_pow_pos i
  have : a % 2 ^ i = (a % 2 ^ (i + 1)) % 2 ^ i := by
    rw [Nat.mod_mod_of_dvd]
    exact Nat.pow_dvd_pow 2 (by omega)
  rw [this, h, Nat.pow_succ]
  have : 2 ^ i * 2 - 1 = (2 ^ i - 1) + 2 ^ i := by omega
  rw [this, Nat.add_mod_right, Nat.mod_eq_of_lt (by omega)]

theorem ones_below (a i j : Nat) (hij : i ≤ j) (h : a % 2 ^ j = 2 ^ j - 1) : a % 2 ^ i = 2 ^ i - 1 := by
  induction j with
  | zero => obtain rfl : i = 0 := by omega
            exact h
  | succ j ih =>
    rcases Nat.lt_or_ge j i with h1 | h1
    · obtain rfl : i = j + 1 := by omega
      exact h
    · exact ih h1 (ones_down a j h)

/-- Bits that differ in the Gray codes of two successive numbers. -/
theorem gray_diff (w a i : Nat) :
    ((gray (BitVec.ofNat w (a + 1))).getLsbD i ^^ (gray (BitVec.ofNat w a)).getLsbD i) =
      ((decide (i < w) && decide (a % 2 ^ i = 2 ^ i - 1)) ^^
        (decide (i + 1 < w) && decide (a % 2 ^ (i + 1) = 2 ^ (i + 1) - 1))) := by
  simp only [gray_bit, BitVec.getLsbD_ofNat, testBit_succ]
  cases decide (i < w) <;> cases decide (i + 1 < w) <;> cases a.testBit i <;>
    cases a.testBit (i + 1) <;> cases decide (a % 2 ^ i = 2 ^ i - 1) <;>
    cases decide (a % 2 ^ (i + 1) = 2 ^ (i + 1) - 1) <;> rfl

/-- Successive Gray codes differ in at most one bit. -/
theorem gray_one (w a i j : Nat) (hij : i < j)
    (hi : (gray (BitVec.ofNat w (a + 1))).getLsbD i ≠ (gray (BitVec.ofNat w a)).getLsbD i) :
    (gray (BitVec.ofNat w (a + 1))).getLsbD j = (gray (BitVec.ofNat w a)).getLsbD j := by
  have h1 := gray_diff w a i
  have h2 := gray_diff w a j
  have hx : ((gray (BitVec.ofNat w (a + 1))).getLsbD i ^^ (gray (BitVec.ofNat w a)).getLsbD i) = true := by
    revert hi
    cases (gray (BitVec.ofNat w (a + 1))).getLsbD i <;> cases (gray (BitVec.ofNat w a)).getLsbD i <;> simp
  rw [hx] at h1
  suffices h : ((gray (BitVec.ofNat w (a + 1))).getLsbD j ^^ (gray (BitVec.ofNat w a)).getLsbD j) = false by
    revert h
    cases (gray (BitVec.ofNat w (a + 1))).getLsbD j <;> cases (gray (BitVec.ofNat w a)).getLsbD j <;> simp
  rw [h2]
  have hup : (decide (i + 1 < w) && decide (a % 2 ^ (i + 1) = 2 ^ (i + 1) - 1)) = false ∨
      (decide (i < w) && decide (a % 2 ^ i = 2 ^ i - 1)) = false := by
    revert h1
    cases (decide (i + 1 < w) && decide (a % 2 ^ (i + 1) = 2 ^ (i + 1) - 1)) <;>
      cases (decide (i < w) && decide (a % 2 ^ i = 2 ^ i - 1)) <;> simp
  have hnot : ∀ m, i + 1 ≤ m → (decide (m < w) && decide (a % 2 ^ m = 2 ^ m - 1)) = false := by
    intro m hm
    rw [Bool.and_eq_false_iff, decide_eq_false_iff_not, decide_eq_false_iff_not]
    rcases hup with h | h
    · rw [Bool.and_eq_false_iff, decide_eq_false_iff_not, decide_eq_false_iff_not] at h
      rcases h with h | h
      · exact .inl (by omega)
      · exact .inr fun h' => h (ones_below a (i + 1) m hm h')
    · rw [Bool.and_eq_false_iff, decide_eq_false_iff_not, decide_eq_false_iff_not] at h
      rcases h with h | h
      · exact .inl (by omega)
      · exact .inr fun h' => h (ones_below a i m (by omega) h')
  rw [hnot j (by omega), hnot (j + 1) (by omega)]; rfl

theorem sample_bit {w : Nat} (x y o : BitVec w) (i : Nat) :
    (sample x y o).getLsbD i = if o.getLsbD i then x.getLsbD i else y.getLsbD i := by
  by_cases hi : i < w
  · simp only [sample, BitVec.getLsbD_or, BitVec.getLsbD_and, BitVec.getLsbD_not, hi]
    cases o.getLsbD i <;> simp
  · simp [BitVec.getLsbD_of_ge _ _ (Nat.le_of_not_lt hi)]

theorem sample_same {w : Nat} (x o : BitVec w) : sample x x o = x :=
  BitVec.eq_of_getLsbD_eq fun i _ => by rw [sample_bit]; split <;> rfl

/-- A synchroniser that samples a Gray counter while it counts takes the old or the new value. -/
theorem sample_gray (w a : Nat) (o : BitVec w) :
    sample (gray (BitVec.ofNat w a)) (gray (BitVec.ofNat w (a + 1))) o = gray (BitVec.ofNat w a) ∨
    sample (gray (BitVec.ofNat w a)) (gray (BitVec.ofNat w (a + 1))) o =
      gray (BitVec.ofNat w (a + 1)) := by
  by_cases h : ∃ i, (gray (BitVec.ofNat w (a + 1))).getLsbD i ≠ (gray (BitVec.ofNat w a)).getLsbD i
  · obtain ⟨i, hi⟩ := h
    have hall : ∀ j, j ≠ i →
        (gray (BitVec.ofNat w (a + 1))).getLsbD j = (gray (BitVec.ofNat w a)).getLsbD j := by
      intro j hj
      rcases Nat.lt_or_gt_of_ne hj with h | h
      · by_cases hjd : (gray (BitVec.ofNat w (a + 1))).getLsbD j = (gray (BitVec.ofNat w a)).getLsbD j
        · exact hjd
        · exact absurd (gray_one w a j i h hjd) hi
      · exact gray_one w a i j h hi
    cases ho : o.getLsbD i
    · refine .inr (BitVec.eq_of_getLsbD_eq fun j _ => ?_)
      rw [sample_bit]
      by_cases hj : j = i
      · subst hj; rw [ho]; rfl
      · rw [hall j hj]; split <;> rfl
    · refine .inl (BitVec.eq_of_getLsbD_eq fun j _ => ?_)
      rw [sample_bit]
      by_cases hj : j = i
      · subst hj; rw [ho]; rfl
      · rw [hall j hj]; split <;> rfl
  · refine .inl (BitVec.eq_of_getLsbD_eq fun j _ => ?_)
    rw [sample_bit]
    split
    · rfl
    · by_cases hjd : (gray (BitVec.ofNat w (a + 1))).getLsbD j = (gray (BitVec.ofNat w a)).getLsbD j
      · exact hjd
      · exact absurd ⟨j, hjd⟩ h

/-- Numbers with the same Gray code agree modulo the range of the counter. -/
theorem gray_ofNat {w a b : Nat} : gray (BitVec.ofNat w a) = gray (BitVec.ofNat w b) ↔
    a % 2 ^ w = b % 2 ^ w := by
  constructor
  · intro h
    have := congrArg BitVec.toNat (gray_inj h)
    simpa using this
  · intro h
    have : BitVec.ofNat w a = BitVec.ofNat w b := BitVec.eq_of_toNat_eq (by simpa using h)
    rw [this]

/-- The test for a full FIFO. -/
theorem full_test {n : Nat} (hn : 1 ≤ n) (a b : Nat) :
    (((gray (BitVec.ofNat (n + 1) a)).getLsbD n == (gray (BitVec.ofNat (n + 1) b)).getLsbD n ||
      (gray (BitVec.ofNat (n + 1) a)).getLsbD (n - 1) == (gray (BitVec.ofNat (n + 1) b)).getLsbD (n - 1) ||
      (gray (BitVec.ofNat (n + 1) a)).setWidth (n - 1) !=
        (gray (BitVec.ofNat (n + 1) b)).setWidth (n - 1)) = false) ↔
      a % 2 ^ (n + 1) = (2 ^ n + b) % 2 ^ (n + 1) := by
  rw [← gray_ofNat]
  have hb : ∀ i, (gray (BitVec.ofNat (n + 1) (2 ^ n + b))).getLsbD i =
      ((gray (BitVec.ofNat (n + 1) b)).getLsbD i ^^ decide (i = n ∨ i + 1 = n)) := by
    intro i
    rw [gray_bit, gray_bit]
    simp only [BitVec.getLsbD_ofNat]
    rcases Nat.lt_trichotomy i n with h | h | h
    · rw [Nat.testBit_two_pow_add_gt h]
      rcases Nat.lt_or_ge (i + 1) n with h2 | h2
      · rw [Nat.testBit_two_pow_add_gt h2]
        have : ¬ (i = n ∨ i + 1 = n) := by omega
        simp [this]
      · obtain rfl : n = i + 1 := by omega
        rw [Nat.testBit_two_pow_add_eq]
        simp [show i < i + 1 + 1 by omega]
    · subst h
      rw [Nat.testBit_two_pow_add_eq]
      simp
    · have : ¬ (i = n ∨ i + 1 = n) := by omega
      simp [this, show ¬ i < n + 1 by omega, show ¬ i + 1 < n + 1 by omega]
  rw [Bool.or_eq_false_iff, Bool.or_eq_false_iff, beq_eq_false_iff_ne, beq_eq_false_iff_ne,
    bne_eq_false_iff_eq]
  have hne : ∀ p q : Bool, p ≠ q ↔ p = (q ^^ true) := by decide
  constructor
  · rintro ⟨⟨h1, h2⟩, h3⟩
    refine BitVec.eq_of_getLsbD_eq fun i hi => ?_
    rw [hb]
    rcases Nat.lt_or_ge i (n - 1) with h | h
    · have e := congrArg (fun v => v.getLsbD i) h3
      simp only [BitVec.getLsbD_setWidth, h, decide_true, Bool.true_and] at e
      have : ¬ (i = n ∨ i + 1 = n) := by omega
      simp [this, e]
    · by_cases h4 : i = n
      · subst h4; simpa using (hne _ _).1 h1
      · obtain rfl : n = i + 1 := by omega
        simpa using (hne _ _).1 h2
  · intro h
    have e := fun i => congrArg (fun v => v.getLsbD i) h
    simp only [hb] at e
    refine ⟨⟨(hne _ _).2 (by simpa using e n), (hne _ _).2 ?_⟩, BitVec.eq_of_getLsbD_eq fun i hi => ?_⟩
    · have := e (n - 1)
      simpa [show n - 1 + 1 = n by omega] using this
    · simp only [BitVec.getLsbD_setWidth, hi, decide_true, Bool.true_and]
      have : ¬ (i = n ∨ i + 1 = n) := by omega
      have h5 := e i
      simpa [this] using h5

/-! ### The circuit -/

open Spec.Stream

theorem count_split (p : Nat → Bool) (a m n : Nat) :
    countIn p a (m + n) = countIn p a m + countIn p (a + m) n := by
  induction n with
  | zero => rfl
  | succ n ih => rw [← Nat.add_assoc, countIn, countIn, ih, Nat.add_assoc a m n]; omega

theorem count_from (p : Nat → Bool) {v t : Nat} (h : v ≤ t) :
    countIn p 0 t = countIn p 0 v + countIn p v (t - v) := by
  have := count_split p 0 v (t - v)
  rwa [show v + (t - v) = t by omega, Nat.zero_add] at this

theorem count_next (p : Nat → Bool) {v t : Nat} (h : v ≤ t) :
    countIn p v (t + 1 - v) = countIn p v (t - v) + (if p t then 1 else 0) := by
  rw [show t + 1 - v = (t - v) + 1 by omega, countIn, show v + (t - v) = t by omega]

section

variable {α : Type} {n : Nat} (s0 : State n α) (x : Nat → In n α)

/-- Number of words that have entered, counted from the initial value of the counters. -/
def entered (t : Nat) : Nat := s0.produce.toNat + countIn (enters s0 x) 0 t

/-- Number of words that have left. -/
def left (t : Nat) : Nat := s0.produce.toNat + countIn (leaves s0 x) 0 t

theorem entered_succ (t : Nat) :
    entered s0 x (t + 1) = entered s0 x t + (if enters s0 x t then 1 else 0) := by
  simp only [entered, countIn, Nat.zero_add]; omega

theorem left_succ (t : Nat) :
    left s0 x (t + 1) = left s0 x t + (if leaves s0 x t then 1 else 0) := by
  simp only [left, countIn, Nat.zero_add]; omega

theorem entered_mono {v t : Nat} (h : v ≤ t) : entered s0 x v ≤ entered s0 x t := by
  simp only [entered, count_from (enters s0 x) h]; omega

theorem left_mono {v t : Nat} (h : v ≤ t) : left s0 x v ≤ left s0 x t := by
  simp only [left, count_from (leaves s0 x) h]; omega

/-- The invariant: `v0`, `v1` are the instants of which the read side knows, `u0`, `u1` those of which
the write side knows. -/
structure Inv (t v0 v1 u0 u1 : Nat) : Prop where
  produce : (fifo s0 x t).produce = BitVec.ofNat _ (entered s0 x t)
  consume : (fifo s0 x t).consume = BitVec.ofNat _ (left s0 x t)
  prod0 : (fifo s0 x t).produce_r.s0 = gray (BitVec.ofNat _ (entered s0 x v0))
  prod1 : (fifo s0 x t).produce_r.status = gray (BitVec.ofNat _ (entered s0 x v1))
  cons0 : (fifo s0 x t).consume_w.s0 = gray (BitVec.ofNat _ (left s0 x u0))
  cons1 : (fifo s0 x t).consume_w.status = gray (BitVec.ofNat _ (left s0 x u1))
  v10 : v1 ≤ v0
  v0t : v0 ≤ t
  u10 : u1 ≤ u0
  u0t : u0 ≤ t
  edge0 : countIn (fun k => (x k).readEdge) v0 (t - v0) ≤ 1
  edge1 : countIn (fun k => (x k).readEdge) v1 (t - v1) ≤ 2
  wedge0 : countIn (fun k => (x k).writeEdge) u0 (t - u0) ≤ 1
  wedge1 : countIn (fun k => (x k).writeEdge) u1 (t - u1) ≤ 2
  seen : left s0 x t ≤ entered s0 x v1
  room : entered s0 x t ≤ left s0 x u1 + 2 ^ n
  length : (queue s0 x t).length + left s0 x t = entered s0 x t
  stored : ∀ j (h : j < (queue s0 x t).length),
    (fifo s0 x t).storage ((left s0 x t + j) % 2 ^ n) = (queue s0 x t)[j]
  head : left s0 x t < entered s0 x v1 → (queue s0 x t).head? = some (fifo s0 x t).dout

variable {s0 x} {t v0 v1 u0 u1 : Nat}

theorem Inv.le1 (h : Inv s0 x t v0 v1 u0 u1) : entered s0 x v1 ≤ entered s0 x t :=
  entered_mono s0 x (Nat.le_trans h.v10 h.v0t)

theorem Inv.le0 (h : Inv s0 x t v0 v1 u0 u1) : entered s0 x v0 ≤ entered s0 x t := entered_mono s0 x h.v0t

theorem Inv.lle1 (h : Inv s0 x t v0 v1 u0 u1) : left s0 x u1 ≤ left s0 x t :=
  left_mono s0 x (Nat.le_trans h.u10 h.u0t)

theorem Inv.lle0 (h : Inv s0 x t v0 v1 u0 u1) : left s0 x u0 ≤ left s0 x t := left_mono s0 x h.u0t

theorem mod_eq_cases {a b m : Nat} (h1 : a ≤ b) (h2 : b < a + m) (h : a % m = b % m) : a = b := by
  have h3 := Nat.sub_mod_eq_zero_of_mod_eq h.symm
  rw [Nat.mod_eq_of_lt (by omega)] at h3
  omega

theorem Inv.readable_iff (h : Inv s0 x t v0 v1 u0 u1) :
    readable (fifo s0 x t) = true ↔ left s0 x t < entered s0 x v1 := by
  have hs := h.seen
  have h1 := h.le1
  have h2 := h.room
  have h3 := h.lle1
  have hp : 0 < 2 ^ n := Nat.two_pow_pos n
  rw [readable, bne_iff_ne, ne_eq, h.consume, h.prod1, gray_ofNat]
  constructor
  · intro hne
    rcases Nat.lt_or_ge (left s0 x t) (entered s0 x v1) with h4 | h4
    · exact h4
    · exact absurd (by rw [show left s0 x t = entered s0 x v1 by omega]) hne
  · intro hlt he
    have := mod_eq_cases hs (by rw [Nat.pow_succ]; omega) he
    omega

theorem Inv.writable_iff (hn : 1 ≤ n) (h : Inv s0 x t v0 v1 u0 u1) :
    writable (fifo s0 x t) = true ↔ entered s0 x t < left s0 x u1 + 2 ^ n := by
  have h1 := h.le1
  have h2 := h.room
  have h3 := h.lle1
  have h4 := h.seen
  have hp : 0 < 2 ^ n := Nat.two_pow_pos n
  have key := full_test hn (entered s0 x t) (left s0 x u1)
  rw [← h.produce, ← h.cons1] at key
  have hw : writable (fifo s0 x t) = false ↔
      entered s0 x t % 2 ^ (n + 1) = (2 ^ n + left s0 x u1) % 2 ^ (n + 1) := key
  constructor
  · intro hwt
    rcases Nat.lt_or_ge (entered s0 x t) (left s0 x u1 + 2 ^ n) with h5 | h5
    · exact h5
    · have := hw.2 (by rw [show entered s0 x t = 2 ^ n + left s0 x u1 by omega])
      rw [hwt] at this; exact absurd this (by decide)
  · intro hlt
    cases hwt : writable (fifo s0 x t)
    · have := mod_eq_cases (a := entered s0 x t) (b := 2 ^ n + left s0 x u1) (by omega)
        (by rw [Nat.pow_succ]; omega) (hw.1 hwt)
      omega
    · rfl

theorem Inv.sink (hn : 1 ≤ n) (h : Inv s0 x t v0 v1 u0 u1) :
    AsyncFifo.sinkReady (2 ^ n) (queue s0 x t) (queueIn s0 x t) = writable (fifo s0 x t) := by
  have h1 := h.lle1
  have h2 := h.length
  rw [AsyncFifo.sinkReady]
  show (writable (fifo s0 x t) && _) = _
  cases hw : writable (fifo s0 x t)
  · rfl
  · have := (h.writable_iff hn).1 hw
    rw [Bool.true_and, decide_eq_true_eq]; omega

theorem Inv.source (h : Inv s0 x t v0 v1 u0 u1) :
    AsyncFifo.sourceValid (queue s0 x t) (queueIn s0 x t) = readable (fifo s0 x t) := by
  have h1 := h.le1
  have h2 := h.length
  rw [AsyncFifo.sourceValid]
  show (readable (fifo s0 x t) && _) = _
  cases hw : readable (fifo s0 x t)
  · rfl
  · have := h.readable_iff.1 hw
    cases hq : queue s0 x t with
    | nil => rw [hq] at h2; simp at h2; omega
    | cons => rfl

/-- The queue after one instant. -/
theorem Inv.queue_succ (hn : 1 ≤ n) (h : Inv s0 x t v0 v1 u0 u1) :
    queue s0 x (t + 1) = (if leaves s0 x t then (queue s0 x t).tail else queue s0 x t) ++
      (if enters s0 x t then [(x t).din] else []) := by
  show AsyncFifo.step _ (queue s0 x t) (queueIn s0 x t) = _
  unfold AsyncFifo.step
  rw [h.sink hn, h.source]
  have e1 : (readable (fifo s0 x t) && (queueIn s0 x t).pop) = leaves s0 x t := by
    simp only [queueIn, leaves]; rw [Bool.and_comm]
  have e2 : (writable (fifo s0 x t) && (queueIn s0 x t).push) = enters s0 x t := by
    simp only [queueIn, enters]; rw [Bool.and_comm]
  simp only [e1, e2]
  split <;> simp [queueIn]

theorem ofNat_succ (w a : Nat) : BitVec.ofNat w a + 1 = BitVec.ofNat w (a + 1) := by
  apply BitVec.eq_of_toNat_eq
  simp

theorem address_ofNat (a : Nat) : address (BitVec.ofNat (n + 1) a) = a % 2 ^ n := by
  rw [address, BitVec.toNat_ofNat, Nat.mod_mod_of_dvd _ (Nat.pow_dvd_pow 2 (by omega))]

theorem Inv.produceNext (h : Inv s0 x t v0 v1 u0 u1) (hr : (x t).writeRst = false) :
    produceNext (fifo s0 x t) (x t) = BitVec.ofNat _ (entered s0 x (t + 1)) := by
  rw [entered_succ, GrayFifo.produceNext, hr, h.produce, enters]
  cases (x t).writeEdge
  · simp
  · cases hb : (x t).we && writable (fifo s0 x t)
    · simp [hb]
    · simp only [Bool.true_and, if_true, hb]; rw [← ofNat_succ]; rfl

theorem Inv.consumeNext (h : Inv s0 x t v0 v1 u0 u1) :
    (if (x t).readEdge then consumeNext (fifo s0 x t) (x t) else (fifo s0 x t).consume) =
      BitVec.ofNat _ (left s0 x (t + 1)) := by
  rw [left_succ, GrayFifo.consumeNext, h.consume, leaves]
  cases (x t).readEdge
  · simp
  · rw [Bool.and_comm (readable _)]
    cases hb : (x t).re && readable (fifo s0 x t)
    · simp [hb]
    · simp only [Bool.true_and, if_true, hb]; rw [ofNat_succ]

theorem sample_count (w a : Nat) (b : Bool) (o : BitVec w) :
    (sample (gray (BitVec.ofNat w a)) (gray (BitVec.ofNat w (a + (if b then 1 else 0)))) o =
      gray (BitVec.ofNat w a)) ∨
    (sample (gray (BitVec.ofNat w a)) (gray (BitVec.ofNat w (a + (if b then 1 else 0)))) o =
      gray (BitVec.ofNat w (a + (if b then 1 else 0)))) := by
  cases b
  · exact .inl (sample_same _ _)
  · exact sample_gray w a o

theorem mod_ne {a b m : Nat} (h1 : a < b) (h2 : b < a + m) : a % m ≠ b % m := fun h => by
  have := mod_eq_cases (Nat.le_of_lt h1) h2 h
  omega

theorem Inv.next (hn : 1 ≤ n) (h : Inv s0 x t v0 v1 u0 u1) (hr : (x t).writeRst = false) :
    ∃ v0' v1' u0' u1', Inv s0 x (t + 1) v0' v1' u0' u1' ∧ v1 ≤ v1' ∧ u1 ≤ u1' := by
  have hle0 := h.le0
  have hle1 := h.le1
  have hl0 := h.lle0
  have hl1 := h.lle1
  have hlen := h.length
  have hseen := h.seen
  have hroom := h.room
  have hv10 := entered_mono s0 x h.v10
  have hu10 := left_mono s0 x h.u10
  have hes := entered_succ s0 x t
  have hls := left_succ s0 x t
  have hq := h.queue_succ hn
  have hread := h.readable_iff
  have hwrite := h.writable_iff hn
  have hpn := h.produceNext hr
  have hcn := h.consumeNext
  -- what enters and leaves
  have hent : enters s0 x t = true → entered s0 x t < left s0 x u1 + 2 ^ n := by
    intro he
    simp only [enters, Bool.and_eq_true] at he
    exact hwrite.1 he.2
  have hlea : leaves s0 x t = true → left s0 x t < entered s0 x v1 := by
    intro he
    simp only [leaves, Bool.and_eq_true] at he
    exact hread.1 he.2
  have hlea' : leaves s0 x t = true → (x t).readEdge = true := by
    intro he
    simp only [leaves, Bool.and_eq_true] at he
    exact he.1.1
  have hent' : enters s0 x t = true → (x t).writeEdge = true := by
    intro he
    simp only [enters, Bool.and_eq_true] at he
    exact he.1.1
  have hstep : fifo s0 x (t + 1) = step (fifo s0 x t) (x t) := rfl
  have hprod : (fifo s0 x (t + 1)).produce = BitVec.ofNat _ (entered s0 x (t + 1)) := hpn
  have hcons : (fifo s0 x (t + 1)).consume = BitVec.ofNat _ (left s0 x (t + 1)) := hcn
  have hpr : (fifo s0 x (t + 1)).produce_r = if (x t).readEdge then
      ⟨sample (gray (BitVec.ofNat _ (entered s0 x t))) (gray (BitVec.ofNat _ (entered s0 x (t + 1)))) (x t).rOld,
        (fifo s0 x t).produce_r.s0⟩ else (fifo s0 x t).produce_r := by
    rw [hstep, ← hpn, ← h.produce]; rfl
  have hcw : (fifo s0 x (t + 1)).consume_w = if (x t).writeEdge then
      ⟨sample (gray (BitVec.ofNat _ (left s0 x t))) (gray (BitVec.ofNat _ (left s0 x (t + 1)))) (x t).wOld,
        (fifo s0 x t).consume_w.s0⟩ else (fifo s0 x t).consume_w := by
    rw [hstep, ← hcn, ← h.consume]; rfl
  -- the instants the sides know of
  have hR : ∃ v0' v1', v1' ≤ v0' ∧ v0' ≤ t + 1 ∧
      (fifo s0 x (t + 1)).produce_r = ⟨gray (BitVec.ofNat _ (entered s0 x v0')),
        gray (BitVec.ofNat _ (entered s0 x v1'))⟩ ∧
      countIn (fun k => (x k).readEdge) v0' (t + 1 - v0') ≤ 1 ∧
      countIn (fun k => (x k).readEdge) v1' (t + 1 - v1') ≤ 2 ∧
      ((x t).readEdge = true → v1' = v0) ∧ ((x t).readEdge = false → v1' = v1) := by
    have c0 := count_next (fun k => (x k).readEdge) h.v0t
    have c1 := count_next (fun k => (x k).readEdge) (Nat.le_trans h.v10 h.v0t)
    have e0 := h.edge0
    have e1 := h.edge1
    cases hre : (x t).readEdge
    · rw [hre] at c0 c1 hpr
      refine ⟨v0, v1, h.v10, by have := h.v0t; omega, ?_, by simp at c0; omega,
        by simp at c1; omega, by simp, by simp⟩
      rw [hpr, ← h.prod0, ← h.prod1]; rfl
    · rw [hre] at c0 c1 hpr
      have c2 : countIn (fun k => (x k).readEdge) v0 (t + 1 - v0) ≤ 2 := by simp at c0; omega
      rcases sample_count (n + 1) (entered s0 x t) (enters s0 x t) (x t).rOld with hs | hs
      · refine ⟨t, v0, h.v0t, by omega, ?_, ?_, c2, by simp, by simp⟩
        · rw [hpr, hes, if_pos rfl, hs, h.prod0]
        · have := count_next (fun k => (x k).readEdge) (Nat.le_refl t)
          simp only [Nat.sub_self, countIn] at this
          rw [this]; split <;> omega
      · refine ⟨t + 1, v0, by have := h.v0t; omega, by omega, ?_, by simp [countIn], c2, by simp, by simp⟩
        rw [hpr, hes, if_pos rfl, hs, h.prod0]
  have hW : ∃ u0' u1', u1' ≤ u0' ∧ u0' ≤ t + 1 ∧
      (fifo s0 x (t + 1)).consume_w = ⟨gray (BitVec.ofNat _ (left s0 x u0')),
        gray (BitVec.ofNat _ (left s0 x u1'))⟩ ∧
      countIn (fun k => (x k).writeEdge) u0' (t + 1 - u0') ≤ 1 ∧
      countIn (fun k => (x k).writeEdge) u1' (t + 1 - u1') ≤ 2 ∧
      ((x t).writeEdge = true → u1' = u0) ∧ ((x t).writeEdge = false → u1' = u1) := by
    have c0 := count_next (fun k => (x k).writeEdge) h.u0t
    have c1 := count_next (fun k => (x k).writeEdge) (Nat.le_trans h.u10 h.u0t)
    have e0 := h.wedge0
    have e1 := h.wedge1
    cases hre : (x t).writeEdge
    · rw [hre] at c0 c1 hcw
      refine ⟨u0, u1, h.u10, by have := h.u0t; omega, ?_, by simp at c0; omega,
        by simp at c1; omega, by simp, by simp⟩
      rw [hcw, ← h.cons0, ← h.cons1]; rfl
    · rw [hre] at c0 c1 hcw
      have c2 : countIn (fun k => (x k).writeEdge) u0 (t + 1 - u0) ≤ 2 := by simp at c0; omega
      rcases sample_count (n + 1) (left s0 x t) (leaves s0 x t) (x t).wOld with hs | hs
      · refine ⟨t, u0, h.u0t, by omega, ?_, ?_, c2, by simp, by simp⟩
        · rw [hcw, hls, if_pos rfl, hs, h.cons0]
        · have := count_next (fun k => (x k).writeEdge) (Nat.le_refl t)
          simp only [Nat.sub_self, countIn] at this
          rw [this]; split <;> omega
      · refine ⟨t + 1, u0, by have := h.u0t; omega, by omega, ?_, by simp [countIn], c2, by simp, by simp⟩
        rw [hcw, hls, if_pos rfl, hs, h.cons0]
  obtain ⟨v0', v1', a1, a2, a3, a4, a5, a6, a7⟩ := hR
  obtain ⟨u0', u1', b1, b2, b3, b4, b5, b6, b7⟩ := hW
  have hlen' : (queue s0 x (t + 1)).length + left s0 x (t + 1) = entered s0 x (t + 1) := by
    rw [hq, hes, hls, List.length_append]
    cases hb : leaves s0 x t <;> cases ha : enters s0 x t <;> simp <;>
      first | omega | (have := hlea hb; omega)
  have hseen' : left s0 x (t + 1) ≤ entered s0 x v1' := by
    cases hre : (x t).readEdge
    · rw [a7 hre]
      have : leaves s0 x t = false := by
        cases hb : leaves s0 x t
        · rfl
        · rw [hlea' hb] at hre; exact absurd hre (by decide)
      rw [hls, this]; simpa using hseen
    · rw [a6 hre, hls]
      cases hb : leaves s0 x t
      · simp; omega
      · have := hlea hb; simp; omega
  have hroom' : entered s0 x (t + 1) ≤ left s0 x u1' + 2 ^ n := by
    cases hre : (x t).writeEdge
    · rw [b7 hre]
      have : enters s0 x t = false := by
        cases hb : enters s0 x t
        · rfl
        · rw [hent' hb] at hre; exact absurd hre (by decide)
      rw [hes, this]; simpa using hroom
    · rw [b6 hre, hes]
      cases hb : enters s0 x t
      · simp; omega
      · have := hent hb; simp; omega
  -- words of the old queue
  have hold : ∀ j (hj : j < (queue s0 x t).length), j + left s0 x t ≥ left s0 x (t + 1) →
      (fifo s0 x (t + 1)).storage ((left s0 x t + j) % 2 ^ n) = (queue s0 x t)[j] := by
    intro j hj _
    rw [← h.stored j hj, hstep]
    show (if (writes _ _ && decide _) = true then _ else _) = _
    rw [if_neg]
    rw [Bool.and_eq_true, decide_eq_true_eq, h.produce, address_ofNat]
    rintro ⟨hw, he⟩
    have := hent hw
    exact mod_ne (a := left s0 x t + j) (b := entered s0 x t) (by omega) (by omega) he
  have hv1 : v1 ≤ v1' := by
    cases hre : (x t).readEdge
    · exact Nat.le_of_eq (a7 hre).symm
    · rw [a6 hre]; exact h.v10
  have hu1 : u1 ≤ u1' := by
    cases hre : (x t).writeEdge
    · exact Nat.le_of_eq (b7 hre).symm
    · rw [b6 hre]; exact h.u10
  refine ⟨v0', v1', u0', u1', ⟨hprod, hcons, by rw [a3], by rw [a3], by rw [b3], by rw [b3], a1, a2, b1, b2,
    a4, a5, b4, b5, hseen', hroom', hlen', ?_, ?_⟩, hv1, hu1⟩
  · -- stored
    intro j hj
    have hnew : enters s0 x t = true →
        (fifo s0 x (t + 1)).storage (entered s0 x t % 2 ^ n) = (x t).din := by
      intro he
      rw [hstep]
      show (if (writes _ _ && decide _) = true then _ else _) = _
      rw [if_pos]
      rw [Bool.and_eq_true, decide_eq_true_eq, h.produce, address_ofNat]
      exact ⟨he, rfl⟩
    have hj' := hj
    rw [hes] at hlen'
    cases hb : leaves s0 x t with
    | false =>
      rw [hb] at hls hq
      have hls : left s0 x (t + 1) = left s0 x t := by simpa using hls
      have hq : queue s0 x (t + 1) = queue s0 x t ++ (if enters s0 x t then [(x t).din] else []) := by
        simpa using hq
      rw [hls] at hlen' ⊢
      rcases Nat.lt_or_ge j (queue s0 x t).length with h1 | h1
      · rw [hold j h1 (by rw [hls]; omega)]
        simp only [hq]; rw [List.getElem_append_left h1]
      · cases ha : enters s0 x t with
        | false => rw [ha] at hlen'; simp at hlen'; omega
        | true =>
          rw [ha] at hlen' hq
          simp at hlen' hq
          have hjl : j = (queue s0 x t).length := by omega
          rw [show left s0 x t + j = entered s0 x t by omega, hnew ha]
          simp only [hq]
          rw [List.getElem_append_right h1]
          simp
    | true =>
      rw [hb] at hls hq
      have hls : left s0 x (t + 1) = left s0 x t + 1 := by simpa using hls
      have hq : queue s0 x (t + 1) =
          (queue s0 x t).tail ++ (if enters s0 x t then [(x t).din] else []) := by
        simpa using hq
      have hpos := hlea hb
      rcases Nat.lt_or_ge (j + 1) (queue s0 x t).length with h1 | h1
      · rw [hls, show left s0 x t + 1 + j = left s0 x t + (j + 1) by omega, hold (j + 1) h1 (by rw [hls]; omega)]
        simp only [hq]
        rw [List.getElem_append_left (by rw [List.length_tail]; omega), List.getElem_tail]
      · cases ha : enters s0 x t with
        | false => rw [ha] at hlen'; simp at hlen'; omega
        | true =>
          rw [ha] at hlen' hq
          simp at hlen' hq
          rw [hls, show left s0 x t + 1 + j = entered s0 x t by omega, hnew ha]
          simp only [hq]
          rw [List.getElem_append_right (by rw [List.length_tail]; omega)]
          simp
  · -- head
    intro hlt
    cases hre : (x t).readEdge with
    | false =>
      rw [a7 hre] at hlt
      have hb : leaves s0 x t = false := by
        cases hb : leaves s0 x t
        · rfl
        · rw [hlea' hb] at hre; exact absurd hre (by decide)
      rw [hb] at hls hq
      have hls : left s0 x (t + 1) = left s0 x t := by simpa using hls
      have hd : (fifo s0 x (t + 1)).dout = (fifo s0 x t).dout := by
        rw [hstep]; simp only [step, hre]; rfl
      rw [hd, ← h.head (by omega), hq]
      have : (queue s0 x t) ≠ [] := by
        intro hnil; rw [hnil] at hlen; simp at hlen; omega
      simp [List.head?_append, List.head?_eq_some_head this]
    | true =>
      rw [a6 hre] at hlt
      rw [hre] at hcn
      have hcn : GrayFifo.consumeNext (fifo s0 x t) (x t) = BitVec.ofNat _ (left s0 x (t + 1)) := by
        simpa using hcn
      have hd : (fifo s0 x (t + 1)).dout = (fifo s0 x t).storage (left s0 x (t + 1) % 2 ^ n) := by
        rw [hstep]
        simp only [step, hre, if_true]
        rw [hcn, address_ofNat, h.produce, address_ofNat, if_neg]
        rw [Bool.and_eq_true, decide_eq_true_eq]
        rintro ⟨hw, he⟩
        have := hent hw
        exact mod_ne (a := left s0 x (t + 1)) (b := entered s0 x t) (by omega)
          (by have : (if leaves s0 x t then 1 else 0) ≤ 1 := by split <;> omega
              omega) he
      rw [hd]
      cases hb : leaves s0 x t with
      | false =>
        rw [hb] at hls hq
        have hls : left s0 x (t + 1) = left s0 x t := by simpa using hls
        have := h.stored 0 (by omega)
        rw [Nat.add_zero] at this
        rw [hls, this, hq]
        have hne : (queue s0 x t) ≠ [] := by
          intro hnil; rw [hnil] at hlen; simp at hlen; omega
        simp [List.head?_append, List.head?_eq_some_head hne, List.head_eq_getElem]
      | true =>
        rw [hb] at hls hq
        have hls : left s0 x (t + 1) = left s0 x t + 1 := by simpa using hls
        have h1 : 1 < (queue s0 x t).length := by omega
        rw [hls, h.stored 1 h1, hq]
        match hql : queue s0 x t, h1 with
        | a :: b :: l, _ => simp

theorem inv_start (h0 : Settled s0) : Inv s0 x 0 0 0 0 0 := by
  obtain ⟨h1, h2, h3⟩ := h0
  have e : BitVec.ofNat (n + 1) s0.produce.toNat = s0.produce := by simp
  refine ⟨?_, ?_, ?_, ?_, ?_, ?_, Nat.le_refl _, Nat.le_refl _, Nat.le_refl _, Nat.le_refl _, Nat.zero_le _,
    Nat.zero_le _, Nat.zero_le _, Nat.zero_le _, Nat.le_refl _, Nat.le_add_right _ _, ?_, ?_, ?_⟩
  · exact e.symm
  · exact h1.trans e.symm
  · show s0.produce_r.s0 = gray (BitVec.ofNat (n + 1) s0.produce.toNat); rw [h2, e]
  · show s0.produce_r.status = gray (BitVec.ofNat (n + 1) s0.produce.toNat); rw [h2, e]
  · show s0.consume_w.s0 = gray (BitVec.ofNat (n + 1) s0.produce.toNat); rw [h3, e]
  · show s0.consume_w.status = gray (BitVec.ofNat (n + 1) s0.produce.toNat); rw [h3, e]
  · show 0 + (_ + 0) = _ + 0; omega
  · intro j hj; exact absurd hj (Nat.not_lt_zero _)
  · intro h; exact absurd h (Nat.lt_irrefl _)

theorem inv_all (hn : 1 ≤ n) (h0 : Settled s0) (hr : ∀ t, (x t).writeRst = false) (t : Nat) :
    ∃ v0 v1 u0 u1, Inv s0 x t v0 v1 u0 u1 := by
  induction t with
  | zero => exact ⟨0, 0, 0, 0, inv_start h0⟩
  | succ t ih =>
    obtain ⟨v0, v1, u0, u1, h⟩ := ih
    obtain ⟨v0', v1', u0', u1', h', -⟩ := h.next hn (hr t)
    exact ⟨v0', v1', u0', u1', h'⟩

/-- A word that is offered is offered until it is taken. -/
theorem readable_stays (hn : 1 ≤ n) (h0 : Settled s0) (hr : ∀ t, (x t).writeRst = false) (t : Nat)
    (h : readable (fifo s0 x t) = true) (hl : leaves s0 x t = false) :
    readable (fifo s0 x (t + 1)) = true := by
  obtain ⟨v0, v1, u0, u1, i⟩ := inv_all hn h0 hr t
  obtain ⟨v0', v1', u0', u1', i', hv, -⟩ := i.next hn (hr t)
  have h1 := i.readable_iff.1 h
  have h2 := entered_mono s0 x hv
  have h3 : left s0 x (t + 1) = left s0 x t := by rw [left_succ, hl]; rfl
  exact i'.readable_iff.2 (by omega)

/-- Room that is offered is offered until it is used. -/
theorem writable_stays (hn : 1 ≤ n) (h0 : Settled s0) (hr : ∀ t, (x t).writeRst = false) (t : Nat)
    (h : writable (fifo s0 x t) = true) (he : enters s0 x t = false) :
    writable (fifo s0 x (t + 1)) = true := by
  obtain ⟨v0, v1, u0, u1, i⟩ := inv_all hn h0 hr t
  obtain ⟨v0', v1', u0', u1', i', -, hu⟩ := i.next hn (hr t)
  have h1 := (i.writable_iff hn).1 h
  have h2 := left_mono s0 x hu
  have h3 : entered s0 x (t + 1) = entered s0 x t := by rw [entered_succ, he]; rfl
  exact (i'.writable_iff hn).2 (by omega)

end

end Verif.GrayFifo
