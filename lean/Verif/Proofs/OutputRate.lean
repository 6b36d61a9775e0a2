import Verif.Spec.OutputRate
import Verif.Props.Output
import Mathlib.Tactic.Ring

/-!
# Memory bandwidth of the output core: lemmas
-/

namespace Verif.Output

open Verif.Spec.Output Spec.Stream

/-! ## Active pixels in a stretch of the raster -/

theorem count_mono (q : Nat → Bool) (a : Nat) {m n : Nat} (h : m ≤ n) : countIn q a m ≤ countIn q a n := by
  obtain ⟨k, rfl⟩ := Nat.exists_eq_add_of_le h
  rw [countIn_add]; omega

theorem count_le_len (q : Nat → Bool) (a n : Nat) : countIn q a n ≤ n := by
  induction n with
  | zero => exact Nat.le_refl _
  | succ n ih => simp only [countIn]; split <;> omega

theorem count_imp {p q : Nat → Bool} {a n : Nat} (h : ∀ k, k < n → p (a + k) = true → q (a + k) = true) :
    countIn p a n ≤ countIn q a n := by
  induction n with
  | zero => exact Nat.le_refl _
  | succ n ih =>
    have ih := ih fun k hk => h k (by omega)
    have := h n (by omega)
    simp only [countIn]
    cases hp : p (a + n) <;> cases hq : q (a + n) <;> simp_all
    omega

/-- Among `m` consecutive numbers exactly `k` have a remainder below `k ≤ m`. -/
theorem count_residues (m k a : Nat) (hk : k ≤ m) :
    countIn (fun u => decide (u % m < k)) a m = k := by
  induction a with
  | zero =>
    have : ∀ n, n ≤ m → countIn (fun u => decide (u % m < k)) 0 n = min n k := by
      intro n
      induction n with
      | zero => intro _; simp [countIn]
      | succ n ih =>
        intro h
        rw [countIn, ih (by omega), Nat.zero_add, Nat.mod_eq_of_lt (by omega)]
        by_cases h' : n < k
        · simp [h']; omega
        · simp [h']; omega
    rw [this m (Nat.le_refl _)]; omega
  | succ a ih =>
    have h1 := countIn_add (fun u => decide (u % m < k)) a 1 m
    have h2 := countIn_add (fun u => decide (u % m < k)) a m 1
    rw [Nat.add_comm 1 m] at h1
    rw [h1] at h2
    have h3 : countIn (fun u => decide (u % m < k)) (a + m) 1 =
        countIn (fun u => decide (u % m < k)) a 1 := by
      simp only [countIn, Nat.add_zero, Nat.add_mod_right]
    omega

theorem active_line (p : Params) (hp : ValidMode p) (a : Nat) :
    countIn (isActive p) a (lineLen p) ≤ p.hres := by
  have h1 := count_residues (lineLen p) p.hres a (by have := hp.hres; unfold lineLen; omega)
  refine Nat.le_trans (count_imp (q := fun u => decide (u % lineLen p < p.hres)) fun k _ h => ?_)
    (Nat.le_of_eq h1)
  simp only [isActive, Bool.and_eq_true] at h
  exact h.1

theorem count_blocks_le (q : Nat → Bool) (m k a n : Nat) (h : ∀ a, countIn q a m ≤ k) :
    countIn q a (n * m) ≤ n * k := by
  induction n with
  | zero => simp [countIn]
  | succ n ih =>
    rw [Nat.add_mul, Nat.one_mul, countIn_add, Nat.add_mul, Nat.one_mul]
    have := h (a + n * m)
    omega

/-- Of `n` consecutive pixels at most `hres` per line, and one line more, are active; at least the
blanking of the whole lines is not. -/
theorem active_le (p : Params) (hp : ValidMode p) (a n : Nat) :
    countIn (isActive p) a n + n / lineLen p * (lineLen p - p.hres) ≤ n ∧
    countIn (isActive p) a n ≤ (n / lineLen p + 1) * p.hres := by
  have hres := hp.hres
  have hL : 0 < lineLen p := by unfold lineLen; omega
  have h1 := count_blocks_le (isActive p) (lineLen p) p.hres a (n / lineLen p) (active_line p hp)
  have h2 := countIn_add (isActive p) a (n / lineLen p * lineLen p) (n % lineLen p)
  have h3 : n / lineLen p * lineLen p + n % lineLen p = n := by
    rw [Nat.mul_comm]; exact Nat.div_add_mod _ _
  rw [h3] at h2
  have h4 := count_le_len (isActive p) (a + n / lineLen p * lineLen p) (n % lineLen p)
  have h5 := count_mono (isActive p) (a + n / lineLen p * lineLen p)
    (Nat.le_of_lt (Nat.mod_lt n hL))
  have h6 := active_line p hp (a + n / lineLen p * lineLen p)
  have h7 : n / lineLen p * (lineLen p - p.hres) + n / lineLen p * p.hres = n / lineLen p * lineLen p := by
    rw [← Nat.mul_add]; congr 1; unfold lineLen; omega
  have h8 : (n / lineLen p + 1) * p.hres = n / lineLen p * p.hres + p.hres := by
    rw [Nat.add_mul, Nat.one_mul]
  constructor <;> omega

namespace Core

section Lemmas

variable {cfg : Config} {i : Nat → In} {p : Params}

/-- A pixel of the active area is handed over at clock `u`. -/
def handsOver (cfg : Config) (i : Nat → In) (u : Nat) : Bool :=
  valid (core cfg i u) (i u) && de (core cfg i u) (i u)

/-- The reader is between two frames at clock `u`. -/
def idles (cfg : Config) (i : Nat → In) (u : Nat) : Bool := decide ((core cfg i u).reader.fsm = .idle)

local notation "acc" => accepts cfg i
local notation "ans" => answers cfg i
local notation "con" => handsOver cfg i
local notation "idl" => idles cfg i
local notation "st" => core cfg i

theorem lengths_next (hraw : cfg.raw = false) (hv : ∀ t, (i t).pvalid = true)
    (hr : ∀ t, (i t).ready = true) (t : Nat) :
    (st (t + 1)).pending.length + (if ans t then 1 else 0) =
      (st t).pending.length + (if acc t then 1 else 0) ∧
    (st (t + 1)).fifo.length + (if con t then 1 else 0) =
      (st t).fifo.length + (if ans t then 1 else 0) := by
  have hpop : (dataReady cfg (st t) (i t) && !(st t).fifo.isEmpty) = con t := by
    simp only [dataReady, handsOver, valid, hv t, hr t, hraw, Bool.not_true, Bool.false_or, Bool.or_false,
      Bool.and_true, Bool.true_and]
    cases de (st t) (i t) <;> cases (st t).fifo.isEmpty <;> rfl
  constructor
  · show (if DmaReader.requests (st t).reader && dmaReady cfg (st t) (i t) then
        (if (i t).answer then (st t).pending.tail else (st t).pending) ++ [_]
      else if (i t).answer then (st t).pending.tail else (st t).pending).length + _ = _
    unfold accepts answers
    cases (DmaReader.requests (st t).reader && dmaReady cfg (st t) (i t)) <;> cases (i t).answer <;>
      cases (st t).pending <;> simp
  · show (if (i t).answer then
        (if dataReady cfg (st t) (i t) && !(st t).fifo.isEmpty then (st t).fifo.tail else (st t).fifo) ++
          ((st t).pending.head?.map (i t).mem).toList
      else if dataReady cfg (st t) (i t) && !(st t).fifo.isEmpty then (st t).fifo.tail
        else (st t).fifo).length + _ = _
    rw [hpop]
    have hne : con t = true → 0 < (st t).fifo.length := by
      rw [← hpop, Bool.and_eq_true]
      intro h
      have := h.2
      cases hf : (st t).fifo with
      | nil => rw [hf] at this; simp at this
      | cons _ _ => simp
    unfold answers
    cases hc : con t <;> cases (i t).answer <;> cases (st t).pending <;>
      simp <;> (have := hne hc; omega)

theorem lengths (hraw : cfg.raw = false) (hv : ∀ t, (i t).pvalid = true)
    (hr : ∀ t, (i t).ready = true) (t : Nat) :
    (st t).pending.length + countIn ans 0 t = countIn acc 0 t ∧
    (st t).fifo.length + countIn con 0 t = countIn ans 0 t := by
  induction t with
  | zero => exact ⟨rfl, rfl⟩
  | succ t ih =>
    obtain ⟨h1, h2⟩ := lengths_next hraw hv hr t
    simp only [countIn, Nat.zero_add]
    omega

/-! ## The raster -/

theorem timing_at (hv : ∀ t, (i t).pvalid = true ∧ (i t).p = p) (hp : ValidMode p) (t : Nat) :
    (beats cfg i t = 0 → de (st t) (i t) = false) ∧
    ∀ n, beats cfg i t = n + 1 → de (st t) (i t) = isActive p n := by
  have htr : ∀ t, (st t).timing = trace Timing.step Timing.reset
      (fun u => ⟨(i u).pvalid, (i u).p, timingReady (st u) (i u)⟩) t := by
    intro t
    induction t with
    | zero => rfl
    | succ t ih => rw [trace_succ, ← ih]; rfl
  have hb : ∀ t, countIn (fun u => timingReady (st u) (i u)) 0 t = beats cfg i t := by
    intro t
    unfold beats
    congr 1
    funext u
    simp [timingReady, (hv u).1]
  have h := Props.C38_timing p hp (fun u => ⟨(i u).pvalid, (i u).p, timingReady (st u) (i u)⟩) hv t
  simp only [hb] at h
  rw [← htr] at h
  have hde : de (st t) (i t) = Timing.de (st t).timing true := by
    unfold de; rw [(hv t).1]
  rw [hde]
  exact ⟨fun h0 => (h.1 h0).1, fun n hn => (h.2 n hn).1⟩

/-- Active pixels handed over are those of the raster. -/
theorem consumed_eq (hv : ∀ t, (i t).pvalid = true ∧ (i t).p = p) (hr : ∀ t, (i t).ready = true)
    (hp : ValidMode p) (t : Nat) :
    countIn con 0 t = countIn (isActive p) 0 (beats cfg i t - 1) := by
  induction t with
  | zero => rfl
  | succ t ih =>
    have hb : beats cfg i (t + 1) = beats cfg i t + (if valid (st t) (i t) then 1 else 0) := by
      simp [beats, countIn, hr t]
    have hc : con t = (valid (st t) (i t) && de (st t) (i t)) := rfl
    obtain ⟨h0, h1⟩ := timing_at (cfg := cfg) hv hp t
    rw [countIn, Nat.zero_add, ih, hb, hc]
    cases hval : valid (st t) (i t) with
    | false => simp
    | true =>
      cases hbt : beats cfg i t with
      | zero => rw [h0 hbt]; simp
      | succ n =>
        rw [h1 n hbt]
        simp [countIn]

/-- Active pixels handed over from clock `f` to clock `f + n`. -/
theorem consumed_le (hv : ∀ t, (i t).pvalid = true ∧ (i t).p = p) (hr : ∀ t, (i t).ready = true)
    (hp : ValidMode p) (f n : Nat) :
    countIn con f n + n / lineLen p * (lineLen p - p.hres) ≤ n ∧
    countIn con f n ≤ (n / lineLen p + 1) * p.hres := by
  have h1 := countIn_add con 0 f n
  rw [consumed_eq hv hr hp, consumed_eq hv hr hp, Nat.zero_add] at h1
  have h2 : beats cfg i (f + n) = beats cfg i f + countIn (fun u => valid (st u) (i u) && (i u).ready) f n := by
    have := countIn_add (fun u => valid (st u) (i u) && (i u).ready) 0 f n
    rw [Nat.zero_add] at this
    exact this
  have h3 := count_le_len (fun u => valid (st u) (i u) && (i u).ready) f n
  obtain ⟨m, hm⟩ : ∃ m, beats cfg i (f + n) - 1 = (beats cfg i f - 1) + m ∧ m ≤ n :=
    ⟨beats cfg i (f + n) - 1 - (beats cfg i f - 1), by omega, by omega⟩
  rw [hm.1, countIn_add, Nat.zero_add] at h1
  obtain ⟨h4, h5⟩ := active_le p hp (beats cfg i f - 1) n
  have h6 := count_mono (isActive p) (beats cfg i f - 1) hm.2
  constructor <;> omega

/-! ## The reader -/

/-- Invariant: a frame of `N` words is requested for each clock between frames. -/
theorem reader_inv (hv : ∀ t, (i t).pvalid = true ∧ (i t).p = p) {N : Nat} (hN : 0 < N)
    (hlen : p.length / 2 ^ cfg.shift % 2 ^ cfg.aw = N) (t : Nat) :
    ((st t).reader.fsm = .idle ∧ countIn acc 0 t = countIn idl 0 t * N) ∨
    ((st t).reader.fsm = .read ∧ (st t).reader.offset < N ∧
      countIn acc 0 t + N = countIn idl 0 t * N + (st t).reader.offset) := by
  have hlt : N < 2 ^ cfg.aw := by rw [← hlen]; exact Nat.mod_lt _ (Nat.two_pow_pos _)
  induction t with
  | zero => exact Or.inl ⟨rfl, by simp [countIn]⟩
  | succ t ih =>
    have hstep : (st (t + 1)).reader = DmaReader.step cfg.aw cfg.shift (st t).reader (i t).pvalid (i t).p
      (dmaReady cfg (st t) (i t)) := rfl
    have hend : DmaReader.atEnd cfg.aw cfg.shift (st t).reader (i t).p =
        decide ((st t).reader.offset = N - 1) := by
      unfold DmaReader.atEnd DmaReader.words
      rw [(hv t).2, hlen]
      congr 1
      rw [show N + 2 ^ cfg.aw - 1 = (N - 1) + 2 ^ cfg.aw by omega, Nat.add_mod_right,
        Nat.mod_eq_of_lt (by omega)]
    rw [countIn, countIn, Nat.zero_add]
    rcases ih with ⟨hf, h⟩ | ⟨hf, ho, h⟩
    · have hi' : idl t = true := by simp [idles, hf]
      have ha : acc t = false := by simp [accepts, DmaReader.requests, hf]
      rw [hi', ha, hstep]
      right
      simp only [DmaReader.step, hf, (hv t).1, if_true]
      refine ⟨trivial, hN, ?_⟩
      rw [Nat.add_mul]; simp; omega
    · have hi' : idl t = false := by simp [idles, hf]
      rw [hi', hstep]
      have ha : acc t = dmaReady cfg (st t) (i t) := by simp [accepts, DmaReader.requests, hf]
      rw [ha]
      simp only [DmaReader.step, hf, hend]
      cases dmaReady cfg (st t) (i t) with
      | false =>
        right
        simp [hf, ho]; omega
      | true =>
        by_cases he : (st t).reader.offset = N - 1
        · left
          simp [he]
          omega
        · right
          simp [he]
          rw [Nat.mod_eq_of_lt (by omega)]
          omega

theorem idles_le (hv : ∀ t, (i t).pvalid = true ∧ (i t).p = p) {N : Nat} (hN : 0 < N)
    (hlen : p.length / 2 ^ cfg.shift % 2 ^ cfg.aw = N) (f n : Nat) :
    countIn idl f n * N ≤ countIn acc f n + N := by
  have h1 := countIn_add idl 0 f n
  have h2 := countIn_add acc 0 f n
  rw [Nat.zero_add] at h1 h2
  have h3 : countIn idl 0 (f + n) * N = countIn idl 0 f * N + countIn idl f n * N := by
    rw [h1, Nat.add_mul]
  rcases reader_inv hv hN hlen f with ⟨-, a⟩ | ⟨-, a, b⟩ <;>
    rcases reader_inv hv hN hlen (f + n) with ⟨-, c⟩ | ⟨-, c, d⟩ <;> omega

/-- While there is room the reader is between frames, or refused, or accepted. -/
theorem clocks_le (hv : ∀ t, (i t).pvalid = true ∧ (i t).p = p) {N : Nat} (hN : 0 < N)
    (hlen : p.length / 2 ^ cfg.shift % 2 ^ cfg.aw = N) (f n : Nat)
    (hroom : ∀ k, k < n → (st (f + k)).pending.length + (st (f + k)).fifo.length < cfg.depth) :
    n ≤ countIn acc f n + countIn idl f n + countIn (fun u => !(i u).memReady) f n := by
  induction n with
  | zero => exact Nat.zero_le _
  | succ n ih =>
    have ih := ih fun k hk => hroom k (by omega)
    simp only [countIn]
    rcases reader_inv hv hN hlen (f + n) with ⟨a, -⟩ | ⟨a, -⟩
    · have : idl (f + n) = true := by simp [idles, a]
      rw [this]; simp only [if_true]; omega
    · have h1 : acc (f + n) = (i (f + n)).memReady := by
        simp [accepts, DmaReader.requests, dmaReady, a, hroom n (by omega)]
      rw [h1]
      by_cases hm : (i (f + n)).memReady = true
      · rw [if_pos hm]; omega
      · rw [if_neg hm, if_pos (show (!(i (f + n)).memReady) = true by simpa using hm)]; omega

theorem refused_le {r : Nat} (href : RefusesAtMost i p r) (f n : Nat) :
    countIn (fun u => !(i u).memReady) f n ≤ (n / lineLen p + 1) * r := by
  have hL : 0 < lineLen p := by unfold lineLen; omega
  refine Nat.le_trans (count_mono _ f (n := (n / lineLen p + 1) * lineLen p) ?_)
    (count_blocks_le _ _ _ _ _ href)
  rw [Nat.mul_comm]
  exact Nat.le_of_lt (Nat.lt_mul_div_succ _ hL)

/-! ## No underflow -/

theorem last_full (t : Nat) :
    (∀ k, k < t → (st k).pending.length + (st k).fifo.length < cfg.depth) ∨
    ∃ f, f < t ∧ ¬ (st f).pending.length + (st f).fifo.length < cfg.depth ∧
      ∀ k, f < k → k < t → (st k).pending.length + (st k).fifo.length < cfg.depth := by
  induction t with
  | zero => left; intro k hk; omega
  | succ t ih =>
    by_cases h : (st t).pending.length + (st t).fifo.length < cfg.depth
    · rcases ih with ih | ⟨f, h1, h2, h3⟩
      · left
        intro k hk
        rcases Nat.lt_or_eq_of_le (Nat.le_of_lt_succ hk) with h' | rfl
        · exact ih k h'
        · exact h
      · right
        refine ⟨f, by omega, h2, fun k h4 h5 => ?_⟩
        rcases Nat.lt_or_eq_of_le (Nat.le_of_lt_succ h5) with h' | rfl
        · exact h3 k h4 h'
        · exact h
    · right
      exact ⟨t, by omega, h, fun k h1 h2 => by omega⟩

theorem no_underflow (hraw : cfg.raw = false) (hp : ValidMode p) (hvr : 0 < p.vres)
    (hhr : 0 < p.hres) (hlen : p.length / 2 ^ cfg.shift % 2 ^ cfg.aw = p.vres * p.hres)
    (hv : ∀ t, (i t).pvalid = true ∧ (i t).p = p) (hr : ∀ t, (i t).ready = true) {L r : Nat}
    (hans : AnswersWithin cfg i L) (href : RefusesAtMost i p r)
    (hblank : r + 2 ≤ lineLen p - p.hres) (hdepth : L + r + 2 < cfg.depth) (t : Nat)
    (ht : (L + r + 3) * lineLen p ≤ t) : valid (st t) (i t) = true := by
  by_contra hval
  have hL : 0 < lineLen p := by unfold lineLen; omega
  have hN : 0 < p.vres * p.hres := Nat.mul_pos hvr hhr
  have hNh : p.hres ≤ p.vres * p.hres := Nat.le_mul_of_pos_left _ hvr
  -- nothing is left in the FIFO
  have hempty : (st t).fifo.length = 0 := by
    simp only [valid, (hv t).1, Bool.true_and] at hval
    cases hf : (st t).fifo with
    | nil => rfl
    | cons _ _ => rw [hf] at hval; simp at hval
  have htL : L ≤ t := by
    have : L + r + 3 ≤ (L + r + 3) * lineLen p := Nat.le_mul_of_pos_right _ hL
    omega
  obtain ⟨t', rfl⟩ : ∃ t', t = t' + L := ⟨t - L, by omega⟩
  have hpv := fun t => (hv t).1
  have hl := (lengths (cfg := cfg) hraw hpv hr (t' + L)).2
  have ha := hans t'
  have key : countIn acc 0 t' ≤ countIn con 0 (t' + L) := by omega
  rcases last_full (cfg := cfg) (i := i) t' with hroom | ⟨f, hf, hfull, hroom⟩
  · -- the FIFO has never been full
    have h1 := clocks_le hv hN hlen 0 t' (fun k hk => by rw [Nat.zero_add]; exact hroom k hk)
    have h2 := idles_le hv hN hlen 0 t'
    have h3 := refused_le href 0 t'
    obtain ⟨h4, h5⟩ := consumed_le (cfg := cfg) hv hr hp 0 (t' + L)
    have hq : t' / lineLen p ≤ (t' + L) / lineLen p := Nat.div_le_div_right (by omega)
    have hq2 : L + r + 3 ≤ (t' + L) / lineLen p := (Nat.le_div_iff_mul_le hL).2 ht
    generalize (t' + L) / lineLen p = q at *
    have h6 : (q + 1) * p.hres ≤ (q + 1) * (p.vres * p.hres) := Nat.mul_le_mul_left _ hNh
    have hidle : countIn idl 0 t' ≤ q + 2 := by
      refine Nat.le_of_mul_le_mul_right (c := p.vres * p.hres) ?_ hN
      rw [show q + 2 = (q + 1) + 1 by omega, Nat.add_mul (q + 1), Nat.one_mul]
      omega
    have h7 : (t' / lineLen p + 1) * r ≤ (q + 1) * r := Nat.mul_le_mul_right _ (by omega)
    have h8 : q * (r + 2) ≤ q * (lineLen p - p.hres) := Nat.mul_le_mul_left _ hblank
    have h9 : q * (r + 2) = q * r + 2 * q := by ring
    have h10 : (q + 1) * r = q * r + r := by ring
    omega
  · -- the FIFO was full at clock `f` and never since
    obtain ⟨m, rfl⟩ : ∃ m, t' = f + 1 + m := ⟨t' - (f + 1), by omega⟩
    have h1 := clocks_le hv hN hlen (f + 1) m (fun k hk => hroom _ (by omega) (by omega))
    have h2 := idles_le hv hN hlen (f + 1) m
    have h3 := refused_le href (f + 1) m
    obtain ⟨h4, h5⟩ := consumed_le (cfg := cfg) hv hr hp f (1 + m + L)
    have hlf := lengths (cfg := cfg) hraw hpv hr f
    have hacc : acc f = false := by
      unfold accepts dmaReady
      rw [decide_eq_false hfull]; simp
    have hsum : countIn acc 0 (f + 1 + m) = countIn acc 0 f + countIn acc (f + 1) m := by
      have e1 := countIn_add acc 0 (f + 1) m
      rw [Nat.zero_add] at e1
      rw [e1, countIn, Nat.zero_add, hacc]
      simp
    have hcs : countIn con 0 (f + 1 + m + L) = countIn con 0 f + countIn con f (1 + m + L) := by
      have e1 := countIn_add con 0 f (1 + m + L)
      rw [Nat.zero_add] at e1
      rw [← e1]
      congr 1; omega
    have hq : m / lineLen p ≤ (1 + m + L) / lineLen p := Nat.div_le_div_right (by omega)
    generalize (1 + m + L) / lineLen p = q at *
    have h6 : (q + 1) * p.hres ≤ (q + 1) * (p.vres * p.hres) := Nat.mul_le_mul_left _ hNh
    have hidle : countIn idl (f + 1) m < q + 2 := by
      refine Nat.lt_of_mul_lt_mul_right (a := p.vres * p.hres) ?_
      rw [show q + 2 = (q + 1) + 1 by omega, Nat.add_mul (q + 1), Nat.one_mul]
      omega
    have h7 : (m / lineLen p + 1) * r ≤ (q + 1) * r := Nat.mul_le_mul_right _ (by omega)
    have h8 : q * (r + 2) ≤ q * (lineLen p - p.hres) := Nat.mul_le_mul_left _ hblank
    have h9 : q * (r + 2) = q * r + 2 * q := by ring
    have h10 : (q + 1) * r = q * r + r := by ring
    omega

end Lemmas

end Core

end Verif.Output
