import Verif.Props.Wer
import Verif.Props.DataCapture
import Verif.Proofs.Gated
import Verif.Spec.Wer

/-!
# C93: the word error rate that software reads
-/

namespace Verif.Props

open Verif.Gated Verif.Spec.Stream Verif.Spec.Wer Verif.DataCapture
open Frame.Overflow (Pulse)

/-- The word error rate counter and its register interface after `t` instants. -/
def werSys (bits : Nat) (x : Nat → Wer.Sys.In) : Nat → Wer.Sys.State :=
  trace (Wer.Sys.step bits) Wer.Sys.reset x

/-- Pixel clocks before instant `t`. -/
def werPix (x : Nat → Wer.Sys.In) (t : Nat) : Nat := countIn (fun t => (x t).pixEdge) 0 t

/-- `w n` is the word at the pixel clock `n`. -/
def WerWords (x : Nat → Wer.Sys.In) (w : Nat → BitVec 10) : Prop :=
  ∀ t, (x t).pixEdge = true → (x t).data = w (werPix x t)

/-- Any `2 ^ bits - 1` pixel clocks contain three system clock edges. -/
def SysOften (bits : Nat) (x : Nat → Wer.Sys.In) : Prop :=
  ∀ r r', (x r).pixEdge = true → (x r').pixEdge = true → werPix x r' + 1 = werPix x r + 2 ^ bits →
    3 ≤ countIn (fun t => (x t).sysEdge) (r + 1) (r' - (r + 1))

/-- At instant `r` the result of the period `k` is handed over: the pixel clock after the one that
ends the period. -/
def HandedOver (bits : Nat) (x : Nat → Wer.Sys.In) (k r : Nat) : Prop :=
  (x r).pixEdge = true ∧ werPix x r = (k + 1) * 2 ^ bits + 1

theorem wer_pix (bits : Nat) (x : Nat → Wer.Sys.In) (w : Nat → BitVec 10) (hw : WerWords x w)
    (t : Nat) : (werSys bits x t).pix = Wer.run bits w (werPix x t) :=
  trace_ticks (Wer.step bits) Wer.reset (fun t => (x t).pixEdge) (fun t => (werSys bits x t).pix) w
    rfl (fun t => by
      show (if (x t).pixEdge then Wer.step bits (werSys bits x t).pix (x t).data else _) = _
      by_cases h : (x t).pixEdge = true
      · rw [if_pos h, if_pos h, hw t h]; rfl
      · rw [if_neg h, if_neg h]; rfl) t

theorem wer_updated (bits : Nat) (w : Nat → BitVec 10) (n : Nat) :
    (Wer.run bits w n).wer_counter_r_updated = decide (2 ≤ n ∧ (n - 1) % 2 ^ bits = 0) := by
  match n with
  | 0 => rfl
  | n + 1 =>
    show (Wer.run bits w n).period_done = _
    rw [(Wer.run_period bits w n).2, Nat.add_sub_cancel]
    exact decide_eq_decide.2 ⟨fun h => ⟨by omega, h.2⟩, fun h => ⟨by omega, h.2⟩⟩

/-- The source pulse of the synchroniser. -/
def werPulse (bits : Nat) (x : Nat → Wer.Sys.In) (t : Nat) : Bool :=
  (x t).pixEdge && (werSys bits x t).pix.wer_counter_r_updated

theorem no_pulse (bits : Nat) (x : Nat → Wer.Sys.In) (w : Nat → BitVec 10) (hw : WerWords x w)
    (v k : Nat) (h1 : k * 2 ^ bits + 1 < werPix x v ∨ k = 0)
    (h2 : werPix x v < (k + 1) * 2 ^ bits + 1) : werPulse bits x v = false := by
  rw [werPulse, wer_pix bits x w hw, wer_updated]
  have : ¬ (2 ≤ werPix x v ∧ (werPix x v - 1) % 2 ^ bits = 0) := by
    rintro ⟨h3, h4⟩
    have h5 : k * 2 ^ bits < werPix x v - 1 := by
      rcases h1 with h | h
      · omega
      · rw [h]; omega
    have h6 : werPix x v - 1 < (k + 1) * 2 ^ bits := by omega
    have h7 := Nat.div_add_mod (werPix x v - 1) (2 ^ bits)
    rw [h4, Nat.add_zero, Nat.mul_comm] at h7
    rw [← h7] at h5 h6
    have h8 := Nat.lt_of_mul_lt_mul_right h5
    have h9 := Nat.lt_of_mul_lt_mul_right h6
    omega
  rw [decide_eq_false this, Bool.and_false]

theorem rest_o {p : Pulse} (h : AtRest p) : p.o = false := pulse_o (k := 3) h

/-- From the hand-over of period `k` to the next one. -/
theorem wer_after (bits : Nat) (x : Nat → Wer.Sys.In) (w : Nat → BitVec 10) (hw : WerWords x w)
    (ho : SysOften bits x) (k r : Nat) (hr : HandedOver bits x k r)
    (h0 : AtRest (werSys bits x r).ps) (d : Nat) (hd : werPix x (r + 1 + d) ≤ (k + 2) * 2 ^ bits + 1) :
    PulseAt (werSys bits x (r + 1 + d)).ps (countIn (fun t => (x t).sysEdge) (r + 1) d) ∧
    (werSys bits x (r + 1 + d)).counter =
      if 3 ≤ countIn (fun t => (x t).sysEdge) (r + 1) d then periodErrors bits w k
      else (werSys bits x r).counter := by
  have hP : 0 < 2 ^ bits := Nat.two_pow_pos bits
  have e1 : (k + 1) * 2 ^ bits = k * 2 ^ bits + 2 ^ bits := Nat.succ_mul _ _
  have e2 : (k + 2) * 2 ^ bits = (k + 1) * 2 ^ bits + 2 ^ bits := Nat.succ_mul _ _
  have hpulse : (x r).pixEdge = true ∧ (werSys bits x r).pix.wer_counter_r_updated = true := by
    refine ⟨hr.1, ?_⟩
    rw [wer_pix bits x w hw, wer_updated, hr.2]
    exact decide_eq_true ⟨by omega, by rw [Nat.add_sub_cancel]; exact Nat.mul_mod_left _ _⟩
  have hps : ∀ d, werPix x (r + 1 + d) ≤ (k + 2) * 2 ^ bits + 1 →
      PulseAt (werSys bits x (r + 1 + d)).ps (countIn (fun t => (x t).sysEdge) (r + 1) d) :=
    fun d hd => pulse_age (fun t => (werSys bits x t).ps) (fun t => (x t).pixEdge)
      (fun t => (werSys bits x t).pix.wer_counter_r_updated) (fun t => (x t).sysEdge) (fun _ => rfl) r
      h0 hpulse d (fun u h1 h2 => by
        show werPulse bits x u = false
        by_cases hu : (x u).pixEdge = true
        · have a := ticks_lt (fun t => (x t).pixEdge) hr.1 h1
          have b := ticks_lt (fun t => (x t).pixEdge) hu h2
          have a' : werPix x r < werPix x u := a
          have b' : werPix x u < werPix x (r + 1 + d) := b
          rw [hr.2] at a'
          exact no_pulse bits x w hw u (k + 1) (Or.inl (by omega))
            (by rw [show k + 1 + 1 = k + 2 from rfl]; omega)
        · rw [werPulse, Bool.eq_false_iff.2 hu, Bool.false_and])
  refine ⟨hps d hd, ?_⟩
  induction d with
  | zero =>
    show (if (x r).sysEdge && (werSys bits x r).ps.o then _ else _) = _
    rw [rest_o h0, Bool.and_false]; rfl
  | succ d ih =>
    have hd' : werPix x (r + 1 + d) ≤ (k + 2) * 2 ^ bits + 1 :=
      Nat.le_trans (ticks_mono (fun t => (x t).pixEdge) (show r + 1 + d ≤ r + 1 + (d + 1) by omega)) hd
    have ih := ih hd'
    have ho' := pulse_o (hps d hd')
    show (if (x (r + 1 + d)).sysEdge && (werSys bits x (r + 1 + d)).ps.o then
      (werSys bits x (r + 1 + d)).pix.wer_counter_r else (werSys bits x (r + 1 + d)).counter) = _
    rw [ho', countIn]
    by_cases hs : (x (r + 1 + d)).sysEdge = true
    · by_cases h2 : countIn (fun t => (x t).sysEdge) (r + 1) d = 2
      · rw [hs, h2, decide_eq_true rfl, if_pos (by rfl), if_pos rfl, if_pos (by omega),
          wer_pix bits x w hw]
        have a : werPix x r < werPix x (r + 1 + d) :=
          ticks_lt (fun t => (x t).pixEdge) hr.1 (by omega)
        rw [hr.2] at a
        have hne : werPix x (r + 1 + d) ≠ (k + 2) * 2 ^ bits + 1 := by
          intro he
          obtain ⟨r', h3, h4, h5⟩ := tick_at (fun t => (x t).pixEdge) (r + 1 + d)
            ((k + 2) * 2 ^ bits) (by show _ < werPix x (r + 1 + d); omega)
          have h6 := ho r r' hr.1 h4 (by show ticks _ r' + 1 = _; rw [h5, hr.2]; omega)
          have h7 := count_mono (fun t => (x t).sysEdge) (r + 1) (r' - (r + 1)) d (by omega)
          omega
        exact (C04_exact_count bits w k _ (by omega) (by omega)).1
      · rw [hs, decide_eq_false h2, if_neg (by simp), if_pos rfl, ih]
        by_cases h3 : 3 ≤ countIn (fun t => (x t).sysEdge) (r + 1) d
        · rw [if_pos h3, if_pos (by omega)]
        · rw [if_neg h3, if_neg (by omega)]
    · rw [if_neg (show ¬ ((x (r + 1 + d)).sysEdge && _) = true by simp [hs]), if_neg hs, ih]
      rfl

/-- Before the first hand-over. -/
theorem wer_before (bits : Nat) (x : Nat → Wer.Sys.In) (w : Nat → BitVec 10) (hw : WerWords x w)
    (t : Nat) (ht : werPix x t ≤ 2 ^ bits + 1) :
    AtRest (werSys bits x t).ps ∧ (werSys bits x t).counter = 0 := by
  induction t with
  | zero => exact ⟨⟨rfl, rfl, rfl⟩, rfl⟩
  | succ t ih =>
    have hs : werPix x (t + 1) = werPix x t + if (x t).pixEdge then 1 else 0 :=
      ticks_succ (fun t => (x t).pixEdge) t
    obtain ⟨h1, h2⟩ := ih (by omega)
    refine ⟨Delay.rest_step h1 _ _ _ ?_, ?_⟩
    · show werPulse bits x t = false
      by_cases hp : (x t).pixEdge = true
      · rw [if_pos hp] at hs
        exact no_pulse bits x w hw t 0 (Or.inr rfl) (by omega)
      · rw [werPulse, Bool.eq_false_iff.2 hp, Bool.false_and]
    · show (if (x t).sysEdge && (werSys bits x t).ps.o then _ else _) = _
      rw [rest_o h1, Bool.and_false]
      exact h2

/-- At a hand-over the synchroniser is at rest and the counter shows the period before. -/
theorem wer_at (bits : Nat) (x : Nat → Wer.Sys.In) (w : Nat → BitVec 10) (hw : WerWords x w)
    (ho : SysOften bits x) (k : Nat) : ∀ r, HandedOver bits x k r →
    AtRest (werSys bits x r).ps ∧
    (werSys bits x r).counter = if k = 0 then 0 else periodErrors bits w (k - 1) := by
  have hP : 0 < 2 ^ bits := Nat.two_pow_pos bits
  induction k with
  | zero => exact fun r hr => wer_before bits x w hw r (by rw [hr.2]; omega)
  | succ k ih =>
    intro r' hr'
    have e2 : (k + 1 + 1) * 2 ^ bits = (k + 1) * 2 ^ bits + 2 ^ bits := Nat.succ_mul _ _
    obtain ⟨r, h1, h2, h3⟩ := tick_at (fun t => (x t).pixEdge) r' ((k + 1) * 2 ^ bits + 1)
      (by show _ < werPix x r'; rw [hr'.2]; omega)
    have hr : HandedOver bits x k r := ⟨h2, h3⟩
    obtain ⟨p, h4, h5, h6⟩ := tick_at (fun t => (x t).pixEdge) r' ((k + 1 + 1) * 2 ^ bits)
      (by show _ < werPix x r'; rw [hr'.2]; omega)
    have h7 := ho r p h2 h5 (by show ticks _ p + 1 = _; rw [h6, hr.2]; omega)
    have h8 := count_mono (fun t => (x t).sysEdge) (r + 1) (p - (r + 1)) (r' - (r + 1)) (by omega)
    have := wer_after bits x w hw ho k r hr (ih r hr).1 (r' - (r + 1))
      (by rw [show r + 1 + (r' - (r + 1)) = r' by omega, hr'.2])
    rw [show r + 1 + (r' - (r + 1)) = r' by omega, if_pos (by omega)] at this
    exact ⟨(pulse_rest (by omega)).1 this.1, by rw [this.2, if_neg (by omega), Nat.add_sub_cancel]⟩

/-- **C93** The word error rate that software reads after an update request at instant `u` is the
number of erroneous words of one whole period: the latest one that has been handed over, if three
system clock edges have passed since, and otherwise the one before (0 if there is none).  It stays
until the next request. -/
theorem C93_value (bits : Nat) (x : Nat → Wer.Sys.In) (w : Nat → BitVec 10) (hw : WerWords x w)
    (ho : SysOften bits x) (k r u t : Nat) (hr : HandedOver bits x k r) (hru : r < u)
    (hlatest : ∀ r', HandedOver bits x (k + 1) r' → u ≤ r')
    (hu : (x u).sysEdge = true ∧ (x u).update = true) (hut : u < t)
    (hno : ∀ v, u < v → v < t → ((x v).sysEdge && (x v).update) = false) :
    (werSys bits x t).value =
      if 3 ≤ countIn (fun t => (x t).sysEdge) (r + 1) (u - (r + 1)) then periodErrors bits w k
      else if k = 0 then 0 else periodErrors bits w (k - 1) := by
  have h1 := hold (fun t => (werSys bits x t).value) (fun t => (x t).sysEdge && (x t).update)
    (fun t => (werSys bits x t).counter) (fun _ => rfl) u (t - (u + 1)) (by rw [hu.1, hu.2]; rfl)
    (fun v a b => hno v a (by omega))
  rw [show u + 1 + (t - (u + 1)) = t by omega] at h1
  rw [h1]
  have h2 := wer_after bits x w hw ho k r hr (wer_at bits x w hw ho k r hr).1 (u - (r + 1)) (by
    rw [show r + 1 + (u - (r + 1)) = u by omega]
    refine Nat.le_of_not_lt fun h => ?_
    obtain ⟨r', h3, h4, h5⟩ := tick_at (fun t => (x t).pixEdge) u ((k + 2) * 2 ^ bits + 1) h
    have := hlatest r' ⟨h4, h5⟩
    omega)
  rw [show r + 1 + (u - (r + 1)) = u by omega] at h2
  rw [h2.2, (wer_at bits x w hw ho k r hr).2]

/-- **C93** Before the first period has been handed over, software reads 0. -/
theorem C93_before (bits : Nat) (x : Nat → Wer.Sys.In) (t : Nat)
    (ht : werPix x t ≤ 2 ^ bits + 1) : (werSys bits x t).value = 0 := by
  obtain ⟨w, hw, -⟩ := exists_seq (fun t => (x t).pixEdge) (fun t => (x t).data) 0
  induction t with
  | zero => rfl
  | succ t ih =>
    have hs : werPix x t ≤ werPix x (t + 1) := ticks_mono (fun t => (x t).pixEdge) (by omega)
    show (if (x t).sysEdge && (x t).update then (werSys bits x t).counter else
      (werSys bits x t).value) = 0
    rw [(wer_before bits x w (fun t ht => (hw t ht).symm) t (by omega)).2, ih (by omega)]
    split <;> rfl

/-! ### A concrete case: periods of eight pixel clocks, two system clocks per pixel clock -/

/-- Every fifth word is erroneous. -/
def noisy (n : Nat) : BitVec 10 := if n % 5 == 0 then 0b0101010101 else 0b1101010100

def werCase (t : Nat) : Wer.Sys.In :=
  { pixEdge := t % 2 == 0, sysEdge := true, data := noisy (t / 2), update := t == 60 }

theorem werCase_pix (t : Nat) : werPix werCase t = (t + 1) / 2 := by
  induction t with
  | zero => rfl
  | succ t ih =>
    have h : werPix werCase (t + 1) = werPix werCase t + if t % 2 == 0 then 1 else 0 :=
      ticks_succ (fun t => (werCase t).pixEdge) t
    rw [h, ih]
    by_cases e : t % 2 = 0
    · rw [if_pos (by simp [e])]; omega
    · rw [if_neg (by simp [e])]; omega

theorem werCase_sys (a n : Nat) : countIn (fun t => (werCase t).sysEdge) a n = n := by
  induction n with
  | zero => rfl
  | succ n ih => rw [countIn, ih]; rfl

example : WerWords werCase noisy ∧ SysOften 3 werCase ∧ HandedOver 3 werCase 2 50 ∧
    (∀ r', HandedOver 3 werCase (2 + 1) r' → 60 ≤ r') ∧
    3 ≤ countIn (fun t => (werCase t).sysEdge) 51 9 ∧ periodErrors 3 noisy 2 = 2 ∧
    (werSys 3 werCase 70).value = 2 := by
  refine ⟨fun t ht => ?_, fun r r' hr hr' h => ?_, ⟨rfl, ?_⟩, fun r' h => ?_, ?_, ?_, ?_⟩
  · have : t % 2 = 0 := by simpa [werCase] using ht
    rw [werCase_pix]
    show noisy (t / 2) = _
    congr 1; omega
  · rw [werCase_pix, werCase_pix] at h
    rw [werCase_sys]
    omega
  · rw [werCase_pix]; rfl
  · have := h.2
    rw [werCase_pix] at this
    omega
  · rw [werCase_sys]; omega
  · decide +kernel
  · decide +kernel

end Verif.Props
