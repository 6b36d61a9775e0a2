import Verif.Props.DelayLine

/-!
# C122: the Spartan-6 delay lines get every command exactly once
-/

namespace Verif.Props

open Verif.DataCapture Verif.Spec.Stream
open Frame.Overflow (Pulse)

/-! ### One delay line -/

namespace DelaySteps

open Delay

/-- What has been asked for but has not reached the delay line yet. -/
def onTheWay : Stage → List (Bool × Bool × Bool)
  | .crossing _ a b c => [(a, b || c, b)]
  | _ => []

theorem command_rest {s : Delay.State} (h1 : PulseAt s.cal 3) (h2 : PulseAt s.inc 3)
    (h3 : PulseAt s.dec 3) : Delay.command s = false := by
  simp [Delay.command, pulse_o h1, pulse_o h2, pulse_o h3]

/-- Every request but at most the last has been passed on, once and in order. -/
theorem passed {s0 : Delay.State} {x : Nat → Delay.In} (h0 : Good .idle s0)
    (hpol : ∀ t, (x t).request = true → (trace Delay.step s0 x t).flag = false) (t : Nat) :
    ∃ st, Good st (trace Delay.step s0 x t) ∧
      transferred (fun r => (x r).request)
          (fun r => ((x r).cal, (x r).inc || (x r).dec, (x r).inc)) t =
        transferred (fun e => (x e).pixEdge && Delay.command (trace Delay.step s0 x e))
          (fun e => ((trace Delay.step s0 x e).cal.o,
            (trace Delay.step s0 x e).inc.o || (trace Delay.step s0 x e).dec.o,
            (trace Delay.step s0 x e).inc.o)) t ++ onTheWay st := by
  induction t with
  | zero => exact ⟨_, h0, rfl⟩
  | succ t ih =>
    obtain ⟨st, h, he⟩ := ih
    have hreq : (x t).request = true → st = .idle := fun hr => idle_of_flag h (hpol t hr)
    refine ⟨_, good_step h hreq, ?_⟩
    simp only [transferred]
    rw [he]
    have quiet : (x t).request = false → Delay.command (trace Delay.step s0 x t) = false →
        onTheWay (st.next (x t)) = onTheWay st →
        (transferred (fun e => (x e).pixEdge && Delay.command (trace Delay.step s0 x e))
          (fun e => ((trace Delay.step s0 x e).cal.o,
            (trace Delay.step s0 x e).inc.o || (trace Delay.step s0 x e).dec.o,
            (trace Delay.step s0 x e).inc.o)) t ++ onTheWay st) ++
          (if (x t).request then [((x t).cal, (x t).inc || (x t).dec, (x t).inc)] else []) =
        (transferred (fun e => (x e).pixEdge && Delay.command (trace Delay.step s0 x e))
          (fun e => ((trace Delay.step s0 x e).cal.o,
            (trace Delay.step s0 x e).inc.o || (trace Delay.step s0 x e).dec.o,
            (trace Delay.step s0 x e).inc.o)) t ++
          (if (x t).pixEdge && Delay.command (trace Delay.step s0 x t) then
            [((trace Delay.step s0 x t).cal.o,
              (trace Delay.step s0 x t).inc.o || (trace Delay.step s0 x t).dec.o,
              (trace Delay.step s0 x t).inc.o)] else [])) ++ onTheWay (st.next (x t)) := by
      intro h1 h2 h3
      rw [h1, h2, h3]
      simp
    cases st with
    | idle =>
      have hc := command_rest h.1 h.2.1 h.2.2.1
      cases hr : (x t).request
      · exact hr ▸ quiet hr hc (by simp [Stage.next, hr])
      · rw [hc, Bool.and_false]
        simp [Stage.next, hr, onTheWay]
    | crossing k a b c =>
      have hr : (x t).request = false := by
        cases hq : (x t).request
        · rfl
        · cases hreq hq
      by_cases hk : (x t).pixEdge = true ∧ k = 2
      · obtain ⟨hp, rfl⟩ := hk
        obtain ⟨-, hor, g1, g2, g3, -⟩ := h
        have o1 : (trace Delay.step s0 x t).cal.o = a := by rw [pulse_o g1]; cases a <;> rfl
        have o2 : (trace Delay.step s0 x t).inc.o = b := by rw [pulse_o g2]; cases b <;> rfl
        have o3 : (trace Delay.step s0 x t).dec.o = c := by rw [pulse_o g3]; cases c <;> rfl
        rw [Delay.command, o1, o2, o3, hr, hp, ← Bool.or_assoc, hor]
        simp [Stage.next, hp, onTheWay]
      · have hn : onTheWay (Stage.next (x t) (.crossing k a b c)) =
            onTheWay (.crossing k a b c) := by
          rw [Stage.next]
          by_cases hp : (x t).pixEdge = true
          · rw [if_pos hp, if_neg fun h => hk ⟨hp, h⟩]; rfl
          · rw [if_neg hp]
        by_cases hp : (x t).pixEdge = true
        · have hk2 : k ≠ 2 := fun h => hk ⟨hp, h⟩
          obtain ⟨-, -, g1, g2, g3, -⟩ := h
          have key : ∀ b, decide (age b k = 2) = false := fun b => by
            cases b <;> simp [age, hk2]
          refine hr ▸ quiet hr ?_ hn
          rw [Delay.command, pulse_o g1, pulse_o g2, pulse_o g3, key, key, key]; rfl
        · rw [hn, hr, Bool.eq_false_iff.2 hp]
          simp
    | working =>
      have hr : (x t).request = false := by
        cases hq : (x t).request
        · rfl
        · cases hreq hq
      refine hr ▸ quiet hr (command_rest h.1 h.2.1 h.2.2.1) ?_
      rw [Stage.next]; split <;> rfl
    | finishing =>
      have hr : (x t).request = false := by
        cases hq : (x t).request
        · rfl
        · cases hreq hq
      refine hr ▸ quiet hr (command_rest h.1 h.2.1 h.2.2.1) ?_
      rw [Stage.next]; split <;> rfl
    | acking k =>
      have hr : (x t).request = false := by
        cases hq : (x t).request
        · rfl
        · cases hreq hq
      refine hr ▸ quiet hr (command_rest h.2.1 h.2.2.1 h.2.2.2.1) ?_
      rw [Stage.next]; split
      · split <;> rfl
      · rfl

end DelaySteps

/-! ### The property -/

/-- Software writes the value `v` to `_dly_ctl` at instant `t`. -/
def Writes (w : Nat → Option (BitVec 6)) (x : Nat → S6.In) : Prop :=
  ∀ t, (x t).ctl = S6.Ctl.ofWrite (w t)

/-- Bit `i` of the value written at `t` is 1. -/
def bitWritten (w : Nat → Option (BitVec 6)) (x : Nat → S6.In) (i t : Nat) : Bool :=
  (x t).sysEdge && ((w t).getD 0).getLsbD i

/-- A command for a delay line: calibrate, step, and the direction of the step (up). -/
abbrev Command := Bool × Bool × Bool

/-- The commands for a delay line whose calibrate bit is `cal` that are written before `t`: bit 4 asks for
a step up, bit 5 for a step down (if both are written, up). -/
def asked (cal : Nat) (w : Nat → Option (BitVec 6)) (x : Nat → S6.In) (t : Nat) : List Command :=
  transferred (fun r => bitWritten w x cal r || bitWritten w x 4 r || bitWritten w x 5 r)
    (fun r => (bitWritten w x cal r, bitWritten w x 4 r || bitWritten w x 5 r, bitWritten w x 4 r)) t

/-- The commands that a delay line gets before `t`, from its inputs at the edges of its clock. -/
def got (x : Nat → S6.In) (pins : Nat → S6.Pins) (t : Nat) : List Command :=
  transferred (fun e => (x e).pix2xEdge && ((pins e).CAL || (pins e).CE))
    (fun e => ((pins e).CAL, (pins e).CE, (pins e).INC)) t

theorem transferred_congr {α : Type} {f g : Nat → Bool} {a b : Nat → α} (hf : ∀ t, f t = g t)
    (ha : ∀ t, f t = true → a t = b t) (t : Nat) : transferred f a t = transferred g b t := by
  induction t with
  | zero => rfl
  | succ t ih =>
    rw [transferred, transferred, ih, ← hf]
    cases h : f t
    · rfl
    · rw [ha t h]

/-- **C122** The master delay line gets exactly the commands that software writes, once each and in order,
if software writes a calibrate or step command only while bit 0 of `_dly_busy` reads 0: only the last one
may still be under way, and it is not when the bit reads 0. -/
theorem C122_master (n : Nat) (inv : Bool) (x : Nat → S6.In) (w : Nat → Option (BitVec 6))
    (hw : Writes w x)
    (hpol : ∀ t, (bitWritten w x 0 t || bitWritten w x 4 t || bitWritten w x 5 t) = true →
      (s6 n inv x t).sys_master_pending = false) (t : Nat) :
    ∃ last, last.length ≤ 1 ∧
      asked 0 w x t = got x (fun e => S6.masterPins (s6 n inv x e)) t ++ last ∧
      ((s6 n inv x t).sys_master_pending = false → last = []) := by
  have bits : ∀ r, (bitWritten w x 0 r || bitWritten w x 4 r || bitWritten w x 5 r) =
      (masterIn (x r)).request ∧ ((masterIn (x r)).request = true →
        bitWritten w x 0 r = (masterIn (x r)).cal ∧ bitWritten w x 4 r = (masterIn (x r)).inc ∧
        bitWritten w x 5 r = (masterIn (x r)).dec) := by
    intro r
    simp only [Delay.In.request, masterIn, hw r, bitWritten]
    cases w r <;> cases (x r).sysEdge <;> simp [S6.Ctl.ofWrite]
  have hp : ∀ t, (masterIn (x t)).request = true →
      (trace Delay.step (masterOf (S6.reset n)) (fun t => masterIn (x t)) t).flag = false :=
    fun t h => by rw [← master_trace n inv]; exact hpol t ((bits t).1.trans h)
  obtain ⟨st, hg, he⟩ := DelaySteps.passed (idle_reset n).1 hp t
  refine ⟨DelaySteps.onTheWay st, ?_, ?_, fun hf => ?_⟩
  · cases st <;> simp [DelaySteps.onTheWay]
  · have e1 : asked 0 w x t = _ := transferred_congr (fun r => (bits r).1)
      (b := fun r => ((masterIn (x r)).cal, (masterIn (x r)).inc || (masterIn (x r)).dec,
        (masterIn (x r)).inc)) (fun r h => by
        obtain ⟨a, b, c⟩ := (bits r).2 ((bits r).1.symm.trans h)
        rw [a, b, c]) t
    rw [e1, he]
    congr 1
    refine transferred_congr (fun e => ?_) (fun e _ => ?_) t
    · rw [← master_trace n inv]; rfl
    · rw [← master_trace n inv]; rfl
  · rw [← master_trace n inv] at hg
    rw [Delay.idle_of_flag hg hf]; rfl

/-- **C122** The same for the slave delay line and bit 1 of `_dly_busy`. -/
theorem C122_slave (n : Nat) (inv : Bool) (x : Nat → S6.In) (w : Nat → Option (BitVec 6))
    (hw : Writes w x)
    (hpol : ∀ t, (bitWritten w x 2 t || bitWritten w x 4 t || bitWritten w x 5 t) = true →
      (s6 n inv x t).sys_slave_pending = false) (t : Nat) :
    ∃ last, last.length ≤ 1 ∧
      asked 2 w x t = got x (fun e => S6.slavePins (s6 n inv x e)) t ++ last ∧
      ((s6 n inv x t).sys_slave_pending = false → last = []) := by
  have bits : ∀ r, (bitWritten w x 2 r || bitWritten w x 4 r || bitWritten w x 5 r) =
      (slaveIn (x r)).request ∧ ((slaveIn (x r)).request = true →
        bitWritten w x 2 r = (slaveIn (x r)).cal ∧ bitWritten w x 4 r = (slaveIn (x r)).inc ∧
        bitWritten w x 5 r = (slaveIn (x r)).dec) := by
    intro r
    simp only [Delay.In.request, slaveIn, hw r, bitWritten]
    cases w r <;> cases (x r).sysEdge <;> simp [S6.Ctl.ofWrite]
  have hp : ∀ t, (slaveIn (x t)).request = true →
      (trace Delay.step (slaveOf (S6.reset n)) (fun t => slaveIn (x t)) t).flag = false :=
    fun t h => by rw [← slave_trace n inv]; exact hpol t ((bits t).1.trans h)
  obtain ⟨st, hg, he⟩ := DelaySteps.passed (idle_reset n).2 hp t
  refine ⟨DelaySteps.onTheWay st, ?_, ?_, fun hf => ?_⟩
  · cases st <;> simp [DelaySteps.onTheWay]
  · have e1 : asked 2 w x t = _ := transferred_congr (fun r => (bits r).1)
      (b := fun r => ((slaveIn (x r)).cal, (slaveIn (x r)).inc || (slaveIn (x r)).dec,
        (slaveIn (x r)).inc)) (fun r h => by
        obtain ⟨a, b, c⟩ := (bits r).2 ((bits r).1.symm.trans h)
        rw [a, b, c]) t
    rw [e1, he]
    congr 1
    refine transferred_congr (fun e => ?_) (fun e _ => ?_) t
    · rw [← slave_trace n inv]; rfl
    · rw [← slave_trace n inv]; rfl
  · rw [← slave_trace n inv] at hg
    rw [Delay.idle_of_flag hg hf]; rfl

/-- A synchroniser passes on every pulse once if three target edges lie between two pulses. -/
theorem pulses_counted (p : Nat → Pulse) (src i edge : Nat → Bool) (h0 : AtRest (p 0))
    (hp : ∀ t, p (t + 1) = (p t).step (src t) (i t) (edge t))
    (hs : Spaced (fun u => src u && i u) edge) (t : Nat) :
    ∃ k, PulseAt (p t) k ∧
      countIn (fun u => src u && i u) 0 t =
        countIn (fun e => edge e && (p e).o) 0 t + (if k < 3 then 1 else 0) ∧
      (3 ≤ k ∨ ∃ u, u < t ∧ (src u && i u) = true ∧ k = countIn edge (u + 1) (t - (u + 1))) := by
  induction t with
  | zero => exact ⟨3, h0, rfl, Or.inl (Nat.le_refl _)⟩
  | succ t ih =>
    obtain ⟨k, h, hc, hk⟩ := ih
    rw [countIn, countIn, Nat.zero_add, hc, pulse_o h]
    by_cases hq : (src t && i t) = true
    · have hk3 : 3 ≤ k := by
        rcases hk with h | ⟨u, h1, h2, h3⟩
        · exact h
        · rw [h3]; exact hs u t h1 h2 hq
      refine ⟨0, ?_, ?_, Or.inr ⟨t, by omega, hq, ?_⟩⟩
      · rw [Bool.and_eq_true] at hq
        rw [hp, hq.1, hq.2]
        exact pulse_start hk3 h _
      · rw [if_pos hq, decide_eq_false (by omega : ¬ k = 2), Bool.and_false, if_neg (by omega)]
        simp
      · rw [Nat.sub_self]; rfl
    · refine ⟨if edge t then k + 1 else k, ?_, ?_, ?_⟩
      · rw [hp]
        exact pulse_step h _ _ _ (Bool.eq_false_iff.2 hq)
      · rw [if_neg hq]
        cases edge t
        · simp
        · by_cases h2 : k = 2
          · subst h2; simp
          · rw [decide_eq_false h2]
            have : (k + 1 < 3) ↔ k < 3 := by omega
            simp [this]
      · rcases hk with h | ⟨u, h1, h2, h3⟩
        · left; split <;> omega
        · right
          refine ⟨u, by omega, h2, ?_⟩
          rw [show t + 1 - (u + 1) = t - (u + 1) + 1 by omega, countIn,
            show u + 1 + (t - (u + 1)) = t by omega, ← h3]
          by_cases h : edge t = true
          · rw [if_pos h, if_pos h]
          · rw [if_neg h, if_neg h, Nat.add_zero]

/-- **C122** Resets (bits 1 and 3) have no busy flag; if three edges of the `pix2x` clock lie between two
of them for a delay line, the line is reset exactly as often as asked, once the last one has had three
edges. -/
theorem C122_resets (n : Nat) (inv : Bool) (x : Nat → S6.In) (w : Nat → Option (BitVec 6))
    (hw : Writes w x) (t : Nat) :
    (Spaced (bitWritten w x 1) (fun e => (x e).pix2xEdge) →
      Settled (bitWritten w x 1) (fun e => (x e).pix2xEdge) t →
      countIn (fun e => (x e).pix2xEdge && (S6.masterPins (s6 n inv x e)).RST) 0 t =
        countIn (bitWritten w x 1) 0 t) ∧
    (Spaced (bitWritten w x 3) (fun e => (x e).pix2xEdge) →
      Settled (bitWritten w x 3) (fun e => (x e).pix2xEdge) t →
      countIn (fun e => (x e).pix2xEdge && (S6.slavePins (s6 n inv x e)).RST) 0 t =
        countIn (bitWritten w x 3) 0 t) := by
  have key : ∀ (p : Nat → Pulse) (i : Nat → Bool) (b : Nat), AtRest (p 0) →
      (∀ t, p (t + 1) = (p t).step (x t).sysEdge (i t) (x t).pix2xEdge) →
      (∀ t, i t = ((w t).getD 0).getLsbD b) →
      Spaced (bitWritten w x b) (fun e => (x e).pix2xEdge) →
      Settled (bitWritten w x b) (fun e => (x e).pix2xEdge) t →
      countIn (fun e => (x e).pix2xEdge && (p e).o) 0 t = countIn (bitWritten w x b) 0 t := by
    intro p i b h0 hp hi hs ht
    have e : (fun u => (x u).sysEdge && i u) = bitWritten w x b := by
      funext u; rw [hi]; rfl
    obtain ⟨k, -, hc, hk⟩ := pulses_counted p _ i _ h0 hp (e ▸ hs) t
    rw [e] at hc
    have : 3 ≤ k := by
      rcases hk with h | ⟨u, h1, h2, h3⟩
      · exact h
      · rw [h3]; exact ht u h1 (by rw [← h2, ← e])
    rw [hc, if_neg (by omega)]; rfl
  refine ⟨key _ (fun t => (x t).ctl.master_rst) 1 ⟨rfl, rfl, rfl⟩ (fun _ => rfl) fun t => ?_,
    key _ (fun t => (x t).ctl.slave_rst) 3 ⟨rfl, rfl, rfl⟩ (fun _ => rfl) fun t => ?_⟩ <;>
  · show _ = _
    rw [hw t]
    cases w t <;> simp [S6.Ctl.ofWrite]

/-- Two resets of the master at the first two system clocks, before the first `pix2x` edge. -/
def twoResets (t : Nat) : S6.In :=
  ⟨decide (2 ≤ t), false, true, false, false, false, false, 0,
    S6.Ctl.ofWrite (if t < 2 then some 2#6 else none), false⟩

theorem two_resets (t : Nat) : s6 8 false twoResets (t + 2) = S6.reset 8 := by
  induction t with
  | zero => rfl
  | succ t ih =>
    show S6.step 8 false (s6 8 false twoResets (t + 2)) (twoResets (t + 2)) = _
    have e : twoResets (t + 2) =
        ⟨true, false, true, false, false, false, false, 0, S6.Ctl.ofWrite none, false⟩ := by
      simp [twoResets, show ¬ t + 2 < 2 by omega]
    rw [ih, e]; rfl

/-- **C122** Waiting for `_dly_busy` is not enough for resets: two resets of the master, written while
both bits read 0, cancel, and the delay line is never reset. -/
theorem C122_reset_lost : ∃ (x : Nat → S6.In) (w : Nat → Option (BitVec 6)), Writes w x ∧
    (∀ t, (x t).sysEdge = true) ∧ (∀ m, ∃ e, m ≤ e ∧ (x e).pix2xEdge = true) ∧
    bitWritten w x 1 0 = true ∧ bitWritten w x 1 1 = true ∧
    (∀ t, (s6 8 false x t).sys_master_pending = false ∧ (s6 8 false x t).sys_slave_pending = false ∧
      (S6.masterPins (s6 8 false x t)).RST = false) := by
  refine ⟨twoResets, fun t => if t < 2 then some 2#6 else none, fun _ => rfl, fun _ => rfl,
    fun m => ⟨m + 2, by omega, by simp [twoResets]⟩, rfl, rfl, fun t => ?_⟩
  match t with
  | 0 | 1 => exact ⟨rfl, rfl, rfl⟩
  | t + 2 => rw [two_resets t]; exact ⟨rfl, rfl, rfl⟩

/-- Software that steps both delay lines up twice, then down, then calibrates the master and resets the
slave, each time when both bits read 0; the `pix2x` clock is at every instant, the system clock at every
other one, and a delay line is busy for six clocks. -/
def stepWrites (t : Nat) : Option (BitVec 6) :=
  if t = 3 ∨ t = 33 then some 0b010000#6 else if t = 63 then some 0b100000#6
  else if t = 93 then some 0b001001#6 else none

def stepping (t : Nat) : S6.In :=
  ⟨true, false, t % 2 == 1, decide (7 ≤ t % 30 ∧ t % 30 < 13 ∧ t < 120),
    decide (7 ≤ t % 30 ∧ t % 30 < 13 ∧ t < 90), false, false, 0, S6.Ctl.ofWrite (stepWrites t), false⟩

/-- It meets the hypotheses of C122; the commands arrive. -/
example : Writes stepWrites stepping ∧
    (∀ t, (bitWritten stepWrites stepping 0 t || bitWritten stepWrites stepping 4 t ||
      bitWritten stepWrites stepping 5 t) = true →
      (s6 8 false stepping t).sys_master_pending = false) ∧
    (∀ t, (bitWritten stepWrites stepping 2 t || bitWritten stepWrites stepping 4 t ||
      bitWritten stepWrites stepping 5 t) = true →
      (s6 8 false stepping t).sys_slave_pending = false) ∧
    Spaced (bitWritten stepWrites stepping 3) (fun e => (stepping e).pix2xEdge) ∧
    Settled (bitWritten stepWrites stepping 3) (fun e => (stepping e).pix2xEdge) 120 ∧
    (s6 8 false stepping 120).sys_master_pending = false ∧
    (s6 8 false stepping 120).sys_slave_pending = false ∧
    got stepping (fun e => S6.masterPins (s6 8 false stepping e)) 120 =
      [(false, true, true), (false, true, true), (false, true, false), (true, false, false)] ∧
    got stepping (fun e => S6.slavePins (s6 8 false stepping e)) 120 =
      [(false, true, true), (false, true, true), (false, true, false)] ∧
    countIn (fun e => (stepping e).pix2xEdge && (S6.slavePins (s6 8 false stepping e)).RST) 0 120 = 1 := by
  have at' : ∀ i t, bitWritten stepWrites stepping i t = true → t = 3 ∨ t = 33 ∨ t = 63 ∨ t = 93 := by
    intro i t h
    refine Classical.byContradiction fun hn => ?_
    rw [bitWritten, stepWrites, if_neg (by omega), if_neg (by omega), if_neg (by omega)] at h
    simp at h
  have rst : ∀ t, bitWritten stepWrites stepping 3 t = true → t = 93 := by
    intro t h
    rcases at' 3 t h with rfl | rfl | rfl | rfl
    · revert h; decide +kernel
    · revert h; decide +kernel
    · revert h; decide +kernel
    · rfl
  refine ⟨fun _ => rfl, fun t h => ?_, fun t h => ?_, fun u v huv hu hv => ?_, fun u hu h => ?_,
    by decide +kernel, by decide +kernel, by decide +kernel, by decide +kernel, by decide +kernel⟩
  · rw [Bool.or_eq_true, Bool.or_eq_true] at h
    have : t = 3 ∨ t = 33 ∨ t = 63 ∨ t = 93 := by
      rcases h with (h | h) | h <;> exact at' _ t h
    rcases this with rfl | rfl | rfl | rfl <;> decide +kernel
  · rw [Bool.or_eq_true, Bool.or_eq_true] at h
    have : t = 3 ∨ t = 33 ∨ t = 63 ∨ t = 93 := by
      rcases h with (h | h) | h <;> exact at' _ t h
    rcases this with rfl | rfl | rfl | rfl <;> decide +kernel
  · rw [rst u hu, rst v hv] at huv
    omega
  · rw [rst u h]; decide +kernel

end Verif.Props
