import Verif.Model.DataCapture
import Verif.Spec.DataCapture

/-!
# Data capture: accumulator and delay control
-/

namespace Verif.DataCapture

open Spec.Phase
open Frame.Overflow (Pulse)

/-! ## Accumulator -/

/-- An accumulator that latches at 0 and `top` holds the total until it gets there. -/
theorem latches {mid top : Nat} {ev : Nat → Int} {v : Nat → Nat} (h0 : v 0 = mid)
    {t : Nat}
    (hs : ∀ u, u < t → (v (u + 1) : Int) =
      if v u = 0 ∨ v u = top then (v u : Int) else v u + ev u)
    (hle : ∀ u, u ≤ t → v u ≤ top) :
    ((∀ j, j < t → 0 < total mid ev j ∧ total mid ev j < top) ∧ (v t : Int) = total mid ev t) ∨
    ∃ k, k < t ∧ (∀ j, j < k → 0 < total mid ev j ∧ total mid ev j < top) ∧
      (total mid ev k = 0 ∨ total mid ev k = top) ∧ (v t : Int) = total mid ev k := by
  induction t with
  | zero => exact Or.inl ⟨fun j hj => absurd hj (by omega), by rw [h0]; rfl⟩
  | succ t ih =>
    have e := hs t (by omega)
    have l := hle t (by omega)
    rcases ih (fun u hu => hs u (by omega)) (fun u hu => hle u (by omega)) with ⟨h1, h2⟩ | h
    · by_cases hc : v t = 0 ∨ v t = top
      · refine Or.inr ⟨t, by omega, h1, by omega, ?_⟩
        rw [e, if_pos hc, h2]
      · refine Or.inl ⟨fun j hj => ?_, ?_⟩
        · by_cases hjt : j = t
          · subst hjt; omega
          · exact h1 j (by omega)
        · rw [e, if_neg hc, h2]; rfl
    · obtain ⟨k, hk, h1, h2, h3⟩ := h
      refine Or.inr ⟨k, by omega, h1, h2, ?_⟩
      rw [e, if_pos (by omega), h3]

theorem reaches_iff {mid top : Nat} {ev : Nat → Int} {v : Nat → Nat} (h0 : v 0 = mid) {t : Nat}
    (hs : ∀ u, u < t → (v (u + 1) : Int) =
      if v u = 0 ∨ v u = top then (v u : Int) else v u + ev u)
    (hle : ∀ u, u ≤ t → v u ≤ top) (b : Nat) (hb : b = 0 ∨ b = top) :
    v t = b ↔ Reaches mid top ev t b := by
  constructor
  · intro hv
    rcases latches h0 hs hle with ⟨h1, h2⟩ | ⟨k, hk, h1, h2, h3⟩
    · exact ⟨t, Nat.le_refl _, by omega, h1⟩
    · exact ⟨k, by omega, by omega, h1⟩
  · rintro ⟨k, hk, h4, h5⟩
    rcases latches h0 hs hle with ⟨h1, h2⟩ | ⟨k', hk', h1, h2, h3⟩
    · by_cases e : k = t
      · subst e; omega
      · have := h1 k (by omega); omega
    · rcases Nat.lt_trichotomy k k' with h | h | h
      · have := h1 k h; omega
      · subst h; omega
      · have := h5 k' h; omega

theorem inside_eq {mid top : Nat} {ev : Nat → Int} {v : Nat → Nat} (h0 : v 0 = mid) {t : Nat}
    (hs : ∀ u, u < t → (v (u + 1) : Int) =
      if v u = 0 ∨ v u = top then (v u : Int) else v u + ev u)
    (hle : ∀ u, u ≤ t → v u ≤ top)
    (hin : ∀ j, j < t → 0 < total mid ev j ∧ total mid ev j < top) :
    (v t : Int) = total mid ev t := by
  rcases latches h0 hs hle with ⟨h1, h2⟩ | ⟨k, hk, h1, h2, h3⟩
  · exact h2
  · have := hin k hk; omega

/-! ## Pulse synchronisers -/

/-- `k` target edges after a toggle: 0, 1, 2, or 3 and more (at rest). -/
def PulseAt (p : Pulse) : Nat → Prop
  | 0 => p.m0 = !p.toggle ∧ p.m1 = !p.toggle ∧ p.last = !p.toggle
  | 1 => p.m0 = p.toggle ∧ p.m1 = !p.toggle ∧ p.last = !p.toggle
  | 2 => p.m0 = p.toggle ∧ p.m1 = p.toggle ∧ p.last = !p.toggle
  | _ + 3 => p.m0 = p.toggle ∧ p.m1 = p.toggle ∧ p.last = p.toggle

theorem pulse_o {p : Pulse} {k : Nat} (h : PulseAt p k) : p.o = decide (k = 2) := by
  obtain ⟨a, b, c, d⟩ := p
  match k, h with
  | 0, h | 1, h | 2, h | k + 3, h =>
    obtain ⟨h1, h2, h3⟩ := h
    simp only at h1 h2 h3
    simp only [Pulse.o, h2, h3]
    cases a <;> simp

/-- A target edge, or none, without a source pulse. -/
theorem pulse_step {p : Pulse} {k : Nat} (h : PulseAt p k) (src i dst : Bool)
    (hi : (src && i) = false) : PulseAt (p.step src i dst) (if dst then k + 1 else k) := by
  obtain ⟨a, b, c, d⟩ := p
  cases dst
  · match k, h with
    | 0, h | 1, h | 2, h | k + 3, h => simpa [Pulse.step, hi, PulseAt] using h
  · match k, h with
    | 0, h | 1, h | 2, h | k + 3, h =>
      obtain ⟨h1, h2, h3⟩ := h
      simp only at h1 h2 h3
      subst h1 h2 h3
      simp [Pulse.step, hi, PulseAt]

/-- A source pulse of a synchroniser at rest. -/
theorem pulse_start {p : Pulse} {k : Nat} (hk : 3 ≤ k) (h : PulseAt p k) (dst : Bool) :
    PulseAt (p.step true true dst) 0 := by
  obtain ⟨a, b, c, d⟩ := p
  obtain ⟨k, rfl⟩ := Nat.exists_eq_add_of_le' hk
  obtain ⟨h1, h2, h3⟩ := h
  simp only at h1 h2 h3
  subst h1 h2 h3
  cases dst <;> simp [Pulse.step, PulseAt]

theorem pulse_rest {p : Pulse} {k : Nat} (hk : 3 ≤ k) : PulseAt p k ↔ PulseAt p 3 := by
  obtain ⟨k, rfl⟩ := Nat.exists_eq_add_of_le' hk
  rfl

/-! ## Delay control of one delay line -/

namespace Delay

/-- The part of the delay control that belongs to one delay line. -/
structure State where
  cal : Pulse
  inc : Pulse
  dec : Pulse
  pending : Bool
  doneI : Bool
  done : Pulse
  flag : Bool

structure In where
  pixEdge : Bool
  sysEdge : Bool
  busy : Bool
  cal : Bool
  inc : Bool
  dec : Bool

def command (s : State) : Bool := s.cal.o || (s.inc.o || s.dec.o)

def In.request (x : In) : Bool := x.sysEdge && (x.cal || x.inc || x.dec)

def step (s : State) (x : In) : State :=
  { cal := s.cal.step x.sysEdge x.cal x.pixEdge
    inc := s.inc.step x.sysEdge x.inc x.pixEdge
    dec := s.dec.step x.sysEdge x.dec x.pixEdge
    pending := if x.pixEdge then (if !s.pending then command s else x.busy) else s.pending
    doneI := if x.pixEdge then s.pending && !x.busy else s.doneI
    done := s.done.step x.pixEdge s.doneI x.sysEdge
    flag := if x.sysEdge then
        (if x.cal || x.inc || x.dec then true else if s.done.o then false else s.flag)
      else s.flag }

/-- Progress of an operation; the Booleans say what was requested. -/
inductive Stage where
  | idle
  | crossing (k : Nat) (cal inc dec : Bool)
  | working
  | finishing
  | acking (k : Nat)

/-- Age of a synchroniser that takes part (`b`) or not. -/
def age (b : Bool) (k : Nat) : Nat := if b then k else 3

/-- The registers in each stage. -/
def Good : Stage → State → Prop
  | .idle, s => PulseAt s.cal 3 ∧ PulseAt s.inc 3 ∧ PulseAt s.dec 3 ∧ s.pending = false ∧
      s.doneI = false ∧ PulseAt s.done 3 ∧ s.flag = false
  | .crossing k a b c, s => k < 3 ∧ (a || b || c) = true ∧ PulseAt s.cal (age a k) ∧
      PulseAt s.inc (age b k) ∧ PulseAt s.dec (age c k) ∧
      s.pending = false ∧ s.doneI = false ∧ PulseAt s.done 3 ∧ s.flag = true
  | .working, s => PulseAt s.cal 3 ∧ PulseAt s.inc 3 ∧ PulseAt s.dec 3 ∧ s.pending = true ∧
      s.doneI = false ∧ PulseAt s.done 3 ∧ s.flag = true
  | .finishing, s => PulseAt s.cal 3 ∧ PulseAt s.inc 3 ∧ PulseAt s.dec 3 ∧ s.pending = false ∧
      s.doneI = true ∧ PulseAt s.done 3 ∧ s.flag = true
  | .acking k, s => k < 3 ∧ PulseAt s.cal 3 ∧ PulseAt s.inc 3 ∧ PulseAt s.dec 3 ∧
      s.pending = false ∧ s.doneI = false ∧ PulseAt s.done k ∧ s.flag = true

def Stage.next (x : In) : Stage → Stage
  | .idle => if x.request then .crossing 0 x.cal x.inc x.dec else .idle
  | .crossing k a b c =>
    if x.pixEdge then (if k = 2 then .working else .crossing (k + 1) a b c) else .crossing k a b c
  | .working => if x.pixEdge && !x.busy then .finishing else .working
  | .finishing => if x.pixEdge then .acking 0 else .finishing
  | .acking k => if x.sysEdge then (if k = 2 then .idle else .acking (k + 1)) else .acking k

theorem good_flag {st : Stage} {s : State} (h : Good st s) : s.flag = true ↔ st ≠ .idle := by
  cases st with
  | idle => simp [h.2.2.2.2.2.2]
  | crossing k a b c => simp [h.2.2.2.2.2.2.2.2]
  | working => simp [h.2.2.2.2.2.2]
  | finishing => simp [h.2.2.2.2.2.2]
  | acking k => simp [h.2.2.2.2.2.2.2]

/-- The request bits and the synchroniser at rest. -/
theorem rest_step {p : Pulse} (h : PulseAt p 3) (src i dst : Bool) (hi : (src && i) = false) :
    PulseAt (p.step src i dst) 3 := by
  have := pulse_step h src i dst hi
  cases dst
  · exact this
  · exact (pulse_rest (k := 3 + 1) (by omega)).1 this

theorem age_start {p : Pulse} (h : PulseAt p 3) (i dst : Bool) :
    PulseAt (p.step true i dst) (age i 0) := by
  cases i
  · exact rest_step h _ _ _ rfl
  · exact pulse_start (by omega) h dst

theorem age_step {p : Pulse} {b : Bool} {k : Nat} (h : PulseAt p (age b k))
    (src i dst : Bool) (hi : (src && i) = false) :
    PulseAt (p.step src i dst) (age b (if dst then k + 1 else k)) := by
  cases b
  · exact rest_step h _ _ _ hi
  · exact pulse_step h src i dst hi

theorem no_request {x : In} (h : x.request = false) :
    (x.sysEdge && x.cal) = false ∧ (x.sysEdge && x.inc) = false ∧ (x.sysEdge && x.dec) = false := by
  revert h
  unfold In.request
  cases x.sysEdge <;> cases x.cal <;> cases x.inc <;> cases x.dec <;> simp

theorem flag_step {s : State} {x : In} (h : x.request = false) :
    (step s x).flag = (if x.sysEdge && s.done.o then false else s.flag) := by
  obtain ⟨h1, h2, h3⟩ := no_request h
  show (if _ then (if _ then _ else if _ then _ else _) else _) = _
  cases hs : x.sysEdge
  · simp
  · rw [hs] at h1 h2 h3
    simp only [Bool.true_and] at h1 h2 h3
    simp [h1, h2, h3]

/-- One instant, if software requests only in the stage `idle`. -/
theorem good_step {st : Stage} {s : State} {x : In} (h : Good st s)
    (hreq : x.request = true → st = .idle) : Good (st.next x) (step s x) := by
  cases st with
  | idle =>
    obtain ⟨h1, h2, h3, h4, h5, h6, h7⟩ := h
    have hc : command s = false := by simp [command, pulse_o h1, pulse_o h2, pulse_o h3]
    have hp : (step s x).pending = false := by
      show (if _ then (if _ then _ else _) else _) = _
      simp [h4, hc]
    have hd : (step s x).doneI = false := by
      show (if _ then _ else _) = _
      simp [h4, h5]
    have ha : PulseAt (step s x).done 3 := rest_step h6 _ _ _ (by simp [h5])
    unfold Stage.next
    by_cases hr : x.request = true
    · rw [if_pos hr]
      have hr' := hr
      rw [In.request, Bool.and_eq_true] at hr'
      refine ⟨by omega, hr'.2, ?_, ?_, ?_, hp, hd, ha, ?_⟩
      · show PulseAt (s.cal.step x.sysEdge _ _) _
        rw [hr'.1]; exact age_start h1 _ _
      · show PulseAt (s.inc.step x.sysEdge _ _) _
        rw [hr'.1]; exact age_start h2 _ _
      · show PulseAt (s.dec.step x.sysEdge _ _) _
        rw [hr'.1]; exact age_start h3 _ _
      · show (if _ then (if _ then _ else _) else _) = _
        rw [if_pos hr'.1, if_pos hr'.2]
    · rw [if_neg hr]
      rw [Bool.not_eq_true] at hr
      obtain ⟨n1, n2, n3⟩ := no_request hr
      exact ⟨rest_step h1 _ _ _ n1, rest_step h2 _ _ _ n2, rest_step h3 _ _ _ n3, hp, hd, ha, by
        rw [flag_step hr, pulse_o h6, h7]; simp⟩
  | crossing k a b c =>
    obtain ⟨hk, h0, h1, h2, h3, h4, h5, h6, h7⟩ := h
    have hr : x.request = false := by
      cases hq : x.request
      · rfl
      · cases hreq hq
    obtain ⟨n1, n2, n3⟩ := no_request hr
    have ha : PulseAt (step s x).done 3 := rest_step h6 _ _ _ (by simp [h5])
    have hd : (step s x).doneI = false := by
      show (if _ then _ else _) = _
      simp [h4, h5]
    have hf : (step s x).flag = true := by rw [flag_step hr, pulse_o h6, h7]; simp
    have g1 : PulseAt (step s x).cal (age a (if x.pixEdge then k + 1 else k)) :=
      age_step h1 _ _ _ n1
    have g2 : PulseAt (step s x).inc (age b (if x.pixEdge then k + 1 else k)) :=
      age_step h2 _ _ _ n2
    have g3 : PulseAt (step s x).dec (age c (if x.pixEdge then k + 1 else k)) :=
      age_step h3 _ _ _ n3
    have ho : command s = decide (k = 2) := by
      simp only [command, pulse_o h1, pulse_o h2, pulse_o h3]
      revert h0
      cases a <;> cases b <;> cases c <;> simp [age]
    have hp : (step s x).pending = (x.pixEdge && decide (k = 2)) := by
      show (if _ then (if _ then _ else _) else _) = _
      rw [h4, ho]
      cases x.pixEdge <;> simp
    unfold Stage.next
    cases hpx : x.pixEdge
    · rw [hpx] at g1 g2 g3 hp
      exact ⟨hk, h0, g1, g2, g3, hp, hd, ha, hf⟩
    · rw [hpx] at g1 g2 g3
      have e1 : PulseAt (step s x).cal (age a (k + 1)) := g1
      have e2 : PulseAt (step s x).inc (age b (k + 1)) := g2
      have e3 : PulseAt (step s x).dec (age c (k + 1)) := g3
      simp only [if_true]
      rw [hpx, Bool.true_and] at hp
      by_cases h2k : k = 2
      · rw [if_pos h2k]
        subst h2k
        have r3 : ∀ b : Bool, age b 3 = 3 := by intro b; cases b <;> rfl
        rw [r3] at e1 e2 e3
        exact ⟨e1, e2, e3, hp, hd, ha, hf⟩
      · rw [if_neg h2k]
        exact ⟨by omega, h0, e1, e2, e3, by rw [hp]; simp [h2k], hd, ha, hf⟩
  | working =>
    obtain ⟨h1, h2, h3, h4, h5, h6, h7⟩ := h
    have hr : x.request = false := by
      cases hq : x.request
      · rfl
      · cases hreq hq
    obtain ⟨n1, n2, n3⟩ := no_request hr
    have ha : PulseAt (step s x).done 3 := rest_step h6 _ _ _ (by simp [h5])
    have hf : (step s x).flag = true := by rw [flag_step hr, pulse_o h6, h7]; simp
    have hp : (step s x).pending = !(x.pixEdge && !x.busy) := by
      show (if _ then (if _ then _ else _) else _) = _
      rw [h4]
      cases x.pixEdge <;> simp
    have hd : (step s x).doneI = (x.pixEdge && !x.busy) := by
      show (if _ then _ else _) = _
      rw [h4, h5]
      cases x.pixEdge <;> simp
    unfold Stage.next
    cases hb : (x.pixEdge && !x.busy)
    · rw [hb] at hp hd
      exact ⟨rest_step h1 _ _ _ n1, rest_step h2 _ _ _ n2, rest_step h3 _ _ _ n3, hp, hd, ha, hf⟩
    · rw [hb] at hp hd
      exact ⟨rest_step h1 _ _ _ n1, rest_step h2 _ _ _ n2, rest_step h3 _ _ _ n3, hp, hd, ha, hf⟩
  | finishing =>
    obtain ⟨h1, h2, h3, h4, h5, h6, h7⟩ := h
    have hr : x.request = false := by
      cases hq : x.request
      · rfl
      · cases hreq hq
    obtain ⟨n1, n2, n3⟩ := no_request hr
    have hc : command s = false := by simp [command, pulse_o h1, pulse_o h2, pulse_o h3]
    have hf : (step s x).flag = true := by rw [flag_step hr, pulse_o h6, h7]; simp
    have hp : (step s x).pending = false := by
      show (if _ then (if _ then _ else _) else _) = _
      simp [h4, hc]
    have hd : (step s x).doneI = !x.pixEdge := by
      show (if _ then _ else _) = _
      rw [h4, h5]
      cases x.pixEdge <;> simp
    unfold Stage.next
    cases hb : x.pixEdge
    · rw [hb] at hd
      exact ⟨rest_step h1 _ _ _ n1, rest_step h2 _ _ _ n2, rest_step h3 _ _ _ n3, hp, hd,
        rest_step h6 _ _ _ (by simp [hb]), hf⟩
    · rw [hb] at hd
      refine ⟨by omega, rest_step h1 _ _ _ n1, rest_step h2 _ _ _ n2, rest_step h3 _ _ _ n3, hp, hd,
        ?_, hf⟩
      show PulseAt (s.done.step x.pixEdge s.doneI _) 0
      rw [hb, h5]
      exact pulse_start (by omega) h6 _
  | acking k =>
    obtain ⟨hk, h1, h2, h3, h4, h5, h6, h7⟩ := h
    have hr : x.request = false := by
      cases hq : x.request
      · rfl
      · cases hreq hq
    obtain ⟨n1, n2, n3⟩ := no_request hr
    have hc : command s = false := by simp [command, pulse_o h1, pulse_o h2, pulse_o h3]
    have hp : (step s x).pending = false := by
      show (if _ then (if _ then _ else _) else _) = _
      simp [h4, hc]
    have hd : (step s x).doneI = false := by
      show (if _ then _ else _) = _
      simp [h4, h5]
    have hf := flag_step (s := s) hr
    rw [pulse_o h6, h7] at hf
    have ha := pulse_step h6 x.pixEdge s.doneI x.sysEdge (by simp [h5])
    unfold Stage.next
    have q1 : PulseAt (step s x).cal 3 := rest_step h1 _ _ _ n1
    have q2 : PulseAt (step s x).inc 3 := rest_step h2 _ _ _ n2
    have q3 : PulseAt (step s x).dec 3 := rest_step h3 _ _ _ n3
    have ha' : PulseAt (step s x).done (if x.sysEdge then k + 1 else k) := ha
    cases hs : x.sysEdge
    · rw [hs] at hf ha'
      exact ⟨hk, q1, q2, q3, hp, hd, ha', hf⟩
    · rw [hs] at hf ha'
      simp only [if_true]
      by_cases h2k : k = 2
      · subst h2k
        exact ⟨q1, q2, q3, hp, hd, ha', hf⟩
      · rw [if_neg h2k]
        exact ⟨by omega, q1, q2, q3, hp, hd, ha', by rw [hf]; simp [h2k]⟩

variable {s0 : State} {x : Nat → In}

/-- If software requests only while the flag reads 0 there is always a stage. -/
theorem stage_at (h0 : Good .idle s0)
    (hpol : ∀ t, (x t).request = true → (trace step s0 x t).flag = false) (t : Nat) :
    ∃ st, Good st (trace step s0 x t) := by
  induction t with
  | zero => exact ⟨_, h0⟩
  | succ t ih =>
    obtain ⟨st, h⟩ := ih
    refine ⟨_, good_step (x := x t) h fun hr => ?_⟩
    refine Classical.byContradiction fun hne => ?_
    have := (good_flag h).2 hne
    rw [hpol t hr] at this
    cases this

theorem idle_of_flag {st : Stage} {s : State} (h : Good st s) (hf : s.flag = false) : st = .idle := by
  refine Classical.byContradiction fun hne => ?_
  rw [(good_flag h).2 hne] at hf
  cases hf

/-- The delay line gets the command `a b c` at instant `e`. -/
def Gets (s0 : State) (x : Nat → In) (a b c : Bool) (e : Nat) : Prop :=
  (x e).pixEdge = true ∧ (trace step s0 x e).cal.o = a ∧ (trace step s0 x e).inc.o = b ∧
    (trace step s0 x e).dec.o = c

/-- While the operation requested at `r` is not finished the flag is 1. -/
theorem covers (h0 : Good .idle s0)
    (hpol : ∀ t, (x t).request = true → (trace step s0 x t).flag = false) (r : Nat)
    (hr : (x r).request = true) (d : Nat) :
    (∃ e e', r < e ∧ e < e' ∧ e' < r + 1 + d ∧ Gets s0 x (x r).cal (x r).inc (x r).dec e ∧
      (x e').pixEdge = true ∧ (x e').busy = false) ∨
    (∃ k, Good (.crossing k (x r).cal (x r).inc (x r).dec) (trace step s0 x (r + 1 + d))) ∨
    (∃ e, r < e ∧ e < r + 1 + d ∧ Gets s0 x (x r).cal (x r).inc (x r).dec e ∧
      Good .working (trace step s0 x (r + 1 + d))) := by
  have nreq : ∀ t st, Good st (trace step s0 x t) → st ≠ .idle → (x t).request = false := by
    intro t st h hne
    cases hq : (x t).request
    · rfl
    · exact absurd (idle_of_flag h (hpol t hq)) hne
  induction d with
  | zero =>
    obtain ⟨st, h⟩ := stage_at h0 hpol r
    have := idle_of_flag h (hpol r hr)
    subst this
    have := good_step (x := x r) h fun _ => rfl
    rw [Stage.next, if_pos hr] at this
    exact Or.inr (Or.inl ⟨0, this⟩)
  | succ d ih =>
    have en : r + 1 + (d + 1) = (r + 1 + d) + 1 := by omega
    rcases ih with ⟨e, e', h1, h2, h3, h4⟩ | ⟨k, h⟩ | ⟨e, h1, h2, h3, h⟩
    · exact Or.inl ⟨e, e', h1, h2, by omega, h4⟩
    · have hn := nreq _ _ h (by simp)
      have hg := good_step (x := x (r + 1 + d)) h fun hq => by rw [hn] at hq; cases hq
      rw [en]
      rw [Stage.next] at hg
      by_cases hp : (x (r + 1 + d)).pixEdge = true
      · rw [if_pos hp] at hg
        by_cases hk : k = 2
        · rw [if_pos hk] at hg
          subst hk
          obtain ⟨-, hor, g1, g2, g3, -⟩ := h
          refine Or.inr (Or.inr ⟨r + 1 + d, by omega, by omega, ⟨hp, ?_, ?_, ?_⟩, hg⟩)
          · rw [pulse_o g1]; cases (x r).cal <;> rfl
          · rw [pulse_o g2]; cases (x r).inc <;> rfl
          · rw [pulse_o g3]; cases (x r).dec <;> rfl
        · rw [if_neg hk] at hg
          exact Or.inr (Or.inl ⟨_, hg⟩)
      · rw [if_neg hp] at hg
        exact Or.inr (Or.inl ⟨_, hg⟩)
    · have hn := nreq _ _ h (by simp)
      have hg := good_step (x := x (r + 1 + d)) h fun hq => by rw [hn] at hq; cases hq
      rw [en]
      rw [Stage.next] at hg
      by_cases hp : ((x (r + 1 + d)).pixEdge && !(x (r + 1 + d)).busy) = true
      · rw [Bool.and_eq_true, Bool.not_eq_true'] at hp
        exact Or.inl ⟨e, r + 1 + d, h1, h2, by omega, h3, hp.1, hp.2⟩
      · rw [if_neg hp] at hg
        exact Or.inr (Or.inr ⟨e, h1, by omega, h3, hg⟩)

/-- Waiting for an event that lets the stage advance. -/
theorem wait {st : Stage} (hne : st ≠ .idle)
    (hpol : ∀ t, (x t).request = true → (trace step s0 x t).flag = false) (p : In → Bool)
    (hstay : ∀ y, p y = false → st.next y = st) (hev : ∀ n, ∃ m, n ≤ m ∧ p (x m) = true) (t : Nat)
    (h : Good st (trace step s0 x t)) :
    ∃ t', t < t' ∧ p (x (t' - 1)) = true ∧ Good (st.next (x (t' - 1))) (trace step s0 x t') := by
  obtain ⟨m, hm, hp⟩ := hev t
  obtain ⟨d, rfl⟩ := Nat.exists_eq_add_of_le hm
  clear hm
  have nreq : ∀ t, Good st (trace step s0 x t) → (x t).request = true → st = .idle :=
    fun t h hq => absurd (idle_of_flag h (hpol t hq)) hne
  induction d generalizing t with
  | zero => exact ⟨t + 1, by omega, hp, good_step h (nreq t h)⟩
  | succ d ih =>
    by_cases hq : p (x t) = true
    · exact ⟨t + 1, by omega, hq, good_step h (nreq t h)⟩
    · rw [Bool.not_eq_true] at hq
      have hg := good_step (x := x t) h (nreq t h)
      rw [hstay _ hq] at hg
      obtain ⟨t', h1, h2⟩ := ih (t + 1) hg (by rw [show t + 1 + d = t + (d + 1) by omega]; exact hp)
      exact ⟨t', by omega, h2⟩

/-- The flag is cleared eventually. -/
theorem clears
    (hpol : ∀ t, (x t).request = true → (trace step s0 x t).flag = false)
    (hpix : ∀ n, ∃ m, n ≤ m ∧ ((x m).pixEdge && !(x m).busy) = true)
    (hsys : ∀ n, ∃ m, n ≤ m ∧ (x m).sysEdge = true) (st : Stage) (t : Nat)
    (h : Good st (trace step s0 x t)) : ∃ t', t ≤ t' ∧ (trace step s0 x t').flag = false := by
  have hpix' : ∀ n, ∃ m, n ≤ m ∧ (x m).pixEdge = true := fun n => by
    obtain ⟨m, h1, h2⟩ := hpix n
    rw [Bool.and_eq_true] at h2
    exact ⟨m, h1, h2.1⟩
  have idle : ∀ t, Good .idle (trace step s0 x t) → ∃ t', t ≤ t' ∧ (trace step s0 x t').flag = false :=
    fun t h => ⟨t, Nat.le_refl _, h.2.2.2.2.2.2⟩
  have ack : ∀ n k t, k + n = 2 → Good (.acking k) (trace step s0 x t) →
      ∃ t', t ≤ t' ∧ (trace step s0 x t').flag = false := by
    intro n
    induction n with
    | zero =>
      intro k t hk h
      obtain ⟨t1, a1, a2, a3⟩ := wait (by simp) hpol (fun y => y.sysEdge)
        (fun y hy => by simp [Stage.next, hy]) hsys t h
      rw [Stage.next, if_pos a2, if_pos (by omega)] at a3
      obtain ⟨t2, b1, b2⟩ := idle _ a3
      exact ⟨t2, by omega, b2⟩
    | succ n ih =>
      intro k t hk h
      obtain ⟨t1, a1, a2, a3⟩ := wait (by simp) hpol (fun y => y.sysEdge)
        (fun y hy => by simp [Stage.next, hy]) hsys t h
      rw [Stage.next, if_pos a2, if_neg (by omega)] at a3
      obtain ⟨t2, b1, b2⟩ := ih _ _ (by omega) a3
      exact ⟨t2, by omega, b2⟩
  have fin : ∀ t, Good .finishing (trace step s0 x t) →
      ∃ t', t ≤ t' ∧ (trace step s0 x t').flag = false := by
    intro t h
    obtain ⟨t1, a1, a2, a3⟩ := wait (by simp) hpol (fun y => y.pixEdge)
      (fun y hy => by simp [Stage.next, hy]) hpix' t h
    rw [Stage.next, if_pos a2] at a3
    obtain ⟨t2, b1, b2⟩ := ack 2 _ _ rfl a3
    exact ⟨t2, by omega, b2⟩
  have work : ∀ t, Good .working (trace step s0 x t) →
      ∃ t', t ≤ t' ∧ (trace step s0 x t').flag = false := by
    intro t h
    obtain ⟨t1, a1, a2, a3⟩ := wait (by simp) hpol (fun y => y.pixEdge && !y.busy)
      (fun y hy => by simp [Stage.next, hy]) hpix t h
    rw [Stage.next, if_pos a2] at a3
    obtain ⟨t2, b1, b2⟩ := fin _ a3
    exact ⟨t2, by omega, b2⟩
  have cross : ∀ n k a b c t, k + n = 2 → Good (.crossing k a b c) (trace step s0 x t) →
      ∃ t', t ≤ t' ∧ (trace step s0 x t').flag = false := by
    intro n
    induction n with
    | zero =>
      intro k a b c t hk h
      obtain ⟨t1, a1, a2, a3⟩ := wait (by simp) hpol (fun y => y.pixEdge)
        (fun y hy => by simp [Stage.next, hy]) hpix' t h
      rw [Stage.next, if_pos a2, if_pos (by omega)] at a3
      obtain ⟨t2, b1, b2⟩ := work _ a3
      exact ⟨t2, by omega, b2⟩
    | succ n ih =>
      intro k a b c t hk h
      obtain ⟨t1, a1, a2, a3⟩ := wait (by simp) hpol (fun y => y.pixEdge)
        (fun y hy => by simp [Stage.next, hy]) hpix' t h
      rw [Stage.next, if_pos a2, if_neg (by omega)] at a3
      obtain ⟨t2, b1, b2⟩ := ih _ _ _ _ _ (by omega) a3
      exact ⟨t2, by omega, b2⟩
  cases st with
  | idle => exact idle t h
  | crossing k a b c => exact cross (2 - k) k a b c t (by have := h.1; omega) h
  | working => exact work t h
  | finishing => exact fin t h
  | acking k => exact ack (2 - k) k t (by have := h.1; omega) h

end Delay
end Verif.DataCapture
