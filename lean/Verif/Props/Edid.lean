import Verif.Proofs.EdidReset

/-!
# C18, C19, C20, C73: the EDID slave
-/

namespace Verif.Props

open Verif.I2c

/-- The SDA line at clock `t`, from reset: low if the EDID slave or anyone else pulls it low. -/
def sdaLine (aw : Nat) (mem : Nat → BitVec 8) (x : Nat → Edid.In) (t : Nat) : Bool :=
  Edid.sdaBus (trace (Edid.step aw mem) Edid.reset x t) (x t)

/-- The EDID slave pulls SDA low at clock `t`. -/
def sdaPulled (aw : Nat) (mem : Nat → BitVec 8) (x : Nat → Edid.In) (t : Nat) : Bool :=
  (trace (Edid.step aw mem) Edid.reset x t).core.drv_reg

/-- **C18** Whatever happened before, once the hot-plug enable has been high for 128 clocks and the
bus is idle for 64, a master that sets the offset and then reads `n + 1` bytes gets every address
and offset byte acknowledged and sees, most significant bit first, the bytes at `offset`,
`offset + 1`, ... modulo the memory size `2 ^ aw`, each value lasting for the whole high phase of
SCL.  Each SCL low phase lasts at least 128 clocks, each high phase and START at least 64, and the
master sets SDA up at least 64 clocks before SCL rises; otherwise the timing is free. -/
theorem C18_read_transfer (aw : Nat) (mem : Nat → BitVec 8) (x : Nat → Edid.In) (t0 T : Nat)
    (hen : ∀ t, t0 ≤ t → (x t).hpd_en = true) (hT : t0 + 128 ≤ T)
    (hidle : ∀ t, T ≤ t + 64 → t < T → (x t).scl = true ∧ sdaLine aw mem x t = true)
    (offset : BitVec 8) (n : Nat) (last : Bool) (evs : List Ev) (hslow : ∀ e ∈ evs, e.slow)
    (hacts : evs.map Ev.act =
      sendOffset offset ++ [.bit true] ++ readBytes (List.replicate n false ++ [last]))
    (hdoes : Does (fun t => (x t).scl) (fun t => (x t).sda) T evs) :
    Sees (sdaLine aw mem x) T evs
      (offsetSeen offset ++ [true] ++ readSeen (fun k => mem ((offset.toNat + k) % 2 ^ aw))
        (List.replicate n false ++ [last])) := by
  obtain ⟨a, ha, ha'⟩ : ∃ a, t0 ≤ 64 * a ∧ 64 * a + 64 ≤ T := ⟨(t0 + 63) / 64, by omega, by omega⟩
  obtain ⟨T', rfl⟩ : ∃ T', T = 64 * a + T' := ⟨T - 64 * a, by omega⟩
  have h0 : (trace (Edid.step aw mem) Edid.reset x (64 * a)).samp_count = 0 := by
    have := (Edid.samp (aw := aw) (mem := mem) (s0 := Edid.reset) (x := x) rfl (64 * a)).1
    rw [this]; omega
  have hw : (fun t => sdaLine aw mem x (64 * a + t)) =
      Edid.wire aw mem (trace (Edid.step aw mem) Edid.reset x (64 * a))
        (fun t => x (64 * a + t)) := by
    funext t
    show Edid.sdaBus (trace _ _ _ (64 * a + t)) _ = _
    rw [trace_add]
    rfl
  have hen' : ∀ t, ((fun t => x (64 * a + t)) t).hpd_en = true := fun t => hen _ (by omega)
  obtain ⟨c, hr⟩ := Edid.ready_of_idle (aw := aw) (mem := mem) h0 hen' (T := T') (by omega) (by
    intro t h1 h2
    have := hidle (64 * a + t) (by omega) (by omega)
    refine ⟨this.1, ?_⟩
    rw [← hw]
    exact this.2)
  apply Edid.sees_shift
  rw [hw, ← Edid.transfer (aw := aw) (mem := mem) c hr.fixed (hr.free rfl) offset n last, ← hacts]
  exact (Edid.exec h0 hen' evs T' c true hr hslow (Edid.does_shift _ _ _ _ _ hdoes)).1

/-- **C19** in part: after an idle time from reset, and with the hot-plug enable high, whatever
pulses, STARTs and STOPs a master makes, the line differs from the master's value only after the
first seven line values since the last START were the address 0x50 and an eighth has followed.
Missing: masters that do not hold SDA for 64 clocks before SCL rises, for which it is false
(`C19_violated`). -/
theorem C19_addressed_partial (aw : Nat) (mem : Nat → BitVec 8) (x : Nat → Edid.In) (T : Nat)
    (hen : ∀ t, (x t).hpd_en = true) (hT : 64 ≤ T)
    (hidle : ∀ t, t < T → (x t).scl = true ∧ (x t).sda = true)
    (evs : List Ev) (hslow : ∀ e ∈ evs, e.slow)
    (hdoes : Does (fun t => (x t).scl) (fun t => (x t).sda) T evs) :
    ∃ lines, Sees (sdaLine aw mem x) T evs lines ∧
      SilentUntilAddressed true none (evs.map Ev.act) lines := by
  obtain ⟨c, hr, hi⟩ := Edid.ready_reset (aw := aw) (mem := mem) hen hT hidle
  exact ⟨_, (Edid.exec rfl hen evs T c true hr hslow hdoes).1, Edid.silent hi _⟩

/-- **C20** in part: after an idle time from reset, and with the hot-plug enable high, whatever
pulses, STARTs and STOPs a master has made, when it then pulses SCL ten times with SDA released the
line is high during the whole high phase of one of them (so that the master can pull it low again
for a START or release it for a STOP).  Missing: software that drops the hot-plug enable
(`C20_violated`) and faster masters (`C20_fast_clock`), for which it is false. -/
theorem C20_recovery_partial (aw : Nat) (mem : Nat → BitVec 8) (x : Nat → Edid.In) (T : Nat)
    (hen : ∀ t, (x t).hpd_en = true) (hT : 64 ≤ T)
    (hidle : ∀ t, t < T → (x t).scl = true ∧ (x t).sda = true)
    (evs pulses : List Ev) (hslow : ∀ e ∈ evs ++ pulses, e.slow)
    (hacts : pulses.map Ev.act = List.replicate 10 (.bit true))
    (hdoes : Does (fun t => (x t).scl) (fun t => (x t).sda) T (evs ++ pulses)) :
    ∃ lines, Sees (sdaLine aw mem x) (T + (evs.map Ev.len).sum) pulses lines ∧ true ∈ lines := by
  obtain ⟨c, hr, hi⟩ := Edid.ready_reset (aw := aw) (mem := mem) hen hT hidle
  obtain ⟨d1, d2⟩ := Edid.does_append _ _ _ _ _ hdoes
  obtain ⟨-, hr2⟩ := Edid.exec rfl hen evs T c true hr
    (fun e he => hslow e (List.mem_append_left _ he)) d1
  obtain ⟨h', hi2⟩ := Edid.inv_fin hi (evs.map Ev.act)
  rw [← Edid.finish_eq]
  refine ⟨_, (Edid.exec rfl hen pulses _ _ _ hr2
    (fun e he => hslow e (List.mem_append_right _ he)) d2).1, ?_⟩
  rw [hacts]
  exact Edid.releases hi2.good _

/-! ## Examples -/

/-- The pads of a master that performs `evs`, then leaves the bus alone. -/
def wave : List Ev → Nat → Bool × Bool
  | [], _ => (true, true)
  | .pulse low high v :: r, t =>
    if t < low then (false, v) else if t < low + high then (true, v) else wave r (t - (low + high))
  | .start hold :: r, t => if t < hold then (true, false) else wave r (t - hold)
  | .stop hold :: r, t => if t < hold then (true, true) else wave r (t - hold)

/-- The master `wave evs` after an idle time of `T` clocks. -/
def waveIn (T : Nat) (evs : List Ev) (t : Nat) : Edid.In :=
  if t < T then ⟨true, true, true⟩ else ⟨(wave evs (t - T)).1, (wave evs (t - T)).2, true⟩

theorem does_wave (scl sda : Nat → Bool) (T : Nat) (evs : List Ev)
    (h : ∀ t, T ≤ t → (scl t, sda t) = wave evs (t - T)) : Does scl sda T evs := by
  induction evs generalizing T with
  | nil => trivial
  | cons e r ih =>
    cases e with
    | pulse low high v =>
      refine ⟨fun t h1 h2 => ?_, fun t h1 h2 h3 => ?_, fun t h1 h2 => ?_, ih _ fun t h1 => ?_⟩
      · have := h t h1
        rw [wave, if_pos (by omega)] at this
        exact congrArg Prod.fst this
      · have := h t h1
        rw [wave, if_pos (by omega)] at this
        exact congrArg Prod.snd this
      · have := h t (by omega)
        rw [wave, if_neg (by omega), if_pos (by omega)] at this
        exact ⟨congrArg Prod.fst this, congrArg Prod.snd this⟩
      · have := h t (by omega)
        rw [wave, if_neg (by omega), if_neg (by omega)] at this
        rw [this, show t - T - (low + high) = t - (T + low + high) by omega]
    | start hold =>
      refine ⟨fun t h1 h2 => ?_, ih _ fun t h1 => ?_⟩
      · have := h t h1
        rw [wave, if_pos (by omega)] at this
        exact ⟨congrArg Prod.fst this, congrArg Prod.snd this⟩
      · have := h t (by omega)
        rw [wave, if_neg (by omega)] at this
        rw [this, show t - T - hold = t - (T + hold) by omega]
    | stop hold =>
      refine ⟨fun t h1 h2 => ?_, ih _ fun t h1 => ?_⟩
      · have := h t h1
        rw [wave, if_pos (by omega)] at this
        exact ⟨congrArg Prod.fst this, congrArg Prod.snd this⟩
      · have := h t (by omega)
        rw [wave, if_neg (by omega)] at this
        rw [this, show t - T - hold = t - (T + hold) by omega]

theorem does_waveIn (T : Nat) (evs : List Ev) :
    Does (fun t => (waveIn T evs t).scl) (fun t => (waveIn T evs t).sda) T evs := by
  apply does_wave
  intro t ht
  unfold waveIn
  rw [if_neg (by omega)]

/-- A master whose clock is low for 150 and high for 90 clocks. -/
def timed : Act → Ev
  | .bit v => .pulse 150 90 v
  | .start => .start 77
  | .stop => .stop 81

theorem timed_slow (acts : List Act) : ∀ e ∈ acts.map timed, e.slow := by
  intro e he
  obtain ⟨a, -, rfl⟩ := List.mem_map.1 he
  cases a <;> simp [timed, Ev.slow]

theorem timed_act (acts : List Act) : (acts.map timed).map Ev.act = acts := by
  rw [List.map_map]
  conv => rhs; rw [← List.map_id acts]
  apply List.map_congr_left
  intro a _
  cases a <;> rfl

/-- Until the master starts, the line does not depend on what it will do. -/
theorem idle_line (aw : Nat) (mem : Nat → BitVec 8) (T : Nat) (evs : List Ev) (t : Nat) (ht : t < T) :
    sdaLine aw mem (waveIn T evs) t = sdaLine aw mem (waveIn T []) t := by
  have hx : ∀ k, k < T → waveIn T evs k = waveIn T [] k := by
    intro k hk
    unfold waveIn
    rw [if_pos hk, if_pos hk]
  have : trace (Edid.step aw mem) Edid.reset (waveIn T evs) t =
      trace (Edid.step aw mem) Edid.reset (waveIn T []) t :=
    trace_congr _ _ _ _ t fun k hk => hx k (by omega)
  unfold sdaLine
  rw [this, hx t ht]

/-- Three bytes from offset 254 of a memory with content `7 k + 1`: the addresses wrap. -/
example : Sees (sdaLine 8 (fun k => BitVec.ofNat 8 (7 * k + 1))
      (waveIn 200 ((sendOffset 254 ++ [Act.bit true] ++ readBytes [false, false, true]).map timed)))
    200 ((sendOffset 254 ++ [Act.bit true] ++ readBytes [false, false, true]).map timed)
    (byteBits 0xA0 ++ [false] ++ byteBits 254 ++ [false] ++ [true] ++ byteBits 0xA1 ++ [false] ++
      byteBits 243 ++ [false] ++ byteBits 250 ++ [false] ++ byteBits 1 ++ [true]) :=
  C18_read_transfer 8 (fun k => BitVec.ofNat 8 (7 * k + 1)) _ 0 200
    (fun t _ => by unfold waveIn; split <;> rfl) (by omega)
    (fun t h1 h2 => by
      refine ⟨by simp [waveIn, h2], ?_⟩
      have e : ∀ t, t < 200 → sdaLine 8 (fun k => BitVec.ofNat 8 (7 * k + 1))
          (waveIn 200 []) t = true := by decide +kernel
      rw [← e t h2]
      exact idle_line _ _ 200 _ t h2)
    254 2 true _ (timed_slow _) (timed_act _) (does_waveIn _ _)

/-- After a START and bits that begin with another address the line is what the master puts on
it. -/
theorem silent_bits (vs pre lines : List Bool) (l : Bool)
    (hna : (pre ++ vs).take 7 ≠ [true, false, true, false, false, false, false])
    (h : SilentUntilAddressed l (some pre) (vs.map Act.bit) lines) : lines = vs := by
  induction vs generalizing pre lines l with
  | nil => cases lines with
    | nil => rfl
    | cons b bs => exact h.elim
  | cons v r ih =>
    cases lines with
    | nil => exact h.elim
    | cons b bs =>
      obtain ⟨h1, h2⟩ := h
      have hb : b = v := by
        refine Classical.byContradiction fun hne => ?_
        obtain ⟨bits, hs, hl, h7⟩ := h1 hne
        cases hs
        apply hna
        rw [List.take_append_of_le_length (by omega), h7]
      subst hb
      rw [ih (pre ++ [b]) bs b (by rw [List.append_assoc]; exact hna) h2]

theorem silent_start (vs lines : List Bool)
    (hna : vs.take 7 ≠ [true, false, true, false, false, false, false])
    (h : SilentUntilAddressed true none (Act.start :: vs.map Act.bit) lines) : lines = vs :=
  silent_bits vs [] lines false hna h

/-- Another address, 0x52 instead of 0x50, is not answered: the line stays as the master leaves it
(C19). -/
example : Sees (sdaLine 8 (fun _ => 0x5A)
      (waveIn 100 ((Act.start :: (byteBits 0xA4 ++ [true, true, true]).map Act.bit).map timed)))
    100 ((Act.start :: (byteBits 0xA4 ++ [true, true, true]).map Act.bit).map timed)
    (byteBits 0xA4 ++ [true, true, true]) := by
  obtain ⟨lines, h1, h2⟩ := C19_addressed_partial 8 (fun _ => 0x5A) _ 100
    (fun t => by unfold waveIn; split <;> rfl) (by omega)
    (fun t ht => by simp [waveIn, ht]) _
    (timed_slow (Act.start :: (byteBits 0xA4 ++ [true, true, true]).map Act.bit)) (does_waveIn _ _)
  rw [timed_act] at h2
  rw [silent_start _ lines (by decide) h2] at h1
  exact h1

/-- A transfer is abandoned in the middle of a byte of zeros; ten pulses free the line (C20). -/
example : ∃ lines, Sees (sdaLine 8 (fun _ => 0)
      (waveIn 100 (((readBytes [false]).dropLast.map timed) ++
        (List.replicate 10 (Act.bit true)).map timed)))
    (100 + (((readBytes [false]).dropLast.map timed).map Ev.len).sum)
    ((List.replicate 10 (Act.bit true)).map timed) lines ∧ true ∈ lines :=
  C20_recovery_partial 8 (fun _ => 0) _ 100 (fun t => by unfold waveIn; split <;> rfl) (by omega)
    (fun t ht => by simp [waveIn, ht]) _ _
    (by rw [← List.map_append]; exact timed_slow _) (timed_act _) (does_waveIn _ _)

/-- **C73**: for every waveform of the pads and every use of the hot-plug enable, when EDID starts
to pull SDA low, SCL was low at most 67 clocks before. -/
theorem C73_pulls_after_low (aw : Nat) (mem : Nat → BitVec 8) (x : Nat → Edid.In) (t : Nat)
    (h0 : sdaPulled aw mem x t = false) (h1 : sdaPulled aw mem x (t + 1) = true) :
    ∃ t', t' ≤ t ∧ t ≤ t' + 67 ∧ (x t').scl = false :=
  Edid.pull_low h0 h1

/-- The master pulls SDA low between clocks `t` and `t + 1` while SCL is high: a START. -/
def MasterStart (x : Nat → Edid.In) (t : Nat) : Prop :=
  (x t).scl = true ∧ (x (t + 1)).scl = true ∧ (x t).sda = true ∧ (x (t + 1)).sda = false

instance (x : Nat → Edid.In) (t : Nat) : Decidable (MasterStart x t) := by
  unfold MasterStart; infer_instance

/-- The first half of C19 for every waveform: EDID pulls SDA low only after a START. -/
def C19_full : Prop := ∀ (aw : Nat) (mem : Nat → BitVec 8) (x : Nat → Edid.In),
  (∀ t, (x t).hpd_en = true) → ∀ t, sdaPulled aw mem x t = true → ∃ t', t' < t ∧ MasterStart x t'

/-- A master that, without any START, clocks the bits 010000 and then one more pulse before which
it pulls SDA low 38 clocks before SCL rises. -/
def lateSetup (t : Nat) : Edid.In :=
  if t < 128 then ⟨true, true, true⟩
  else if t < 1280 then
    ⟨decide (128 ≤ (t - 128) % 192),
      [false, true, false, false, false, false].getD ((t - 128) / 192) true, true⟩
  else if t < 1420 then ⟨false, true, true⟩
  else if t < 1458 then ⟨false, false, true⟩
  else if t < 1522 then ⟨true, false, true⟩
  else ⟨false, true, true⟩

/-- **C19** is false for arbitrary waveforms: when SDA falls less than a sampling period before SCL
rises, the slave takes the two for a START without restarting its bit counter. -/
theorem C19_violated : ¬ C19_full := by
  intro h
  have hp : sdaPulled 8 (fun _ => 0) lateSetup 1550 = true := by decide +kernel
  obtain ⟨t', ht, hs⟩ := h 8 (fun _ => 0) lateSetup
    (fun t => by unfold lateSetup; repeat (first | rfl | split)) 1550 hp
  have : ∀ t, t < 1550 → ¬ MasterStart lateSetup t := by decide +kernel
  exact this t' ht hs

/-- The hypotheses of C73 are met there, when the slave starts to acknowledge. -/
example : sdaPulled 8 (fun _ => 0) lateSetup 1538 = false ∧
    sdaPulled 8 (fun _ => 0) lateSetup 1539 = true := by decide +kernel

/-- C20: at any time the bus can be recovered: some behaviour of master and software from then on
makes the line go high. -/
def C20_full : Prop := ∀ (aw : Nat) (mem : Nat → BitVec 8) (x : Nat → Edid.In) (t0 : Nat),
  ∃ x', (∀ t, t < t0 → x' t = x t) ∧ ∃ t, t0 ≤ t ∧ sdaLine aw mem x' t = true

/-- The slave holds SDA low and will never stop. -/
structure Stuck (s : Edid.State) : Prop where
  fsm : s.core.fsm = .waitStart
  drv : s.core.data_drv = true
  bit : s.core.data_bit = false
  reg : s.core.drv_reg = true
  sda0 : s.sda0 = false
  raw : s.sda_raw = false
  sda : s.bus.sda_i = false
  sda_r : s.bus.sda_r = false

/-- `Stuck` as a check. -/
def isStuck (s : Edid.State) : Bool :=
  decide (s.core.fsm = .waitStart) && s.core.data_drv && !s.core.data_bit && s.core.drv_reg &&
    !s.sda0 && !s.sda_raw && !s.bus.sda_i && !s.bus.sda_r

theorem stuck_of (s : Edid.State) (h : isStuck s = true) : Stuck s := by
  simp only [isStuck, Bool.and_eq_true, Bool.not_eq_true', decide_eq_true_eq] at h
  obtain ⟨⟨⟨⟨⟨⟨⟨h1, h2⟩, h3⟩, h4⟩, h5⟩, h6⟩, h7⟩, h8⟩ := h
  exact ⟨h1, h2, h3, h4, h5, h6, h7, h8⟩

theorem stuck_step (aw : Nat) (mem : Nat → BitVec 8) (s : Edid.State) (x : Edid.In) (h : Stuck s) :
    Stuck (Edid.step aw mem s x) := by
  obtain ⟨h1, h2, h3, h4, h5, h6, h7, h8⟩ := h
  have hst : s.bus.start = false := by simp [Edid.Bus.start, h8]
  refine ⟨?_, ?_, ?_, ?_, ?_, ?_, ?_, ?_⟩
  · simp [Edid.step, Edid.Core.step, hst, Edid.Core.fsmOwn, h1]
  · simp [Edid.step, Edid.Core.step, Edid.Core.dataDrvEn, Edid.Core.dataDrvStop, h1, h2]
  · simp [Edid.step, Edid.Core.step, Edid.Core.dataDrvEn, h1, h3]
  · simp [Edid.step, Edid.Core.step, Edid.Core.sdaDrv, h2, h3]
  · simp [Edid.step, Edid.sdaBus, h4]
  · simp [Edid.step, h5]
  · simp [Edid.step, h6, h7]
  · simp [Edid.step, h7]

theorem stuck_forever (aw : Nat) (mem : Nat → BitVec 8) (x x' : Nat → Edid.In) (t0 : Nat)
    (h : Stuck (trace (Edid.step aw mem) Edid.reset x t0)) (hx : ∀ t, t < t0 → x' t = x t) (t : Nat)
    (ht : t0 ≤ t) : sdaLine aw mem x' t = false := by
  have : Stuck (trace (Edid.step aw mem) Edid.reset x' t) := by
    obtain ⟨d, rfl⟩ := Nat.exists_eq_add_of_le ht
    rw [trace_add, trace_congr _ _ x' x t0 hx]
    exact trace_inv Stuck h (stuck_step aw mem) d
  show ((x' t).sda && !_) = false
  rw [this.reg, Bool.not_true, Bool.and_false]

/-- A master that addresses the slave for reading; the first data bit is 0.  Software drops the
hot-plug enable while that bit is on the line, at clock 2100. -/
def hotUnplug (t : Nat) : Edid.In :=
  { waveIn 128 ((Act.start :: (byteBits 0xA1 ++ [true, true]).map Act.bit).map
      fun | .bit v => .pulse 128 64 v | .start => .start 64 | .stop => .stop 64) t with
    hpd_en := decide (t < 2100) }

/-- **C20** is false: if software drops the hot-plug enable while a 0 is read, EDID holds SDA low
for ever; no behaviour of the master or of software frees the line. -/
theorem C20_violated : ¬ C20_full := by
  intro h
  obtain ⟨x', hx, t, ht, hl⟩ := h 8 (fun _ => 0) hotUnplug 2112
  have hs : Stuck (trace (Edid.step 8 (fun _ => 0)) Edid.reset hotUnplug 2112) :=
    stuck_of _ (by decide +kernel)
  rw [stuck_forever 8 _ hotUnplug x' 2112 hs hx t ht] at hl
  cases hl

/-- A master that reads from a memory of bytes 0x80 and, after the first bit (1), speeds up: SCL low
for 64 clocks. -/
def fastClock (t : Nat) : Edid.In :=
  waveIn 128 (((Act.start :: (byteBits 0xA1 ++ [true, true]).map Act.bit).map
      fun | .bit v => .pulse 128 64 v | .start => .start 64 | .stop => .stop 64) ++
    List.replicate 10 (.pulse 64 64 true)) t

/-- **C20** is false for a master whose SCL low phase contains only one sample, even if the hot-plug
enable stays high: the slave takes its own pulling SDA low for a START and never stops. -/
theorem C20_fast_clock : ∃ t0, ∀ x', (∀ t, t < t0 → x' t = fastClock t) →
    ∀ t, t0 ≤ t → sdaLine 8 (fun _ => 0x80) x' t = false := by
  refine ⟨3200, fun x' hx t ht => ?_⟩
  have hs : Stuck (trace (Edid.step 8 (fun _ => 0x80)) Edid.reset fastClock 3200) :=
    stuck_of _ (by decide +kernel)
  exact stuck_forever 8 _ fastClock x' 3200 hs hx t ht

example : ∀ t, (fastClock t).hpd_en = true := by
  intro t
  unfold fastClock waveIn
  split <;> rfl

end Verif.Props
