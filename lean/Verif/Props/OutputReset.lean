import Verif.Proofs.OutputReset
import Verif.Props.ModeChange
import Verif.Props.Restart

/-!
# The reset of the output's pixel clock domain

Property C131.
-/

namespace Verif.Props

open Verif.Output Verif.Spec.Stream Verif.Spec.Output
open Verif.Spec.OutputReset (run Held Released Raster beat frameEnds setAt available valid)

/-- **C131** An output that is disabled and has stopped stays off when the pixel clock domain is reset, e.g.
because software changes the pixel clock. -/
def C131_statement : Prop :=
  ∀ (cfg : Core.Config) (f0 : GrayFifo.State 2 Params) (y : Nat → OutputReset.In) (Q R : Nat),
    0 < cfg.depth → GrayFifo.Settled f0 → Q ≤ R →
    (∀ u, u < R → (y u).rst = false) → (∀ u, Q ≤ u → (y u).enable = false) →
    available cfg ⟨f0, Core.reset⟩ y R = false →
    ∀ u, R ≤ u → valid cfg ⟨f0, Core.reset⟩ y u = false

/-- `enable` is set for one clock, so that one frame of `wide` is shown.  The reset of the pixel clock domain
is asserted from instant 60 to instant 62. -/
def againRun (u : Nat) : OutputReset.In :=
  { sysEdge := true, enable := decide (u = 0), csr := wide, cdEdge := true, ready := true, memReady := true
    answer := true, mem := fun a => a + 100, rOld := 0, wOld := 0, clash := ⟨0, 0, 0, 0, 0, 0, 0, 0, 0, 0⟩
    rst := decide (60 ≤ u ∧ u < 63) }

/-- **C131** is false of the code: the reset clears the read counter of the parameter FIFO but not the write
counter, so that sets that have been used already appear again, and the output shows them. -/
theorem C131_violated : ¬ C131_statement := by
  intro h
  have h1 := h ⟨8, 0, 3, false⟩ updateFifo againRun 1 60 (by decide) ⟨rfl, by decide, by decide⟩ (by decide)
    (fun u hu => by simp only [againRun, decide_eq_false_iff_not]; omega)
    (fun u hu => by simp only [againRun, decide_eq_false_iff_not]; omega)
    (by decide +kernel) 63 (by decide)
  exact absurd h1 (by decide +kernel)

/-- A whole frame is shown again, although `enable` is clear. -/
example : countIn (beat ⟨8, 0, 3, false⟩ ⟨updateFifo, Core.reset⟩ againRun) 63 70 = 49 ∧
    frameEnds ⟨8, 0, 3, false⟩ ⟨updateFifo, Core.reset⟩ againRun 113 = true ∧ (againRun 113).enable = false := by
  decide +kernel

/-! ## What holds -/

section

open Verif.Output.OutputReset

variable {cfg : Core.Config} {s0 : CoreCdc.State} {y : Nat → OutputReset.In}

theorem reset_storage (cfg : Core.Config) (s : CoreCdc.State) (i : OutputReset.In) :
    (OutputReset.step cfg s i).fifo.storage = fun a =>
      if i.sysEdge && i.enable && GrayFifo.writable s.fifo && decide (a = GrayFifo.address s.fifo.produce) then i.csr
      else s.fifo.storage a := by
  by_cases h : (i.cdEdge && i.rst) = true
  · simp only [OutputReset.step, h, if_true]; rfl
  · simp only [OutputReset.step, h]; rfl

/-- What is in the memory of the FIFO was there at first or has been in the registers. -/
theorem stored_sets (t a : Nat) :
    (∃ v, v < t ∧ (y v).sysEdge = true ∧ (y v).enable = true ∧ (run cfg s0 y t).fifo.storage a = (y v).csr) ∨
      (run cfg s0 y t).fifo.storage a = s0.fifo.storage a := by
  induction t with
  | zero => exact .inr rfl
  | succ t ih =>
    rw [OutputReset.run_succ, reset_storage]
    beta_reduce
    split
    · next h =>
      simp only [Bool.and_eq_true] at h
      exact .inl ⟨t, by omega, h.1.1.1, h.1.1.2, rfl⟩
    · rcases ih with ⟨v, h1, h2⟩ | h
      · exact .inl ⟨v, by omega, h2⟩
      · exact .inr h

theorem count_shift {p q : Nat → Bool} {a b : Nat} (h : ∀ j, p (a + j) = q (b + j)) (m n : Nat) :
    countIn p (a + m) n = countIn q (b + m) n := by
  induction n with
  | zero => rfl
  | succ n ih => simp only [countIn, ih, Nat.add_assoc, h]

theorem count_same {p q : Nat → Bool} {a m : Nat} (h : ∀ u, a ≤ u → u < a + m → p u = q u) :
    countIn p a m = countIn q a m := by
  induction m with
  | zero => rfl
  | succ m ih => simp only [countIn, ih fun u h1 h2 => h u h1 (by omega), h (a + m) (by omega) (by omega)]

theorem prefix_refills {S : Nat → Params} {R : Nat} {i : Nat → CoreCdc.In} {P : Params}
    (hpre : ∀ u, u < 16 → i u = OutputReset.pre S u) (hin : ∀ m, i (16 + m) = (y (R + m)).toIn)
    (hc : ∃ u, (y u).cdEdge = true) (hf : Spec.CoreCdc.Refills (fun u => (y u).toIn) P) :
    Spec.CoreCdc.Refills i P := by
  have h5 : 5 ≤ frameLen P := by
    obtain ⟨u, hu⟩ := hc
    apply Nat.le_of_not_lt
    intro h
    have := hf u 1 (by simp only [countIn, Nat.add_zero, hu, if_true]; omega)
    simp only [countIn] at this
    split at this <;> omega
  let cd : Nat → Bool := fun u => decide (u = 4 ∨ u = 10)
  let sy : Nat → Bool := fun u => decide (u ≠ 4 ∧ u ≠ 10)
  have e1 : ∀ a m, a + m ≤ 16 → countIn (fun u => (i u).cdEdge) a m = countIn cd a m := fun a m h =>
    count_same fun u _ h2 => by rw [hpre u (by omega)]; rfl
  have e2 : ∀ a m, a + m ≤ 16 → countIn (fun u => (i u).sysEdge) a m = countIn sy a m := fun a m h =>
    count_same fun u _ h2 => by rw [hpre u (by omega)]; rfl
  have e3 : ∀ a m, countIn (fun u => (i u).cdEdge) (16 + a) m = countIn (fun u => (y u).cdEdge) (R + a) m :=
    fun a m => count_shift (fun j => by rw [hin]) a m
  have e4 : ∀ a m, countIn (fun u => (i u).sysEdge) (16 + a) m = countIn (fun u => (y u).sysEdge) (R + a) m :=
    fun a m => count_shift (fun j => by rw [hin]) a m
  have d1 : ∀ a, a < 17 → ∀ m, m < 17 → a + m ≤ 16 →
      countIn cd a m ≤ 1 ∨ countIn cd a m = 2 ∧ 5 ≤ countIn sy a m := by decide +kernel
  have d2 : ∀ a, a < 17 → countIn cd a (16 - a) = 0 ∨ 5 ≤ countIn sy a (16 - a) := by decide +kernel
  intro a m h
  rcases Nat.lt_or_ge a 16 with ha | ha
  · rcases Nat.lt_or_ge 16 (a + m) with hm | hm
    · rw [show m = (16 - a) + (a + m - 16) by omega, GrayFifo.count_split] at h ⊢
      rw [show a + (16 - a) = 16 + 0 by omega, e1 _ _ (by omega), e3] at h
      rw [show a + (16 - a) = 16 + 0 by omega, e2 _ _ (by omega), e4]
      rcases d2 a (by omega) with h1 | h1
      · rw [h1, Nat.zero_add] at h
        have := hf (R + 0) (a + m - 16) h
        simp only at this
        omega
      · omega
    · rw [e1 _ _ hm] at h
      rw [e2 _ _ hm]
      rcases d1 a (by omega) m (by omega) hm with h1 | h1
      · omega
      · exact h1.2
  · obtain ⟨k, rfl⟩ := Nat.exists_eq_add_of_le ha
    rw [e3] at h
    rw [e4]
    exact hf _ _ h

end

/-- **C131** What holds: the reset is held with `enable` set, from instant `A` to instant `R`, whatever state
the output was in.  From instant `t` on, at or after `R`, the registers hold `P`.  Both clocks run, the driver
takes pixels, the memory answers, and the system clock is not too slow for the parameter FIFO.  Then at most
four frames are shown with other parameters, and from some time on the output is the raster of `P` for ever,
without interruption, and it does not stop. -/
theorem C131_recovers_partial (cfg : Core.Config) (hd : 0 < cfg.depth) (s0 : CoreCdc.State)
    (y : Nat → OutputReset.In) (A R : Nat) (held : Held y A R) (released : Released y R)
    (hw0 : ∀ a, (s0.fifo.storage a).hscan < 2 ^ 12 ∧ (s0.fifo.storage a).vscan < 2 ^ 12)
    (hw : Spec.CoreCdc.Narrow fun u => (y u).toIn) (hl : Spec.CoreCdc.Live fun u => (y u).toIn)
    (sys : Spec.InitiatorCdc.Runs fun u => (y u).sysEdge) (P : Params) (hP : ValidMode P)
    (hf : Spec.CoreCdc.Refills (fun u => (y u).toIn) P)
    (t : Nat) (ht : R ≤ t) (hset : ∀ u, t ≤ u → (y u).csr = P ∧ (y u).enable = true) :
    (∀ n, countIn (fun u => frameEnds cfg s0 y u && decide (setAt cfg s0 y u ≠ P)) t n ≤ 4) ∧
    ∃ T, t ≤ T ∧ Raster cfg s0 y P T ∧
      (∀ u, T ≤ u → available cfg s0 y u = true ∧ setAt cfg s0 y u = P) ∧
      ∀ n, ∃ u, T ≤ u ∧ countIn (beat cfg s0 y) T (u - T) = n := by
  have hfull := OutputReset.full_of_held (cfg := cfg) (s0 := s0) held
  generalize hS : (run cfg s0 y R).fifo.storage = S
  have hrun := fun m => OutputReset.same_run hfull released m
  rw [hS] at hrun
  have hin := fun m => OutputReset.then_after (y := y) (R := R) S m
  generalize hi : OutputReset.then_ S y R = i at hrun hin
  have h0 := OutputReset.empty_settled S
  have hpre : ∀ u, u < 16 → i u = OutputReset.pre S u := by
    intro u hu; rw [← hi, OutputReset.then_, if_pos hu]
  -- the hypotheses for that run
  have hw' : Spec.CoreCdc.Narrow i := by
    intro u
    rcases Nat.lt_or_ge u 16 with h | h
    · rw [hpre u h]
      show (S (u % 4)).hscan < _ ∧ (S (u % 4)).vscan < _
      rw [← hS]
      rcases stored_sets (cfg := cfg) (s0 := s0) (y := y) R (u % 4) with ⟨v, -, -, -, e⟩ | e
      · rw [e]; exact hw v
      · rw [e]; exact hw0 _
    · obtain ⟨m, rfl⟩ := Nat.exists_eq_add_of_le h
      rw [hin]; exact hw _
  have again : ∀ p : OutputReset.In → Bool, ∀ q : CoreCdc.In → Bool, (∀ z, p z = q z.toIn) →
      (∀ T, ∃ u, T ≤ u ∧ p (y u) = true) → ∀ T, ∃ u, T ≤ u ∧ q (i u) = true := by
    intro p q hpq h T
    obtain ⟨u, h1, h2⟩ := h (R + T)
    refine ⟨16 + (u - R), by omega, ?_⟩
    rw [hin, show R + (u - R) = u by omega, ← hpq]; exact h2
  have hl' : Spec.CoreCdc.Live i := by
    refine ⟨?_, ?_, ?_⟩
    · intro T
      obtain ⟨u, h1, h2⟩ := again (fun z => z.cdEdge && z.ready) (fun z => z.cdEdge && z.ready) (fun _ => rfl)
        (fun T => by obtain ⟨u, h1, h2, h3⟩ := hl.ready T; exact ⟨u, h1, by rw [Bool.and_eq_true]; exact ⟨h2, h3⟩⟩) T
      rw [Bool.and_eq_true] at h2; exact ⟨u, h1, h2⟩
    · intro T
      obtain ⟨u, h1, h2⟩ := again (fun z => z.cdEdge && z.memReady) (fun z => z.cdEdge && z.memReady) (fun _ => rfl)
        (fun T => by obtain ⟨u, h1, h2, h3⟩ := hl.memReady T; exact ⟨u, h1, by rw [Bool.and_eq_true]; exact ⟨h2, h3⟩⟩) T
      rw [Bool.and_eq_true] at h2; exact ⟨u, h1, h2⟩
    · intro T
      obtain ⟨u, h1, h2⟩ := again (fun z => z.cdEdge && z.answer) (fun z => z.cdEdge && z.answer) (fun _ => rfl)
        (fun T => by obtain ⟨u, h1, h2, h3⟩ := hl.answer T; exact ⟨u, h1, by rw [Bool.and_eq_true]; exact ⟨h2, h3⟩⟩) T
      rw [Bool.and_eq_true] at h2; exact ⟨u, h1, h2⟩
  have sys' : Spec.InitiatorCdc.Runs fun u => (i u).sysEdge := again (·.sysEdge) (·.sysEdge) (fun _ => rfl) sys
  have hf' : Spec.CoreCdc.Refills i P := by
    refine prefix_refills (S := S) (R := R) (y := y) hpre hin ?_ hf
    obtain ⟨u, h1, h2, -⟩ := hl.ready 0
    exact ⟨u, h2⟩
  obtain ⟨m0, rfl⟩ := Nat.exists_eq_add_of_le ht
  have hset' : ∀ u, 16 + m0 ≤ u → (i u).csr = P ∧ (i u).enable = true := by
    intro u hu
    obtain ⟨m, rfl⟩ := Nat.exists_eq_add_of_le (show 16 ≤ u by omega)
    rw [hin]; exact hset _ (by omega)
  obtain ⟨T, hT, hras, hon, hgo⟩ := C106_completes cfg hd _ h0 i hw' hl' sys' P hP hf' (16 + m0) hset'
  obtain ⟨h4, -⟩ := C103_update _ h0 (CoreCdc.initIn cfg (OutputReset.empty S) i) (16 + m0) P hset' sys'
    (fun T => by obtain ⟨u, h1, h2, -⟩ := hl'.ready T; exact ⟨u, h1, h2⟩) (CoreCdc.consumes hd h0 hw' hl')
  obtain ⟨m1, rfl⟩ := Nat.exists_eq_add_of_le (show 16 ≤ T by omega)
  have hbeat : ∀ j, beat cfg s0 y (R + j) = Spec.CoreCdc.beat cfg (OutputReset.empty S) i (16 + j) := by
    intro j
    simp only [beat, valid, Spec.CoreCdc.beat, Spec.CoreCdc.valid, hrun, hin]
  refine ⟨fun n => ?_, R + m1, by omega, ?_, ?_, ?_⟩
  · refine Nat.le_trans (Nat.le_of_eq ?_) (h4 n)
    refine count_shift (fun j => ?_) m0 n
    have hr := released (R + j) (by omega)
    have e1 := CoreCdc.fifo_eq cfg (OutputReset.empty S) i (16 + j)
    rw [hrun] at e1
    have e2 : CoreCdc.initIn cfg (OutputReset.empty S) i (16 + j) =
        CoreCdc.initiatorIn (run cfg s0 y (R + j)) (y (R + j)).toIn := by
      show CoreCdc.initiatorIn (Spec.CoreCdc.run cfg (OutputReset.empty S) i (16 + j)) (i (16 + j)) = _
      rw [hrun, hin]
    simp only [frameEnds, setAt, hr, Spec.InitiatorCdc.takes, Spec.InitiatorCdc.setAt, Spec.InitiatorCdc.offered,
      ← e1, e2, Bool.not_false, Bool.and_true]
    show _ = ((y (R + j)).cdEdge && Core.paramsReady (run cfg s0 y (R + j)).core
      (CoreCdc.coreIn (run cfg s0 y (R + j)) (y (R + j)).toIn) && _ && _)
    congr 1
    rw [Bool.and_assoc, Bool.and_assoc, Bool.and_comm (GrayFifo.readable _)]
  · intro u n hu hn
    obtain ⟨m, rfl⟩ := Nat.exists_eq_add_of_le (show R ≤ u by omega)
    have hc := count_shift hbeat m1 (R + m - (R + m1))
    rw [hc, show R + m - (R + m1) = 16 + m - (16 + m1) by omega] at hn
    have := hras (16 + m) n (by omega) hn
    simp only [Spec.CoreCdc.de, Spec.CoreCdc.hsync, Spec.CoreCdc.vsync, hrun, hin] at this
    exact this
  · intro u hu
    obtain ⟨m, rfl⟩ := Nat.exists_eq_add_of_le (show R ≤ u by omega)
    have := hon (16 + m) (by omega)
    rw [hrun] at this
    exact this
  · intro n
    obtain ⟨u, h1, h2⟩ := hgo n
    refine ⟨R + (u - 16), by omega, ?_⟩
    rw [count_shift hbeat, show R + (u - 16) - (R + m1) = u - (16 + m1) by omega]
    exact h2

/-! ## With `enable` clear -/

section

open Verif.Output.OutputReset

variable {cfg : Core.Config} {s0 : CoreCdc.State} {y : Nat → OutputReset.In}

/-- One instant with `enable` clear. -/
theorem quiet_step (s : CoreCdc.State) (i : OutputReset.In) (h : i.enable = false) :
    (OutputReset.step cfg s i).fifo.produce = s.fifo.produce ∧
      (OutputReset.step cfg s i).fifo.produce_r =
        (if i.cdEdge then ⟨GrayFifo.gray s.fifo.produce, s.fifo.produce_r.s0⟩ else s.fifo.produce_r) ∧
      (OutputReset.step cfg s i).fifo.storage = s.fifo.storage ∧
      (i.cdEdge = true → ∃ a, (OutputReset.step cfg s i).fifo.dout = s.fifo.storage a) ∧
      (i.cdEdge = false → (OutputReset.step cfg s i).fifo.dout = s.fifo.dout) ∧
      (i.rst = false → (OutputReset.step cfg s i).fifo.consume =
        if i.cdEdge && GrayFifo.readable s.fifo && Core.paramsReady s.core (CoreCdc.coreIn s i.toIn) then
          s.fifo.consume + 1 else s.fifo.consume) := by
  have hp : GrayFifo.produceNext s.fifo (InitiatorCdc.wire (CoreCdc.initiatorIn s i.toIn)) = s.fifo.produce := by
    simp [GrayFifo.produceNext, InitiatorCdc.wire, CoreCdc.initiatorIn, h]
  have hw : GrayFifo.writes s.fifo (InitiatorCdc.wire (CoreCdc.initiatorIn s i.toIn)) = false := by
    simp [GrayFifo.writes, InitiatorCdc.wire, CoreCdc.initiatorIn, h]
  have e1 : (OutputReset.step cfg s i).fifo.produce = s.fifo.produce := by
    by_cases he : (i.cdEdge && i.rst) = true <;>
      simp [OutputReset.step, he, CoreCdc.step, InitiatorCdc.step, GrayFifo.step, hp]
  have e2 : (OutputReset.step cfg s i).fifo.produce_r =
      (if i.cdEdge then ⟨GrayFifo.gray s.fifo.produce, s.fifo.produce_r.s0⟩ else s.fifo.produce_r) := by
    have : (InitiatorCdc.wire (CoreCdc.initiatorIn s i.toIn)).readEdge = i.cdEdge := rfl
    by_cases he : (i.cdEdge && i.rst) = true <;>
      simp [OutputReset.step, he, CoreCdc.step, InitiatorCdc.step, GrayFifo.step, hp, Status.Multi.step,
        GrayFifo.sample_same, this]
  have e4 : (OutputReset.step cfg s i).fifo.dout = if i.cdEdge then s.fifo.storage (GrayFifo.address
      (GrayFifo.consumeNext s.fifo (InitiatorCdc.wire (CoreCdc.initiatorIn s i.toIn)))) else s.fifo.dout := by
    have : (InitiatorCdc.wire (CoreCdc.initiatorIn s i.toIn)).readEdge = i.cdEdge := rfl
    by_cases he : (i.cdEdge && i.rst) = true <;>
      simp [OutputReset.step, he, CoreCdc.step, InitiatorCdc.step, GrayFifo.step, hw, this]
  refine ⟨e1, e2, ?_, ?_, ?_, ?_⟩
  · rw [reset_storage]
    funext a
    simp [h]
  · intro he
    exact ⟨_, by rw [e4, if_pos he]⟩
  · intro he
    rw [e4, he]
    rfl
  · intro hr
    simp only [OutputReset.step, hr, Bool.and_false, Bool.false_eq_true, if_false, CoreCdc.step, InitiatorCdc.step,
      GrayFifo.step, GrayFifo.consumeNext, InitiatorCdc.wire, CoreCdc.initiatorIn]
    by_cases he : i.cdEdge = true <;> simp [he]

/-- With `enable` clear from `Q` on, and two pixel clocks later: nothing enters the FIFO, and its flag shows
the distance of the counters. -/
theorem quiet_facts (Q R : Nat) (off : ∀ u, Q ≤ u → (y u).enable = false) (hQR : Q ≤ R)
    (seen : 2 ≤ countIn (fun u => (y u).cdEdge) Q (R - Q)) (k : Nat) :
    (run cfg s0 y (R + k)).fifo.storage = (run cfg s0 y Q).fifo.storage ∧
    (∃ a, (run cfg s0 y (R + k)).fifo.dout = (run cfg s0 y Q).fifo.storage a) ∧
    GrayFifo.readable (run cfg s0 y (R + k)).fifo =
      decide (((run cfg s0 y Q).fifo.produce - (run cfg s0 y (R + k)).fifo.consume).toNat ≠ 0) := by
  have hq : ∀ k,
      let f := (run cfg s0 y (Q + k)).fifo
      let c := countIn (fun u => (y u).cdEdge) Q k
      f.produce = (run cfg s0 y Q).fifo.produce ∧ f.storage = (run cfg s0 y Q).fifo.storage ∧
      (1 ≤ c → f.produce_r.s0 = GrayFifo.gray (run cfg s0 y Q).fifo.produce ∧
        ∃ a, f.dout = (run cfg s0 y Q).fifo.storage a) ∧
      (2 ≤ c → f.produce_r.status = GrayFifo.gray (run cfg s0 y Q).fifo.produce) := by
    intro k
    induction k with
    | zero => exact ⟨rfl, rfl, fun h => absurd h (by simp [countIn]), fun h => absurd h (by simp [countIn])⟩
    | succ k ih =>
      obtain ⟨h1, h2, h3, h4⟩ := ih
      obtain ⟨e1, e2, e3, e4, e5, -⟩ := quiet_step (cfg := cfg) (run cfg s0 y (Q + k)) (y (Q + k))
        (off _ (by omega))
      simp only [← Nat.add_assoc, OutputReset.run_succ, e1, e2, e3, h1, h2, countIn]
      refine ⟨trivial, trivial, ?_, ?_⟩
      · by_cases he : (y (Q + k)).cdEdge = true
        · intro _
          refine ⟨by simp only [he, if_true], ?_⟩
          rw [← h2]
          exact e4 he
        · simp only [he, Bool.false_eq_true, if_false, Nat.add_zero]
          intro hc
          rw [e5 (by simpa using he)]
          exact h3 hc
      · by_cases he : (y (Q + k)).cdEdge = true
        · simp only [he, if_true]
          intro hc
          exact (h3 (by omega)).1
        · simp only [he, Bool.false_eq_true, if_false, Nat.add_zero]
          exact h4
  have hR : ∀ k, 2 ≤ countIn (fun u => (y u).cdEdge) Q (R + k - Q) := by
    intro k
    have := GrayFifo.count_split (fun u => (y u).cdEdge) Q (R - Q) k
    rw [show R - Q + k = R + k - Q by omega] at this
    omega
  have hat := fun k => hq (R + k - Q)
  simp only [show ∀ k, Q + (R + k - Q) = R + k from fun k => by omega] at hat
  obtain ⟨-, h2, h3, h4⟩ := hat k
  refine ⟨h2, (h3 (by have := hR k; omega)).2, ?_⟩
  rw [GrayFifo.readable, h4 (hR k)]
  have : ∀ a b : BitVec 3, (GrayFifo.gray a != GrayFifo.gray b) = decide ((b - a).toNat ≠ 0) := by decide
  exact this _ _

end

/-- **C131** With `enable` clear from instant `Q` on, and the last reset of the pixel clock domain over by
instant `R`, two pixel clocks after `Q` at least: the output shows at most seven more frames.  Each of them has
parameters that the registers held at some instant with `enable` set, or that were in the FIFO's memory at
the beginning. -/
theorem C131_bounded_partial (cfg : Core.Config) (s0 : CoreCdc.State) (y : Nat → OutputReset.In) (Q R : Nat)
    (off : ∀ u, Q ≤ u → (y u).enable = false) (hQR : Q ≤ R)
    (seen : 2 ≤ countIn (fun u => (y u).cdEdge) Q (R - Q)) (released : Released y R) :
    (∀ n, countIn (frameEnds cfg s0 y) R n ≤ 7) ∧
    ∀ u, R ≤ u → frameEnds cfg s0 y u = true →
      (∃ v, v < Q ∧ (y v).sysEdge = true ∧ (y v).enable = true ∧ setAt cfg s0 y u = (y v).csr) ∨
      ∃ a, setAt cfg s0 y u = s0.fifo.storage a := by
  have hat := quiet_facts (cfg := cfg) (s0 := s0) Q R off hQR seen
  generalize (run cfg s0 y Q).fifo.produce = p at hat
  have hread := fun k => (hat k).2.2
  have hcount : ∀ n, countIn (frameEnds cfg s0 y) R n + (p - (run cfg s0 y (R + n)).fifo.consume).toNat ≤ 7 := by
    intro n
    induction n with
    | zero =>
      have := (p - (run cfg s0 y (R + 0)).fifo.consume).isLt
      simp only [countIn]
      omega
    | succ n ih =>
      obtain ⟨-, -, -, -, -, e6⟩ := quiet_step (cfg := cfg) (run cfg s0 y (R + n)) (y (R + n)) (off _ (by omega))
      have hr := released (R + n) (by omega)
      have e6 := e6 hr
      have hfe : frameEnds cfg s0 y (R + n) = ((y (R + n)).cdEdge && GrayFifo.readable (run cfg s0 y (R + n)).fifo &&
          Core.paramsReady (run cfg s0 y (R + n)).core (CoreCdc.coreIn (run cfg s0 y (R + n)) (y (R + n)).toIn)) := by
        rw [frameEnds, hr, Bool.not_false, Bool.and_true]
      rw [← hfe] at e6
      rw [← Nat.add_assoc, OutputReset.run_succ, e6, countIn]
      by_cases hf : frameEnds cfg s0 y (R + n) = true
      · have hne : (p - (run cfg s0 y (R + n)).fifo.consume).toNat ≠ 0 := by
          have h1 := hf
          rw [hfe] at h1
          simp only [Bool.and_eq_true] at h1
          have := h1.1.2
          rw [hread] at this
          exact of_decide_eq_true this
        have : ∀ a b : BitVec 3, (b - a).toNat ≠ 0 → (b - (a + 1)).toNat + 1 = (b - a).toNat := by decide
        have := this _ _ hne
        simp only [hf, if_true]
        omega
      · simp only [hf, Bool.false_eq_true, if_false]
        omega
  refine ⟨fun n => by have := hcount n; omega, fun u hu _ => ?_⟩
  obtain ⟨k, rfl⟩ := Nat.exists_eq_add_of_le hu
  obtain ⟨-, ⟨a, ha⟩, -⟩ := hat k
  show (∃ v, v < Q ∧ _ ∧ _ ∧ (run cfg s0 y (R + k)).fifo.dout = _) ∨ ∃ a, (run cfg s0 y (R + k)).fifo.dout = _
  rw [ha]
  rcases stored_sets (cfg := cfg) (s0 := s0) (y := y) Q a with h | h
  · exact .inl h
  · exact .inr ⟨a, h⟩

/-- **C131** And then it stops: the reset was asserted at the last edges of the pixel clock before `R`, the
driver takes pixels, and the memory answers. -/
theorem C131_stops_partial (cfg : Core.Config) (hd : 0 < cfg.depth) (s0 : CoreCdc.State)
    (y : Nat → OutputReset.In) (Q A R : Nat)
    (off : ∀ u, Q ≤ u → (y u).enable = false) (hQR : Q ≤ R)
    (seen : 2 ≤ countIn (fun u => (y u).cdEdge) Q (R - Q))
    (asserted : ∀ u, A ≤ u → u < R → (y u).cdEdge = true → (y u).rst = true) (hAR : A ≤ R)
    (clocked : 1 ≤ countIn (fun u => (y u).cdEdge) A (R - A)) (released : Released y R)
    (hw0 : ∀ a, (s0.fifo.storage a).hscan < 2 ^ 12 ∧ (s0.fifo.storage a).vscan < 2 ^ 12)
    (hw : Spec.CoreCdc.Narrow fun u => (y u).toIn) (hl : Spec.CoreCdc.Live fun u => (y u).toIn) :
    ∃ W, R ≤ W ∧ ∀ u, W ≤ u → available cfg s0 y u = false ∧ valid cfg s0 y u = false := by
  suffices h : ∃ W, R ≤ W ∧ ∀ u, W ≤ u → available cfg s0 y u = false by
    obtain ⟨W, h1, h2⟩ := h
    refine ⟨W, h1, fun u hu => ⟨h2 u hu, ?_⟩⟩
    have : GrayFifo.readable (run cfg s0 y u).fifo = false := h2 u hu
    simp [valid, Core.valid, CoreCdc.coreIn, this]
  have hat := quiet_facts (cfg := cfg) (s0 := s0) Q R off hQR seen
  have hst : ∀ a, ((run cfg s0 y Q).fifo.storage a).hscan < 2 ^ 12 ∧
      ((run cfg s0 y Q).fifo.storage a).vscan < 2 ^ 12 := by
    intro a
    rcases stored_sets (cfg := cfg) (s0 := s0) (y := y) Q a with ⟨v, -, -, -, e⟩ | e
    · rw [e]; exact hw v
    · rw [e]; exact hw0 a
  generalize (run cfg s0 y Q).fifo.storage = st at hat hst
  generalize (run cfg s0 y Q).fifo.produce = p at hat
  -- from `R` on it is a run of the core without resets
  obtain ⟨-, hcore⟩ := OutputReset.zero_from (cfg := cfg) (s0 := s0) asserted hAR clocked R (Nat.le_refl _)
    (Nat.le_refl _)
  let f0 := (run cfg s0 y R).fifo
  let i : Nat → CoreCdc.In := fun m => (y (R + m)).toIn
  have hrun : ∀ m, Spec.CoreCdc.run cfg f0 i m = run cfg s0 y (R + m) := by
    intro m
    induction m with
    | zero =>
      show (⟨(run cfg s0 y R).fifo, Core.reset⟩ : CoreCdc.State) = run cfg s0 y R
      rw [← hcore]
    | succ m ih =>
      rw [← Nat.add_assoc R, OutputReset.run_succ, ← ih, OutputReset.step, released (R + m) (by omega),
        Bool.and_false]
      rfl
  have hl' : Spec.CoreCdc.Live i := by
    refine ⟨fun T => ?_, fun T => ?_, fun T => ?_⟩
    · obtain ⟨u, h1, h2⟩ := hl.ready (R + T)
      refine ⟨u - R, by omega, ?_⟩
      show (y (R + (u - R))).cdEdge = true ∧ (y (R + (u - R))).ready = true
      rw [show R + (u - R) = u by omega]; exact h2
    · obtain ⟨u, h1, h2⟩ := hl.memReady (R + T)
      refine ⟨u - R, by omega, ?_⟩
      show (y (R + (u - R))).cdEdge = true ∧ (y (R + (u - R))).memReady = true
      rw [show R + (u - R) = u by omega]; exact h2
    · obtain ⟨u, h1, h2⟩ := hl.answer (R + T)
      refine ⟨u - R, by omega, ?_⟩
      show (y (R + (u - R))).cdEdge = true ∧ (y (R + (u - R))).answer = true
      rw [show R + (u - R) = u by omega]; exact h2
  have hpv : ∀ m, (CoreCdc.given cfg f0 i m).pvalid = GrayFifo.readable (run cfg s0 y (R + m)).fifo := by
    intro m
    show GrayFifo.readable (Spec.CoreCdc.run cfg f0 i m).fifo = _
    rw [hrun]
  have hp : ∀ m, (CoreCdc.given cfg f0 i m).p = (run cfg s0 y (R + m)).fifo.dout := by
    intro m
    show (Spec.CoreCdc.run cfg f0 i m).fifo.dout = _
    rw [hrun]
  have htk : ∀ m, Spec.InitiatorCdc.takes f0 (CoreCdc.initIn cfg f0 i) m = frameEnds cfg s0 y (R + m) := by
    intro m
    have e1 := CoreCdc.fifo_eq cfg f0 i m
    rw [hrun] at e1
    have e2 : CoreCdc.initIn cfg f0 i m = CoreCdc.initiatorIn (run cfg s0 y (R + m)) (y (R + m)).toIn := by
      show CoreCdc.initiatorIn (Spec.CoreCdc.run cfg f0 i m) (i m) = _
      rw [hrun]
    simp only [frameEnds, released (R + m) (by omega), Spec.InitiatorCdc.takes, Spec.InitiatorCdc.offered, ← e1, e2,
      Bool.not_false, Bool.and_true]
    show ((y (R + m)).cdEdge && Core.paramsReady (run cfg s0 y (R + m)).core
      (CoreCdc.coreIn (run cfg s0 y (R + m)) (y (R + m)).toIn) && _) = _
    rw [Bool.and_assoc, Bool.and_assoc, Bool.and_comm (GrayFifo.readable _)]
  -- after an edge of the pixel clock the FIFO shows the set at its read counter
  obtain ⟨e, -, hedge, -⟩ := hl'.ready 0
  have hstep := fun m => quiet_step (cfg := cfg) (run cfg s0 y (R + m)) (y (R + m)) (off _ (by omega))
  have hcon : ∀ m, (run cfg s0 y (R + (m + 1))).fifo.consume =
      if frameEnds cfg s0 y (R + m) then (run cfg s0 y (R + m)).fifo.consume + 1
      else (run cfg s0 y (R + m)).fifo.consume := by
    intro m
    have hr := released (R + m) (by omega)
    have h6 := (hstep m).2.2.2.2.2 hr
    rw [← Nat.add_assoc, OutputReset.run_succ, h6, frameEnds, hr, Bool.not_false, Bool.and_true]
  have hdout : ∀ m, (y (R + m)).cdEdge = true → (run cfg s0 y (R + (m + 1))).fifo.dout =
      st (GrayFifo.address (run cfg s0 y (R + (m + 1))).fifo.consume) := by
    intro m he
    rw [hcon, ← Nat.add_assoc, OutputReset.run_succ, ← (hat m).1]
    have hr := released (R + m) (by omega)
    have hoff := off (R + m) (by omega)
    simp only [OutputReset.step, hr, Bool.and_false, Bool.false_eq_true, if_false, CoreCdc.step, InitiatorCdc.step,
      GrayFifo.step, GrayFifo.writes, InitiatorCdc.wire, CoreCdc.initiatorIn, he, hoff, Bool.false_and, if_true,
      GrayFifo.consumeNext, frameEnds, Bool.not_false, Bool.and_true, Bool.true_and]
  have hshow : ∀ m, e + 1 ≤ m → (run cfg s0 y (R + m)).fifo.dout =
      st (GrayFifo.address (run cfg s0 y (R + m)).fifo.consume) := by
    apply Core.persists
    · exact hdout e hedge
    · intro m hm ih
      by_cases he : (y (R + m)).cdEdge = true
      · exact hdout m he
      · have h5 := (hstep m).2.2.2.2.1 (by simpa using he)
        rw [hcon, ← Nat.add_assoc, OutputReset.run_succ, h5, ih]
        have : frameEnds cfg s0 y (R + m) = false := by simp [frameEnds, he]
        rw [this]; rfl
  have later : ∀ m, e + 1 ≤ m → available cfg s0 y (R + m) = true → ∃ k, m ≤ k ∧ frameEnds cfg s0 y (R + k) = true := by
    intro m hm hav
    have hdm : ∃ a, (CoreCdc.given cfg f0 i m).p = st a := ⟨_, by rw [hp, hshow m hm]⟩
    obtain ⟨a, ha⟩ := hdm
    obtain ⟨k, h1, h2, -⟩ := CoreCdc.taken_later_of (f0 := f0) hd hl' m (by
        intro v hv h1 h2
        rw [htk] at h2
        have hc := hcon v
        rw [h2] at hc
        have hc : (run cfg s0 y (R + (v + 1))).fifo.consume = (run cfg s0 y (R + v)).fifo.consume := hc
        rw [hpv, (hat v).2.2] at h1
        rw [hpv, hp, hp, (hat (v + 1)).2.2, hshow (v + 1) (by omega), hshow v (by omega), hc]
        exact ⟨h1, rfl⟩) (by rw [ha]; exact (hst a).1) (by rw [ha]; exact (hst a).2) (by rw [hpv]; exact hav)
    exact ⟨k, h1, by rw [← htk]; exact h2⟩
  -- so a set would be taken again and again
  apply Classical.byContradiction
  intro hno
  have again : ∀ m, ∃ k, m ≤ k ∧ frameEnds cfg s0 y (R + k) = true := by
    intro m
    have : ∃ u, R + (e + 1 + m) ≤ u ∧ available cfg s0 y u = true := by
      apply Classical.byContradiction
      intro h
      refine hno ⟨R + (e + 1 + m), by omega, fun u hu => ?_⟩
      cases hv : available cfg s0 y u
      · rfl
      · exact absurd ⟨u, hu, hv⟩ h
    obtain ⟨u, h1, h2⟩ := this
    obtain ⟨k, h3, h4⟩ := later (u - R) (by omega) (by rw [show R + (u - R) = u by omega]; exact h2)
    exact ⟨k, by omega, h4⟩
  have grow : ∀ c, ∃ n, c ≤ countIn (frameEnds cfg s0 y) R n := by
    intro c
    induction c with
    | zero => exact ⟨0, Nat.zero_le _⟩
    | succ c ih =>
      obtain ⟨n, hn⟩ := ih
      obtain ⟨k, h1, h2⟩ := again n
      refine ⟨k + 1, ?_⟩
      have h3 := GrayFifo.count_split (frameEnds cfg s0 y) R n (k - n)
      rw [show n + (k - n) = k by omega] at h3
      rw [countIn, h2, if_pos rfl]
      omega
  obtain ⟨n, hn⟩ := grow 8
  have := (C131_bounded_partial cfg s0 y Q R off hQR seen released).1 n
  omega

/-! ## Examples -/

/-- The hypotheses of `C131_bounded_partial` and `C131_stops_partial` are met by the run of
`C131_violated`. -/
example : (∀ u, 1 ≤ u → (againRun u).enable = false) ∧ 2 ≤ countIn (fun u => (againRun u).cdEdge) 1 (63 - 1) ∧
    Released againRun 63 ∧ (∀ u, 60 ≤ u → u < 63 → (againRun u).cdEdge = true → (againRun u).rst = true) ∧
    1 ≤ countIn (fun u => (againRun u).cdEdge) 60 (63 - 60) ∧
    (∀ a, (updateFifo.storage a).hscan < 2 ^ 12 ∧ (updateFifo.storage a).vscan < 2 ^ 12) ∧
    Spec.CoreCdc.Narrow (fun u => (againRun u).toIn) ∧ Spec.CoreCdc.Live (fun u => (againRun u).toIn) :=
  ⟨fun u hu => by simp only [againRun, decide_eq_false_iff_not]; omega, by decide +kernel,
    fun u hu => by simp only [againRun, decide_eq_false_iff_not]; omega, fun u h1 h2 _ => decide_eq_true ⟨h1, h2⟩,
    by decide +kernel, fun a => ⟨show 0 < 2 ^ 12 by decide, show 0 < 2 ^ 12 by decide⟩,
    fun u => ⟨show 11 < 2 ^ 12 by decide, show 3 < 2 ^ 12 by decide⟩,
    ⟨fun T => ⟨T, Nat.le_refl _, rfl, rfl⟩, fun T => ⟨T, Nat.le_refl _, rfl, rfl⟩,
      fun T => ⟨T, Nat.le_refl _, rfl, rfl⟩⟩⟩

/-- The same clocks, with `enable` set; the reset is held from instant 20 to instant 39. -/
def heldRun (u : Nat) : OutputReset.In :=
  { againRun u with
    enable := true, csr := if u < 50 then wide else tiny, rst := decide (20 ≤ u ∧ u < 40) }

/-- It meets the hypotheses of `C131_recovers_partial`. -/
example : Held heldRun 20 40 ∧ Released heldRun 40 ∧ Spec.CoreCdc.Narrow (fun u => (heldRun u).toIn) ∧
    Spec.CoreCdc.Live (fun u => (heldRun u).toIn) ∧ Spec.InitiatorCdc.Runs (fun u => (heldRun u).sysEdge) ∧
    ValidMode tiny ∧ Spec.CoreCdc.Refills (fun u => (heldRun u).toIn) tiny ∧
    (∀ u, 50 ≤ u → (heldRun u).csr = tiny ∧ (heldRun u).enable = true) := by
  refine ⟨⟨fun u h1 h2 _ => decide_eq_true ⟨h1, h2⟩, 21, 35, by decide, by decide, by decide, by decide +kernel,
    by decide +kernel, by decide +kernel⟩, fun u hu => ?_, fun u => ?_, ?_, ?_, tiny_valid.toValidMode, ?_, ?_⟩
  · simp only [heldRun, decide_eq_false_iff_not]; omega
  · simp only [heldRun]
    split <;> decide
  · exact ⟨fun T => ⟨T, Nat.le_refl _, rfl, rfl⟩, fun T => ⟨T, Nat.le_refl _, rfl, rfl⟩,
      fun T => ⟨T, Nat.le_refl _, rfl, rfl⟩⟩
  · exact fun T => ⟨T, Nat.le_refl _, rfl⟩
  · intro a m h
    have e : ∀ m, countIn (fun u => (heldRun u).toIn.cdEdge) a m = m := by
      intro m
      induction m with
      | zero => rfl
      | succ m ih => rw [countIn, ih]; rfl
    have e2 : ∀ m, countIn (fun u => (heldRun u).toIn.sysEdge) a m = m := by
      intro m
      induction m with
      | zero => rfl
      | succ m ih => rw [countIn, ih]; rfl
    have h18 : frameLen tiny = 18 := by decide
    rw [e, h18] at h
    rw [e2]
    omega
  · intro u hu
    refine ⟨?_, rfl⟩
    simp only [heldRun]
    rw [if_neg (by omega)]

end Verif.Props
