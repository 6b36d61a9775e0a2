import Verif.Spec.CoreCdc
import Verif.Proofs.OutputCore
import Verif.Props.InitiatorCdc

/-!
# Lemmas about mode changes
-/

namespace Verif.Output.CoreCdc

open Spec.Stream Spec.Output Spec.CoreCdc
open Spec.InitiatorCdc (offered takes setAt Runs Consumes initiator)

section

variable (cfg : Core.Config) (f0 : GrayFifo.State 2 Params) (i : Nat → In)

/-- What the initiator is given. -/
abbrev initIn (u : Nat) : InitiatorCdc.In := initiatorIn (run cfg f0 i u) (i u)

/-- What the core is given. -/
abbrev given (u : Nat) : Core.In := coreIn (run cfg f0 i u) (i u)

/-- The core. -/
abbrev core (u : Nat) : Core.State := (run cfg f0 i u).core

theorem fifo_eq (t : Nat) : (run cfg f0 i t).fifo = initiator f0 (initIn cfg f0 i) t := by
  induction t with
  | zero => rfl
  | succ t ih =>
    show InitiatorCdc.step (run cfg f0 i t).fifo (initIn cfg f0 i t) =
      InitiatorCdc.step (initiator f0 (initIn cfg f0 i) t) (initIn cfg f0 i t)
    rw [ih]

theorem core_succ (t : Nat) : core cfg f0 i (t + 1) =
    if (i t).cdEdge then Core.step cfg (core cfg f0 i t) (given cfg f0 i t) else core cfg f0 i t := rfl

theorem pvalid_eq (t : Nat) : (given cfg f0 i t).pvalid = offered f0 (initIn cfg f0 i) t := by
  unfold offered
  rw [← fifo_eq]; rfl

theorem p_eq (t : Nat) : (given cfg f0 i t).p = setAt f0 (initIn cfg f0 i) t := by
  unfold setAt
  rw [← fifo_eq]; rfl

end

section

variable {cfg : Core.Config} {f0 : GrayFifo.State 2 Params} {i : Nat → In}

/-- While parameters are offered a beat is transferred again and again. -/
theorem fires_again (hd : 0 < cfg.depth) (hl : Live i) (t : Nat)
    (hi : ∀ u, t ≤ u → (given cfg f0 i u).pvalid = true)
    (hfsm : (core cfg f0 i t).reader.fsm ≠ .waitSof) :
    ∃ u, t ≤ u ∧ beat cfg f0 i u = true := by
  apply Classical.byContradiction
  intro hno
  let s := core cfg f0 i
  let x := given cfg f0 i
  have hs : ∀ u, s (u + 1) = if (i u).cdEdge then Core.step cfg (s u) (x u) else s u :=
    core_succ cfg f0 i
  have hnf : ∀ u, t ≤ u → (i u).cdEdge = true → (Core.valid (s u) (x u) && (i u).ready) = false := by
    intro u hu he
    cases hh : (Core.valid (s u) (x u) && (i u).ready)
    · rfl
    · refine absurd ⟨u, hu, ?_⟩ hno
      show ((i u).cdEdge && Core.valid (s u) (x u) && (i u).ready) = true
      rw [he, Bool.true_and]; exact hh
  have hpop : ∀ u, t ≤ u → (i u).cdEdge = true → Core.dataReady cfg (s u) (x u) = false := by
    intro u hu he
    have h1 : (x u).pvalid = true := hi u hu
    have h2 := hnf u hu he
    have h3 : (x u).ready = (i u).ready := rfl
    simp [Core.dataReady, h1, h3, h2]
  have hempty : ∀ u, t ≤ u → (s u).fifo = [] := by
    intro u hu
    apply Classical.byContradiction
    intro hne
    have hp := Core.persists (fun v => (s v).fifo ≠ []) u hne (by
      intro v hv hvne
      show (s (v + 1)).fifo ≠ []
      rw [hs]
      cases he : (i v).cdEdge
      · simpa using hvne
      · rw [if_pos rfl]
        simp only [Core.step, hpop v (by omega) he, Bool.false_and, Bool.false_eq_true, if_false]
        split
        · simp [hvne]
        · exact hvne)
    obtain ⟨v, hv, he, hr⟩ := hl.ready u
    have h1 := hp v hv
    have h2 := hnf v (by omega) he
    rw [hr, Bool.and_true] at h2
    have h3 : (x v).pvalid = true := hi v (by omega)
    simp [Core.valid, h3, h1] at h2
  have hpend : ∀ u, t ≤ u → (s u).pending = [] := by
    intro u hu
    apply Classical.byContradiction
    intro hne
    have hans0 : ∀ v, t ≤ v → (i v).cdEdge = true → (i v).answer = true → (s v).pending = [] := by
      intro v hv he ha
      have h1 := hempty (v + 1) (by omega)
      rw [hs, he, if_pos rfl] at h1
      have ha : (x v).answer = true := ha
      simp only [Core.step, ha, if_true, List.append_eq_nil_iff] at h1
      cases hq : (s v).pending with
      | nil => rfl
      | cons x xs => rw [hq] at h1; simp at h1
    have hp := Core.persists (fun v => (s v).pending ≠ []) u hne (by
      intro v hv hvne
      show (s (v + 1)).pending ≠ []
      rw [hs]
      cases he : (i v).cdEdge
      · simpa using hvne
      · rw [if_pos rfl]
        have hna : (x v).answer = false := by
          cases ha : (x v).answer
          · rfl
          · exact absurd (hans0 v (by omega) he ha) hvne
        simp only [Core.step, hna, Bool.false_eq_true, if_false]
        split
        · simp
        · exact hvne)
    obtain ⟨v, hv, he, ha⟩ := hl.answer u
    exact hp v hv (hans0 v (by omega) he ha)
  have hread : ∀ u, t ≤ u → (s u).reader.fsm ≠ .read := by
    intro u hu hrd
    have hm0 : ∀ v, t ≤ v → (i v).cdEdge = true → (i v).memReady = true → (s v).reader.fsm ≠ .read := by
      intro v hv he hm hr
      have h1 := hpend (v + 1) (by omega)
      rw [hs, he, if_pos rfl] at h1
      have hm : (x v).memReady = true := hm
      simp [Core.step, DmaReader.requests, hr, Core.dmaReady, hm, hempty v hv, hpend v hv, hd] at h1
    have hp := Core.persists (fun v => (s v).reader.fsm = .read) u hrd (by
      intro v hv hvr
      show (s (v + 1)).reader.fsm = .read
      rw [hs]
      cases he : (i v).cdEdge
      · simpa using hvr
      · rw [if_pos rfl]
        have hm : (x v).memReady = false := by
          cases hm : (x v).memReady
          · rfl
          · exact absurd hvr (hm0 v (by omega) he hm)
        simp [Core.step, DmaReader.step, hvr, Core.dmaReady, hm])
    obtain ⟨v, hv, he, hm⟩ := hl.memReady u
    exact hm0 v (by omega) he hm (hp v hv)
  -- so the reader is idle, and leaves that state
  have hidle : ∀ u, t ≤ u → (s u).reader.fsm = .idle := by
    have hw := Core.persists (fun v => (s v).reader.fsm ≠ .waitSof) t hfsm (by
      intro v hv hvw
      show (s (v + 1)).reader.fsm ≠ .waitSof
      rw [hs]
      cases he : (i v).cdEdge
      · simpa using hvw
      · rw [if_pos rfl]
        cases hf : (s v).reader.fsm with
        | idle => simp only [Core.step, DmaReader.step, hf]; split <;> simp
        | read => exact absurd hf (hread v hv)
        | waitSof => exact absurd hf hvw)
    intro u hu
    cases hf : (s u).reader.fsm with
    | idle => rfl
    | read => exact absurd hf (hread u hu)
    | waitSof => exact absurd hf (hw u hu)
  obtain ⟨v, hv, he, -⟩ := hl.ready t
  have h1 := hidle (v + 1) (by omega)
  rw [hs, he, if_pos rfl] at h1
  have h3 : (x v).pvalid = true := hi v hv
  simp [Core.step, DmaReader.step, hidle v hv, h3] at h1

/-- The reader never waits for genlock. -/
theorem not_wait (t : Nat) : (core cfg f0 i t).reader.fsm ≠ .waitSof := by
  induction t with
  | zero => intro h; cases h
  | succ t ih =>
    rw [core_succ]
    cases (i t).cdEdge
    · simpa using ih
    · rw [if_pos rfl]
      cases hf : (core cfg f0 i t).reader.fsm with
      | idle => simp only [Core.step, DmaReader.step, hf]; split <;> simp
      | read =>
        simp only [Core.step, DmaReader.step, hf]
        split
        · simp only; split <;> simp
        · rw [hf]; simp
      | waitSof => exact absurd hf ih

/-- The timing generator at one instant while parameters are offered. -/
theorem timing_succ (t : Nat) (hv : (given cfg f0 i t).pvalid = true) :
    (core cfg f0 i (t + 1)).timing =
      if beat cfg f0 i t then Timing.advance (core cfg f0 i t).timing (given cfg f0 i t).p
      else (core cfg f0 i t).timing := by
  rw [core_succ]
  have hr : Core.timingReady (core cfg f0 i t) (given cfg f0 i t) =
      (Core.valid (core cfg f0 i t) (given cfg f0 i t) && (i t).ready) := by
    have h3 : (given cfg f0 i t).ready = (i t).ready := rfl
    simp [Core.timingReady, hv, h3]
  have hb : beat cfg f0 i t = ((i t).cdEdge &&
      (Core.valid (core cfg f0 i t) (given cfg f0 i t) && (i t).ready)) := by
    rw [← Bool.and_assoc]; rfl
  rw [hb]
  cases (i t).cdEdge
  · simp
  · rw [if_pos rfl, Bool.true_and]
    simp only [Core.step, Timing.step, hv, hr, Bool.not_true, Bool.false_eq_true, if_false]

/-- The core takes a set on the beat after the last pixel. -/
theorem takes_eq (t : Nat) (hv : (given cfg f0 i t).pvalid = true) :
    takes f0 (initIn cfg f0 i) t = (beat cfg f0 i t && (core cfg f0 i t).timing.last) := by
  have h1 : offered f0 (initIn cfg f0 i) t = true := by rw [← pvalid_eq]; exact hv
  unfold takes
  rw [h1, Bool.and_true]
  show ((i t).cdEdge && Core.paramsReady (core cfg f0 i t) (given cfg f0 i t)) = _
  have hr : Core.timingReady (core cfg f0 i t) (given cfg f0 i t) =
      (Core.valid (core cfg f0 i t) (given cfg f0 i t) && (i t).ready) := by
    have h3 : (given cfg f0 i t).ready = (i t).ready := rfl
    simp [Core.timingReady, hv, h3]
  have hb : beat cfg f0 i t = ((i t).cdEdge &&
      (Core.valid (core cfg f0 i t) (given cfg f0 i t) && (i t).ready)) := by
    rw [← Bool.and_assoc]; rfl
  rw [hb, Core.paramsReady, Timing.sinkReady, hr, Bool.and_assoc (i t).cdEdge]

theorem takes_offered {f0 : GrayFifo.State 2 Params} {j : Nat → InitiatorCdc.In} {t : Nat}
    (h : takes f0 j t = true) : offered f0 j t = true := by
  unfold takes at h
  simp only [Bool.and_eq_true] at h
  exact h.2

/-- Counters are 12 bits wide, and are 0 when the end of a frame is marked. -/
structure Sane (s : Timing.State) : Prop where
  h : s.hcounter < 2 ^ 12
  v : s.vcounter < 2 ^ 12
  last : s.last = true → s.hcounter = 0 ∧ s.vcounter = 0

theorem Sane.advance {s : Timing.State} (hs : Sane s) (p : Params) : Sane (Timing.advance s p) := by
  obtain ⟨h1, h2, h3⟩ := hs
  refine ⟨?_, ?_, ?_⟩
  · simp only [Timing.advance]; split <;> omega
  · simp only [Timing.advance]
    split
    · split <;> omega
    · exact h2
  · simp only [Timing.advance, Bool.and_eq_true, decide_eq_true_eq]
    rintro ⟨a, b⟩
    simp [a, b]

theorem sane (t : Nat) : Sane (core cfg f0 i t).timing := by
  induction t with
  | zero => exact ⟨Nat.two_pow_pos 12, Nat.two_pow_pos 12, fun h => by cases h⟩
  | succ t ih =>
    cases hv : (given cfg f0 i t).pvalid
    · rw [core_succ]
      split
      · simp only [Core.step, Timing.step, hv, Bool.not_false, if_true]
        exact ⟨Nat.two_pow_pos 12, Nat.two_pow_pos 12, fun _ => ⟨rfl, rfl⟩⟩
      · exact ih
    · rw [timing_succ t hv]
      split
      · exact ih.advance _
      · exact ih

/-- Pixels until the end of the frame, at least in order. -/
def togo (p : Params) (s : Timing.State) : Nat :=
  (p.vscan + 2 ^ 12 - s.vcounter) % 2 ^ 12 * 2 ^ 12 + (p.hscan + 2 ^ 12 - s.hcounter) % 2 ^ 12

theorem togo_advance {p : Params} (hh : p.hscan < 2 ^ 12) (hv : p.vscan < 2 ^ 12) {s : Timing.State}
    (hs : Sane s) : (Timing.advance s p).last = true ∨ togo p (Timing.advance s p) < togo p s := by
  obtain ⟨h1, h2, -⟩ := hs
  by_cases a : s.hcounter = p.hscan
  · by_cases b : s.vcounter = p.vscan
    · left; simp [Timing.advance, a, b]
    · right
      simp only [togo, Timing.advance, a, if_true, if_neg b]
      omega
  · right
    simp only [togo, Timing.advance, if_neg a]
    omega

theorem transferred_mem {α : Type} {fire : Nat → Bool} {x : Nat → α} {t : Nat} {y : α}
    (h : y ∈ transferred fire x t) : ∃ u, y = x u := by
  induction t with
  | zero => cases h
  | succ t ih =>
    rw [transferred, List.mem_append] at h
    rcases h with h | h
    · exact ih h
    · split at h
      · exact ⟨t, List.mem_singleton.1 h⟩
      · cases h

/-- A set that is offered was in the CSRs. -/
theorem offered_csr (h0 : GrayFifo.Settled f0) (t : Nat) (h : (given cfg f0 i t).pvalid = true) :
    ∃ u, (given cfg f0 i t).p = (i u).csr := by
  have hn : 1 ≤ 2 := by decide
  let x := fun u => InitiatorCdc.wire (initIn cfg f0 i u)
  have hr : ∀ t, (x t).writeRst = false := fun _ => rfl
  have hf : (run cfg f0 i t).fifo = GrayFifo.fifo f0 x t := by rw [fifo_eq, Props.initiator_fifo]
  have h1 : GrayFifo.readable (GrayFifo.fifo f0 x t) = true := by rw [← hf]; exact h
  have h2 := (Props.C100_queue 2 hn f0 h0 x hr t).2.2.1 h1
  have h3 := (GrayFifo.order hn h0 hr t).1
  have h4 : (GrayFifo.fifo f0 x t).dout ∈ GrayFifo.given f0 x t := by
    rw [h3]
    exact List.mem_append_right _ (List.mem_of_mem_head? h2)
  obtain ⟨u, hu⟩ := transferred_mem h4
  refine ⟨u, ?_⟩
  show (run cfg f0 i t).fifo.dout = _
  rw [hf, hu]; rfl

/-- A set that is offered stays until it is taken. -/
theorem offered_stays (h0 : GrayFifo.Settled f0) (t : Nat) (h : (given cfg f0 i t).pvalid = true)
    (hno : takes f0 (initIn cfg f0 i) t = false) :
    (given cfg f0 i (t + 1)).pvalid = true ∧ (given cfg f0 i (t + 1)).p = (given cfg f0 i t).p := by
  have hn : 1 ≤ 2 := by decide
  let x := fun u => InitiatorCdc.wire (initIn cfg f0 i u)
  have hr : ∀ t, (x t).writeRst = false := fun _ => rfl
  have hf : ∀ t, (run cfg f0 i t).fifo = GrayFifo.fifo f0 x t := by
    intro t; rw [fifo_eq, Props.initiator_fifo]
  have h1 : GrayFifo.readable (GrayFifo.fifo f0 x t) = true := by rw [← hf]; exact h
  have h2 : ((x t).readEdge && (x t).re) = false := by
    have ho : offered f0 (initIn cfg f0 i) t = true := by rw [← pvalid_eq]; exact h
    unfold takes at hno
    rw [ho, Bool.and_true] at hno
    exact hno
  obtain ⟨h3, h4⟩ := (Props.C100_stable 2 hn f0 h0 x hr t).1 h1 h2
  refine ⟨?_, ?_⟩
  · show GrayFifo.readable (run cfg f0 i (t + 1)).fifo = true
    rw [hf]; exact h3
  · show (run cfg f0 i (t + 1)).fifo.dout = (run cfg f0 i t).fifo.dout
    rw [hf, hf]; exact h4

/-- If sets that are offered stay until they are taken, a set that is offered is taken some time later, and
nothing else is offered in between. -/
theorem taken_later_of (hd : 0 < cfg.depth) (hl : Live i) (t : Nat)
    (stays : ∀ v, t ≤ v → (given cfg f0 i v).pvalid = true → takes f0 (initIn cfg f0 i) v = false →
      (given cfg f0 i (v + 1)).pvalid = true ∧ (given cfg f0 i (v + 1)).p = (given cfg f0 i v).p)
    (hh : (given cfg f0 i t).p.hscan < 2 ^ 12) (hv : (given cfg f0 i t).p.vscan < 2 ^ 12)
    (h : (given cfg f0 i t).pvalid = true) :
    ∃ u, t ≤ u ∧ takes f0 (initIn cfg f0 i) u = true ∧
      ∀ v, t ≤ v → v ≤ u → (given cfg f0 i v).pvalid = true ∧
        (given cfg f0 i v).p = (given cfg f0 i t).p := by
  -- it is enough that some set is taken
  have first : (∃ u, t ≤ u ∧ takes f0 (initIn cfg f0 i) u = true) → ∃ u, t ≤ u ∧
      takes f0 (initIn cfg f0 i) u = true ∧ ∀ v, t ≤ v → v ≤ u → (given cfg f0 i v).pvalid = true ∧
        (given cfg f0 i v).p = (given cfg f0 i t).p := by
    rintro ⟨u, hu, htk⟩
    obtain ⟨k, rfl⟩ := Nat.exists_eq_add_of_le hu
    clear hu hh hv
    induction k generalizing t with
    | zero =>
      refine ⟨t, Nat.le_refl _, htk, fun v h1 h2 => ?_⟩
      rw [show v = t by omega]; exact ⟨h, rfl⟩
    | succ k ih =>
      cases hc : takes f0 (initIn cfg f0 i) t
      · obtain ⟨h1, h2⟩ := stays t (Nat.le_refl _) h hc
        obtain ⟨u, h3, h4, h5⟩ := ih (t + 1) (fun v hv => stays v (by omega)) h1 (by rw [show t + 1 + k = t + (k + 1) by omega]; exact htk)
        refine ⟨u, by omega, h4, fun v hv hvu => ?_⟩
        rcases Nat.lt_or_ge t v with h' | h'
        · obtain ⟨a, b⟩ := h5 v (by omega) hvu
          exact ⟨a, b.trans h2⟩
        · rw [show v = t by omega]; exact ⟨h, rfl⟩
      · refine ⟨t, Nat.le_refl _, hc, fun v h1 h2 => ?_⟩
        rw [show v = t by omega]; exact ⟨h, rfl⟩
  apply first
  apply Classical.byContradiction
  intro hno
  have hnot : ∀ u, t ≤ u → takes f0 (initIn cfg f0 i) u = false := by
    intro u hu
    cases h : takes f0 (initIn cfg f0 i) u
    · rfl
    · exact absurd ⟨u, hu, h⟩ hno
  have hstay := Core.persists (fun v => (given cfg f0 i v).pvalid = true ∧
    (given cfg f0 i v).p = (given cfg f0 i t).p) t ⟨h, rfl⟩ (by
      intro v hv hvs
      obtain ⟨a, b⟩ := stays v hv hvs.1 (hnot v hv)
      exact ⟨a, b.trans hvs.2⟩)
  -- the next beat
  have next : ∀ a, t ≤ a → ∃ b, a ≤ b ∧ beat cfg f0 i b = true ∧
      (core cfg f0 i b).timing = (core cfg f0 i a).timing := by
    intro a ha
    obtain ⟨b, hb, hbeat⟩ := fires_again hd hl a (fun u hu => (hstay u (by omega)).1) (not_wait a)
    obtain ⟨k, rfl⟩ := Nat.exists_eq_add_of_le hb
    clear hb
    induction k generalizing a with
    | zero => exact ⟨a, Nat.le_refl _, hbeat, rfl⟩
    | succ k ih =>
      cases hc : beat cfg f0 i a
      · obtain ⟨b, h1, h2, h3⟩ := ih (a + 1) (by omega) (by
          rw [show a + 1 + k = a + (k + 1) by omega]; exact hbeat)
        refine ⟨b, by omega, h2, ?_⟩
        rw [h3, timing_succ a (hstay a ha).1, hc]; rfl
      · exact ⟨a, Nat.le_refl _, hc, rfl⟩
  have nolast : ∀ a, t ≤ a → (core cfg f0 i a).timing.last = false := by
    intro a ha
    cases hla : (core cfg f0 i a).timing.last
    · rfl
    · obtain ⟨b, hb, h1, h2⟩ := next a ha
      have := hnot b (by omega)
      rw [takes_eq b (hstay b (by omega)).1, h1, h2, hla] at this
      exact absurd this (by decide)
  have down : ∀ m a, t ≤ a → togo (given cfg f0 i t).p (core cfg f0 i a).timing ≤ m → False := by
    intro m
    induction m with
    | zero =>
      intro a ha hm
      obtain ⟨b, hb, h1, h2⟩ := next a ha
      have e := timing_succ b (hstay b (by omega)).1
      rw [h1, if_pos rfl, h2, (hstay b (by omega)).2] at e
      rcases togo_advance hh hv (sane (cfg := cfg) (f0 := f0) (i := i) a) with h' | h'
      · rw [← e, nolast (b + 1) (by omega)] at h'
        exact absurd h' (by decide)
      · omega
    | succ m ih =>
      intro a ha hm
      obtain ⟨b, hb, h1, h2⟩ := next a ha
      have e := timing_succ b (hstay b (by omega)).1
      rw [h1, if_pos rfl, h2, (hstay b (by omega)).2] at e
      rcases togo_advance hh hv (sane (cfg := cfg) (f0 := f0) (i := i) a) with h' | h'
      · rw [← e, nolast (b + 1) (by omega)] at h'
        exact absurd h' (by decide)
      · exact ih (b + 1) (by omega) (by rw [e]; omega)
  exact down _ t (Nat.le_refl _) (Nat.le_refl _)

/-- A set that is offered is taken some time later, and nothing else is offered in between. -/
theorem taken_later (hd : 0 < cfg.depth) (h0 : GrayFifo.Settled f0) (hw : Narrow i) (hl : Live i) (t : Nat)
    (h : (given cfg f0 i t).pvalid = true) :
    ∃ u, t ≤ u ∧ takes f0 (initIn cfg f0 i) u = true ∧
      ∀ v, t ≤ v → v ≤ u → (given cfg f0 i v).pvalid = true ∧
        (given cfg f0 i v).p = (given cfg f0 i t).p := by
  obtain ⟨w, hwp⟩ := offered_csr h0 t h
  exact taken_later_of hd hl t (fun v _ => offered_stays h0 v) (by rw [hwp]; exact (hw w).1)
    (by rw [hwp]; exact (hw w).2) h

/-- So the core consumes what the initiator offers. -/
theorem consumes (hd : 0 < cfg.depth) (h0 : GrayFifo.Settled f0) (hw : Narrow i) (hl : Live i) :
    Consumes f0 (initIn cfg f0 i) := by
  intro T hT
  obtain ⟨u, h1, h2, -⟩ := taken_later hd h0 hw hl T (by rw [pvalid_eq]; exact hT)
  exact ⟨u, h1, h2⟩

/-- The raster from an instant with cleared counters, as long as `P` is offered. -/
theorem raster_from {P : Params} (hP : ValidMode P) {a : Nat}
    (hz : (core cfg f0 i a).timing.hcounter = 0 ∧ (core cfg f0 i a).timing.vcounter = 0) (m : Nat)
    (hv : ∀ u, a ≤ u → u < a + m → (given cfg f0 i u).pvalid = true ∧ (given cfg f0 i u).p = P) :
    (countIn (beat cfg f0 i) a m = 0 → (core cfg f0 i (a + m)).timing = (core cfg f0 i a).timing) ∧
    ∀ n, countIn (beat cfg f0 i) a m = n + 1 →
      Timing.At P n (core cfg f0 i (a + m)).timing ∧
      Timing.SyncLate P n (core cfg f0 i (a + m)).timing := by
  induction m with
  | zero => exact ⟨fun _ => rfl, fun n h => by cases h⟩
  | succ m ih =>
    obtain ⟨ih0, ih1⟩ := ih (fun u h1 h2 => hv u h1 (by omega))
    obtain ⟨v1, v2⟩ := hv (a + m) (by omega) (by omega)
    have e := timing_succ (a + m) v1
    rw [v2] at e
    have hc : countIn (beat cfg f0 i) a (m + 1) = countIn (beat cfg f0 i) a m +
      (if beat cfg f0 i (a + m) then 1 else 0) := rfl
    rw [hc, ← Nat.add_assoc, e]
    cases hb : beat cfg f0 i (a + m)
    · simp only [Bool.false_eq_true, if_false, Nat.add_zero]
      exact ⟨ih0, ih1⟩
    · simp only [if_true]
      refine ⟨fun h => by omega, fun n hn => ?_⟩
      cases n with
      | zero =>
        rw [ih0 (by omega)]
        exact ⟨Timing.At.first hP hz.1 hz.2, Timing.SyncLate.first hP hz.1 hz.2⟩
      | succ n =>
        obtain ⟨x, y⟩ := ih1 n (by omega)
        exact ⟨x.next hP, y.next hP x⟩

/-- A set appears only at an edge of the core's clock. -/
theorem appears (t : Nat) (h1 : (given cfg f0 i t).pvalid = false)
    (h2 : (given cfg f0 i (t + 1)).pvalid = true) : (i t).cdEdge = true := by
  cases he : (i t).cdEdge
  · have h3 : (given cfg f0 i (t + 1)).pvalid = (given cfg f0 i t).pvalid := by
      show GrayFifo.readable (run cfg f0 i (t + 1)).fifo = GrayFifo.readable (run cfg f0 i t).fifo
      show GrayFifo.readable (GrayFifo.step (run cfg f0 i t).fifo
        (InitiatorCdc.wire (initIn cfg f0 i t))) = _
      have he' : (InitiatorCdc.wire (initIn cfg f0 i t)).readEdge = false := he
      simp only [GrayFifo.readable, GrayFifo.step, he', Status.Multi.step, Bool.false_eq_true, if_false]
    rw [h3, h1] at h2
    exact absurd h2 (by decide)
  · rfl

theorem count_le {p q : Nat → Bool} (h : ∀ u, p u = true → q u = true) (a m : Nat) :
    countIn p a m ≤ countIn q a m := by
  induction m with
  | zero => exact Nat.le_refl _
  | succ m ih =>
    rw [countIn, countIn]
    cases hp : p (a + m)
    · simp only [Bool.false_eq_true, if_false]; omega
    · rw [h _ hp]; simp only [if_true]; omega

/-- The place of the last `k` occurrences. -/
theorem count_end {p : Nat → Bool} {a b k : Nat} (hab : a ≤ b) (h : k ≤ countIn p a (b - a)) :
    ∃ w, a ≤ w ∧ w ≤ b ∧ countIn p w (b - w) = k := by
  obtain ⟨m, rfl⟩ := Nat.exists_eq_add_of_le hab
  rw [Nat.add_sub_cancel_left] at h
  clear hab
  induction m generalizing a with
  | zero =>
    have h0 : countIn p a 0 = 0 := rfl
    exact ⟨a, Nat.le_refl _, Nat.le_refl _, by rw [Nat.add_zero, Nat.sub_self, h0]; omega⟩
  | succ m ih =>
    by_cases he : countIn p a (m + 1) = k
    · exact ⟨a, Nat.le_refl _, by omega, by rw [Nat.add_sub_cancel_left]; exact he⟩
    · have e := GrayFifo.count_split p a 1 m
      rw [Nat.add_comm 1 m] at e
      have e1 : countIn p a 1 ≤ 1 := by
        show (0 + if p (a + 0) then 1 else 0) ≤ 1
        split <;> omega
      obtain ⟨w, h1, h2, h3⟩ := ih (a := a + 1) (by omega)
      exact ⟨w, by omega, by omega, by rw [← h3]; congr 1; omega⟩

end

/-- A set is waiting after `b` if the write clock had five edges since `a`, and then the read clock two,
before one is taken at `b`, the first after `a`. -/
theorem refill {α : Type} {n : Nat} (hn : 1 ≤ n) {s0 : GrayFifo.State n α} {x : Nat → GrayFifo.In n α}
    (h0 : GrayFifo.Settled s0) (hr : ∀ t, (x t).writeRst = false) {a w b : Nat} (haw : a ≤ w) (hwb : w ≤ b)
    (hno : ∀ u, a ≤ u → u < b → GrayFifo.leaves s0 x u = false)
    (hwe : ∀ u, a ≤ u → (x u).we = true)
    (h5 : 5 ≤ countIn (fun u => (x u).writeEdge) a (w - a))
    (h2 : 2 ≤ countIn (fun u => (x u).readEdge) w (b - w)) (hb : (x b).readEdge = true) :
    GrayFifo.readable (GrayFifo.fifo s0 x (b + 1)) = true := by
  have hleft : ∀ u, a ≤ u → u ≤ b → GrayFifo.left s0 x u = GrayFifo.left s0 x a := by
    intro u h1 h3
    have e := GrayFifo.count_from (GrayFifo.leaves s0 x) h1
    rw [GrayFifo.count_zero (p := GrayFifo.leaves s0 x) (fun v g1 g2 => hno v g1 (by omega))] at e
    unfold GrayFifo.left; omega
  have hin : GrayFifo.left s0 x a + 2 ≤ GrayFifo.entered s0 x w := by
    apply Nat.le_of_not_lt
    intro hlt
    have key : ∀ m, a + m ≤ w → countIn (fun u => (x u).writeEdge) a m ≤
        countIn (GrayFifo.enters s0 x) a m + 3 := by
      intro m
      induction m with
      | zero => intro _; exact Nat.zero_le _
      | succ m ih =>
        intro hm
        have ih := ih (by omega)
        rw [countIn, countIn]
        cases he : (x (a + m)).writeEdge
        · simp only [Bool.false_eq_true, if_false]; omega
        · by_cases h3 : countIn (fun u => (x u).writeEdge) a m ≤ 2
          · simp only [if_true]; omega
          · obtain ⟨v0, v1, u0, u1, inv⟩ := GrayFifo.inv_all hn h0 hr (a + m)
            have hu1 : a ≤ u1 := by
              apply Nat.le_of_not_lt
              intro hu
              have e := GrayFifo.count_split (fun u => (x u).writeEdge) u1 (a - u1) m
              have hw1 := inv.wedge1
              rw [show a - u1 + m = a + m - u1 by omega, show u1 + (a - u1) = a by omega] at e
              omega
            have hl := GrayFifo.left_mono s0 x hu1
            have hle := GrayFifo.entered_mono s0 x (show a + m ≤ w by omega)
            have hp : 2 ≤ 2 ^ n := by
              have := Nat.pow_le_pow_right (n := 2) (by omega) hn
              simpa using this
            have hen : GrayFifo.enters s0 x (a + m) = true := by
              unfold GrayFifo.enters
              rw [he, hwe (a + m) (by omega), (inv.writable_iff hn).2 (by omega)]
              rfl
            rw [hen]
            simp only [if_true]; omega
    have h6 := key (w - a) (by omega)
    obtain ⟨_, _, _, _, inv⟩ := GrayFifo.inv_all hn h0 hr a
    have h7 := inv.length
    have h8 := GrayFifo.count_from (GrayFifo.enters s0 x) haw
    unfold GrayFifo.entered at hlt h7
    omega
  obtain ⟨v0, v1, u0, u1, inv⟩ := GrayFifo.inv_all hn h0 hr (b + 1)
  have hv1 : w ≤ v1 := by
    apply Nat.le_of_not_lt
    intro hv
    have e := GrayFifo.count_split (fun u => (x u).readEdge) v1 (w - v1) (b + 1 - w)
    have hw1 := inv.edge1
    rw [show w - v1 + (b + 1 - w) = b + 1 - v1 by omega, show v1 + (w - v1) = w by omega,
      GrayFifo.count_next _ hwb] at e
    simp only [hb, if_true] at e
    omega
  have h9 := GrayFifo.entered_mono s0 x hv1
  have h10 := GrayFifo.left_succ s0 x b
  have h11 := hleft b (by omega) (Nat.le_refl _)
  apply inv.readable_iff.2
  split at h10 <;> omega

section

variable {cfg : Core.Config} {f0 : GrayFifo.State 2 Params} {i : Nat → In}

/-- After a whole frame of `P` another set is waiting. -/
theorem waiting {P : Params} (hP : ValidMode P) (h0 : GrayFifo.Settled f0) (hf : Refills i P) {a b : Nat}
    (hab : a < b) (hen : ∀ u, a ≤ u → (i u).enable = true)
    (hset : ∀ u, a ≤ u → (given cfg f0 i u).pvalid = true → (given cfg f0 i u).p = P)
    (ha : takes f0 (initIn cfg f0 i) a = true) (hb : takes f0 (initIn cfg f0 i) b = true)
    (hno : ∀ u, a < u → u < b → takes f0 (initIn cfg f0 i) u = false) :
    (given cfg f0 i (b + 1)).pvalid = true := by
  have valid_of : ∀ u, takes f0 (initIn cfg f0 i) u = true → (given cfg f0 i u).pvalid = true := by
    intro u hu; rw [pvalid_eq]; exact takes_offered hu
  have hva := valid_of a ha
  have hvb := valid_of b hb
  have hta := ha
  have htb := hb
  rw [takes_eq a hva, Bool.and_eq_true] at hta
  rw [takes_eq b hvb, Bool.and_eq_true] at htb
  have hza := (sane (cfg := cfg) (f0 := f0) (i := i) a).last hta.2
  have hbe : ∀ u, beat cfg f0 i u = true → (i u).cdEdge = true := by
    intro u hu
    unfold beat at hu
    simp only [Bool.and_eq_true] at hu
    exact hu.1.1
  have hlen : ∀ n, isLast P n = true → frameLen P ≤ n + 1 := by
    intro n hn
    rw [isLast_iff] at hn
    exact Nat.le_of_dvd (by omega) (Nat.dvd_of_mod_eq_zero hn)
  have hone : ∀ p : Nat → Bool, countIn p a 1 ≤ 1 := by
    intro p
    show (0 + if p (a + 0) then 1 else 0) ≤ 1
    split <;> omega
  -- the pixel clock has at least a frame of edges
  have hedges : frameLen P ≤ countIn (fun u => (i u).cdEdge) (a + 1) (b - (a + 1)) + 1 := by
    have stay : ∀ S, a < S → S ≤ b → (given cfg f0 i S).pvalid = true →
        ∀ u, S ≤ u → u ≤ b → (given cfg f0 i u).pvalid = true := by
      intro S h1 h2 h3 u h4
      induction u, h4 using Nat.le_induction with
      | base => intro _; exact h3
      | succ u hu ih =>
        intro h5
        exact (offered_stays h0 u (ih (by omega)) (hno u (by omega) (by omega))).1
    by_cases hn : (given cfg f0 i (a + 1)).pvalid = true
    · have hs := stay (a + 1) (by omega) (by omega) hn
      obtain ⟨r0, r1⟩ := raster_from (cfg := cfg) (f0 := f0) (i := i) hP hza (b - a) (by
        intro u h1 h2
        rcases Nat.lt_or_ge a u with h | h
        · have := hs u (by omega) (by omega)
          exact ⟨this, hset u h1 this⟩
        · rw [show u = a by omega]; exact ⟨hva, hset a (Nat.le_refl _) hva⟩)
      rw [show a + (b - a) = b by omega] at r0 r1
      have hpos := GrayFifo.count_pos (p := beat cfg f0 i) (a := a) (m := b - a) (u := a) (Nat.le_refl _)
        (by omega) hta.1
      obtain ⟨n, hc⟩ : ∃ n, countIn (beat cfg f0 i) a (b - a) = n + 1 :=
        ⟨countIn (beat cfg f0 i) a (b - a) - 1, by omega⟩
      have hl := hlen n (by rw [← (r1 n hc).1.last]; exact htb.2)
      have e := GrayFifo.count_split (beat cfg f0 i) a 1 (b - (a + 1))
      rw [show 1 + (b - (a + 1)) = b - a by omega] at e
      have := count_le hbe (a + 1) (b - (a + 1))
      have := hone (beat cfg f0 i)
      omega
    · -- the first instant at which a set is offered again
      have hfirst : ∀ m, a + 1 + m ≤ b → (∀ u, a < u → u ≤ a + 1 + m → (given cfg f0 i u).pvalid = false ∧
            (core cfg f0 i u).timing.last = false) ∨
          ∃ S, a + 1 < S ∧ S ≤ b ∧ (given cfg f0 i S).pvalid = true ∧
            (core cfg f0 i S).timing.hcounter = 0 ∧ (core cfg f0 i S).timing.vcounter = 0 ∧
            (core cfg f0 i S).timing.last = false := by
        intro m
        induction m with
        | zero =>
          intro _
          left
          intro u h1 h2
          rw [show u = a + 1 by omega]
          refine ⟨by simpa using hn, ?_⟩
          rw [timing_succ a hva, hta.1, if_pos rfl, hset a (Nat.le_refl _) hva]
          have h3 := hP.hs
          have h4 := hP.he
          simp only [Timing.advance, hza.1, Bool.and_eq_false_iff, decide_eq_false_iff_not]
          left; omega
        | succ m ih =>
          intro hm
          rcases ih (by omega) with h | h
          · obtain ⟨g1, g2⟩ := h (a + 1 + m) (by omega) (Nat.le_refl _)
            have hlast : (core cfg f0 i (a + 1 + m + 1)).timing.last = false := by
              rw [core_succ]
              split
              · simp only [Core.step, Timing.step, g1, Bool.not_false, if_true, g2]
              · exact g2
            cases hv : (given cfg f0 i (a + 1 + m + 1)).pvalid
            · left
              intro u h1 h2
              rcases Nat.lt_or_ge (a + 1 + m) u with h' | h'
              · rw [show u = a + 1 + m + 1 by omega]; exact ⟨hv, hlast⟩
              · exact h u h1 h'
            · right
              refine ⟨a + 1 + m + 1, by omega, hm, hv, ?_, ?_, hlast⟩
              · rw [core_succ, appears _ g1 hv, if_pos rfl]
                simp only [Core.step, Timing.step, g1, Bool.not_false, if_true]
              · rw [core_succ, appears _ g1 hv, if_pos rfl]
                simp only [Core.step, Timing.step, g1, Bool.not_false, if_true]
          · exact .inr h
      rcases hfirst (b - (a + 1)) (by omega) with h | ⟨S, s1, s2, s3, s4, s5, s6⟩
      · have := (h b (by omega) (by omega)).1
        rw [hvb] at this
        exact absurd this (by decide)
      · have hs := stay S (by omega) s2 s3
        obtain ⟨r0, r1⟩ := raster_from (cfg := cfg) (f0 := f0) (i := i) hP ⟨s4, s5⟩ (b - S) (by
          intro u h1 h2
          have := hs u h1 (by omega)
          exact ⟨this, hset u (by omega) this⟩)
        rw [show S + (b - S) = b by omega] at r0 r1
        cases hc : countIn (beat cfg f0 i) S (b - S) with
        | zero =>
          have := htb.2
          rw [r0 hc, s6] at this
          exact absurd this (by decide)
        | succ n =>
          have hl := hlen n (by rw [← (r1 n hc).1.last]; exact htb.2)
          have e := GrayFifo.count_split (fun u => (i u).cdEdge) (a + 1) (S - (a + 1)) (b - S)
          rw [show S - (a + 1) + (b - S) = b - (a + 1) by omega, show a + 1 + (S - (a + 1)) = S by omega]
            at e
          have := count_le hbe S (b - S)
          omega
  -- so there is time to refill the FIFO
  have h4 : 4 ≤ frameLen P := by
    have := hP.hs
    have := hP.he
    have := hP.vs
    have := hP.ve
    have h2 : 2 * 2 ≤ (P.vscan + 1) * (P.hscan + 1) := Nat.mul_le_mul (by omega) (by omega)
    exact h2
  obtain ⟨w, w1, w2, w3⟩ := count_end (p := fun u => (i u).cdEdge) (a := a + 1) (b := b) (k := 2) (by omega)
    (by omega)
  have e := GrayFifo.count_split (fun u => (i u).cdEdge) (a + 1) (w - (a + 1)) (b - w)
  rw [show w - (a + 1) + (b - w) = b - (a + 1) by omega, show a + 1 + (w - (a + 1)) = w by omega] at e
  have h5 := hf (a + 1) (w - (a + 1)) (by omega)
  have := refill (x := fun u => InitiatorCdc.wire (initIn cfg f0 i u)) (by decide) h0 (fun _ => rfl)
    w1 w2 (fun u g1 g2 => by rw [← Props.takes_leaves]; exact hno u (by omega) g2)
    (fun u hu => hen u (by omega)) h5 (Nat.le_of_eq w3.symm) (hbe b htb.1)
  rw [pvalid_eq]
  unfold offered
  rw [Props.initiator_fifo]
  exact this

/-- Something that happens a bounded number of times does not happen any more from some time on. -/
theorem settles {p : Nat → Bool} {t B : Nat} (h : ∀ T, countIn p t T ≤ B) :
    ∃ T, t ≤ T ∧ ∀ u, T ≤ u → p u = false := by
  apply Classical.byContradiction
  intro hno
  have again : ∀ T, t ≤ T → ∃ u, T ≤ u ∧ p u = true := by
    intro T hT
    apply Classical.byContradiction
    intro hn
    refine hno ⟨T, hT, fun u hu => ?_⟩
    cases hp : p u
    · rfl
    · exact absurd ⟨u, hu, hp⟩ hn
  have many : ∀ k, ∃ T, k ≤ countIn p t T := by
    intro k
    induction k with
    | zero => exact ⟨0, Nat.zero_le _⟩
    | succ k ih =>
      obtain ⟨T, hT⟩ := ih
      obtain ⟨u, hu, hp⟩ := again (t + T) (by omega)
      refine ⟨T + (u + 1 - (t + T)), ?_⟩
      have e := GrayFifo.count_split p t T (u + 1 - (t + T))
      have := GrayFifo.count_pos (p := p) (a := t + T) (m := u + 1 - (t + T)) (u := u) hu (by omega) hp
      omega
  obtain ⟨T, hT⟩ := many (B + 1)
  have := h T
  omega

end

end Verif.Output.CoreCdc
