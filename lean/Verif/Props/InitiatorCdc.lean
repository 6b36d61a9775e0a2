import Verif.Spec.InitiatorCdc
import Verif.Proofs.GrayLive

/-!
# C62, C103: parameter updates through the FIFO circuit
-/

namespace Verif.Props

open Verif.Output Verif.Spec.Stream Verif.Spec.InitiatorCdc

section

variable (f0 : GrayFifo.State 2 Params) (i : Nat → InitiatorCdc.In)

theorem initiator_fifo (t : Nat) :
    initiator f0 i t = GrayFifo.fifo f0 (fun u => InitiatorCdc.wire (i u)) t := by
  induction t with
  | zero => rfl
  | succ t ih =>
    show InitiatorCdc.step (initiator f0 i t) (i t) = _
    rw [ih]; rfl

theorem takes_leaves (t : Nat) :
    takes f0 i t = GrayFifo.leaves f0 (fun u => InitiatorCdc.wire (i u)) t := by
  unfold takes offered
  rw [initiator_fifo]; rfl

theorem sets_taken (t : Nat) :
    sets f0 i t = GrayFifo.taken f0 (fun u => InitiatorCdc.wire (i u)) t := by
  unfold sets GrayFifo.taken
  have h1 : takes f0 i = GrayFifo.leaves f0 (fun u => InitiatorCdc.wire (i u)) :=
    funext (takes_leaves f0 i)
  have h2 : setAt f0 i = fun u => (GrayFifo.fifo f0 (fun u => InitiatorCdc.wire (i u)) u).dout := by
    funext u
    unfold setAt
    rw [initiator_fifo]
  rw [h1, h2]

end

theorem snapshots_given (f0 : GrayFifo.State 2 Params) (i : Nat → InitiatorCdc.In) (t : Nat) :
    Spec.InitiatorCdc.snapshots f0 i t = GrayFifo.given f0 (fun u => InitiatorCdc.wire (i u)) t := by
  unfold Spec.InitiatorCdc.snapshots GrayFifo.given
  congr 1
  funext u
  rw [initiator_fifo]; rfl

/-- **C62** With the FIFO circuit instead of the queue: the sets that the core takes are the snapshots of
the CSRs that were put in, in order, and at most four of them are waiting.  For every relation of the
clocks and whatever the synchronisers see. -/
theorem C62_circuit (f0 : GrayFifo.State 2 Params) (h0 : GrayFifo.Settled f0)
    (i : Nat → InitiatorCdc.In) (t : Nat) :
    sets f0 i t <+: Spec.InitiatorCdc.snapshots f0 i t ∧
      (Spec.InitiatorCdc.snapshots f0 i t).length ≤ (sets f0 i t).length + 4 := by
  obtain ⟨h1, h2⟩ := GrayFifo.order (x := fun u => InitiatorCdc.wire (i u)) (by decide) h0
    (fun _ => rfl) t
  rw [sets_taken, snapshots_given]
  refine ⟨⟨_, h1.symm⟩, ?_⟩
  rw [h1, List.length_append]
  have : 2 ^ 2 = 4 := rfl
  omega

/-- **C103** An update of the parameters takes effect.  From instant `t` on the CSRs hold `P` and `enable`
is set; both clocks run, and a core that is offered a set takes one some time later.  Then the core takes
at most four sets other than `P` after `t`, and it takes `P` again and again. -/
theorem C103_update (f0 : GrayFifo.State 2 Params) (h0 : GrayFifo.Settled f0)
    (i : Nat → InitiatorCdc.In) (t : Nat) (P : Params)
    (hP : ∀ u, t ≤ u → (i u).csr = P ∧ (i u).enable = true)
    (sys : Runs fun u => (i u).sysEdge) (core : Runs fun u => (i u).cdEdge)
    (consumes : Consumes f0 i) :
    (∀ T, countIn (fun u => takes f0 i u && decide (setAt f0 i u ≠ P)) t T ≤ 4) ∧
    (∀ T, ∃ u, T ≤ u ∧ takes f0 i u = true ∧ setAt f0 i u = P) := by
  let x := fun u => InitiatorCdc.wire (i u)
  have hn : 1 ≤ 2 := by decide
  have hr : ∀ t, (x t).writeRst = false := fun _ => rfl
  -- the queue after `t`: what is left of the old content, then copies of `P`
  have hq : ∀ m, ∃ old k, GrayFifo.queue f0 x (t + m) = old ++ List.replicate k P ∧
      old.length + countIn (fun u => takes f0 i u && decide (setAt f0 i u ≠ P)) t m ≤ 4 := by
    intro m
    induction m with
    | zero =>
      refine ⟨GrayFifo.queue f0 x t, 0, by simp, ?_⟩
      exact (GrayFifo.order hn h0 hr t).2
    | succ m ih =>
      obtain ⟨old, k, h1, h2⟩ := ih
      obtain ⟨_, _, _, _, inv⟩ := GrayFifo.inv_all hn h0 hr (t + m)
      have hs := inv.queue_succ hn
      have hdin : (x (t + m)).din = P := (hP (t + m) (by omega)).1
      have hcount : countIn (fun u => takes f0 i u && decide (setAt f0 i u ≠ P)) t (m + 1) =
          countIn (fun u => takes f0 i u && decide (setAt f0 i u ≠ P)) t m +
            (if takes f0 i (t + m) && decide (setAt f0 i (t + m) ≠ P) then 1 else 0) := rfl
      rw [hcount, takes_leaves, ← Nat.add_assoc, hs]
      cases hl : GrayFifo.leaves f0 x (t + m)
      · refine ⟨old, k + (if GrayFifo.enters f0 x (t + m) then 1 else 0), ?_, ?_⟩
        · rw [if_neg (by simp), h1]
          cases GrayFifo.enters f0 x (t + m)
          · simp
          · simp only [if_true, hdin, List.append_assoc, List.replicate_succ']
        · simp only [Bool.false_and, Bool.false_eq_true, if_false]
          exact h2
      · have hread : GrayFifo.readable (GrayFifo.fifo f0 x (t + m)) = true := by
          unfold GrayFifo.leaves at hl
          simp only [Bool.and_eq_true] at hl
          exact hl.2
        have hhead := (C100_queue 2 hn f0 h0 x hr (t + m)).2.2.1 hread
        have hset : setAt f0 i (t + m) = (GrayFifo.fifo f0 x (t + m)).dout := by
          unfold setAt
          rw [initiator_fifo]
        rw [h1] at hhead
        cases old with
        | nil =>
          cases k with
          | zero => simp at hhead
          | succ k =>
            simp only [List.nil_append, List.replicate_succ, List.head?_cons, Option.some.injEq] at hhead
            refine ⟨[], k + (if GrayFifo.enters f0 x (t + m) then 1 else 0), ?_, ?_⟩
            · rw [if_pos rfl, h1]
              cases GrayFifo.enters f0 x (t + m)
              · simp [List.replicate_succ]
              · simp only [if_true, hdin, List.nil_append, List.replicate_succ, List.tail_cons]
                rw [← List.replicate_succ', List.replicate_succ]
            · rw [hset, ← hhead]
              simp only [ne_eq, not_true_eq_false, decide_false, Bool.and_false, Bool.false_eq_true,
                if_false]
              exact h2
        | cons a old =>
          refine ⟨old, k + (if GrayFifo.enters f0 x (t + m) then 1 else 0), ?_, ?_⟩
          · rw [if_pos rfl, h1]
            cases GrayFifo.enters f0 x (t + m)
            · simp
            · simp only [if_true, hdin, List.cons_append, List.tail_cons, List.append_assoc,
                List.replicate_succ']
          · simp only [List.length_cons] at h2
            split <;> omega
  refine ⟨fun T => by obtain ⟨old, k, -, h⟩ := hq T; omega, ?_⟩
  -- sets are taken again and again
  have htake : ∀ T, GrayFifo.readable (GrayFifo.fifo f0 x T) = true →
      ∃ u, T ≤ u ∧ GrayFifo.leaves f0 x u = true := by
    intro T hT
    obtain ⟨u, hu, h⟩ := consumes T (by unfold offered; rw [initiator_fifo]; exact hT)
    exact ⟨u, hu, by rw [← takes_leaves]; exact h⟩
  have again : ∀ T, t ≤ T → ∃ u, T ≤ u ∧ takes f0 i u = true := by
    intro T hT
    obtain ⟨e, he, hent⟩ := GrayFifo.accepts_later hn h0 hr core sys htake T
      (fun u hu => (hP u (by omega)).2)
    have hne : GrayFifo.queue f0 x (e + 1) ≠ [] := by
      obtain ⟨_, _, _, _, inv⟩ := GrayFifo.inv_all hn h0 hr e
      rw [inv.queue_succ hn, hent]
      simp
    obtain ⟨u, hu, hread⟩ := GrayFifo.offers_later hn h0 hr core (e + 1) hne
    obtain ⟨w, hw, hl⟩ := htake u hread
    exact ⟨w, by omega, by rw [takes_leaves]; exact hl⟩
  -- at most four of them are not `P`
  have bound : ∀ b T, t ≤ T →
      4 ≤ b + countIn (fun u => takes f0 i u && decide (setAt f0 i u ≠ P)) t (T - t) →
      ∃ u, T ≤ u ∧ takes f0 i u = true ∧ setAt f0 i u = P := by
    intro b
    induction b with
    | zero =>
      intro T hT hb
      obtain ⟨u, hu, h⟩ := again T hT
      refine ⟨u, hu, h, ?_⟩
      apply Classical.byContradiction
      intro hne
      obtain ⟨old, k, -, h4⟩ := hq (u + 1 - t)
      have e := GrayFifo.count_split (fun u => takes f0 i u && decide (setAt f0 i u ≠ P)) t (T - t)
        (u + 1 - T)
      rw [show T - t + (u + 1 - T) = u + 1 - t by omega, show t + (T - t) = T by omega] at e
      have := GrayFifo.count_pos (p := fun u => takes f0 i u && decide (setAt f0 i u ≠ P)) (a := T)
        (m := u + 1 - T) (u := u) hu (by omega) (by simp [h, hne])
      omega
    | succ b ih =>
      intro T hT hb
      obtain ⟨u, hu, h⟩ := again T hT
      by_cases hne : setAt f0 i u = P
      · exact ⟨u, hu, h, hne⟩
      · have e := GrayFifo.count_split (fun u => takes f0 i u && decide (setAt f0 i u ≠ P)) t (T - t)
          (u + 1 - T)
        rw [show T - t + (u + 1 - T) = u + 1 - t by omega, show t + (T - t) = T by omega] at e
        have := GrayFifo.count_pos (p := fun u => takes f0 i u && decide (setAt f0 i u ≠ P)) (a := T)
          (m := u + 1 - T) (u := u) hu (by omega) (by simp [h, hne])
        obtain ⟨w, hw, h1, h2⟩ := ih (u + 1) (by omega) (by omega)
        exact ⟨w, by omega, h1, h2⟩
  intro T
  obtain ⟨u, hu, h⟩ := bound 4 (max t T) (by omega) (by omega)
  exact ⟨u, by omega, h⟩

/-! ## Example -/

/-- Both clocks have an edge at every instant; the core takes a set at every seventh instant; the mode is
changed at instant 30. -/
def updateRun (u : Nat) : InitiatorCdc.In :=
  { sysEdge := true, enable := true
    csr := if u < 30 then ⟨640, 656, 752, 799, 480, 490, 492, 524, 0, 4⟩
      else ⟨800, 840, 968, 1055, 600, 601, 605, 627, 0, 4⟩
    cdEdge := true, ready := u % 7 == 0, rOld := BitVec.ofNat 3 u, wOld := 0
    clash := ⟨0, 0, 0, 0, 0, 0, 0, 0, 0, 0⟩ }

/-- The FIFO of the example. -/
def updateFifo : GrayFifo.State 2 Params := GrayFifo.reset 2 ⟨0, 0, 0, 0, 0, 0, 0, 0, 0, 0⟩

theorem update_consumes : Consumes updateFifo updateRun := by
  intro T hT
  -- once offered, a set is offered until it is taken
  apply Classical.byContradiction
  intro hno
  have hnot : ∀ u, T ≤ u → takes updateFifo updateRun u = false := by
    intro u hu
    cases h : takes updateFifo updateRun u
    · rfl
    · exact absurd ⟨u, hu, h⟩ hno
  have h0 : GrayFifo.Settled updateFifo := ⟨rfl, by decide, by decide⟩
  have hstay : ∀ u, T ≤ u → offered updateFifo updateRun u = true := by
    intro u hu
    induction u, hu using Nat.le_induction with
    | base => exact hT
    | succ u hu ih =>
      have hl := hnot u hu
      rw [takes_leaves] at hl
      unfold offered at ih ⊢
      rw [initiator_fifo] at ih ⊢
      exact GrayFifo.readable_stays (x := fun u => InitiatorCdc.wire (updateRun u)) (by decide) h0
        (fun _ => rfl) u ih hl
  have := hnot (7 * T) (by omega)
  unfold takes at this
  rw [hstay (7 * T) (by omega)] at this
  have h7 : (7 * T) % 7 = 0 := by omega
  simp [updateRun, h7] at this

/-- The run meets the hypotheses; the core takes three more old sets after
instant 30 and then the new mode. -/
example : GrayFifo.Settled updateFifo ∧ Consumes updateFifo updateRun ∧
    (Runs fun u => (updateRun u).sysEdge) ∧
    (sets updateFifo updateRun 71).map Params.hres =
      [640, 640, 640, 640, 640, 640, 640, 800, 800, 800] :=
  ⟨⟨rfl, by decide, by decide⟩, update_consumes, fun T => ⟨T, Nat.le_refl _, rfl⟩, by decide +kernel⟩

end Verif.Props
