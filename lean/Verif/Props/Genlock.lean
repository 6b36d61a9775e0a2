import Verif.Proofs.Genlock
import Verif.Props.Output

/-!
# C61: genlocked reader; C57: raw mode
-/

namespace Verif.Props

open Verif.Output Spec.Output Spec.Stream

/-- **C61** Genlock.  If the environment presents parameter set `P f` until `f+1` sets have been
accepted and `delay_base` (in words) is below every buffer length, then for every schedule the
accepted addresses are, in order, words `delay_base ..` of the complete buffers `P 0 .. P (f-1)`
followed by an initial part of those of buffer `P f`. -/
theorem C61_reads (aw shift d : Nat) (P : Nat → Params)
    (hL : ∀ f, d < (P f).length / 2 ^ shift % 2 ^ aw) (i : Nat → DmaReader.GIn)
    (hp : ∀ t, (i t).p = P (DmaReader.gpops aw shift d i t)) (t : Nat) :
    let f := DmaReader.gpops aw shift d i t
    ∃ m, m < ((bufferAddresses aw shift (P f)).drop d).length ∧
      DmaReader.greads aw shift d i t =
        ((List.range f).map fun g => (bufferAddresses aw shift (P g)).drop d).flatten
        ++ ((bufferAddresses aw shift (P f)).drop d).take m := by
  obtain ⟨m, h0, h1, h2, -⟩ := DmaReader.grun_reads aw shift d P hL i hp t
  refine ⟨m - d, ?_, h2⟩
  simp only [bufferAddresses, List.length_drop, List.length_map, List.length_range]
  simp only [DmaReader.words] at h1
  omega

/-- **C61** Genlock: after the first, every buffer waits for its own rising edge of the external
vsync. -/
theorem C61_one_per_vsync (aw shift d : Nat) (i : Nat → DmaReader.GIn) (t : Nat) :
    DmaReader.gpops aw shift d i t ≤ DmaReader.rises i t + 1 := by
  have h := (DmaReader.gpops_le_rises aw shift d i t).1
  have : (if (DmaReader.grun aw shift d i t).reader.fsm = .waitSof then 1 else 0) ≤ 1 := by
    split <;> omega
  omega

/-- **C61** Genlock: if parameters, memory and vsync edges keep coming, so do the reads. -/
theorem C61_live (aw shift d : Nat) (i : Nat → DmaReader.GIn)
    (hv : ∀ t, ∃ u, t ≤ u ∧ (i u).valid = true) (hr : ∀ t, ∃ u, t ≤ u ∧ (i u).ready = true)
    (hs : ∀ t, ∃ u, t ≤ u ∧ (i u).vsync = false ∧ (i (u + 1)).vsync = true) (t : Nat) :
    ∃ u, t ≤ u ∧
      (DmaReader.requests (DmaReader.grun aw shift d i u).reader && (i u).ready) = true := by
  have hstep : ∀ u, (DmaReader.grun aw shift d i (u + 1)).reader =
      DmaReader.stepGenlock aw shift (DmaReader.grun aw shift d i u).reader (i u).valid (i u).p
        (i u).ready (DmaReader.grun aw shift d i u).sof d := fun _ => rfl
  have fromRead : ∀ t, (DmaReader.grun aw shift d i t).reader.fsm = .read → ∃ u, t ≤ u ∧
      (DmaReader.requests (DmaReader.grun aw shift d i u).reader && (i u).ready) = true := by
    intro t ht
    apply Classical.byContradiction
    intro hno
    have hp := Core.persists (fun v => (DmaReader.grun aw shift d i v).reader.fsm = .read) t ht (by
      intro v hv hvr
      have hnr : (i v).ready = false := by
        cases hq : (i v).ready
        · rfl
        · exact absurd ⟨v, hv, by simp [DmaReader.requests, hvr, hq]⟩ hno
      rw [hstep]
      simp [DmaReader.stepGenlock, hvr, hnr])
    obtain ⟨v, hv, hq⟩ := hr t
    exact hno ⟨v, hv, by simp [DmaReader.requests, hp v hv, hq]⟩
  have fromIdle : ∀ t, (DmaReader.grun aw shift d i t).reader.fsm = .idle → ∃ u, t ≤ u ∧
      (DmaReader.grun aw shift d i u).reader.fsm = .read := by
    intro t ht
    apply Classical.byContradiction
    intro hno
    have hp := Core.persists (fun v => (DmaReader.grun aw shift d i v).reader.fsm = .idle) t ht (by
      intro v hv hvr
      have e := hstep v
      rw [e]
      cases hq : (i v).valid
      · simp [DmaReader.stepGenlock, hvr]
      · exact absurd ⟨v + 1, by omega, by rw [e]; simp [DmaReader.stepGenlock, hvr, hq]⟩ hno)
    obtain ⟨v, hv, hq⟩ := hv t
    exact hno ⟨v + 1, by omega, by rw [hstep]; simp [DmaReader.stepGenlock, hp v hv, hq]⟩
  have fromWait : ∀ t, (DmaReader.grun aw shift d i t).reader.fsm = .waitSof → ∃ u, t ≤ u ∧
      (DmaReader.grun aw shift d i u).reader.fsm = .idle := by
    intro t ht
    apply Classical.byContradiction
    intro hno
    have hp := Core.persists (fun v => (DmaReader.grun aw shift d i v).reader.fsm = .waitSof) t ht (by
      intro v hv hvr
      have e := hstep v
      rw [e]
      rcases Bool.eq_false_or_eq_true (DmaReader.grun aw shift d i v).sof with hq | hq
      · exact absurd ⟨v + 1, by omega, by rw [e]; simp [DmaReader.stepGenlock, hvr, hq]⟩ hno
      · simp [DmaReader.stepGenlock, hvr, hq])
    obtain ⟨v, hv, hq1, hq2⟩ := hs t
    have hsof : (DmaReader.grun aw shift d i (v + 3)).sof = true := by
      show ((i (v + 1)).vsync && !(i v).vsync) = true
      rw [hq1, hq2]; rfl
    exact hno ⟨v + 4, by omega, by
      rw [hstep]; simp [DmaReader.stepGenlock, hp (v + 3) (by omega), hsof]⟩
  cases hf : (DmaReader.grun aw shift d i t).reader.fsm with
  | read => exact fromRead t hf
  | idle =>
    obtain ⟨u, h1, h2⟩ := fromIdle t hf
    obtain ⟨v, h3, h4⟩ := fromRead u h2
    exact ⟨v, by omega, h4⟩
  | waitSof =>
    obtain ⟨w, h5, h6⟩ := fromWait t hf
    obtain ⟨u, h1, h2⟩ := fromIdle w h6
    obtain ⟨v, h3, h4⟩ := fromRead u h2
    exact ⟨v, by omega, h4⟩

/-- The condition on `delay_base` is needed: with a 2-word buffer at address 4 and
`delay_base = 3`, the reader reads words 7, 8, 9, ... outside the buffer. -/
theorem C61_overrun :
    DmaReader.greads 8 0 3 (fun _ => ⟨true, ⟨0,0,0,0,0,0,0,0,4,2⟩, true, false⟩) 6 =
      [7, 8, 9, 10, 11] := by decide +kernel

example :
    DmaReader.greads 8 0 1 (fun t => ⟨true, ⟨0,0,0,0,0,0,0,0,4,3⟩, true, decide (t % 9 = 8)⟩) 16 =
      [5, 6, 5, 6] := by decide +kernel

/-- **C57**, the part that holds: in raw mode no word is lost, duplicated or reordered; the words
the memory has returned are exactly those shown on transferred beats with a word available, in
order, followed by those in the FIFO; and every active transferred beat has a word available.
(Blanking beats without a word also count as transferred, see `C57_violated`.) -/
theorem C57_conservation_partial (cfg : Core.Config) (hraw : cfg.raw = true) (i : Nat → Core.In)
    (hi : ∀ t, (i t).pvalid = true) (t : Nat) :
    let s := fun u => trace (Core.step cfg) Core.reset i u
    transferred (fun u => (i u).answer && !(s u).pending.isEmpty)
        (fun u => (i u).mem ((s u).pending.headD 0)) t =
      transferred (fun u => Core.valid (s u) (i u) && (i u).ready && !(s u).fifo.isEmpty)
        (fun u => Core.data (s u)) t ++ (s t).fifo ∧
    ((Core.valid (s t) (i t) && (i t).ready && Core.de (s t) (i t)) = true →
      (s t).fifo.isEmpty = false) := by
  intro s
  refine ⟨?_, ?_⟩
  · induction t with
    | zero => rfl
    | succ t ih =>
      simp only [transferred]
      rw [ih]
      have hs : s (t + 1) = Core.step cfg (s t) (i t) := rfl
      rw [hs]
      have hpop : (Core.dataReady cfg (s t) (i t) && !(s t).fifo.isEmpty) =
          (Core.valid (s t) (i t) && (i t).ready && !(s t).fifo.isEmpty) := by
        simp only [Core.dataReady, hi t, hraw, Bool.or_true, Bool.not_true, Bool.false_or,
          Bool.and_true]
      simp only [Core.step, hpop]
      cases hc : (Core.valid (s t) (i t) && (i t).ready && !(s t).fifo.isEmpty)
      · cases ha : (i t).answer
        · simp
        · cases hq : (s t).pending with
          | nil => simp
          | cons x xs => simp
      · have hne : (s t).fifo ≠ [] := by
          rw [Bool.and_eq_true] at hc
          simpa using hc.2
        cases hf : (s t).fifo with
        | nil => exact absurd hf hne
        | cons y ys =>
          cases ha : (i t).answer
          · simp [Core.data, hf]
          · cases hq : (s t).pending with
            | nil => simp [Core.data, hf]
            | cons x xs => simp [Core.data, hf]
  · intro h
    simp only [Bool.and_eq_true] at h
    obtain ⟨⟨h1, -⟩, h3⟩ := h
    simp only [Core.valid, h3, hi t] at h1
    simpa using h1

end Verif.Props
