import Verif.Proofs.OutputCore

/-!
# DMA reader with genlock
-/

namespace Verif.Output.DmaReader

open Spec.Output Spec.Stream

theorem drop_take_bufferAddresses (aw shift : Nat) (p : Params) (d m : Nat)
    (hd : d ≤ m) (hm : m < words aw shift p.length) :
    ((bufferAddresses aw shift p).drop d).take (m - d) ++ [(words aw shift p.base + m) % 2 ^ aw] =
      ((bufferAddresses aw shift p).drop d).take (m + 1 - d) := by
  have h := take_bufferAddresses aw shift p m hm
  have hlen : (bufferAddresses aw shift p).length = words aw shift p.length := by
    simp [bufferAddresses, words]
  have e : ∀ k, d ≤ k → ((bufferAddresses aw shift p).drop d).take (k - d) =
      ((bufferAddresses aw shift p).take k).drop d := by
    intro k hk; rw [List.drop_take]
  rw [e m hd, e (m + 1) (by omega), ← h, List.drop_append_of_le_length]
  simp; omega

theorem grun_reads (aw shift d : Nat) (P : Nat → Params)
    (hL : ∀ f, d < words aw shift (P f).length) (i : Nat → GIn)
    (hp : ∀ t, (i t).p = P (gpops aw shift d i t)) (t : Nat) :
    ∃ m, d ≤ m ∧ m < words aw shift (P (gpops aw shift d i t)).length ∧
      greads aw shift d i t =
        ((List.range (gpops aw shift d i t)).map fun f =>
          (bufferAddresses aw shift (P f)).drop d).flatten
        ++ ((bufferAddresses aw shift (P (gpops aw shift d i t))).drop d).take (m - d) ∧
      (((grun aw shift d i t).reader.fsm = .read ∧ (grun aw shift d i t).reader.offset = m) ∨
       ((grun aw shift d i t).reader.fsm ≠ .read ∧ m = d)) := by
  induction t with
  | zero => exact ⟨d, Nat.le_refl _, hL _, by simp [greads, transferred, gpops, countIn],
      Or.inr ⟨by simp [grun, genlockReset, reset], rfl⟩⟩
  | succ t ih =>
    obtain ⟨m, h0, h1, h2, h3⟩ := ih
    have hrun : (grun aw shift d i (t + 1)).reader =
        stepGenlock aw shift (grun aw shift d i t).reader (i t).valid (i t).p (i t).ready
          (grun aw shift d i t).sof d := rfl
    have hps : gpops aw shift d i (t + 1) = gpops aw shift d i t +
        (if sinkReady aw shift (grun aw shift d i t).reader (i t).p (i t).ready then 1 else 0) := by
      simp [gpops, countIn]
    have hrs : greads aw shift d i (t + 1) = greads aw shift d i t ++
        (if requests (grun aw shift d i t).reader && (i t).ready then
          [address aw shift (grun aw shift d i t).reader (i t).p] else []) := rfl
    have hlt := words_lt aw shift (P (gpops aw shift d i t)).length
    rcases h3 with ⟨h4, h5⟩ | ⟨h4, h5⟩
    · cases hr : (i t).ready
      · have e1 : gpops aw shift d i (t + 1) = gpops aw shift d i t := by
          rw [hps]; simp [sinkReady, hr]
        have e2 : greads aw shift d i (t + 1) = greads aw shift d i t := by
          rw [hrs]; simp [hr]
        have e3 : (grun aw shift d i (t + 1)).reader = (grun aw shift d i t).reader := by
          rw [hrun]; simp [stepGenlock, h4, hr]
        rw [e1, e2, e3]
        exact ⟨m, h0, h1, h2, Or.inl ⟨h4, h5⟩⟩
      · have hpos : 0 < words aw shift (P (gpops aw shift d i t)).length := by omega
        have hend := atEnd_iff aw shift (grun aw shift d i t).reader (P (gpops aw shift d i t)) hpos
        rw [h5] at hend
        have e2 : greads aw shift d i (t + 1) = greads aw shift d i t ++
            [(words aw shift (P (gpops aw shift d i t)).base + m) % 2 ^ aw] := by
          rw [hrs]; simp [requests, h4, hr, address, hp t, h5]
        rw [e2, h2, List.append_assoc, drop_take_bufferAddresses aw shift _ d m h0 h1]
        by_cases he : m + 1 = words aw shift (P (gpops aw shift d i t)).length
        · have e1 : gpops aw shift d i (t + 1) = gpops aw shift d i t + 1 := by
            rw [hps]; simp [sinkReady, requests, h4, hr, hp t, hend, he]
          rw [e1]
          refine ⟨d, Nat.le_refl _, hL _, ?_, Or.inr ⟨?_, rfl⟩⟩
          · rw [List.range_succ, List.map_append, List.flatten_append]
            rw [List.take_of_length_le (by
              rw [he]; simp [bufferAddresses, words])]
            simp
          · rw [hrun]; simp [stepGenlock, h4, hr, hp t, hend, he]
        · have e1 : gpops aw shift d i (t + 1) = gpops aw shift d i t := by
            rw [hps]; simp [sinkReady, requests, h4, hr, hp t, hend, he]
          rw [e1]
          refine ⟨m + 1, by omega, by omega, rfl, Or.inl ⟨?_, ?_⟩⟩
          · rw [hrun]; simp [stepGenlock, h4, hr, hp t, hend, he]
          · rw [hrun]; simp only [stepGenlock, h4, hr, if_true, h5]
            exact Nat.mod_eq_of_lt (by omega)
    · have e1 : gpops aw shift d i (t + 1) = gpops aw shift d i t := by
        rw [hps]; simp [sinkReady, requests, h4]
      have e2 : greads aw shift d i (t + 1) = greads aw shift d i t := by
        rw [hrs]; simp [requests, h4]
      rw [e1, e2]
      refine ⟨m, h0, h1, h2, ?_⟩
      rw [hrun]
      cases hf : (grun aw shift d i t).reader.fsm with
      | read => exact absurd hf h4
      | idle =>
        cases hv : (i t).valid
        · right; simp [stepGenlock, hf, h5]
        · left
          simp only [stepGenlock, hf, if_true, true_and, h5]
          exact Nat.mod_eq_of_lt (by omega)
      | waitSof =>
        right
        refine ⟨?_, h5⟩
        simp only [stepGenlock, hf]
        split <;> simp

/-- Every buffer but the first waits for a rising edge. -/
theorem gpops_le_rises (aw shift d : Nat) (i : Nat → GIn) (t : Nat) :
    let s := grun aw shift d i t
    gpops aw shift d i t + (if s.sof then 1 else 0) + (if s.v && !s.v_r then 1 else 0) ≤
      rises i t + (if s.reader.fsm = .waitSof then 1 else 0) ∧
    s.v = (decide (0 < t) && (i (t - 1)).vsync) := by
  induction t with
  | zero => simp [grun, genlockReset, gpops, countIn, rises, reset]
  | succ t ih =>
    obtain ⟨h1, h2⟩ := ih
    have hs : grun aw shift d i (t + 1) = genlockStep aw shift (grun aw shift d i t) (i t).valid
      (i t).p (i t).ready (i t).vsync d := rfl
    have hps : gpops aw shift d i (t + 1) = gpops aw shift d i t +
        (if sinkReady aw shift (grun aw shift d i t).reader (i t).p (i t).ready then 1 else 0) := by
      simp [gpops, countIn]
    have hri : rises i (t + 1) = rises i t +
        (if (i t).vsync && !(decide (0 < t) && (i (t - 1)).vsync) then 1 else 0) := by
      simp [rises, countIn]
    refine ⟨?_, by simp [hs, genlockStep]⟩
    rw [hs, hps, hri, ← h2]
    simp only [genlockStep]
    generalize (grun aw shift d i t) = s at *
    cases hf : s.reader.fsm with
    | idle =>
      simp only [sinkReady, requests, hf, stepGenlock] at h1 ⊢
      have : (if (i t).valid then Fsm.read else Fsm.idle) ≠ .waitSof := by split <;> simp
      simp only [this, if_false] at h1 ⊢
      simp at h1 ⊢
      omega
    | read =>
      cases hr : (i t).ready
      · simp [sinkReady, requests, hf, stepGenlock] at h1 ⊢
        omega
      · cases he : atEnd aw shift s.reader (i t).p
        · simp [sinkReady, requests, hf, stepGenlock, he] at h1 ⊢
          omega
        · simp [sinkReady, requests, hf, stepGenlock, he] at h1 ⊢
          omega
    | waitSof =>
      rcases Bool.eq_false_or_eq_true s.sof with hsf | hsf
      · simp [sinkReady, requests, hf, stepGenlock, hsf] at h1 ⊢
        omega
      · simp [sinkReady, requests, hf, stepGenlock, hsf] at h1 ⊢
        omega

end Verif.Output.DmaReader
