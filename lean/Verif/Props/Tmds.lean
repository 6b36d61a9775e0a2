import Verif.Proofs.Encoder

/-!
# C01, C02, C03: TMDS encoder properties
-/

namespace Verif.Props

open Spec.Tmds

/-- The 10-bit words on the `out` port of an `Encoder` fed with `i`, clock by clock. -/
def encoderOut (i : Nat → Encoder.In) (t : Nat) : BitVec 10 :=
  (trace Encoder.step Encoder.reset i t).out

/-- The registers (= the outputs) of a `Decoding` block fed with the words `w`;
`v` is its `valid_i` input. -/
def decoderOut (v : Nat → Bool) (w : Nat → BitVec 10) (t : Nat) : Decoding.State :=
  trace Decoding.step Decoding.reset (fun k => ⟨v k, w k⟩) t

/-- One decoder step on an encoder word (used for C01 and C52). -/
theorem decode_step (s : Decoding.State) (v : Bool) (i : Nat → Encoder.In) (t : Nat) :
    (Decoding.step s ⟨v, encoderOut i (t + 4)⟩).de = (i t).de ∧
    ((i t).de = true → (Decoding.step s ⟨v, encoderOut i (t + 4)⟩).d = (i t).d) ∧
    ((i t).de = false → (Decoding.step s ⟨v, encoderOut i (t + 4)⟩).c = (i t).c) ∧
    ((i t).de = true → (Decoding.step s ⟨v, encoderOut i (t + 4)⟩).c = s.c) := by
  rcases Encoder.run_out_cases i t with ⟨hde, b, hw⟩ | ⟨hde, hw⟩
  · have hw' : encoderOut i (t+4) = Encoder.word (Encoder.qm (i t).d) b := hw
    rw [hw']
    obtain ⟨h1, h2⟩ := Decoding.step_data s v _ (Encoder.word_not_token (i t).d b)
    refine ⟨by rw [h1, hde], fun _ => Encoder.decode_word (i t).d b, ?_, fun _ => h2⟩
    intro h; rw [hde] at h; cases h
  · have hw' : encoderOut i (t+4) = Encoder.controlToken (i t).c := hw
    rw [hw']
    obtain ⟨h1, h2⟩ := Decoding.step_token s v (i t).c
    refine ⟨by rw [h1, hde], ?_, fun _ => h2, ?_⟩
    · intro h; rw [hde] at h; cases h
    · intro h; rw [hde] at h; cases h

/-- **C01** Encoder followed by Decoding returns, 5 clocks later, the data-enable,
the pixel of every active clock and the control bits of every blanking clock;
during active video the decoder keeps showing the previous control bits. -/
theorem C01_roundtrip (i : Nat → Encoder.In) (v : Nat → Bool) (t : Nat) :
    (decoderOut v (encoderOut i) (t + 5)).de = (i t).de ∧
    ((i t).de = true → (decoderOut v (encoderOut i) (t + 5)).d = (i t).d) ∧
    ((i t).de = false → (decoderOut v (encoderOut i) (t + 5)).c = (i t).c) ∧
    ((i t).de = true →
      (decoderOut v (encoderOut i) (t + 5)).c = (decoderOut v (encoderOut i) (t + 4)).c) :=
  decode_step (decoderOut v (encoderOut i) (t + 4)) (v (t + 4)) i t

/-- A stream with active and blanking clocks, used to exercise the theorems. -/
def sampleStream (t : Nat) : Encoder.In :=
  { d := BitVec.ofNat 8 (t * 37), c := BitVec.ofNat 2 t, de := t % 7 ≥ 2 }

example : (decoderOut (fun _ => true) (encoderOut sampleStream) 14).de = true ∧
    (decoderOut (fun _ => true) (encoderOut sampleStream) 14).d = 77#8 ∧
    (decoderOut (fun _ => true) (encoderOut sampleStream) 13).de = false := by decide +kernel

/-- **C02** The net charge (ones minus zeros) sent since the last blanking word never
leaves [-8, 8] at a word boundary, and the 6-bit disparity register always equals it. -/
theorem C02_dc_balance (i : Nat → Encoder.In) (t : Nat) :
    let charge := runningDisparity (fun k => (i k).de) (fun k => encoderOut i (k + 4)) t
    charge ≥ -8 ∧ charge ≤ 8 ∧
    (trace Encoder.step Encoder.reset i (t + 3)).cnt.toInt = charge := by
  obtain ⟨h, hlo, hhi, -⟩ := Encoder.run_disparity i t
  have h' : (trace Encoder.step Encoder.reset i (t + 3)).cnt.toInt =
      runningDisparity (fun k => (i k).de) (fun k => encoderOut i (k + 4)) t := h
  refine ⟨?_, ?_, h'⟩
  · rw [← h']; exact hlo
  · rw [← h']; exact hhi

/-- The bound is reached: a black pixel after blanking brings the charge to -8. -/
example : runningDisparity (fun _ => true)
    (fun k => encoderOut (fun _ => ⟨0#8, 0, true⟩) (k + 4)) 1 = -8 := by decide +kernel

/-- **C03** Words emitted for pixels are not control tokens and have at most 4
transitions in their low 9 bits (at most 5 in all 10). -/
theorem C03_data_words (i : Nat → Encoder.In) (t : Nat) (h : (i t).de = true) :
    encoderOut i (t + 4) ∉ tokens ∧
    transitionsBelow (encoderOut i (t + 4)) 9 ≤ 4 ∧
    transitionsBelow (encoderOut i (t + 4)) 10 ≤ 5 := by
  rcases Encoder.run_out_cases i t with ⟨-, b, hw⟩ | ⟨hde, -⟩
  · have hw' : encoderOut i (t+4) = Encoder.word (Encoder.qm (i t).d) b := hw
    rw [hw']
    exact ⟨Encoder.word_not_token _ _, Encoder.word_transitions _ _⟩
  · rw [h] at hde; cases hde

/-- **C03** Words emitted during blanking are exactly the control tokens. -/
theorem C03_control_words (i : Nat → Encoder.In) (t : Nat) (h : (i t).de = false) :
    tokens[(i t).c.toNat]? = some (encoderOut i (t + 4)) := by
  rcases Encoder.run_out_cases i t with ⟨hde, -⟩ | ⟨-, hw⟩
  · rw [h] at hde; cases hde
  · have hw' : encoderOut i (t+4) = Encoder.controlToken (i t).c := hw
    rw [hw']
    generalize (i t).c = c
    revert c; decide

example : (sampleStream 3).de = true ∧ (sampleStream 7).de = false := by decide

end Verif.Props
