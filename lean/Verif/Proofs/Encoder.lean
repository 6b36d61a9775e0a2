import Verif.Model.Encoder
import Verif.Model.Decoding
import Verif.Model.Wer
import Verif.Spec.Tmds

/-! Helper lemmas about the TMDS encoder, decoder and WER. -/

namespace Verif.Encoder

open Spec.Tmds

/-- The 9-bit intermediate word of a byte. -/
def qm (d : BitVec 8) : BitVec 9 := qmNext (sum8 d) d

/-- The two possible code words of an intermediate word. -/
def word (q : BitVec 9) (inv : Bool) : BitVec 10 :=
  mkOut inv (q.getLsbD 8) (if inv then ~~~ (q.extractLsb' 0 8) else q.extractLsb' 0 8)

theorem decode_word : ∀ d : BitVec 8, ∀ b : Bool, Decoding.dataOf (word (qm d) b) = d := by
  decide +kernel

theorem word_not_token : ∀ d : BitVec 8, ∀ b : Bool, word (qm d) b ∉ tokens := by
  decide +kernel

theorem word_transitions : ∀ d : BitVec 8, ∀ b : Bool,
    transitionsBelow (word (qm d) b) 9 ≤ 4 ∧ transitionsBelow (word (qm d) b) 10 ≤ 5 := by
  decide +kernel

theorem word_wer : ∀ d : BitVec 8, ∀ b : Bool,
    Wer.transitions ((word (qm d) b).extractLsb' 0 9) ≤ 4 := by
  decide +kernel

theorem token_wer : ∀ c : BitVec 2, Wer.isControl ((controlToken c).extractLsb' 0 9) = true := by
  decide +kernel

theorem n0_eq : ∀ d : BitVec 8,
    (sumNot8 (qm d)).toNat + (sum8 (qm d)).toNat = 8 := by
  decide +kernel

theorem imbalance_word : ∀ d : BitVec 8, ∀ b : Bool,
    imbalance (word (qm d) b) =
      if b then 8 - 2 * ((sum8 (qm d)).toNat : Int) + 2 * ((qm d).getLsbD 8).toNat
      else 2 * ((sum8 (qm d)).toNat : Int) - 8 - 2 * (!(qm d).getLsbD 8).toNat := by
  decide +kernel

theorem token_mem (c : BitVec 2) : controlToken c ∈ tokens := by
  revert c; decide

theorem mem_tokens_iff (w : BitVec 10) : w ∈ tokens ↔ ∃ c, w = controlToken c := by
  constructor
  · intro h
    simp only [tokens, List.mem_cons, List.not_mem_nil, or_false] at h
    rcases h with h | h | h | h
    · exact ⟨0, h⟩
    · exact ⟨1, h⟩
    · exact ⟨2, h⟩
    · exact ⟨3, h⟩
  · rintro ⟨c, rfl⟩; exact token_mem c

/-- Every word emitted with `de` is one of the two code words of `q_m_r`. -/
theorem stage4_de {s : State} (h : s.de3 = true) :
    ∃ b, (stage4 s).1 = word s.q_m_r b := by
  unfold stage4 word
  simp only [h, if_true]
  cases hq : s.q_m_r.getLsbD 8
  · split
    · exact ⟨true, by simp⟩
    · split
      · exact ⟨true, by simp⟩
      · exact ⟨false, by simp⟩
  · split
    · exact ⟨false, by simp⟩
    · split
      · exact ⟨true, by simp⟩
      · exact ⟨false, by simp⟩

theorem stage4_not_de {s : State} (h : s.de3 = false) : stage4 s = (controlToken s.c3, 0) := by
  simp [stage4, h]

/-- The encoder execution. -/
abbrev run (i : Nat → In) : Nat → State := trace step reset i

theorem run_stage3 (i : Nat → In) (t : Nat) :
    (run i (t+3)).q_m_r = qm (i t).d ∧ (run i (t+3)).n0q_m = sumNot8 (qm (i t).d) ∧
    (run i (t+3)).n1q_m = sum8 (qm (i t).d) ∧ (run i (t+3)).c3 = (i t).c ∧
    (run i (t+3)).de3 = (i t).de := by
  refine ⟨rfl, rfl, rfl, rfl, rfl⟩

theorem run_out (i : Nat → In) (t : Nat) : (run i (t+1)).out = (stage4 (run i t)).1 := rfl

theorem run_cnt (i : Nat → In) (t : Nat) : (run i (t+1)).cnt = (stage4 (run i t)).2 := rfl

/-- Words visible on `out` from clock 4 on: the code of the input four clocks earlier. -/
theorem run_out_cases (i : Nat → In) (t : Nat) :
    ((i t).de = true ∧ ∃ b, (run i (t+4)).out = word (qm (i t).d) b) ∨
    ((i t).de = false ∧ (run i (t+4)).out = controlToken (i t).c) := by
  obtain ⟨hq, -, -, hc, hde⟩ := run_stage3 i t
  cases h : (i t).de
  · right
    refine ⟨rfl, ?_⟩
    rw [run_out, stage4_not_de (by rw [hde, h]), hc]
  · left
    obtain ⟨b, hb⟩ := stage4_de (s := run i (t+3)) (by rw [hde, h])
    exact ⟨rfl, b, by rw [run_out, hb, hq]⟩

/-- Before clock 4 the encoder shows its reset word, then control token 0. -/
theorem run_out_early (i : Nat → In) :
    (run i 0).out = 0 ∧ (run i 1).out = controlToken 0 ∧ (run i 2).out = controlToken 0 ∧
    (run i 3).out = controlToken 0 := by
  refine ⟨rfl, rfl, rfl, rfl⟩

theorem toInt_ofInt6 {x : Int} (h1 : -32 ≤ x) (h2 : x ≤ 31) : (BitVec.ofInt 6 x).toInt = x := by
  rw [BitVec.toInt_ofInt]
  apply Int.bmod_eq_of_le <;> simp <;> omega

theorem msb_iff (x : BitVec 6) : x.getLsbD 5 = decide (x.toInt < 0) := by
  revert x; decide +kernel

theorem eq_zero_iff (x : BitVec 6) : (x == 0) = decide (x.toInt = 0) := by
  revert x; decide +kernel

/-- One step of the disparity register: it accumulates the imbalance of the word
sent and stays even and within [-8, 8]. -/
theorem stage4_cnt {s : State} (d : BitVec 8) (h : s.de3 = true)
    (hq : s.q_m_r = qm d) (h0 : s.n0q_m = sumNot8 (qm d)) (h1 : s.n1q_m = sum8 (qm d))
    (hlo : -8 ≤ s.cnt.toInt) (hhi : s.cnt.toInt ≤ 8) (hev : s.cnt.toInt % 2 = 0) :
    (stage4 s).2.toInt = s.cnt.toInt + imbalance (stage4 s).1 ∧
    -8 ≤ (stage4 s).2.toInt ∧ (stage4 s).2.toInt ≤ 8 ∧ (stage4 s).2.toInt % 2 = 0 := by
  have hn := n0_eq d
  have hI := imbalance_word d
  have hIt := hI true
  have hIf := hI false
  simp only [if_true, if_false, Bool.false_eq_true] at hIt hIf
  have hw : ∀ b, word (qm d) b = mkOut b ((qm d).getLsbD 8)
      (if b then ~~~ ((qm d).extractLsb' 0 8) else (qm d).extractLsb' 0 8) := fun _ => rfl
  have hwt := hw true
  have hwf := hw false
  simp only [if_true, if_false, Bool.false_eq_true] at hwt hwf
  have hbe : (s.n1q_m == s.n0q_m) = decide (s.n1q_m.toNat = s.n0q_m.toNat) := by
    rw [Bool.eq_iff_iff]; simp [BitVec.toNat_eq]
  unfold stage4
  simp only [h, if_true, hq, eq_zero_iff, msb_iff, hbe]
  rw [h0, h1]
  generalize (sum8 (qm d)).toNat = n1 at *
  generalize (sumNot8 (qm d)).toNat = n0 at *
  generalize s.cnt.toInt = cnt at *
  cases hq8 : (qm d).getLsbD 8 <;>
    simp only [hq8, Bool.not_true, Bool.not_false, Bool.toNat_true, Bool.toNat_false,
      if_true, if_false, Bool.false_eq_true] at hIt hIf hwt hwf ⊢
  all_goals
    split
    · rename_i hc
      simp only [Bool.or_eq_true, decide_eq_true_eq] at hc
      first
        | (rw [← hwt, toInt_ofInt6 (by omega) (by omega), hIt]; omega)
        | (rw [← hwf, toInt_ofInt6 (by omega) (by omega), hIf]; omega)
    · rename_i hc
      simp only [Bool.or_eq_true, decide_eq_true_eq, not_or] at hc
      split
      · rename_i hc2
        simp only [Bool.or_eq_true, Bool.and_eq_true, Bool.not_eq_true', decide_eq_true_eq,
          decide_eq_false_iff_not] at hc2
        rw [← hwt, toInt_ofInt6 (by omega) (by omega), hIt]; omega
      · rename_i hc2
        simp only [Bool.or_eq_true, Bool.and_eq_true, Bool.not_eq_true', decide_eq_true_eq,
          decide_eq_false_iff_not] at hc2
        rw [← hwf, toInt_ofInt6 (by omega) (by omega), hIf]; omega

theorem run_cnt3 (i : Nat → In) : (run i 3).cnt = 0 := rfl

/-- The disparity register equals the net charge of the run, and is bounded. -/
theorem run_disparity (i : Nat → In) (t : Nat) :
    (run i (t+3)).cnt.toInt =
      runningDisparity (fun k => (i k).de) (fun k => (run i (k+4)).out) t ∧
    -8 ≤ (run i (t+3)).cnt.toInt ∧ (run i (t+3)).cnt.toInt ≤ 8 ∧
    (run i (t+3)).cnt.toInt % 2 = 0 := by
  induction t with
  | zero =>
    have h : (run i (0+3)).cnt = 0 := rfl
    rw [h]; simp [runningDisparity]
  | succ t ih =>
    obtain ⟨h, hlo, hhi, hev⟩ := ih
    obtain ⟨hq, h0, h1, hc, hde⟩ := run_stage3 i t
    have hcnt : (run i (t+1+3)).cnt = (stage4 (run i (t+3))).2 := rfl
    have hout : (run i (t+4)).out = (stage4 (run i (t+3))).1 := rfl
    rw [hcnt]
    simp only [runningDisparity]
    cases hd : (i t).de
    · rw [stage4_not_de (by rw [hde, hd])]; simp
    · have := stage4_cnt (i t).d (by rw [hde, hd]) hq h0 h1 hlo hhi hev
      rw [if_pos rfl, ← h, hout]
      exact this

end Verif.Encoder

namespace Verif.Decoding

theorem step_token (s : State) (v : Bool) (c : BitVec 2) :
    (step s ⟨v, Encoder.controlToken c⟩).de = false ∧
    (step s ⟨v, Encoder.controlToken c⟩).c = c := by
  have : ∀ c c0 : BitVec 2, (step ⟨0, 0, c0, false, false⟩ ⟨v, Encoder.controlToken c⟩).de = false ∧
      (step ⟨0, 0, c0, false, false⟩ ⟨v, Encoder.controlToken c⟩).c = c := by
    cases v <;> decide +kernel
  exact this c s.c

theorem step_data (s : State) (v : Bool) (w : BitVec 10) (h : w ∉ Spec.Tmds.tokens) :
    (step s ⟨v, w⟩).de = true ∧ (step s ⟨v, w⟩).c = s.c := by
  simp only [Spec.Tmds.tokens, List.mem_cons, List.not_mem_nil, or_false, not_or] at h
  obtain ⟨h0, h1, h2, h3⟩ := h
  simp [step, List.range, List.range.loop, controlToken, h0, h1, h2, h3]

end Verif.Decoding
