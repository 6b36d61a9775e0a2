import Verif.Spec.VideoOut
import Verif.Proofs.Csc
import Verif.Props.Csc

/-!
# The ycbcr422 path
-/

namespace Verif.VideoOut.Path422

open Spec.VideoOut Csc

/-- Registers at clock `t`. -/
abbrev run (x : Nat → Beat 16) (t : Nat) : State := trace step reset x t

theorem run_up (x : Nat → Beat 16) (t : Nat) :
    (run x (t + 1)).up = To444.step (run x t).up
      { reset := (x t).de && !(run x t).de_r, valid := (run x t).valid_d
        px := upSink (run x t).data_d, ready := true } := by
  show To444.step (run x t).up _ = _
  simp [PipelinedActor.pipeCe]

theorem run_dp (x : Nat → Beat 16) (t : Nat) :
    (run x (t + 1)).csc.dp = Ycbcr2Rgb.step (Ycbcr2Rgb.params 8 8 8) (run x t).csc.dp
      (To444.sourceData (run x t).up) := by
  show (PipelinedActor.step datapath (run x t).csc _).dp = _
  simp [PipelinedActor.step, PipelinedActor.pipeCe, datapath, Ycbcr2Rgb.datapath]

theorem dp_trace (x : Nat → Beat 16) (u k : Nat) :
    (run x (u + k)).csc.dp = trace (Ycbcr2Rgb.step (Ycbcr2Rgb.params 8 8 8)) (run x u).csc.dp
      (fun j => To444.sourceData (run x (u + j)).up) k := by
  induction k with
  | zero => rfl
  | succ k ih => rw [← Nat.add_assoc, run_dp, ih]; rfl

/-- The converter: 4 clocks after the resampler shows a pixel, its RGB value is at the driver. -/
theorem rgb_of_up (x : Nat → Beat 16) (u : Nat)
    (h : Spec.Csc.YcbcrFits 8 (To444.sourceData (run x u).up)) :
    rgb (run x (u + 4)) = rgbOf (To444.sourceData (run x u).up) := by
  unfold rgb
  rw [dp_trace x u 4]
  exact Props.C24_datapath (Ycbcr2Rgb.params 8 8 8)
    (Ycbcr2Rgb.params_ok 8 8 8 (by decide) (by decide) (by decide)) _
    (fun j => To444.sourceData (run x (u + j)).up) 0 h

theorem upSink_y (d : BitVec 16) : (upSink d).y = (byte 0 d.toNat : Int) := by
  simp [upSink, byte]

theorem upSink_c (d : BitVec 16) : (upSink d).cb_cr = (byte 1 d.toNat : Int) := by
  simp [upSink, byte, Nat.shiftRight_eq_div_pow]

/-- Resampler contents after an even number of words of a line. -/
structure Even (w : Nat → BitVec 16) (m : Nat) (s : To444.State) : Prop where
  y : s.y = [(upSink (w (2 * m))).y, (upSink (w (2 * m + 1))).y]
  cb : s.cb = [(upSink (w (2 * m))).cb_cr]
  cr : s.cr = [(upSink (w (2 * m + 1))).cb_cr]
  pin : s.parity_in = false
  pout : s.parity_out = false

theorem de_r_eq (x : Nat → Beat 16) (t : Nat) : (run x (t + 1)).de_r = (x t).de := rfl

theorem no_reset {x : Nat → Beat 16} {T n : Nat} (h : Line x T n) (k : Nat) (hk : k < n + 2)
    (hk0 : 0 < k) : ((x (T + k)).de && !(run x (T + k)).de_r) = false := by
  obtain ⟨j, rfl⟩ : ∃ j, k = j + 1 := ⟨k - 1, by omega⟩
  rw [← Nat.add_assoc, de_r_eq]
  by_cases hlt : j + 1 < n
  · rw [h.high j (by omega)]; simp
  · rw [show T + j + 1 = T + (j + 1) by omega, h.low (j + 1) (by omega) hk]; rfl

theorem up_start {x : Nat → Beat 16} {T n : Nat} (h : Line x T n) :
    (run x (T + 1)).up = To444.reset := by
  rw [run_up]
  have : ((x T).de && !(run x T).de_r) = true := by
    rw [h.start]
    rcases h.before with h0 | h0
    · rw [h0]; rfl
    · cases T with
      | zero => rfl
      | succ T => rw [de_r_eq]; simp only [Nat.add_sub_cancel] at h0; rw [h0]; rfl
  simp [To444.step, this]

theorem up_step {x : Nat → Beat 16} {T n : Nat} (h : Line x T n) (k : Nat) (hk : k < n) :
    (run x (T + (k + 2))).up = To444.step (run x (T + (k + 1))).up
      { reset := false, valid := true, px := upSink (x (T + k)).data, ready := true } := by
  rw [show T + (k + 2) = T + (k + 1) + 1 by omega, run_up, no_reset h (k + 1) (by omega) (by omega)]
  have e1 : (run x (T + (k + 1))).valid_d = (x (T + k)).valid := rfl
  have e2 : (run x (T + (k + 1))).data_d = (x (T + k)).data := rfl
  rw [e1, e2, h.valid k hk]

theorem even_zero {x : Nat → Beat 16} {T n : Nat} (h : Line x T n) (hn : 2 ≤ n) :
    Even (fun k => (x (T + k)).data) 0 (run x (T + 3)).up := by
  have e3 := up_step h 1 (by omega)
  have e2 := up_step h 0 (by omega)
  rw [up_start h] at e2
  rw [e2] at e3
  rw [show 3 = 1 + 2 by rfl, e3]
  constructor <;> simp [To444.step, To444.reset, To444.sinkReady, To444.sourceValid]

theorem even_step {w : Nat → BitVec 16} {m : Nat} {s : To444.State} (h : Even w m s) :
    Even w (m + 1) (To444.step (To444.step s
      { reset := false, valid := true, px := upSink (w (2 * m + 2)), ready := true })
      { reset := false, valid := true, px := upSink (w (2 * m + 3)), ready := true }) := by
  obtain ⟨h1, h2, h3, h4, h5⟩ := h
  have e1 : 2 * (m + 1) = 2 * m + 2 := by omega
  constructor <;>
    simp [To444.step, To444.sinkReady, To444.sourceValid, h1, h2, h3, h4, h5, e1]

theorem even_at {x : Nat → Beat 16} {T n : Nat} (h : Line x T n) (m : Nat) (hm : 2 * m + 2 ≤ n) :
    Even (fun k => (x (T + k)).data) m (run x (T + (2 * m + 3))).up := by
  induction m with
  | zero => exact even_zero h (by omega)
  | succ m ih =>
    have := even_step (ih (by omega))
    have a := up_step h (2 * m + 2) (by omega)
    have b := up_step h (2 * m + 3) (by omega)
    rw [show 2 * (m + 1) + 3 = 2 * m + 3 + 2 by omega, b,
      show 2 * m + 3 + 1 = 2 * m + 2 + 2 by omega, a]
    exact this

/-- The resampler shows pixel `k` of the line at clock `T + k + 3`. -/
theorem up_pixel {x : Nat → Beat 16} {T n : Nat} (h : Line x T n) (he : n % 2 = 0) (k : Nat)
    (hk : k < n) :
    To444.sourceData (run x (T + k + 3)).up = pixel444 (fun j => (x (T + j)).data) k := by
  rcases Nat.mod_two_eq_zero_or_one k with h0 | h1
  · obtain ⟨m, rfl⟩ : ∃ m, k = 2 * m := ⟨k / 2, by omega⟩
    obtain ⟨a, b, c, -, -⟩ := even_at h m (by omega)
    rw [Nat.add_assoc]
    simp [To444.sourceData, a, b, c, pixel444, upSink_y, upSink_c]
  · obtain ⟨m, rfl⟩ : ∃ m, k = 2 * m + 1 := ⟨k / 2, by omega⟩
    obtain ⟨a, b, c, d, e⟩ := even_at h m (by omega)
    have hd : (2 * m + 1) / 2 = m := by omega
    rw [show T + (2 * m + 1) + 3 = T + (2 * m + 3) + 1 by omega, run_up,
      no_reset h (2 * m + 3) (by omega) (by omega)]
    generalize (run x (T + (2 * m + 3))).valid_d = v
    generalize (run x (T + (2 * m + 3))).data_d = q
    generalize (run x (T + (2 * m + 3))).up = s at *
    simp [To444.step, To444.sinkReady, To444.sourceValid, To444.sourceData, pixel444, a, b, c, d, e,
      hd, upSink_y, upSink_c]
    cases v <;> simp

theorem pixel_fits (w : Nat → BitVec 16) (k : Nat) : Spec.Csc.YcbcrFits 8 (pixel444 w k) := by
  simp only [Spec.Csc.YcbcrFits, pixel444, byte]
  omega

/-- The `TimingDelay` chains shift by 6 clocks. -/
theorem timing_delay (x : Nat → Beat 16) (t : Nat) :
    timing (run x (t + 6)) = ⟨(x t).de, (x t).hsync, (x t).vsync⟩ := by
  have key : ∀ (t : Nat), ∃ a b c d e f, (run x t).delay = [a, b, c, d, e, f] := by
    intro t
    induction t with
    | zero => exact ⟨_, _, _, _, _, _, rfl⟩
    | succ t ih =>
      obtain ⟨a, b, c, d, e, f, h⟩ := ih
      refine ⟨⟨(x t).de, (x t).hsync, (x t).vsync⟩, a, b, c, d, e, ?_⟩
      show shift (run x t).delay _ = _
      rw [h]; rfl
  obtain ⟨a, b, c, d, e, f, h⟩ := key t
  have s : ∀ u, (run x (u + 1)).delay = shift (run x u).delay ⟨(x u).de, (x u).hsync, (x u).vsync⟩ :=
    fun _ => rfl
  unfold timing
  rw [s, s, s, s, s, s, h]
  rfl

end Verif.VideoOut.Path422
