import Verif.Proofs.Resample

/-!
# C26, C27, C28: chroma resampling
-/

namespace Verif.Props

open Csc Spec.Csc Spec.Stream Spec.Resample

/-- **C26** When a pixel is offered on every clock, for every component width, every pixel
sequence and every `source.ready` schedule, `YCbCr444to422` delivers the pair-averaged
4:2:2 stream, in order, and at most three pixels late. -/
theorem C26_downsample (dw : Nat) (i : Nat → PipelinedActor.In Ycbcr)
    (hv : ∀ t, (i t).valid = true) (hfit : ∀ t, YcbcrFits dw (i t).data) (t : Nat) :
    let D := To422.datapath dw
    delivered D To422.latency i t <+: downsample (accepted D To422.latency i t) ∧
    (accepted D To422.latency i t).length ≤ (delivered D To422.latency i t).length + 3 := by
  have h := To422.inv_run dw i hv hfit t
  have hl := congrArg List.length h.out
  rw [List.length_take, downsample_length] at hl
  refine ⟨?_, by omega⟩
  rw [h.out]; exact List.take_prefix _ _

/-- **C26** at the datapath, where frame capture uses it with `first` pulsed on the first
pixel of each line: if `first` was 1 on pixel `k` and 0 on the `2j+3` following ones, pixels
`k+2j`, `k+2j+1` come out three clocks later with the pair's mean Cb and mean Cr, whatever
the registers contained. -/
theorem C26_datapath (dw : Nat) (s : To422.State) (x : Nat → To422.In) (k j : Nat)
    (hfit : ∀ t, YcbcrFits dw (x t).px)
    (h1 : (x k).first = true) (h0 : ∀ n, n < 2 * j + 3 → (x (k + 1 + n)).first = false) :
    let run := trace (To422.step dw) s x
    let a := (x (k + 2 * j)).px
    let b := (x (k + 2 * j + 1)).px
    (run (k + 2 * j + 3)).source = ⟨a.y, (a.cb + b.cb) / 2⟩ ∧
    (run (k + 2 * j + 4)).source = ⟨b.y, (a.cr + b.cr) / 2⟩ := by
  intro run a b
  have hpar : ∀ n, n ≤ 2 * j + 3 → (run (k + 1 + n)).parity = decide (n % 2 = 0) := by
    intro n hn
    induction n with
    | zero =>
      change (To422.step dw (run k) (x k)).parity = _
      simp [To422.step, h1]
    | succ n ih =>
      change (To422.step dw (run (k + 1 + n)) (x (k + 1 + n))).parity = _
      simp only [To422.step, h0 n (by omega), ih (by omega), Bool.false_or]
      rw [← decide_not, decide_eq_decide]; omega
  have hp0 : (run (k + 2 * j + 1)).parity = true := by
    have := hpar (2 * j) (by omega)
    rw [show k + 2 * j + 1 = k + 1 + 2 * j by omega, this]
    simp
  have hp1 : (run (k + 2 * j + 2)).parity = false := by
    have := hpar (2 * j + 1) (by omega)
    rw [show k + 2 * j + 2 = k + 1 + (2 * j + 1) by omega, this]
    simp [show (2 * j + 1) % 2 = 1 by omega]
  have hp2 : (run (k + 2 * j + 3)).parity = true := by
    have := hpar (2 * j + 2) (by omega)
    rw [show k + 2 * j + 3 = k + 1 + (2 * j + 2) by omega, this]
    simp [show (2 * j + 2) % 2 = 0 by omega]
  have e1 : run (k + 2 * j + 1) = To422.step dw (run (k + 2 * j)) (x (k + 2 * j)) := rfl
  have e2 : run (k + 2 * j + 2) = To422.step dw (run (k + 2 * j + 1)) (x (k + 2 * j + 1)) := rfl
  have e3 : run (k + 2 * j + 3) = To422.step dw (run (k + 2 * j + 2)) (x (k + 2 * j + 2)) := rfl
  have e4 : run (k + 2 * j + 4) = To422.step dw (run (k + 2 * j + 3)) (x (k + 2 * j + 3)) := rfl
  have hd1 : (run (k + 2 * j + 1)).d1 = a := rfl
  have hd2 : (run (k + 2 * j + 2)).d2 = a := rfl
  have hd1' : (run (k + 2 * j + 2)).d1 = b := rfl
  have hd2' : (run (k + 2 * j + 3)).d2 = b := rfl
  have hcb : (run (k + 2 * j + 2)).cb_sum = b.cb + a.cb := by
    rw [e2]
    simp only [To422.step, hp0, if_true, hd1]
    exact To422.wrap1 dw _ _ (hfit _).2.1 (hfit _).2.1
  have hcr : (run (k + 2 * j + 2)).cr_sum = b.cr + a.cr := by
    rw [e2]
    simp only [To422.step, hp0, if_true, hd1]
    exact To422.wrap1 dw _ _ (hfit _).2.2 (hfit _).2.2
  have hcr' : (run (k + 2 * j + 3)).cr_sum = b.cr + a.cr := by
    rw [e3]
    simp only [To422.step, hp1, Bool.false_eq_true, if_false, hcr]
  refine ⟨?_, ?_⟩
  · rw [e3]
    simp only [To422.step, hp1, Bool.false_eq_true, if_false, hcb, hd2]
    rw [To422.slice1 dw _ _ (hfit _).2.1 (hfit _).2.1, Int.add_comm]
  · rw [e4]
    simp only [To422.step, hp2, if_true, hcr', hd2']
    rw [To422.slice1 dw _ _ (hfit _).2.2 (hfit _).2.2, Int.add_comm]

/-- The pairing follows clocks, not pixels: one idle clock between the two pixels of a pair
(allowed by the stream protocol) makes the actor average a pixel with whatever payload was
on the bus during the idle clock. -/
theorem C26_bubble_breaks_pairing :
    ∃ (i : Nat → PipelinedActor.In Ycbcr) (t : Nat), (∀ t, YcbcrFits 8 (i t).data) ∧
      let D := To422.datapath 8
      ¬ (delivered D To422.latency i t <+: downsample (accepted D To422.latency i t)) := by
  refine ⟨fun t => match t with
    | 0 => ⟨true, ⟨10, 100, 100⟩, true⟩
    | 1 => ⟨false, ⟨0, 0, 0⟩, true⟩
    | _ => ⟨true, ⟨20, 100, 100⟩, true⟩, 6, ?_, by decide⟩
  have h0 : YcbcrFits 8 ⟨0, 0, 0⟩ := ⟨by decide, by decide, by decide⟩
  have h1 : YcbcrFits 8 ⟨10, 100, 100⟩ := ⟨by decide, by decide, by decide⟩
  have h2 : YcbcrFits 8 ⟨20, 100, 100⟩ := ⟨by decide, by decide, by decide⟩
  intro t
  match t with
  | 0 => exact h1
  | 1 => exact h0
  | _ + 2 => exact h2

/-- Non-vacuity: three output pixels of a concrete run. -/
example : delivered (To422.datapath 8) To422.latency
    (fun t => ⟨true, ⟨t, 10 * t, 255 - t⟩, t % 3 != 1⟩) 8 =
    [⟨0, 5⟩, ⟨1, 254⟩, ⟨2, 25⟩] := by decide

/-- **C27** For every schedule of `sink.valid` and `source.ready` and every pixel sequence,
`YCbCr422to444` delivers the upsampled stream, in order, never holding more than 4 pixels. -/
theorem C27_upsample (i : Nat → To444.In) (hr : ∀ t, (i t).reset = false) (t : Nat) :
    upDelivered i t <+: upsample (upAccepted i t) ∧
    (upAccepted i t).length ≤ (upDelivered i t).length + 4 := by
  have h := To444.inv_run i hr t
  refine ⟨?_, h.depth⟩
  rw [h.out]; exact List.take_prefix _ _

/-- **C27** It never deadlocks: if it offers nothing, then every complete pair accepted so far
has been delivered and it is ready for input; if it refuses input, it offers a pixel. -/
theorem C27_no_deadlock (i : Nat → To444.In) (hr : ∀ t, (i t).reset = false) (t : Nat) :
    (To444.sourceValid (trace To444.step To444.reset i t) = false →
      upDelivered i t = upsample (upAccepted i t) ∧
      To444.sinkReady (trace To444.step To444.reset i t) = true) ∧
    (To444.sinkReady (trace To444.step To444.reset i t) = false →
      To444.sourceValid (trace To444.step To444.reset i t) = true) := by
  have h := To444.inv_run i hr t
  have hv := h.sourceValid
  have hs := h.sinkReady
  have hle := h.le
  have hd := h.depth
  have ho := h.out
  rw [hv, hs]
  refine ⟨fun hn => ?_, fun hn => ?_⟩
  · simp only [decide_eq_false_iff_not] at hn
    refine ⟨?_, by simp only [decide_eq_true_eq]; omega⟩
    rw [ho, List.take_of_length_le]
    rw [To444.upsample_length]; omega
  · simp only [decide_eq_false_iff_not, decide_eq_true_eq] at *; omega

/-- **C27** An offered pixel is held until it is taken. -/
theorem C27_stable (i : Nat → To444.In) (hr : ∀ t, (i t).reset = false) (t : Nat)
    (hv : To444.sourceValid (trace To444.step To444.reset i t) = true)
    (hn : (i t).ready = false) :
    To444.sourceValid (trace To444.step To444.reset i (t + 1)) = true ∧
    To444.sourceData (trace To444.step To444.reset i (t + 1)) =
      To444.sourceData (trace To444.step To444.reset i t) := by
  have h := To444.inv_run i hr t
  have h' := To444.inv_run i hr (t + 1)
  have hB : upDelivered i (t + 1) = upDelivered i t := by
    change _ ++ (if (_ && (i t).ready) then _ else _) = _
    rw [hn]; simp; rfl
  have hA : upAccepted i t <+: upAccepted i (t + 1) := List.prefix_append _ _
  have hl := hA.length_le
  rw [h.sourceValid, decide_eq_true_eq] at hv
  have hv' : (upDelivered i (t + 1)).length < 2 * ((upAccepted i (t + 1)).length / 2) := by
    rw [hB]; omega
  refine ⟨by rw [h'.sourceValid, decide_eq_true_eq]; exact hv', ?_⟩
  have e := h.data hv
  have e' := h'.data hv'
  have hpre : upsample (upAccepted i t) <+: upsample (upAccepted i (t + 1)) := by
    have := upsample_take_prefix (upAccepted i (t + 1)) (upAccepted i t).length
    rwa [← List.prefix_iff_eq_take.1 hA] at this
  rw [hB] at e'
  obtain ⟨r, hr'⟩ := hpre
  rw [← hr', List.getElem?_append_left (by rw [To444.upsample_length]; exact hv), e] at e'
  exact (Option.some.inj e').symm

/-- **C27** A reset in the middle of a line restarts cleanly: from then on the converter is
in its initial state. -/
theorem C27_reset (s : To444.State) (i : To444.In) (h : i.reset = true) :
    To444.step s i = To444.reset := by
  unfold To444.step; rw [h]; rfl

/-- Non-vacuity: a run with gaps on both sides. -/
example : upDelivered (fun t => ⟨false, t % 4 != 2, ⟨t, 100 + t⟩, t % 3 != 1⟩) 9 =
    [⟨0, 100, 101⟩, ⟨1, 100, 101⟩, ⟨3, 103, 104⟩, ⟨4, 103, 104⟩, ⟨5, 105, 107⟩] := by decide

/-- **C28** Chained 4:4:4 → 4:2:2 → 4:4:4, a pixel offered on every clock, any consumer
schedule: what comes out is, in order, the pixels that went in with luma unchanged and chroma
averaged over each pair, at most 7 pixels late. -/
theorem C28_chain (dw : Nat) (i : Nat → Chain.In) (hv : ∀ t, (i t).valid = true)
    (hfit : ∀ t, YcbcrFits dw (i t).px) (t : Nat) :
    chainDelivered dw i t <+: average (chainAccepted dw i t) ∧
    (chainAccepted dw i t).length ≤ (chainDelivered dw i t).length + 7 := by
  have h1 := C26_downsample dw (Chain.downIn dw i) hv hfit t
  have h2 := C27_upsample (Chain.upIn dw i) (fun _ => rfl) t
  rw [Chain.accepted_eq, Chain.delivered_eq, ← upsample_downsample]
  rw [Chain.middle_eq] at h2
  refine ⟨h2.1.trans ?_, ?_⟩
  · have := upsample_take_prefix
      (downsample (accepted (To422.datapath dw) To422.latency (Chain.downIn dw i) t))
      (delivered (To422.datapath dw) To422.latency (Chain.downIn dw i) t).length
    rwa [← List.prefix_iff_eq_take.1 h1.1] at this
  · have a := h1.2; have b := h2.2; omega

/-- **C28** The chain never stops: from any reachable state, if the consumer is ready the
chain accepts input or delivers output. -/
theorem C28_live (dw : Nat) (i : Nat → Chain.In) (t : Nat) (hr : (i t).ready = true) :
    Chain.sinkReady (trace (Chain.step dw) (Chain.reset dw) i t) = true ∨
    (To444.sourceValid (trace (Chain.step dw) (Chain.reset dw) i t).up && (i t).ready) = true := by
  have h := (C27_no_deadlock (Chain.upIn dw i) (fun _ => rfl) t).2
  rw [← Chain.up_eq] at h
  cases hs : To444.sinkReady (trace (Chain.step dw) (Chain.reset dw) i t).up
  · right; rw [h hs, hr]; rfl
  · left; unfold Chain.sinkReady PipelinedActor.pipeCe; rw [hs]; rfl

/-- Non-vacuity: a stalling consumer. -/
example : chainDelivered 8 (fun t => ⟨true, ⟨t, 10 * t, 255 - t⟩, t % 3 != 1⟩) 9 =
    [⟨0, 5, 254⟩, ⟨1, 5, 254⟩, ⟨2, 25, 252⟩] := by decide

end Verif.Props
