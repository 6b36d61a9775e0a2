import Verif.Model.RawCopies
import Verif.Props.HdmiMode

/-!
# C124: copies of the received words
-/

namespace Verif.Props

open Verif.Spec.Stream Verif.Spec.Receiver Verif.Spec.Serial Verif.Spec.Tmds Verif.VideoOut Verif.Gated
open Verif.RawCopies (dataDvi dataHdmi)
open Verif.HdmiMode (Rx)

/-- Each edge of `pix_o` sees a new state of the pixel clock domain, in order: the edge number `q` of
`pix_o` comes after `q + m` edges of the pixel clock. -/
def ClocksInStep {ι : Type} (y : Nat → RawCopies.In ι) (m : Nat) : Prop :=
  ∀ t, (y t).pixoEdge = true →
    countIn (fun u => (y u).pixEdge) 0 t = countIn (fun u => (y u).pixoEdge) 0 t + m

/-- What the copies hold after `q + 1` edges of `pix_o`. -/
theorem copies_hold {σ ι : Type} (rxStep : σ → ι → σ) (s0 : σ) (data : σ → Nat → ChanSync.Word)
    (y : Nat → RawCopies.In ι) (m : Nat) (hm : ClocksInStep y m) (Y : Nat → ι)
    (hY : ∀ t, (y t).pixEdge = true → (y t).rx = Y (countIn (fun u => (y u).pixEdge) 0 t)) (t q : Nat)
    (hq : countIn (fun u => (y u).pixoEdge) 0 t = q + 1) (i : Nat) :
    (trace (RawCopies.step rxStep data) (RawCopies.reset s0) y t).c i =
      (data (trace rxStep s0 Y (q + m)) i).raw := by
  have hrx : ∀ t, (trace (RawCopies.step rxStep data) (RawCopies.reset s0) y t).rx =
      trace rxStep s0 Y (countIn (fun u => (y u).pixEdge) 0 t) := by
    refine fun t => trace_ticks rxStep s0 (fun u => (y u).pixEdge)
      (fun t => (trace (RawCopies.step rxStep data) (RawCopies.reset s0) y t).rx) Y rfl (fun t => ?_) t
    show (if (y t).pixEdge then _ else _) = _
    by_cases h : (y t).pixEdge = true
    · rw [if_pos h, if_pos h, hY t h]
    · rw [if_neg h, if_neg h]
  induction t generalizing q with
  | zero => simp [countIn] at hq
  | succ t ih =>
    simp only [countIn, Nat.zero_add] at hq
    show (if (y t).pixoEdge then _ else _ : Nat → BitVec 10) i = _
    by_cases h : (y t).pixoEdge = true
    · rw [if_pos h]
      rw [if_pos h] at hq
      rw [hrx, hm t h, show countIn (fun u => (y u).pixoEdge) 0 t = q by omega]
    · rw [if_neg h]
      rw [if_neg h] at hq
      exact ih q hq

/-- The words of the three lanes as they leave the channel aligner. -/
theorem aligned_words (s0 : Receiver.State) (hs0 : Registers s0) (x : Nat → Phy)
    (k : Nat → Nat) (bits : Nat → Nat → Bool) (n0 f g : Nat)
    (he : ∀ i, i < 3 → LaneWords (k i) (bits i) n0)
    (hagree : ∀ n, n0 + 10 ≤ n → LanesAgree x k bits n)
    (tr : Training x n0 f g) (hskew : ∀ i j, i < 3 → j < 3 → k i ≤ k j + 70) :
    ∃ L, (∀ i, i < 3 → k i / 10 + 1 ≤ L ∧ L ≤ k i / 10 + 22) ∧
      ∀ n, g ≤ n → ∀ i, i < 3 →
        (ChanSync.dataOut (rxOn s0 bits (n + L)).chan i).raw = receivedWord (bits i) (k i) n ∧
        (ChanSync.dataOut (rxOn s0 bits (n + L)).chan i).d = decodeByte (receivedWord (bits i) (k i) n) ∧
        (ChanSync.dataOut (rxOn s0 bits (n + L)).chan i).de = (x n).de := by
  obtain ⟨T, hT, hd⟩ := rx_chan_synced hs0 he tr hskew (fun m h _ => hagree m h)
  have hT0 := hT 0 (by omega)
  have hn0 : n0 + 10 ≤ g := by have := tr.later; have := tr.long; omega
  refine ⟨T - g, fun i hi => by have := hT i hi; omega, fun n hn i hi => ?_⟩
  obtain ⟨j, rfl⟩ : ∃ j, n = g + j := ⟨n - g, by omega⟩
  have hmin : min i 2 = i := by omega
  rw [show g + j + (T - g) = T + j by omega, (hd j fun m h _ => hagree m h).1 i hi]
  refine ⟨?_, ?_, chan_word_de hs0 he i (g + j) (by omega) (hagree _ (by omega))⟩
  · show (laneFrom _ _ _).decod.raw = _
    rw [hmin]
    obtain ⟨h1, -⟩ := lane_aligned_errors (laneIx s0 i) (laneIx_counter hs0 i) (k i) (bits i) n0 (he i hi)
      (g + j) (by omega)
    rw [← h1, show g + j + 7 + k i / 10 = g + j + 6 + k i / 10 + 1 by omega]
    rfl
  · have := (chan_word hs0 he i (g + j) (by omega)).2.2.1
    rw [hmin] at this
    rw [← this]
    show (laneFrom _ _ _).decod.d = _
    rw [hmin]

/-! ### The property -/

/-- **C124** The outputs `c0`, `c1`, `c2` of a receiver that has locked are the ten-bit words that arrive on
the three lanes, from every clock `n ≥ g` (the end of the first complete line, as in C112): after `n + L - m`
edges of `pix_o` they hold word `n` of each lane, whose pixel is on the colour outputs after `n + L` edges
of the pixel clock.  No word is skipped, repeated or combined with words of other clocks; nothing is
assumed of the words but what locking needs (C112).  With the pixel clock as `pix_o`, `m` is 0. -/
theorem C124_words (x : Nat → Phy) (k : Nat → Nat) (bits : Nat → Nat → Bool) (n0 f g : Nat)
    (he : ∀ i, i < 3 → LaneWords (k i) (bits i) n0)
    (hagree : ∀ n, n0 + 10 ≤ n → LanesAgree x k bits n)
    (tr : Training x n0 f g) (hskew : ∀ i j, i < 3 → j < 3 → k i ≤ k j + 70)
    (y : Nat → RawCopies.In Receiver.In) (m : Nat) (hm : ClocksInStep y m)
    (hy : ∀ t, (y t).pixEdge = true → (y t).rx =
      let c := countIn (fun u => (y u).pixEdge) 0 t
      ⟨deserialised (bits 0) c, deserialised (bits 1) c, deserialised (bits 2) c⟩) :
    let s := trace (RawCopies.step Receiver.step dataDvi) (RawCopies.reset Receiver.reset) y
    ∃ L, (∀ i, i < 3 → k i / 10 + 2 ≤ L ∧ L ≤ k i / 10 + 23) ∧
      ∀ t n, g ≤ n →
        (countIn (fun u => (y u).pixEdge) 0 t = n + L →
          Analysis.SyncPolarity.de (s t).rx.pol = (x n).de ∧
          (s t).rx.pol.r = decodeByte (receivedWord (bits 2) (k 2) n) ∧
          (s t).rx.pol.g = decodeByte (receivedWord (bits 1) (k 1) n) ∧
          (s t).rx.pol.b = decodeByte (receivedWord (bits 0) (k 0) n)) ∧
        (countIn (fun u => (y u).pixoEdge) 0 t + m = n + L → 0 < countIn (fun u => (y u).pixoEdge) 0 t →
          ∀ i, i < 3 → (s t).c i = receivedWord (bits i) (k i) n) := by
  intro s
  obtain ⟨L, hL, hw⟩ := aligned_words Receiver.reset reset_registers x k bits n0 f g he hagree tr hskew
  refine ⟨L + 1, fun i hi => by have := hL i hi; omega, fun t n hn => ⟨fun ht => ?_, fun ht hq i hi => ?_⟩⟩
  · have hrx : (s t).rx = rxOn Receiver.reset bits (countIn (fun u => (y u).pixEdge) 0 t) := by
      refine trace_ticks Receiver.step Receiver.reset (fun u => (y u).pixEdge) (fun t => (s t).rx) _ rfl
        (fun t => ?_) t
      show (if (y t).pixEdge then _ else _) = _
      by_cases h : (y t).pixEdge = true
      · rw [if_pos h, if_pos h, hy t h]
      · rw [if_neg h, if_neg h]
    rw [hrx, ht, show n + (L + 1) = n + L + 1 by omega]
    exact ⟨(hw n hn 0 (by omega)).2.2, (hw n hn 2 (by omega)).2.1, (hw n hn 1 (by omega)).2.1,
      (hw n hn 0 (by omega)).2.1⟩
  · obtain ⟨q, hq⟩ : ∃ q, countIn (fun u => (y u).pixoEdge) 0 t = q + 1 :=
      ⟨countIn (fun u => (y u).pixoEdge) 0 t - 1, by omega⟩
    rw [show s t = trace (RawCopies.step Receiver.step dataDvi) (RawCopies.reset Receiver.reset) y t from rfl,
      copies_hold Receiver.step Receiver.reset dataDvi y m hm (fun c => ⟨deserialised (bits 0) c,
        deserialised (bits 1) c, deserialised (bits 2) c⟩) hy t q hq i,
      show q + m = n + L by omega]
    exact (hw n hn i hi).1

/-- **C124** The same with `hdmi=True`, whatever the `dvimode` register holds: one clock later. -/
theorem C124_words_hdmi (x : Nat → Phy) (k : Nat → Nat) (bits : Nat → Nat → Bool) (n0 f g : Nat)
    (he : ∀ i, i < 3 → LaneWords (k i) (bits i) n0)
    (hagree : ∀ n, n0 + 10 ≤ n → LanesAgree x k bits n)
    (tr : Training x n0 f g) (hskew : ∀ i j, i < 3 → j < 3 → k i ≤ k j + 70)
    (y : Nat → RawCopies.In (Receiver.In × Bool)) (m : Nat) (hm : ClocksInStep y m) (dvimode : Nat → Bool)
    (hy : ∀ t, (y t).pixEdge = true → (y t).rx =
      let c := countIn (fun u => (y u).pixEdge) 0 t
      (⟨deserialised (bits 0) c, deserialised (bits 1) c, deserialised (bits 2) c⟩, dvimode c)) :
    let s := trace (RawCopies.step Rx.step dataHdmi) (RawCopies.reset Rx.reset) y
    ∃ L, (∀ i, i < 3 → k i / 10 + 3 ≤ L ∧ L ≤ k i / 10 + 24) ∧
      ∀ t n, g ≤ n →
        (countIn (fun u => (y u).pixEdge) 0 t = n + L →
          (s t).rx.path.pol.r = decodeByte (receivedWord (bits 2) (k 2) n) ∧
          (s t).rx.path.pol.g = decodeByte (receivedWord (bits 1) (k 1) n) ∧
          (s t).rx.path.pol.b = decodeByte (receivedWord (bits 0) (k 0) n)) ∧
        (countIn (fun u => (y u).pixoEdge) 0 t + m = n + L → 0 < countIn (fun u => (y u).pixoEdge) 0 t →
          ∀ i, i < 3 → (s t).c i = receivedWord (bits i) (k i) n) := by
  intro s
  obtain ⟨L, hL, hw⟩ := aligned_words Receiver.reset reset_registers x k bits n0 f g he hagree tr hskew
  let Y : Nat → Receiver.In × Bool := fun c =>
    (⟨deserialised (bits 0) c, deserialised (bits 1) c, deserialised (bits 2) c⟩, dvimode c)
  have hdel : ∀ c, Follows (fun c => (Y c).1) (c + 1) c (trace Rx.step Rx.reset Y c) := by
    intro c
    suffices h : ∀ C c, c ≤ C → Follows (fun c => (Y c).1) (C + 1) c (trace Rx.step Rx.reset Y c) from
      h c c (Nat.le_refl _)
    intro C c hc
    induction c with
    | zero => exact follows_reset _ _
    | succ c ih => exact follows_step (ih (by omega)) _ (fun h => absurd h (by omega))
  have hL0 := hL 0 (by omega)
  refine ⟨L + 2, fun i hi => by have := hL i hi; omega, fun t n hn => ⟨fun ht => ?_, fun ht hq i hi => ?_⟩⟩
  · have hrx : (s t).rx = trace Rx.step Rx.reset Y (countIn (fun u => (y u).pixEdge) 0 t) := by
      refine trace_ticks Rx.step Rx.reset (fun u => (y u).pixEdge) (fun t => (s t).rx) _ rfl
        (fun t => ?_) t
      show (if (y t).pixEdge then _ else _) = _
      by_cases h : (y t).pixEdge = true
      · rw [if_pos h, if_pos h, hy t h]
      · rw [if_neg h, if_neg h]
    rw [hrx, ht]
    obtain ⟨a, b, c⟩ := (hdel (n + (L + 2))).rgb (n + L + 1) (by omega) (by omega)
    rw [a, b, c]
    exact ⟨(hw n hn 2 (by omega)).2.1, (hw n hn 1 (by omega)).2.1, (hw n hn 0 (by omega)).2.1⟩
  · obtain ⟨q, hq⟩ : ∃ q, countIn (fun u => (y u).pixoEdge) 0 t = q + 1 :=
      ⟨countIn (fun u => (y u).pixoEdge) 0 t - 1, by omega⟩
    rw [show s t = trace (RawCopies.step Rx.step dataHdmi) (RawCopies.reset Rx.reset) y t from rfl,
      copies_hold Rx.step Rx.reset dataHdmi y m hm Y hy t q hq i,
      show q + m = n + L + 1 by omega]
    obtain ⟨d0, d1, d2, -⟩ := (hdel (n + L + 1)).delay (n + L) rfl
    have : i = 0 ∨ i = 1 ∨ i = 2 := by omega
    rcases this with rfl | rfl | rfl
    · exact (congrArg ChanSync.Word.raw d0).trans (hw n hn 0 hi).1
    · exact (congrArg ChanSync.Word.raw d1).trans (hw n hn 1 hi).1
    · exact (congrArg ChanSync.Word.raw d2).trans (hw n hn 2 hi).1

/-! ### A concrete case -/

/-- The lanes of the run of C84; the pixel clock has its edges at even instants, `pix_o` at odd ones. -/
def splitRun (t : Nat) : RawCopies.In Receiver.In :=
  { pixEdge := t % 2 == 0, pixoEdge := t % 2 == 1, rx := (shortRun (t / 2)).raw }

theorem split_counts (t : Nat) :
    countIn (fun u => (splitRun u).pixEdge) 0 t = (t + 1) / 2 ∧
    countIn (fun u => (splitRun u).pixoEdge) 0 t = t / 2 := by
  induction t with
  | zero => exact ⟨rfl, rfl⟩
  | succ t ih =>
    simp only [countIn, splitRun, Nat.zero_add, beq_iff_eq] at ih ⊢
    rw [ih.1, ih.2]
    constructor
    · split <;> omega
    · split <;> omega

/-- All hypotheses of C124 hold for this run, with `m = 1`. -/
example : (∀ i, i < 3 → LaneWords (13 * i + 2) (laneBits shortVideo (fun i => 13 * i + 2)
      (fun _ _ => true) i) 0) ∧
    (∀ n, 0 + 10 ≤ n → LanesAgree shortVideo (fun i => 13 * i + 2)
      (laneBits shortVideo (fun i => 13 * i + 2) (fun _ _ => true)) n) ∧
    Training shortVideo 0 28 48 ∧ ClocksInStep splitRun 1 ∧
    ∀ t, (splitRun t).pixEdge = true → (splitRun t).rx =
      let c := countIn (fun u => (splitRun u).pixEdge) 0 t
      let bits := laneBits shortVideo (fun i => 13 * i + 2) (fun _ _ => true)
      ⟨deserialised (bits 0) c, deserialised (bits 1) c, deserialised (bits 2) c⟩ := by
  refine ⟨kind_words (intact_kind shortVideo (fun i => 13 * i + 2) (fun _ _ => true) 0) short_training,
    fun n _ => kind_agree (intact_kind shortVideo (fun i => 13 * i + 2) (fun _ _ => true) 0) n (by omega),
    short_training, fun t ht => ?_, fun t ht => ?_⟩
  · rw [(split_counts t).1, (split_counts t).2]
    simp only [splitRun, beq_iff_eq] at ht
    omega
  · rw [(split_counts t).1]
    simp only [splitRun, beq_iff_eq] at ht
    rw [show (t + 1) / 2 = t / 2 by omega]
    rfl

end Verif.Props
