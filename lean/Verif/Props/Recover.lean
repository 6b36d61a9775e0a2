import Verif.Proofs.Recover

/-!
# C130: the HDMI input recovers when its clock comes back
-/

namespace Verif.Props

open Verif.HdmiIn Verif.Spec.HdmiIn Verif.Spec.Capture Verif.Spec.Frame Verif.Spec.Stream
  Verif.Spec.Receiver Verif.Spec.Serial Verif.VideoOut Verif.Output Verif.Spec.Tmds
  Verif.Spec.Output Verif.Spec.Loop Verif.Loop Verif.Spec.CaptureCdc Verif.Spec
open Verif.Capture (rgb ycbcr422 Extractor Word offers packs_rgb packs_ycbcr422 Packs Moves rate_no_overflow rate_moves)
open Verif.GrayFifo (writable Settled)
open Verif.Recover

section

variable {n w S T : Nat} {y : Nat → HdmiCdc.In n w} {c : Nat} {sl : Nat → Dma.Slot} {wf rf : Nat → Bool}

theorem again_size {aw al N : Nat} (h : ∀ t, S ≤ t → Dma.wordsOf aw al (y t).frame_size = N) (t : Nat) :
    Dma.wordsOf aw al (again y S T c sl wf rf t).frame_size = N := by
  match t with
  | 0 => exact h _ (Nat.le_refl _)
  | 1 => exact h _ (Nat.le_refl _)
  | t + 2 => exact h _ (by omega)

theorem again_pix (h : ∀ T, ∃ u, T ≤ u ∧ (y u).pixEdge = true) (T1 : Nat) :
    ∃ u, T1 ≤ u ∧ (again y S T c sl wf rf u).pixEdge = true := by
  obtain ⟨u, h1, h2⟩ := h (S + T1)
  refine ⟨u - S + 2, by omega, ?_⟩
  show (y (S + (u - S))).pixEdge = true
  rwa [show S + (u - S) = u by omega]

theorem again_lanes {bits : Nat → Nat → Bool} (h : Cdc.LanesDeliver bits (fun u => y (S + u))) :
    LanesOn bits (again y S T c sl wf rf) := by
  intro t
  match t with
  | 0 => exact fun h => absurd h (by simp [again])
  | 1 => exact fun h => absurd h (by simp [again])
  | t + 2 =>
    intro ht
    rw [pix_two]
    exact h t ht

end

section

variable {σ : Type} {w : Nat} {E : Extractor σ w} {n nslots aw al : Nat} {f0 : GrayFifo.State n (Word w)}
  {y : Nat → HdmiCdc.In n w} {S Q A T : Nat}

theorem again_loses_none (hE : Packs E) (hn : 1 ≤ n) {N B W R d : Nat} (hB : 1 ≤ B)
    (hback : Cdc.ClockBack y S) (hdrain : Cdc.Drains E nslots aw al f0 y S Q A T)
    (hsize : ∀ t, S ≤ t → Dma.wordsOf aw al (y t).frame_size = N) (hBN : B ≤ N)
    (fast : FastEnough E.pf B W R d (fun u => (y (S + u)).pixEdge) (fun u => (y (S + u)).sysEdge)
      (fun u => (y (S + u)).busReady) (fun u => (y (S + u)).wdataValid)
      (fun u => circuitHanded E nslots aw al f0 (Cdc.cdcIn E nslots aw al f0 y) (S + u)))
    (enough : R + B + d + 2 ≤ W) (hdepth : 2 * B + 1 < 2 ^ n)
    (pix : ∀ T, ∃ u, T ≤ u ∧ (y u).pixEdge = true) :
    (∀ T0 T1, NoOverflow E (2 ^ n) nslots aw al (zAgain E nslots aw al f0 y S T) T0 T1) ∧
    Moves E (2 ^ n) nslots aw al (zAgain E nslots aw al f0 y S T) := by
  have hpf := hE.pf
  have fast' := fast_two (T := T) (c := (Cdc.hdmiCdc E nslots aw al f0 y S).cap.dma.current_slot)
    (sl := (Cdc.hdmiCdc E nslots aw al f0 y S).cap.dma.slots)
    (wf := fun t => writable (Cdc.hdmiCdc E nslots aw al f0 y t).cap.fifo)
    (rf := fun t => GrayFifo.readable (Cdc.hdmiCdc E nslots aw al f0 y t).cap.fifo)
    hB (by omega) (handed_eq hn hback hdrain) fast
  constructor
  · refine rate_no_overflow hE hB (x := zAgain E nslots aw al f0 y S T) (again_size hsize) hBN fast' enough
      (hides hn hback hdrain) (by omega) (lags hn hback hdrain) ?_
    have h : (2 + E.pf - 1) / E.pf ≤ 1 := Nat.le_of_lt_succ ((Nat.div_lt_iff_lt_mul (by omega)).2 (by omega))
    omega
  · exact rate_moves (x := zAgain E nslots aw al f0 y S T) fast' (by omega) (hides hn hback hdrain)
      (again_pix pix)

end

section

variable {p : Params} {x : Nat → Phy} {m0 d0 : Nat} {film : Nat → Nat → Colour}

/-- **C130** The input recovers.  Before instant `S` anything may have happened: the clock of the link has been
lost and the pixel clock domain has been reset, and the FIFO holds whatever it holds.  At `S` the reset is
over, and from then on a film arrives, as in C127.  Software has no slot loaded until the FIFO has drained,
between instants `Q` and `T` at which no word is captured, as in a vertical blanking.  Then from `Q` on the
FIFO refuses no word, and from `T0` on all that C127 says of a receiver from power-up: each transfer that is
done brings one picture to memory, in order and exactly but for colours that have been hit, and if software
loads no slot any more then a slot that is LOADED gets its picture. -/
theorem C130_film (hp : RealMode p) (hx : Film p x m0 d0 film)
    (k : Nat → Nat) (lead bits : Nat → Nat → Bool) (herr : IsolatedErrors x k lead bits (m0 + d0))
    (hskew : ∀ i j, i < 3 → j < 3 → k i ≤ k j + 70)
    (pf n nslots aw al N B W R d : Nat) (hpf : 2 ≤ pf) (hn : 1 ≤ n) (hB : 1 ≤ B)
    (f0 : GrayFifo.State n (Word 32)) (y : Nat → HdmiCdc.In n 32) (S Q A T : Nat)
    (hback : Cdc.ClockBack y S) (hdrain : Cdc.Drains (rgb pf) nslots aw al f0 y S Q A T)
    (hl : Cdc.LanesDeliver bits (fun u => y (S + u)))
    (hN : N * pf = p.vres * p.hres) (hsize : ∀ t, S ≤ t → Dma.wordsOf aw al (y t).frame_size = N)
    (hBN : B ≤ N)
    (fast : FastEnough pf B W R d (fun u => (y (S + u)).pixEdge) (fun u => (y (S + u)).sysEdge)
      (fun u => (y (S + u)).busReady) (fun u => (y (S + u)).wdataValid)
      (fun u => circuitHanded (rgb pf) nslots aw al f0 (Cdc.cdcIn (rgb pf) nslots aw al f0 y) (S + u)))
    (enough : R + B + d + 2 ≤ W) (hdepth : 2 * B + 1 < 2 ^ n)
    (pix : ∀ T, ∃ u, T ≤ u ∧ (y u).pixEdge = true) (T0 : Nat) (hT0 : T ≤ T0)
    (hseen : m0 + d0 + 4 * frameLen p + k 0 / 10 + 25 ≤ countIn (fun u => (y (S + u)).pixEdge) 0 (T0 - S)) :
    let z := Cdc.cdcIn (rgb pf) nslots aw al f0 y
    Cdc.AtRest (rgb pf) nslots aw al f0 z T0 → Cdc.SoftwareOwns (rgb pf) nslots aw al f0 z T0 →
    (∀ t, Q ≤ t → (y t).pixEdge = true → offers (rgb pf) (circuit (rgb pf) nslots aw al f0 z t).frame = true →
      writable (circuit (rgb pf) nslots aw al f0 z t).fifo = true) ∧
    ∃ film', OnlyHitColours p x k lead bits m0 d0 film film' ∧
      Cdc.InOrder (rgb pf) nslots aw al f0 z T0 (fun e j ws => m0 ≤ j * frameLen p ∧
        OnItsWay p (fun u => (y (S + u)).pixEdge) d0 (k 0 / 10 + 25) (T0 - S) (e - S) j ∧
        ws = groups pf ((List.range (p.vres * p.hres)).map (fun q => rgb24 (film' j q)))) ∧
      (Cdc.LoadsNone z T0 → ∀ s, s < nslots →
        ((circuit (rgb pf) nslots aw al f0 z T0).dma.slots s).valid = true →
        ∃ e, T0 ≤ e ∧ Cdc.Done (rgb pf) nslots aw al f0 z e s) := by
  intro z rest own
  have ho := hdrain.order
  obtain ⟨m, rfl⟩ : ∃ m, T0 = S + m := ⟨T0 - S, by omega⟩
  rw [Nat.add_sub_cancel_left] at hseen ⊢
  obtain ⟨hno, hmoves⟩ := again_loses_none (packs_rgb hpf) hn hB hback hdrain hsize hBN fast enough hdepth pix
  have rest := rest_two hn hback hdrain hT0 rest
  have own := owns_two hn hback hdrain hT0 own
  refine ⟨refuses_two hn hback hdrain hno, ?_⟩
  obtain ⟨F, ff⟩ := film_facts hp hx hN
  obtain ⟨V, L, hL, hV, hlat⟩ := hdmi_video_errors (E := (rgb pf)) (depth := 2 ^ n) (nslots := nslots)
    (aw := aw) (al := al) (y := yAgain (rgb pf) nslots aw al f0 y S T) (again_lanes hl)
    (isolated_only_pixels (isolated_mono herr (n1 := F * frameLen p - lineLen p + d0) (by have := ff.first; omega)))
    ff.lock hskew ff.order0 ff.standard
  have hseen' : m0 + d0 + 4 * frameLen p + L + 2 ≤
      countIn (fun u => (yAgain (rgb pf) nslots aw al f0 y S T u).pixEdge) 0 (m + 2) := by
    rw [pix_two]; omega
  refine ⟨_, only_hit hp hx lead, order_two hn hback hdrain hT0 hno ?_
    (film_in_order hp (film_arrives hx k bits) hpf hN
      (facts_arrive ff k bits) hV hlat hseen' (fun t _ => again_size hsize t) rest own),
    fun none s hs hload => ?_⟩
  · rintro e j ws ⟨h1, ⟨h2, h3⟩, h4⟩
    rw [pix_two] at h2
    rw [show e + 2 + 1 = e + 1 + 2 by omega, pix_two] at h3
    rw [Nat.add_sub_cancel_left]
    exact ⟨h1, ⟨by omega, h3⟩, h4⟩
  · have hload' : ((capture (rgb pf) (2 ^ n) nslots aw al (zAgain (rgb pf) nslots aw al f0 y S T)
        (m + 2)).dma.slots s).valid = true := by
      rw [← (same hn hback hdrain hT0).dma]; exact hload
    obtain ⟨e, b, j, h1, -, -, h2, h3⟩ := film_delivered hp (film_arrives hx k bits) hpf hN
      (facts_arrive ff k bits) hV hlat hseen' (fun t _ => again_size hsize t) (again_pix pix) hmoves
      (loads_two none) hs rest own hload' (fun T1 _ => hno (m + 2) (T1 + 1))
    have h4 := h3.1
    obtain ⟨u, rfl⟩ : ∃ u, e = u + 2 := ⟨e - 2, by omega⟩
    exact ⟨S + u, by omega, (done_two hn hback hdrain (by omega) s).1 h2⟩

/-- **C130**, receiver in ycbcr422 mode (the default). -/
theorem C130_film_ycbcr422 (hp : RealMode p) (hx : Film p x m0 d0 film)
    (hev : p.hres % 2 = 0) (hbl : p.hres + 10 ≤ p.hscan)
    (k : Nat → Nat) (lead bits : Nat → Nat → Bool) (herr : IsolatedErrors x k lead bits (m0 + d0))
    (hskew : ∀ i j, i < 3 → j < 3 → k i ≤ k j + 70)
    (pf n nslots aw al N B W R d : Nat) (hpf : 2 ≤ pf) (hn : 1 ≤ n) (hB : 1 ≤ B)
    (f0 : GrayFifo.State n (Word 16)) (y : Nat → HdmiCdc.In n 16) (S Q A T : Nat)
    (hback : Cdc.ClockBack y S) (hdrain : Cdc.Drains (ycbcr422 pf) nslots aw al f0 y S Q A T)
    (hl : Cdc.LanesDeliver bits (fun u => y (S + u)))
    (hN : N * pf = p.vres * p.hres) (hsize : ∀ t, S ≤ t → Dma.wordsOf aw al (y t).frame_size = N)
    (hBN : B ≤ N)
    (fast : FastEnough pf B W R d (fun u => (y (S + u)).pixEdge) (fun u => (y (S + u)).sysEdge)
      (fun u => (y (S + u)).busReady) (fun u => (y (S + u)).wdataValid)
      (fun u => circuitHanded (ycbcr422 pf) nslots aw al f0 (Cdc.cdcIn (ycbcr422 pf) nslots aw al f0 y) (S + u)))
    (enough : R + B + d + 2 ≤ W) (hdepth : 2 * B + 1 < 2 ^ n)
    (pix : ∀ T, ∃ u, T ≤ u ∧ (y u).pixEdge = true) (T0 : Nat) (hT0 : T ≤ T0)
    (hseen : m0 + d0 + 4 * frameLen p + k 0 / 10 + 25 ≤ countIn (fun u => (y (S + u)).pixEdge) 0 (T0 - S)) :
    let z := Cdc.cdcIn (ycbcr422 pf) nslots aw al f0 y
    Cdc.AtRest (ycbcr422 pf) nslots aw al f0 z T0 → Cdc.SoftwareOwns (ycbcr422 pf) nslots aw al f0 z T0 →
    (∀ t, Q ≤ t → (y t).pixEdge = true → offers (ycbcr422 pf) (circuit (ycbcr422 pf) nslots aw al f0 z t).frame = true →
      writable (circuit (ycbcr422 pf) nslots aw al f0 z t).fifo = true) ∧
    ∃ film', OnlyHitColours p x k lead bits m0 d0 film film' ∧
      Cdc.InOrder (ycbcr422 pf) nslots aw al f0 z T0 (fun e j ws => m0 ≤ j * frameLen p ∧
        OnItsWay p (fun u => (y (S + u)).pixEdge) d0 (k 0 / 10 + 25) (T0 - S) (e - S) j ∧
        ws = groups pf ((List.range (p.vres * p.hres)).map (pic422 (film' j)))) ∧
      (Cdc.LoadsNone z T0 → ∀ s, s < nslots →
        ((circuit (ycbcr422 pf) nslots aw al f0 z T0).dma.slots s).valid = true →
        ∃ e, T0 ≤ e ∧ Cdc.Done (ycbcr422 pf) nslots aw al f0 z e s) := by
  intro z rest own
  have ho := hdrain.order
  obtain ⟨m, rfl⟩ : ∃ m, T0 = S + m := ⟨T0 - S, by omega⟩
  rw [Nat.add_sub_cancel_left] at hseen ⊢
  obtain ⟨hno, hmoves⟩ := again_loses_none (packs_ycbcr422 hpf) hn hB hback hdrain hsize hBN fast enough hdepth pix
  have rest := rest_two hn hback hdrain hT0 rest
  have own := owns_two hn hback hdrain hT0 own
  refine ⟨refuses_two hn hback hdrain hno, ?_⟩
  obtain ⟨F, ff⟩ := film_facts hp hx hN
  obtain ⟨V, L, hL, hV, hlat⟩ := hdmi_video_errors (E := (ycbcr422 pf)) (depth := 2 ^ n) (nslots := nslots)
    (aw := aw) (al := al) (y := yAgain (ycbcr422 pf) nslots aw al f0 y S T) (again_lanes hl)
    (isolated_only_pixels (isolated_mono herr (n1 := F * frameLen p - lineLen p + d0) (by have := ff.first; omega)))
    ff.lock hskew ff.order0 ff.standard
  have hseen' : m0 + d0 + 4 * frameLen p + L + 2 ≤
      countIn (fun u => (yAgain (ycbcr422 pf) nslots aw al f0 y S T u).pixEdge) 0 (m + 2) := by
    rw [pix_two]; omega
  refine ⟨_, only_hit hp hx lead, order_two hn hback hdrain hT0 hno ?_
    (film_in_order422 hp (film_arrives hx k bits) hev hbl hpf hN
      (facts_arrive ff k bits) hV hlat hseen' (fun t _ => again_size hsize t) rest own),
    fun none s hs hload => ?_⟩
  · rintro e j ws ⟨h1, ⟨h2, h3⟩, h4⟩
    rw [pix_two] at h2
    rw [show e + 2 + 1 = e + 1 + 2 by omega, pix_two] at h3
    rw [Nat.add_sub_cancel_left]
    exact ⟨h1, ⟨by omega, h3⟩, h4⟩
  · have hload' : ((capture (ycbcr422 pf) (2 ^ n) nslots aw al (zAgain (ycbcr422 pf) nslots aw al f0 y S T)
        (m + 2)).dma.slots s).valid = true := by
      rw [← (same hn hback hdrain hT0).dma]; exact hload
    obtain ⟨e, b, j, h1, -, -, h2, h3⟩ := film_delivered422 hp (film_arrives hx k bits) hev hbl hpf hN
      (facts_arrive ff k bits) hV hlat hseen' (fun t _ => again_size hsize t) (again_pix pix) hmoves
      (loads_two none) hs rest own hload' (fun T1 _ => hno (m + 2) (T1 + 1))
    have h4 := h3.1
    obtain ⟨u, rfl⟩ : ∃ u, e = u + 2 := ⟨e - 2, by omega⟩
    exact ⟨S + u, by omega, (done_two hn hback hdrain (by omega) s).1 h2⟩

end

/-! ### A concrete case -/

section

variable {σ : Type} {w : Nat}

/-- From the end of the reset on: the pixel clock comes back after 48 system clocks and pauses once more, for
64 instants from `P` on, at the end of which software loads slot 1.  Memory and synchronisers are as in the
example of C127. -/
def backTail (raw : Nat → Receiver.In) (P u : Nat) : HdmiCdc.In 4 w :=
  { pixEdge := u % 8 == 7 && decide (48 ≤ u) && (decide (u < P) || decide (P + 64 ≤ u)), pixRst := false
    raw := raw u
    sysEdge := true, busReady := u % 3 != 0, wdataValid := u % 4 != 0, frame_size := 16
    sw := fun n => if u = P + 63 ∧ n = 1 then ⟨some 1, some 400⟩ else ⟨none, none⟩
    rOld := BitVec.ofNat 5 u, wOld := BitVec.ofNat 5 (3 * u), clash := (false, []) }

/-- The pixel clock domain is reset at instant 1. -/
def backRun (raw : Nat → Receiver.In) (P t : Nat) : HdmiCdc.In 4 w :=
  if t < 2 then { slowRun raw t with pixRst := true } else backTail raw P (t - 2)

/-- At the beginning the FIFO is full of stale words: its read counter is ahead. -/
def staleFifo (w : Nat) : GrayFifo.State 4 (Word w) :=
  { GrayFifo.reset 4 ((false, []) : Word w) with consume := 5 }

variable (raw : Nat → Receiver.In) (P : Nat)

theorem back_tail (u : Nat) : backRun (w := w) raw P (2 + u) = backTail raw P u := by
  unfold backRun
  rw [if_neg (by omega), Nat.add_sub_cancel_left]

theorem back_tail' (t : Nat) (h : 2 ≤ t) : backRun (w := w) raw P t = backTail raw P (t - 2) := by
  unfold backRun
  rw [if_neg (by omega)]

theorem back_sys (t : Nat) : (backRun (w := w) raw P t).sysEdge = true := by
  unfold backRun; split <;> rfl

theorem back_count (h8 : P % 8 = 0) (hP : 48 ≤ P) (m : Nat) :
    countIn (fun u => (backRun (w := w) raw P (2 + u)).pixEdge) 0 m =
      if m ≤ 48 then 0 else if m ≤ P then (m - 48) / 8 else if m ≤ P + 64 then (P - 48) / 8
      else (m - 112) / 8 := by
  induction m with
  | zero => rfl
  | succ m ih =>
    rw [countIn, ih, Nat.zero_add]
    simp only [back_tail]
    have : (backTail (w := w) raw P m).pixEdge = decide (m % 8 = 7 ∧ 48 ≤ m ∧ (m < P ∨ P + 64 ≤ m)) := by
      simp only [backTail, Bool.decide_and, Bool.decide_or, Bool.and_assoc]
      rfl
    rw [this]
    by_cases h : m % 8 = 7 ∧ 48 ≤ m ∧ (m < P ∨ P + 64 ≤ m)
    · simp only [h, and_self, decide_true, if_true]
      split_ifs <;> omega
    · simp only [h, decide_false, Bool.false_eq_true, if_false]
      split_ifs <;> omega

theorem back_window (t m : Nat) :
    countIn (fun u => (backRun (w := w) raw P (2 + u)).pixEdge) t m ≤ (m + 7) / 8 := by
  have h1 : countIn (fun u => (backRun (w := w) raw P (2 + u)).pixEdge) t m ≤
      countIn (fun u => u % 8 == 7) t m := by
    refine Verif.Capture.count_le (fun u hu => ?_) _ _
    rw [back_tail] at hu
    simp only [backTail, Bool.and_eq_true] at hu
    exact hu.1.1
  have h2 : countIn (fun u => u % 8 == 7) t m = (m + t % 8) / 8 := by
    clear h1
    induction m with
    | zero => simp only [countIn]; omega
    | succ m ih =>
      rw [countIn, ih]
      by_cases h : (t + m) % 8 = 7
      · simp [h]; omega
      · simp [h]; omega
  omega

theorem back_fast (handed : Nat → Bool) : FastEnough 4 1 25 9 3
    (fun u => (backRun (w := w) raw P (2 + u)).pixEdge) (fun u => (backRun (w := w) raw P (2 + u)).sysEdge)
    (fun u => (backRun (w := w) raw P (2 + u)).busReady)
    (fun u => (backRun (w := w) raw P (2 + u)).wdataValid) handed := by
  have hs : ∀ t m, countIn (fun u => (backRun (w := w) raw P (2 + u)).sysEdge) t m = m := by
    intro t m
    induction m with
    | zero => rfl
    | succ m ih => rw [countIn, ih, back_sys]; rfl
  refine ⟨fun t m h => ?_, fun t m h => ?_, fun t m h => ?_⟩
  · have := back_window (w := w) raw P t m
    rw [hs]; omega
  · rw [hs] at h
    have : (fun u => (backRun (w := w) raw P (2 + u)).sysEdge && !(backRun (w := w) raw P (2 + u)).busReady) =
        fun u => (slowRun (w := w) raw u).sysEdge && !(slowRun (w := w) raw u).busReady := by
      funext u; rw [back_tail]; rfl
    rw [this, slow_refused]; omega
  · rw [hs]
    by_contra hm
    have h1 := (h ((t + 3) / 4 * 4) (by omega) (by omega) (back_sys _ _ _)).1
    simp only [back_tail, backTail, bne_iff_ne, ne_eq] at h1
    omega

variable (E : Extractor σ w)

local notation "rr" => Cdc.hdmiCdc E 2 10 2 (staleFifo w) (backRun raw P)

/-- Until slot 1 is loaded the DMA is idle. -/
theorem back_idle (t : Nat) (ht : t ≤ P + 65) :
    (rr t).cap.dma.fsm = .waitSof ∧ ∀ k, ((rr t).cap.dma.slots k).valid = false := by
  induction t with
  | zero => exact ⟨rfl, fun _ => (by decide : (Dma.Slot.mk 0 0).valid = false)⟩
  | succ t ih =>
    obtain ⟨h1, h2⟩ := ih (by omega)
    have hav : Dma.addressValid (rr t).cap.dma = false := h2 _
    have hsw : ∀ k, (backRun (w := w) raw P t).sw k = ⟨none, none⟩ := by
      intro k
      unfold backRun
      split
      · have : ¬ (t = 3998 ∧ k = 1) := by omega
        simp [slowRun, this]
      · have : ¬ (t - 2 = P + 63 ∧ k = 1) := by omega
        simp [backTail, this]
    have hd : (rr (t + 1)).cap.dma = Dma.step 2 10 2 (rr t).cap.dma
        (CaptureCdc.dmaIn (rr t).cap (HdmiCdc.capIn (rr t).rx (backRun raw P t))) := by
      show (if (backRun (w := w) raw P t).sysEdge then _ else _) = _
      rw [back_sys]; rfl
    rw [hd]
    constructor
    · simp only [Dma.step, h1, hav]; rfl
    · intro k
      have : (CaptureCdc.dmaIn (rr t).cap (HdmiCdc.capIn (rr t).rx (backRun raw P t))).sw k = ⟨none, none⟩ :=
        hsw k
      simp only [Dma.step, Dma.addressDone, h1, this, Dma.Slot.step, Dma.Slot.valid]
      exact h2 k

/-- Few pixels have come when the FIFO has drained. -/
theorem back_quiet (h0 : offers E E.reset = false) (h1 : ∀ v, offers E (E.step E.reset v) = false)
    (t : Nat) (ht : 2 ≤ t) (ht' : t < 66) : offers E (rr t).cap.frame = false := by
  have hold : ∀ t, (backRun (w := w) raw P t).pixEdge = false →
      (rr (t + 1)).cap.frame = (rr t).cap.frame := by
    intro t h
    show (if (backRun (w := w) raw P t).pixEdge then _ else _) = _
    rw [h]; rfl
  have hpix : ∀ t, 2 ≤ t → t < 65 → t ≠ 57 → (backRun (w := w) raw P t).pixEdge = false := by
    intro t h2 h65 h57
    rw [back_tail' _ _ _ h2]
    simp only [backTail, Bool.and_eq_false_iff, beq_eq_false_iff_ne, decide_eq_false_iff_not]
    left; omega
  have early : ∀ m, m ≤ 55 → (rr (2 + m)).cap.frame = E.reset := by
    intro m
    induction m with
    | zero => intro _; rfl
    | succ m ih =>
      intro hm
      have := hold (2 + m) (hpix _ (by omega) (by omega) (by omega))
      exact this.trans (ih (by omega))
  have late : ∀ m, m ≤ 7 → offers E (rr (58 + m)).cap.frame = false := by
    intro m
    induction m with
    | zero =>
      intro _
      show offers E (if (backRun (w := w) raw P 57).pixEdge then if (backRun (w := w) raw P 57).pixRst then E.reset
        else E.step (rr (2 + 55)).cap.frame _ else (rr (2 + 55)).cap.frame) = false
      rw [early 55 (by omega)]
      split
      · split
        · exact h0
        · exact h1 _
      · exact h0
    | succ m ih =>
      intro hm
      have := hold (58 + m) (hpix _ (by omega) (by omega) (by omega))
      rw [show 58 + (m + 1) = 58 + m + 1 by omega, this]
      exact ih (by omega)
  rcases Nat.lt_or_ge t 58 with h | h
  · rw [show t = 2 + (t - 2) by omega, early _ (by omega)]; exact h0
  · rw [show t = 58 + (t - 58) by omega]; exact late _ (by omega)

theorem back_clock : Cdc.ClockBack (backRun (w := w) raw P) 2 :=
  ⟨⟨by omega, rfl, rfl⟩, fun t ht => by rw [back_tail' _ _ _ ht]; rfl⟩

theorem back_drains (hP : 64 ≤ P) (h0 : offers E E.reset = false)
    (h1 : ∀ v, offers E (E.step E.reset v) = false) :
    Cdc.Drains E 2 10 2 (staleFifo w) (backRun raw P) 2 2 42 66 := by
  refine ⟨by omega, fun t _ ht => back_idle raw P E t (by omega),
    fun t h ht => back_quiet raw P E h0 h1 t h ht, ?_, ?_⟩
  · show 34 ≤ countIn (fun u => (backRun (w := w) raw P u).sysEdge) 2 40
    rw [show (fun u => (backRun (w := w) raw P u).sysEdge) = fun _ => true from
      funext fun u => back_sys raw P u]
    decide
  · have e1 : (backRun (w := w) raw P 57).pixEdge = true := by
      simp [backRun, backTail]; omega
    have e2 : (backRun (w := w) raw P 65).pixEdge = true := by
      simp [backRun, backTail]; omega
    have c1 := Verif.Capture.count_pos (p := fun u => (backRun (w := w) raw P u).pixEdge) (a := 42) (n := 20)
      (z := 57) (by omega) (by omega) e1
    have c2 := Verif.Capture.count_pos (p := fun u => (backRun (w := w) raw P u).pixEdge) (a := 62) (n := 4)
      (z := 65) (by omega) (by omega) e2
    have : countIn (fun u => (backRun (w := w) raw P u).pixEdge) 42 24 =
      countIn (fun u => (backRun (w := w) raw P u).pixEdge) 42 20 +
      countIn (fun u => (backRun (w := w) raw P u).pixEdge) 62 4 := GrayFifo.count_split _ 42 20 4
    show 2 ≤ countIn (fun u => (backRun (w := w) raw P u).pixEdge) 42 24
    omega

theorem back_rest (h8 : P % 8 = 0) (hP : 64 ≤ P) :
    Cdc.AtRest E 2 10 2 (staleFifo w) (Cdc.cdcIn E 2 10 2 (staleFifo w) (backRun raw P)) (P + 66) ∧
    ((circuit E 2 10 2 (staleFifo w) (Cdc.cdcIn E 2 10 2 (staleFifo w) (backRun raw P)) (P + 66)).dma.slots
      1).valid = true := by
  let x := Cdc.cdcIn E 2 10 2 (staleFifo w) (backRun raw P)
  have hcap : ∀ t, (rr t).cap = circuit E 2 10 2 (staleFifo w) x t := hdmiCdc_cap
  have hidle := back_idle raw P E (P + 65) (Nat.le_refl _)
  have hd : (rr (P + 66)).cap.dma = Dma.step 2 10 2 (rr (P + 65)).cap.dma
      (CaptureCdc.dmaIn (rr (P + 65)).cap (HdmiCdc.capIn (rr (P + 65)).rx (backRun raw P (P + 65)))) := by
    show (if (backRun (w := w) raw P (P + 65)).sysEdge then _ else (rr (P + 65)).cap.dma) = _
    rw [back_sys]; rfl
  have hav : Dma.addressValid (rr (P + 65)).cap.dma = false := hidle.2 _
  refine ⟨⟨?_, ?_⟩, ?_⟩
  · have hf : (circuit E 2 10 2 (staleFifo w) x (P + 2 + 64)).fifo =
        GrayFifo.fifo (circuit E 2 10 2 (staleFifo w) x (P + 2)).fifo
          (fun k => CaptureCdc.fifoAt E 2 10 2 (staleFifo w) x (P + 2 + k)) 64 := by
      rw [CaptureCdc.fifo_eq, CaptureCdc.fifo_eq]
      exact trace_add _ _ _ _ _
    have hc : countIn (fun u => (CaptureCdc.fifoAt E 2 10 2 (staleFifo w) x (P + 2 + u)).readEdge) 0 64 = 64 := by
      rw [show (fun u => (CaptureCdc.fifoAt E 2 10 2 (staleFifo w) x (P + 2 + u)).readEdge) = fun _ => true from
        funext fun u => back_sys raw P _]
      decide
    have hq : GrayFifo.Quiet (circuit E 2 10 2 (staleFifo w) x (P + 2)).fifo
        (fun k => CaptureCdc.fifoAt E 2 10 2 (staleFifo w) x (P + 2 + k)) 64 := by
      refine GrayFifo.quiet_of fun t ht h => ?_
      have h : (backRun (w := w) raw P (P + 2 + t)).pixEdge = true := h
      rw [back_tail' _ _ _ (by omega)] at h
      simp only [backTail, Bool.and_eq_true, Bool.or_eq_true, decide_eq_true_eq] at h
      omega
    have hb := GrayFifo.quiet_drains hq (fun t ht _ => by
      show Dma.frameReady (circuit E 2 10 2 (staleFifo w) x (P + 2 + t)).dma _ = true
      obtain ⟨h1, h2⟩ := back_idle raw P E (P + 2 + t) (by omega)
      rw [hcap] at h1 h2
      rw [Dma.frameReady, h1, Dma.addressValid, h2]
      rfl) 64 (Nat.le_refl _) 62 (by rw [hc])
    have hb : GrayFifo.behind (circuit E 2 10 2 (staleFifo w) x (P + 2)).fifo
        (fun k => CaptureCdc.fifoAt E 2 10 2 (staleFifo w) x (P + 2 + k)) 64 = 0 := by
      rcases hb with h | h
      · omega
      · exact h
    have e1 := GrayFifo.quiet_empty hq (by rw [hc]; omega) hb 64 (Nat.le_refl _) (Nat.le_refl _)
    have e2 := GrayFifo.quiet_produce hq (Nat.le_refl 64)
    show (circuit E 2 10 2 (staleFifo w) x (P + 2 + 64)).fifo.consume =
      (circuit E 2 10 2 (staleFifo w) x (P + 2 + 64)).fifo.produce
    rw [hf, e1, e2]
  · rw [← hcap, hd]
    simp only [Dma.step, hidle.1, hav]; rfl
  · rw [← hcap, hd]
    have : (CaptureCdc.dmaIn (rr (P + 65)).cap (HdmiCdc.capIn (rr (P + 65)).rx (backRun raw P (P + 65)))).sw 1 =
        ⟨some 1, some 400⟩ := by
      show (backRun (w := w) raw P (P + 65)).sw 1 = _
      rw [back_tail' _ _ _ (by omega)]
      simp [backTail]
    simp only [Dma.step, Dma.Slot.step, Dma.Slot.valid, this, Option.getD_some]
    decide

theorem back_owns : Cdc.SoftwareOwns E 2 10 2 (staleFifo w)
    (Cdc.cdcIn E 2 10 2 (staleFifo w) (backRun raw P)) (P + 66) := by
  intro t n ht _ _
  show (backRun (w := w) raw P t).sw n = _
  rw [back_tail' _ _ _ (by omega)]
  have : ¬ (t - 2 = P + 63 ∧ n = 1) := by omega
  simp [backTail, this]

theorem back_none : Cdc.LoadsNone (Cdc.cdcIn E 2 10 2 (staleFifo w) (backRun raw P)) (P + 66) := by
  intro t n v ht _ hv
  have hv : ((backRun (w := w) raw P t).sw n).status = some v := hv
  rw [back_tail' _ _ _ (by omega)] at hv
  have : ¬ (t - 2 = P + 63 ∧ n = 1) := by omega
  simp [backTail, this] at hv

end

/-- The lanes of the example of C114. -/
def backRaw (P u : Nat) : Receiver.In :=
  let c := if u ≤ 48 then 0 else if u ≤ P then (u - 48) / 8 else if u ≤ P + 64 then (P - 48) / 8
    else (u - 112) / 8
  ⟨deserialised (noisyBits 0) c, deserialised (noisyBits 1) c, deserialised (noisyBits 2) c⟩

theorem back_lanes {w P : Nat} (h8 : P % 8 = 0) (hP : 48 ≤ P) :
    Cdc.LanesDeliver noisyBits (fun u => backRun (w := w) (backRaw P) P (2 + u)) := by
  intro t _
  rw [back_count _ _ h8 hP]
  show (backRun (w := w) (backRaw P) P (2 + t)).raw = _
  rw [back_tail]
  rfl

/-- All hypotheses of C130 (those about the film and its errors are met as in the example of C114); both
modes.  The FIFO has to hand out 27 stale words first. -/
example : 4 * 4 = loopMode.vres * loopMode.hres ∧ loopMode.hres % 2 = 0 ∧
    loopMode.hres + 10 ≤ loopMode.hscan ∧ 9 + 1 + 3 + 2 ≤ 25 ∧ 2 * 1 + 1 < 2 ^ 4 ∧
    ∃ P, 0 + 0 + 4 * frameLen loopMode + (7 * 0 + 18) / 10 + 25 ≤
      countIn (fun u => (backRun (w := 32) (backRaw P) P (2 + u)).pixEdge) 0 (P + 66 - 2) ∧
    (∀ T, ∃ u, T ≤ u ∧ (backRun (w := 32) (backRaw P) P u).pixEdge = true) ∧ 66 ≤ P + 66 ∧
    (let y := backRun (w := 32) (backRaw P) P
    let z := Cdc.cdcIn (rgb 4) 2 10 2 (staleFifo 32) y
    ¬ Settled (staleFifo 32) ∧
    Cdc.ClockBack y 2 ∧ Cdc.Drains (rgb 4) 2 10 2 (staleFifo 32) y 2 2 42 66 ∧
    Cdc.LanesDeliver noisyBits (fun u => y (2 + u)) ∧
    (∀ t, 2 ≤ t → Dma.wordsOf 10 2 (y t).frame_size = 4) ∧
    FastEnough 4 1 25 9 3 (fun u => (y (2 + u)).pixEdge) (fun u => (y (2 + u)).sysEdge)
      (fun u => (y (2 + u)).busReady) (fun u => (y (2 + u)).wdataValid)
      (fun u => circuitHanded (rgb 4) 2 10 2 (staleFifo 32) z (2 + u)) ∧
    Cdc.AtRest (rgb 4) 2 10 2 (staleFifo 32) z (P + 66) ∧
    Cdc.SoftwareOwns (rgb 4) 2 10 2 (staleFifo 32) z (P + 66) ∧ Cdc.LoadsNone z (P + 66) ∧
    ((circuit (rgb 4) 2 10 2 (staleFifo 32) z (P + 66)).dma.slots 1).valid = true) ∧
    let y := backRun (w := 16) (backRaw P) P
    let z := Cdc.cdcIn (ycbcr422 4) 2 10 2 (staleFifo 16) y
    Cdc.ClockBack y 2 ∧ Cdc.Drains (ycbcr422 4) 2 10 2 (staleFifo 16) y 2 2 42 66 ∧
    Cdc.LanesDeliver noisyBits (fun u => y (2 + u)) ∧
    (∀ t, 2 ≤ t → Dma.wordsOf 10 2 (y t).frame_size = 4) ∧
    FastEnough 4 1 25 9 3 (fun u => (y (2 + u)).pixEdge) (fun u => (y (2 + u)).sysEdge)
      (fun u => (y (2 + u)).busReady) (fun u => (y (2 + u)).wdataValid)
      (fun u => circuitHanded (ycbcr422 4) 2 10 2 (staleFifo 16) z (2 + u)) ∧
    Cdc.AtRest (ycbcr422 4) 2 10 2 (staleFifo 16) z (P + 66) ∧
    Cdc.SoftwareOwns (ycbcr422 4) 2 10 2 (staleFifo 16) z (P + 66) ∧ Cdc.LoadsNone z (P + 66) ∧
    ((circuit (ycbcr422 4) 2 10 2 (staleFifo 16) z (P + 66)).dma.slots 1).valid = true := by
  refine ⟨by decide, by decide, by decide, by decide, by decide, 4096, ?_⟩
  have hc := back_count (w := 32) (backRaw 4096) 4096 (by decide) (by decide) (4096 + 66 - 2)
  have hP : (4096 : Nat) % 8 = 0 ∧ 64 ≤ (4096 : Nat) := by decide
  have hfr : 0 + 0 + 4 * frameLen loopMode + (7 * 0 + 18) / 10 + 25 ≤ (4096 - 48) / 8 := by decide
  generalize 4096 = P at *
  rw [hc, if_neg (by omega), if_neg (by omega), if_pos (by omega)]
  refine ⟨hfr, fun T => ⟨2 + (8 * (T + P + 8) + 7), by omega, ?_⟩, by omega,
    ⟨?_, back_clock _ _, back_drains _ _ _ hP.2 rfl ?_, back_lanes hP.1 (by omega), fun t ht => ?_,
      back_fast _ _ _, (back_rest _ _ _ hP.1 hP.2).1, back_owns _ _ _, back_none _ _ _,
      (back_rest _ _ _ hP.1 hP.2).2⟩,
    back_clock _ _, back_drains _ _ _ hP.2 rfl ?_, back_lanes hP.1 (by omega), fun t ht => ?_,
      back_fast _ _ _, (back_rest _ _ _ hP.1 hP.2).1, back_owns _ _ _, back_none _ _ _,
      (back_rest _ _ _ hP.1 hP.2).2⟩
  · rw [back_tail]
    simp only [backTail, Bool.and_eq_true, Bool.or_eq_true, decide_eq_true_eq, beq_iff_eq]
    omega
  · intro h
    exact absurd h.1 (by decide : ¬ (5 : BitVec 5) = 0)
  · intro v
    show (Frame.Packer.step 4 (Frame.Packer.reset 0) _).cur_word_valid = false
    simp [Frame.Packer.step, Frame.Packer.reset]
  · rw [back_tail' _ _ _ ht]; simp [Dma.wordsOf, backTail]
  · intro v
    show (Frame.Packer.step 4 (Frame.Packer.reset 0) _).cur_word_valid = false
    simp [Frame.Packer.step, Frame.Packer.reset]
  · rw [back_tail' _ _ _ ht]; simp [Dma.wordsOf, backTail]

end Verif.Props
