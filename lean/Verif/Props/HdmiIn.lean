import Verif.Spec.HdmiIn
import Verif.Props.Receiver
import Verif.Props.Capture

/-!
# C84: from the transmitter to the receiver's memory
-/

namespace Verif.Props

open Verif.HdmiIn Verif.Spec.HdmiIn Verif.Spec.Capture Verif.Spec.Frame Verif.Spec.Stream
  Verif.Spec.Receiver Verif.Spec.Serial Verif.VideoOut Verif.Gated
open Verif.Capture (rgb ycbcr422 Extractor)

/-- At the pixel clocks the three lanes deliver the bits `bits`. -/
def LanesOn (bits : Nat → Nat → Bool) (y : Nat → In) : Prop :=
  ∀ t, (y t).pixEdge = true → (y t).raw =
    let c := countIn (fun u => (y u).pixEdge) 0 t
    ⟨deserialised (bits 0) c, deserialised (bits 1) c, deserialised (bits 2) c⟩

/-- At the pixel clocks the three lanes deliver the bits of the transmitter `x`, delayed by `k`
bits. -/
def Lanes (x : Nat → Phy) (k : Nat → Nat) (lead : Nat → Nat → Bool) (y : Nat → In) : Prop :=
  LanesOn (laneBits x k lead) y

section Lemmas

variable {σ : Type} {w : Nat} {E : Extractor σ w} {depth nslots aw al : Nat} {y : Nat → In}

/-- The capture path inside the HDMI input. -/
theorem hdmi_cap (t : Nat) : (hdmiIn E depth nslots aw al y t).cap =
    capture E depth nslots aw al (captureIn E depth nslots aw al y) t := by
  induction t with
  | zero => rfl
  | succ t ih =>
    show Capture.step E depth nslots aw al (hdmiIn E depth nslots aw al y t).cap _ = _
    rw [ih]; rfl

/-- The receiver inside the HDMI input. -/
theorem hdmi_rx {bits : Nat → Nat → Bool} (hl : LanesOn bits y)
    (t : Nat) : (hdmiIn E depth nslots aw al y t).rx =
      rxOn Receiver.reset bits (ticks (fun u => (y u).pixEdge) t) := by
  refine trace_ticks Receiver.step Receiver.reset (fun u => (y u).pixEdge)
    (fun t => (hdmiIn E depth nslots aw al y t).rx) _ rfl (fun t => ?_) t
  show (if (y t).pixEdge then Receiver.step (hdmiIn E depth nslots aw al y t).rx (y t).raw else _) =
    _
  by_cases h : (y t).pixEdge = true
  · rw [if_pos h, if_pos h, hl t h]
  · rw [if_neg h, if_neg h]

/-- `V` is `W` later by `L` clocks, from clock `e + 1` of `W` on; colours may differ in blanking. -/
structure Later (V W : Nat → Frame.In) (L e : Nat) : Prop where
  valid : ∀ n, e < n → (V (n + L)).valid_i = (W n).valid_i
  de : ∀ n, e < n → (V (n + L)).de = (W n).de
  vsync : ∀ n, e < n → (V (n + L)).vsync = (W n).vsync
  rgb : ∀ n, e < n → (W n).de = true →
    (V (n + L)).r = (W n).r ∧ (V (n + L)).g = (W n).g ∧ (V (n + L)).b = (W n).b
  blank : (W (e + 1)).de = false

variable {V W : Nat → Frame.In} {L e : Nat}

theorem later_starts (h : Later V W L e) (n : Nat) (hn : e < n) :
    FrameStarts V (n + L) ↔ FrameStarts W n := by
  unfold FrameStarts
  rw [h.vsync n hn, show n + L + 1 = n + 1 + L by omega, h.vsync (n + 1) (by omega)]

theorem later_active (h : Later V W L e) (t n : Nat) (ht : e < t) :
    activePixels V (t + L) n = activePixels W t n := by
  unfold activePixels
  refine Frame.pickIn_shift _ _ _ _ _ _ n (fun j _ => ?_) (fun j _ hj => ?_)
  · rw [show t + L + j = t + j + L by omega, h.valid _ (by omega), h.de _ (by omega)]
  · simp only [Bool.and_eq_true] at hj
    obtain ⟨h1, h2, h3⟩ := h.rgb (t + j) (by omega) hj.2
    rw [show t + L + j = t + j + L by omega, h1, h2, h3]

theorem later_offset (h : Later V W L e) (j : Nat) :
    lineOffset V (e + 2 + j + L) = lineOffset W (e + 2 + j) := by
  induction j with
  | zero =>
    rw [show e + 2 + 0 + L = (e + 1 + L) + 1 by omega, show e + 2 + 0 = (e + 1) + 1 by omega,
      lineOffset, lineOffset, h.de (e + 1) (by omega), h.blank]
    rfl
  | succ j ih =>
    rw [show e + 2 + (j + 1) + L = (e + 2 + j + L) + 1 by omega,
      show e + 2 + (j + 1) = (e + 2 + j) + 1 by omega, lineOffset, lineOffset,
      h.de (e + 2 + j) (by omega), ih]

theorem later_ycc (h : Later V W L e) (n : Nat) (hn : e < n) (hd : (W n).de = true) :
    ycc V (n + L) = ycc W n := by
  obtain ⟨h1, h2, h3⟩ := h.rgb n hn hd
  unfold ycc
  rw [h1, h2, h3]

theorem later_pixel422 (h : Later V W L e) (even : EvenLines e W) (n : Nat) (hn : e < n)
    (hd : (W n).de = true) : pixel422 V (n + L) = pixel422 W n := by
  have hne : n ≠ e + 1 := by
    intro hh; rw [hh, h.blank] at hd; exact absurd hd (by decide)
  obtain ⟨j, rfl⟩ : ∃ j, n = e + 2 + j := ⟨n - (e + 2), by omega⟩
  unfold pixel422
  rw [later_offset h, later_ycc h _ (by omega) hd]
  by_cases ho : lineOffset W (e + 2 + j) % 2 = 0
  · rw [if_pos ho, if_pos ho, show e + 2 + j + L + 1 = (e + 2 + j + 1) + L by omega,
      later_ycc h _ (by omega) (even _ (by omega) hd ho)]
  · rw [if_neg ho, if_neg ho]
    have hp : (W (e + 2 + j - 1)).de = true := by
      cases hq : (W (e + 2 + j - 1)).de with
      | true => rfl
      | false =>
        exfalso
        apply ho
        rw [show e + 2 + j = (e + 2 + j - 1) + 1 by omega, lineOffset, hq]
        rfl
    have hpe : e < e + 2 + j - 1 := by
      rcases Nat.lt_or_ge e (e + 2 + j - 1) with h1 | h1 <;> omega
    rw [show e + 2 + j + L - 1 = (e + 2 + j - 1) + L by omega, later_ycc h _ hpe hp]

theorem later_active422 (h : Later V W L e) (even : EvenLines e W) (t n : Nat) (ht : e < t) :
    activePixels422 V (t + L) n = activePixels422 W t n := by
  unfold activePixels422
  refine Frame.pickIn_shift _ _ _ _ _ _ n (fun j _ => ?_) (fun j _ hj => ?_)
  · rw [show t + L + j = t + j + L by omega, h.valid _ (by omega), h.de _ (by omega)]
  · simp only [Bool.and_eq_true] at hj
    rw [show t + L + j = t + j + L by omega, later_pixel422 h even _ (by omega) hj.2]

theorem later_steady (h : Later V W L e) {pf N c : Nat} (hc : e < c) (st : SteadyFrom pf N c W) :
    SteadyFrom pf N (c + L) V := by
  refine ⟨fun t n ht h1 h2 h3 => ?_⟩
  obtain ⟨t, rfl⟩ : ∃ s, t = s + L := ⟨t - L, by omega⟩
  rw [later_starts h t (by omega)] at h1
  rw [show t + L + 1 + n = (t + 1 + n) + L by omega, later_starts h _ (by omega)] at h3
  rw [show t + L + 2 = (t + 2) + L by omega, later_active h _ _ (by omega)]
  refine st.frames t n (by omega) h1 (fun u hu hs => h2 u hu ?_) h3
  rw [show t + L + 1 + u = (t + 1 + u) + L by omega, later_starts h _ (by omega)]
  exact hs

theorem later_steady422 (h : Later V W L e) (even : EvenLines e W) {pf N c : Nat} (hc : e + 11 ≤ c)
    (st : SteadyFrom422 pf N c W) : SteadyFrom422 pf N (c + L) V := by
  refine ⟨fun u hu h1 h2 i hi => ?_, fun t ht h1 => ⟨h1, fun u hu hu2 => ?_⟩,
    fun t n ht h1 h2 h3 => ?_⟩
  · obtain ⟨u, rfl⟩ : ∃ s, u = s + L := ⟨u - L, by omega⟩
    rw [h.de u (by omega)] at h1
    rw [show u + L + 1 = (u + 1) + L by omega, h.de _ (by omega)] at h2
    rw [show u + L + 1 + i = (u + 1 + i) + L by omega, h.de _ (by omega)]
    exact st.blanking u (by omega) h1 h2 i hi
  · obtain ⟨t, rfl⟩ : ∃ s, t = s + L := ⟨t - L, by omega⟩
    rw [later_starts h t (by omega)] at h1
    obtain ⟨u, rfl⟩ : ∃ s, u = s + L := ⟨u - L, by omega⟩
    rw [h.valid u (by omega), h.de u (by omega)]
    exact (st.clean t (by omega) h1).2 u (by omega) (by omega)
  · obtain ⟨t, rfl⟩ : ∃ s, t = s + L := ⟨t - L, by omega⟩
    rw [later_starts h t (by omega)] at h1
    rw [show t + L + 1 + n = (t + 1 + n) + L by omega, later_starts h _ (by omega)] at h3
    rw [show t + L + 2 = (t + 2) + L by omega, later_active422 h even _ _ (by omega)]
    refine st.frames t n (by omega) h1 (fun u hu hs => h2 u hu ?_) h3
    rw [show t + L + 1 + u = (t + 1 + u) + L by omega, later_starts h _ (by omega)]
    exact hs

/-- What arrives of the video `x`: its data-enable and syncs, and the colours encoded by the words that
arrive. -/
def arriving (x : Nat → Phy) (k : Nat → Nat) (bits : Nat → Nat → Bool) (n : Nat) : Phy :=
  { x n with
    r := Spec.Tmds.decodeByte (receivedWord (bits 2) (k 2) n)
    g := Spec.Tmds.decodeByte (receivedWord (bits 1) (k 1) n)
    b := Spec.Tmds.decodeByte (receivedWord (bits 0) (k 0) n) }

/-- The video at the frame extractor when errors hit pixels only. -/
theorem hdmi_video_errors {x : Nat → Phy} {k : Nat → Nat} {bits : Nat → Nat → Bool}
    (hl : LanesOn bits y) {n0 f g : Nat}
    (herr : ∀ i, i < 3 → OnlyPixelErrors (fun u => lane i (x u)) (k i) (bits i) n0)
    (tr : Training x n0 f g) (hskew : ∀ i j, i < 3 → j < 3 → k i ≤ k j + 70)
    {ph pv : Bool} {e : Nat} (he : g ≤ e) (std : StandardSyncs x ph pv e) :
    ∃ V L, L ≤ k 0 / 10 + 23 ∧ Video (captureIn E depth nslots aw al y) V ∧
      Later V (sent pv (arriving x k bits)) L e := by
  obtain ⟨L, hL, hv⟩ := received_video Receiver.reset reset_registers x k bits n0 f g herr tr hskew ph pv
    e he std
  refine ⟨fun c => Verif.HdmiIn.frameIn (rxOn Receiver.reset bits c), L, (hL 0 (by omega)).2,
    fun t _ => ?_, ?_⟩
  · show Verif.HdmiIn.frameIn (hdmiIn E depth nslots aw al y t).rx = _
    rw [hdmi_rx hl]; rfl
  · exact ⟨fun n hn => (hv n hn).1, fun n hn => (hv n hn).2.1, fun n hn => (hv n hn).2.2.2.2,
      fun n hn _ => (hv n hn).2.2.1, std.ends.2⟩

/-- The video at the frame extractor is the transmitter's video. -/
theorem hdmi_video {x : Nat → Phy} {k : Nat → Nat} {lead : Nat → Nat → Bool} (hl : Lanes x k lead y)
    {n0 f g : Nat} (tr : Training x n0 f g) (hskew : ∀ i j, i < 3 → j < 3 → k i ≤ k j + 70)
    {ph pv : Bool} {e : Nat} (he : g ≤ e) (std : StandardSyncs x ph pv e) :
    ∃ V L, L ≤ k 0 / 10 + 23 ∧ Video (captureIn E depth nslots aw al y) V ∧
      Later V (sent pv x) L e := by
  obtain ⟨V, L, h1, h2, h3⟩ := hdmi_video_errors (E := E) (depth := depth) (nslots := nslots) (aw := aw)
    (al := al) hl (n0 := n0) (fun i _ => intact_lane _ _ _ n0 fun n _ => intact_serialise _ _ _ n) tr
    hskew he std
  refine ⟨V, L, h1, h2, h3.valid, h3.de, h3.vsync, fun n hn hd => ?_, h3.blank⟩
  obtain ⟨r, g', b⟩ := h3.rgb n hn hd
  have dec : ∀ i, Spec.Tmds.decodeByte (receivedWord (laneBits x k lead i) (k i) n) = (lane i (x n)).d := by
    intro i
    show Spec.Tmds.decodeByte (receivedWord (serialise _ _ _) (k i) n) = _
    rw [intact_serialise]
    exact decode_sent (fun u => lane i (x u)) n (by rw [lane_de]; exact hd)
  exact ⟨r.trans (dec 2), g'.trans (dec 1), b.trans (dec 0)⟩

/-- From any video at the frame extractor to memory, rgb mode. -/
theorem frames_to_memory {pf depth nslots aw al : Nat} (hpf : 2 ≤ pf)
    {z : Nat → Capture.In} {V W : Nat → Frame.In} {L le : Nat} (hV : Video z V)
    (hlat : Later V W L le) {N f0 f1 T0 : Nat} (st : SteadyFrom pf N f0 W) (hlf : le < f0)
    (hf0 : FrameStarts W f0) (hf1 : FrameStarts W f1) (hf : f0 < f1)
    (hseen : f1 + L + 2 ≤ countIn (fun u => (z u).pixEdge) 0 T0)
    (hsize : ∀ t, T0 ≤ t → Dma.wordsOf aw al (z t).frame_size = N) (hN : 1 ≤ N) :
    AtRest (rgb pf) depth nslots aw al z T0 → SoftwareOwns (rgb pf) depth nslots aw al z T0 →
    InOrder (rgb pf) depth nslots aw al z T0 fun e t ws => f1 ≤ t ∧ FrameStarts W t ∧
      ∃ n, (∀ u, u < n → ¬ FrameStarts W (t + 1 + u)) ∧
        countIn (fun u => (z u).pixEdge) 0 T0 ≤ t + L + 2 + n ∧
        t + L + 2 + n < countIn (fun u => (z u).pixEdge) 0 (e + 1) ∧
        ws = (groups pf (activePixels W (t + 2) n)).take N ∧ ws.length = N := by
  intro rest own
  refine Verif.Capture.inOrder_map (fun t => t - L) (C113_in_order pf depth nslots aw al hpf z V N
    (f0 + L) (f1 + L) T0 hV (later_steady hlat hlf st) ((later_starts hlat _ (by omega)).2 hf0)
    ((later_starts hlat _ (by omega)).2 hf1) (by omega)
    (show f1 + L + 2 ≤ countIn (fun u => (z u).pixEdge) 0 T0 by omega) rest hsize hN own) ?_ ?_
  · rintro e t ws ⟨h2, h3, n, h4, h7, h8, h5, h6⟩
    obtain ⟨t, rfl⟩ : ∃ s, t = s + L := ⟨t - L, by omega⟩
    rw [show t + L + 2 = (t + 2) + L by omega, later_active hlat _ _ (by omega)] at h5
    rw [Nat.add_sub_cancel]
    refine ⟨by omega, (later_starts hlat _ (by omega)).1 h3, n, fun u hu hs => h4 u hu ?_, h7, h8, h5, h6⟩
    rw [show t + L + 1 + u = (t + 1 + u) + L by omega, later_starts hlat _ (by omega)]
    exact hs
  · rintro e t ws e' t' ws' ⟨h2, -⟩ - htt
    show t - L < t' - L
    omega

/-- From any video at the frame extractor to memory, ycbcr422 mode. -/
theorem frames_to_memory422 {pf depth nslots aw al : Nat} (hpf : 2 ≤ pf)
    {z : Nat → Capture.In} {V W : Nat → Frame.In} {L le : Nat} (hV : Video z V)
    (hlat : Later V W L le) {N f0 f1 T0 : Nat} (st : SteadyFrom422 pf N f0 W) (hlf : le + 11 ≤ f0)
    (even : EvenLines le W)
    (hf0 : FrameStarts W f0) (hf1 : FrameStarts W f1) (hf : f0 < f1)
    (hseen : f1 + L + 2 ≤ countIn (fun u => (z u).pixEdge) 0 T0)
    (hsize : ∀ t, T0 ≤ t → Dma.wordsOf aw al (z t).frame_size = N) (hN : 1 ≤ N) :
    AtRest (ycbcr422 pf) depth nslots aw al z T0 → SoftwareOwns (ycbcr422 pf) depth nslots aw al z T0 →
    InOrder (ycbcr422 pf) depth nslots aw al z T0 fun e t ws => f1 ≤ t ∧ FrameStarts W t ∧
      ∃ n, (∀ u, u < n → ¬ FrameStarts W (t + 1 + u)) ∧
        countIn (fun u => (z u).pixEdge) 0 T0 ≤ t + L + 13 + n ∧
        t + L + 13 + n < countIn (fun u => (z u).pixEdge) 0 (e + 1) ∧
        ws = (groups pf (activePixels422 W (t + 2) n)).take N ∧ ws.length = N := by
  intro rest own
  refine Verif.Capture.inOrder_map (fun t => t - L) (C113_in_order_ycbcr422 pf depth nslots aw al hpf z V N
    (f0 + L) (f1 + L) T0 hV (later_steady422 hlat even hlf st) ((later_starts hlat _ (by omega)).2 hf0)
    ((later_starts hlat _ (by omega)).2 hf1) (by omega)
    (show f1 + L + 2 ≤ countIn (fun u => (z u).pixEdge) 0 T0 by omega) rest hsize hN own) ?_ ?_
  · rintro e t ws ⟨h2, h3, n, h4, h7, h8, h5, h6⟩
    obtain ⟨t, rfl⟩ : ∃ s, t = s + L := ⟨t - L, by omega⟩
    rw [show t + L + 2 = (t + 2) + L by omega, later_active422 hlat even _ _ (by omega)] at h5
    rw [Nat.add_sub_cancel]
    refine ⟨by omega, (later_starts hlat _ (by omega)).1 h3, n, fun u hu hs => h4 u hu ?_, h7, h8, h5, h6⟩
    rw [show t + L + 1 + u = (t + 1 + u) + L by omega, later_starts hlat _ (by omega)]
    exact hs
  · rintro e t ws e' t' ws' ⟨h2, -⟩ - htt
    show t - L < t' - L
    omega

/-- From the video at the frame extractor to memory, rgb mode. -/
theorem video_to_memory {pf depth nslots aw al : Nat} (hpf : 2 ≤ pf) {y : Nat → In}
    {V W : Nat → Frame.In} {L le : Nat} (hV : Video (captureIn (rgb pf) depth nslots aw al y) V)
    (hlat : Later V W L le) {N f0 f1 T0 : Nat} (st : SteadyFrom pf N f0 W) (hlf : le < f0)
    (hf0 : FrameStarts W f0) (hf1 : FrameStarts W f1) (hf : f0 < f1)
    (hseen : f1 + L + 2 ≤ countIn (fun u => (y u).pixEdge) 0 T0)
    (hsize : ∀ t, T0 ≤ t → Dma.wordsOf aw al (y t).frame_size = N) (hN : 1 ≤ N) :
    let z := captureIn (rgb pf) depth nslots aw al y
    AtRest (rgb pf) depth nslots aw al z T0 → SoftwareOwns (rgb pf) depth nslots aw al z T0 →
    InOrder (rgb pf) depth nslots aw al z T0 fun e t ws => f1 ≤ t ∧ FrameStarts W t ∧
      ∃ n, (∀ u, u < n → ¬ FrameStarts W (t + 1 + u)) ∧
        countIn (fun u => (y u).pixEdge) 0 T0 ≤ t + L + 2 + n ∧
        t + L + 2 + n < countIn (fun u => (y u).pixEdge) 0 (e + 1) ∧
        ws = (groups pf (activePixels W (t + 2) n)).take N ∧ ws.length = N :=
  frames_to_memory hpf hV hlat st hlf hf0 hf1 hf hseen hsize hN

/-- From the video at the frame extractor to memory, ycbcr422 mode. -/
theorem video_to_memory422 {pf depth nslots aw al : Nat} (hpf : 2 ≤ pf) {y : Nat → In}
    {V W : Nat → Frame.In} {L le : Nat} (hV : Video (captureIn (ycbcr422 pf) depth nslots aw al y) V)
    (hlat : Later V W L le) {N f0 f1 T0 : Nat} (st : SteadyFrom422 pf N f0 W) (hlf : le + 11 ≤ f0)
    (even : EvenLines le W)
    (hf0 : FrameStarts W f0) (hf1 : FrameStarts W f1) (hf : f0 < f1)
    (hseen : f1 + L + 2 ≤ countIn (fun u => (y u).pixEdge) 0 T0)
    (hsize : ∀ t, T0 ≤ t → Dma.wordsOf aw al (y t).frame_size = N) (hN : 1 ≤ N) :
    let z := captureIn (ycbcr422 pf) depth nslots aw al y
    AtRest (ycbcr422 pf) depth nslots aw al z T0 → SoftwareOwns (ycbcr422 pf) depth nslots aw al z T0 →
    InOrder (ycbcr422 pf) depth nslots aw al z T0 fun e t ws => f1 ≤ t ∧ FrameStarts W t ∧
      ∃ n, (∀ u, u < n → ¬ FrameStarts W (t + 1 + u)) ∧
        countIn (fun u => (y u).pixEdge) 0 T0 ≤ t + L + 13 + n ∧
        t + L + 13 + n < countIn (fun u => (y u).pixEdge) 0 (e + 1) ∧
        ws = (groups pf (activePixels422 W (t + 2) n)).take N ∧ ws.length = N :=
  frames_to_memory422 hpf hV hlat st hlf even hf0 hf1 hf hseen hsize hN

end Lemmas

/-- **C84** From the transmitter to memory, rgb mode.  A transmitter sends `x` over lanes with any
delays at most 70 bits apart; ten blanking clocks and a line of at least 15 pixels allow the receiver
to lock (C80); from the line end `e` on the syncs are standard, and the video is steady from its
frame start `f0` on.  If at instant `T0`, 25 clocks plus the lane delay after another frame start
`f1` or later, the capture path is at rest, and from then on the frame size is `N` words, software
leaves LOADED slots alone and no overflow occurs, then each transfer that is done has brought to
memory the first `N` words of one frame of the transmitter. -/
theorem C84_transmitter_to_memory (x : Nat → Phy) (k : Nat → Nat) (lead : Nat → Nat → Bool)
    (n0 f g : Nat) (tr : Training x n0 f g) (hskew : ∀ i j, i < 3 → j < 3 → k i ≤ k j + 70)
    (ph pv : Bool) (le : Nat) (hle : g ≤ le) (std : StandardSyncs x ph pv le)
    (pf depth nslots aw al : Nat) (hpf : 2 ≤ pf) (N f0 f1 T0 : Nat) (y : Nat → In)
    (hl : Lanes x k lead y) (st : SteadyFrom pf N f0 (sent pv x)) (hlf : le < f0)
    (hf0 : FrameStarts (sent pv x) f0) (hf1 : FrameStarts (sent pv x) f1) (hf : f0 < f1)
    (hseen : f1 + k 0 / 10 + 25 ≤ countIn (fun u => (y u).pixEdge) 0 T0)
    (hsize : ∀ t, T0 ≤ t → Dma.wordsOf aw al (y t).frame_size = N) (hN : 1 ≤ N) (e s : Nat)
    (he : T0 ≤ e) :
    let z := captureIn (rgb pf) depth nslots aw al y
    AtRest (rgb pf) depth nslots aw al z T0 → SoftwareOwns (rgb pf) depth nslots aw al z T0 →
    NoOverflow (rgb pf) depth nslots aw al z T0 (e + 1) → Done (rgb pf) depth nslots aw al z e s →
    ∃ b t n, T0 ≤ b ∧ f1 ≤ t ∧ FrameStarts (sent pv x) t ∧
      (∀ u, u < n → ¬ FrameStarts (sent pv x) (t + 1 + u)) ∧
      let words := (groups pf (activePixels (sent pv x) (t + 2) n)).take N
      words.length = N ∧ Captured (rgb pf) depth nslots aw al z b e s words := by
  intro z rest own hno hd
  obtain ⟨V, L, hL, hV, hlat⟩ := hdmi_video (E := rgb pf) (depth := depth) (nslots := nslots)
    (aw := aw) (al := al) hl tr hskew hle std
  obtain ⟨F, h, -⟩ := video_to_memory hpf hV hlat st hlf hf0 hf1 hf (by omega) hsize hN rest own
  obtain ⟨b, ws, h1, ⟨h2, h3, n, h4, -, -, rfl, h5⟩, h6⟩ := h e s he hno hd
  exact ⟨b, F e, n, h1, h2, h3, h4, h5, h6⟩

/-- **C84**, ycbcr422 mode (the default): for lines with an even number of pixels and 11 clocks of
blanking after each line and before each frame start. -/
theorem C84_transmitter_to_memory_ycbcr422 (x : Nat → Phy) (k : Nat → Nat) (lead : Nat → Nat → Bool)
    (n0 f g : Nat) (tr : Training x n0 f g) (hskew : ∀ i j, i < 3 → j < 3 → k i ≤ k j + 70)
    (ph pv : Bool) (le : Nat) (hle : g ≤ le) (std : StandardSyncs x ph pv le)
    (pf depth nslots aw al : Nat) (hpf : 2 ≤ pf) (N f0 f1 T0 : Nat) (y : Nat → In)
    (hl : Lanes x k lead y) (st : SteadyFrom422 pf N f0 (sent pv x)) (hlf : le + 11 ≤ f0)
    (even : EvenLines le (sent pv x))
    (hf0 : FrameStarts (sent pv x) f0) (hf1 : FrameStarts (sent pv x) f1) (hf : f0 < f1)
    (hseen : f1 + k 0 / 10 + 25 ≤ countIn (fun u => (y u).pixEdge) 0 T0)
    (hsize : ∀ t, T0 ≤ t → Dma.wordsOf aw al (y t).frame_size = N) (hN : 1 ≤ N) (e s : Nat)
    (he : T0 ≤ e) :
    let z := captureIn (ycbcr422 pf) depth nslots aw al y
    AtRest (ycbcr422 pf) depth nslots aw al z T0 →
    SoftwareOwns (ycbcr422 pf) depth nslots aw al z T0 →
    NoOverflow (ycbcr422 pf) depth nslots aw al z T0 (e + 1) →
    Done (ycbcr422 pf) depth nslots aw al z e s →
    ∃ b t n, T0 ≤ b ∧ f1 ≤ t ∧ FrameStarts (sent pv x) t ∧
      (∀ u, u < n → ¬ FrameStarts (sent pv x) (t + 1 + u)) ∧
      let words := (groups pf (activePixels422 (sent pv x) (t + 2) n)).take N
      words.length = N ∧ Captured (ycbcr422 pf) depth nslots aw al z b e s words := by
  intro z rest own hno hd
  obtain ⟨V, L, hL, hV, hlat⟩ := hdmi_video (E := ycbcr422 pf) (depth := depth) (nslots := nslots)
    (aw := aw) (al := al) hl tr hskew hle std
  obtain ⟨F, h, -⟩ := video_to_memory422 hpf hV hlat st hlf even hf0 hf1 hf (by omega) hsize hN rest own
  obtain ⟨b, ws, h1, ⟨h2, h3, n, h4, -, -, rfl, h5⟩, h6⟩ := h e s he hno hd
  exact ⟨b, F e, n, h1, h2, h3, h4, h5, h6⟩

/-! ### A concrete case -/

/-- A line of 20 pixels to lock, a short line, and three frames of four pixels; both syncs are active
low. -/
def shortVideo (n : Nat) : Phy :=
  { de := (28 ≤ n && n < 48) || (50 ≤ n && n < 52) || (68 ≤ n && n < 72) || (96 ≤ n && n < 100) ||
      (138 ≤ n && n < 142)
    hsync := n != 49, vsync := n != 66 && n != 94 && n != 136
    r := BitVec.ofNat 8 n, g := 2, b := 3 }

/-- The lanes arrive 2, 15 and 28 bits late; software loads slot 1 with address 400 at instant
119. -/
def shortRun (t : Nat) : In :=
  { pixEdge := true
    raw := ⟨deserialised (laneBits shortVideo (fun i => 13 * i + 2) (fun _ _ => true) 0) t,
      deserialised (laneBits shortVideo (fun i => 13 * i + 2) (fun _ _ => true) 1) t,
      deserialised (laneBits shortVideo (fun i => 13 * i + 2) (fun _ _ => true) 2) t⟩
    wok := true, sysEdge := true, rok := t % 2 == 0
    busReady := t % 3 != 0, wdataValid := t % 4 != 0, frame_size := 8
    sw := fun n => if t = 119 ∧ n = 1 then ⟨some 1, some 400⟩ else ⟨none, none⟩ }

theorem short_de {n : Nat} (h : 142 ≤ n) : (shortVideo n).de = false := by
  simp only [shortVideo, Bool.or_eq_false_iff, Bool.and_eq_false_iff, decide_eq_false_iff_not]
  omega

theorem short_training : Training shortVideo 0 28 48 where
  blank := by
    have : ∀ n, n < 10 → (shortVideo n).de = false := by decide
    exact fun n _ h => this n (by omega)
  iso := by
    have : ∀ n, n < 142 → (shortVideo (n + 1)).de = false →
      (shortVideo n).de = false ∨ (shortVideo (n + 2)).de = false := by decide +kernel
    intro n _ h
    rcases Nat.lt_or_ge n 142 with h1 | h1
    · exact this n h1 h
    · exact .inl (short_de h1)
  later := by decide
  before := by decide
  active := by
    have : ∀ n, n < 48 → 28 ≤ n → (shortVideo n).de = true := by decide
    exact fun n h1 h2 => this n h2 h1
  ends := by decide
  long := by decide

theorem short_standard : StandardSyncs shortVideo true true 51 where
  ends := by unfold LineEnd; decide
  idle := by
    have : ∀ n, n < 142 → 51 ≤ n → LineEnd shortVideo n →
      (shortVideo (n + 1)).hsync = true ∧ (shortVideo (n + 1)).vsync = true := by
      unfold LineEnd; decide +kernel
    intro n hn h
    rcases Nat.lt_or_ge n 142 with h1 | h1
    · exact this n h1 hn h
    · have := h.1
      rw [short_de h1] at this; exact absurd this (by decide)
  hold := by
    have : ∀ n, n < 142 → 51 ≤ n → (shortVideo (n + 1)).de = true →
      (shortVideo (n + 1)).hsync = (shortVideo n).hsync ∧
      (shortVideo (n + 1)).vsync = (shortVideo n).vsync := by decide +kernel
    intro n hn h
    rcases Nat.lt_or_ge n 142 with h1 | h1
    · exact this n h1 hn h
    · rw [short_de (by omega)] at h; exact absurd h (by decide)

theorem short_starts {t : Nat} (h : FrameStarts (sent true shortVideo) t) :
    t = 65 ∨ t = 93 ∨ t = 135 := by
  have := h.2
  simp only [sent, shortVideo, Bool.xor_true, Bool.not_eq_true', Bool.and_eq_false_iff,
    bne_eq_false_iff_eq] at this
  omega

theorem short_frames {t n : Nat} (ht : FrameStarts (sent true shortVideo) t)
    (hno : ∀ u, u < n → ¬ FrameStarts (sent true shortVideo) (t + 1 + u))
    (hn : FrameStarts (sent true shortVideo) (t + 1 + n)) :
    (t = 65 ∧ n = 27) ∨ (t = 93 ∧ n = 41) := by
  have h1 := short_starts ht
  have h2 := short_starts hn
  have h3 : ¬ (t = 65 ∧ n = 69) := by
    rintro ⟨rfl, rfl⟩
    exact hno 27 (by omega) (by unfold FrameStarts; decide)
  omega

theorem short_steady : SteadyFrom 2 2 65 (sent true shortVideo) := by
  refine ⟨fun t n _ ht hno hn => ?_⟩
  rcases short_frames ht hno hn with ⟨rfl, rfl⟩ | ⟨rfl, rfl⟩ <;> decide +kernel

theorem short_steady422 : SteadyFrom422 2 2 65 (sent true shortVideo) := by
  refine ⟨fun u _ h1 h2 => ?_, fun t _ ht => ⟨ht, ?_⟩, fun t n _ ht hno hn => ?_⟩
  · have hu : u < 142 := by
      rcases Nat.lt_or_ge u 142 with h | h
      · exact h
      · have h1 : (shortVideo u).de = true := h1
        rw [short_de h] at h1; exact absurd h1 (by decide)
    have key : ∀ u, u < 142 → 65 ≤ u → (sent true shortVideo u).de = true →
      (sent true shortVideo (u + 1)).de = false → ∀ i, i < 11 →
      (sent true shortVideo (u + 1 + i)).de = false := by decide +kernel
    exact key u hu ‹_› h1 h2
  · rcases short_starts ht with rfl | rfl | rfl
    · have : ∀ u, u < 67 → 67 ≤ u + 12 → ((sent true shortVideo u).valid_i &&
        (sent true shortVideo u).de) = false := by decide
      exact this
    · have : ∀ u, u < 95 → 95 ≤ u + 12 → ((sent true shortVideo u).valid_i &&
        (sent true shortVideo u).de) = false := by decide
      exact this
    · have : ∀ u, u < 137 → 137 ≤ u + 12 → ((sent true shortVideo u).valid_i &&
        (sent true shortVideo u).de) = false := by decide
      exact this
  · rcases short_frames ht hno hn with ⟨rfl, rfl⟩ | ⟨rfl, rfl⟩ <;> decide +kernel

theorem short_even : EvenLines 51 (sent true shortVideo) := by
  have key : ∀ u, u < 142 → 51 < u → (sent true shortVideo u).de = true →
    lineOffset (sent true shortVideo) u % 2 = 0 → (sent true shortVideo (u + 1)).de = true := by
    decide +kernel
  intro u hu h1 h2
  rcases Nat.lt_or_ge u 142 with h | h
  · exact key u h hu h1 h2
  · have h1 : (shortVideo u).de = true := h1
    rw [short_de h] at h1; exact absurd h1 (by decide)

theorem short_lanes : Lanes shortVideo (fun i => 13 * i + 2) (fun _ _ => true) shortRun := by
  intro t _
  rw [countIn_all (fun u => (shortRun u).pixEdge) (fun _ => rfl)]; rfl

theorem short_owns {σ : Type} {w : Nat} (E : Extractor σ w) :
    SoftwareOwns E 4 2 10 2 (captureIn E 4 2 10 2 shortRun) 120 := by
  intro t n ht _ _
  have : ¬ (t = 119 ∧ n = 1) := by omega
  simp [captureIn, capIn, shortRun, this]

set_option maxRecDepth 100000 in
/-- All hypotheses of C84 hold for this run with `T0 = 120`, frame starts 65 and 93, and the transfer
done at instant 160, which has brought the third frame to memory. -/
example : Training shortVideo 0 28 48 ∧ StandardSyncs shortVideo true true 51 ∧
    Lanes shortVideo (fun i => 13 * i + 2) (fun _ _ => true) shortRun ∧
    SteadyFrom 2 2 65 (sent true shortVideo) ∧ FrameStarts (sent true shortVideo) 65 ∧
    FrameStarts (sent true shortVideo) 93 ∧
    93 + (13 * 0 + 2) / 10 + 25 ≤ countIn (fun u => (shortRun u).pixEdge) 0 120 ∧
    (∀ t, Dma.wordsOf 10 2 (shortRun t).frame_size = 2) ∧
    let z := captureIn (rgb 2) 4 2 10 2 shortRun
    AtRest (rgb 2) 4 2 10 2 z 120 ∧ SoftwareOwns (rgb 2) 4 2 10 2 z 120 ∧
    NoOverflow (rgb 2) 4 2 10 2 z 120 161 ∧ Done (rgb 2) 4 2 10 2 z 160 1 ∧
    memWrites (rgb 2) 4 2 10 2 z 0 161 =
      [(100, [0x8b0203, 0x8a0203]), (101, [0x8d0203, 0x8c0203])] := by
  refine ⟨short_training, short_standard, short_lanes, short_steady, by unfold FrameStarts; decide,
    by unfold FrameStarts; decide, by decide +kernel, fun t => by simp [Dma.wordsOf, shortRun], ?_⟩
  refine ⟨by unfold AtRest; decide +kernel, short_owns _, ?_, ?_, ?_⟩
  · unfold NoOverflow; decide +kernel
  · unfold Done; decide +kernel
  · decide +kernel

set_option maxRecDepth 100000 in
/-- The hypotheses of C84 that differ in ycbcr422 mode; here the second frame reaches memory. -/
example : SteadyFrom422 2 2 65 (sent true shortVideo) ∧ EvenLines 51 (sent true shortVideo) ∧
    let z := captureIn (ycbcr422 2) 4 2 10 2 shortRun
    AtRest (ycbcr422 2) 4 2 10 2 z 120 ∧ SoftwareOwns (ycbcr422 2) 4 2 10 2 z 120 ∧
    NoOverflow (ycbcr422 2) 4 2 10 2 z 120 133 ∧ Done (ycbcr422 2) 4 2 10 2 z 132 1 ∧
    memWrites (ycbcr422 2) 4 2 10 2 z 0 133 = [(100, [45603, 30498]), (101, [45859, 30499])] := by
  refine ⟨short_steady422, short_even, by unfold AtRest; decide +kernel, short_owns _, ?_, ?_, ?_⟩
  · unfold NoOverflow; decide +kernel
  · unfold Done; decide +kernel
  · decide +kernel

end Verif.Props
