import Verif.Model.HdmiMode
import Verif.Props.HdmiIn

/-!
# C123: an HDMI receiver in DVI mode
-/

namespace Verif.Props

open Verif.HdmiMode Verif.Spec.HdmiIn Verif.Spec.Capture Verif.Spec.Frame Verif.Spec.Stream
  Verif.Spec.Receiver Verif.Spec.Serial Verif.VideoOut Verif.Gated
open Verif.Capture (rgb ycbcr422 Extractor)
open Analysis (SyncPolarity.de SyncPolarity.deRising SyncPolarity.hsync SyncPolarity.vsync)

/-! ### One receiver follows the other -/

/-- The receiver with `hdmi=False` at pixel clock `c`. -/
abbrev plainRx (raw : Nat → Receiver.In) (c : Nat) : Receiver.State :=
  trace Receiver.step Receiver.reset raw c

/-- The registers `s` of a receiver with `hdmi=True` at pixel clock `c`, when the `dvimode` bit is 1 from
pixel clock `c0` on. -/
structure Follows (raw : Nat → Receiver.In) (c0 c : Nat) (s : Rx) : Prop where
  lane0 : s.lane0 = (plainRx raw c).lane0
  lane1 : s.lane1 = (plainRx raw c).lane1
  lane2 : s.lane2 = (plainRx raw c).lane2
  chan : s.chan = (plainRx raw c).chan
  valid : s.path.pol.valid_o = (plainRx raw c).pol.valid_o
  delay : ∀ b, c = b + 1 → s.path.delay0 = ChanSync.dataOut (plainRx raw b).chan 0 ∧
    s.path.delay1 = ChanSync.dataOut (plainRx raw b).chan 1 ∧
    s.path.delay2 = ChanSync.dataOut (plainRx raw b).chan 2 ∧
    s.path.dec.de_r = (ChanSync.dataOut (plainRx raw b).chan 0).de
  dvi0 : c0 + 1 ≤ c → s.path.dec.dvi0 = true
  dvi1 : c0 + 2 ≤ c → s.path.dec.dvi1 = true
  rgb : ∀ b, c = b + 1 → 1 ≤ b → s.path.pol.r = (plainRx raw b).pol.r ∧
    s.path.pol.g = (plainRx raw b).pol.g ∧ s.path.pol.b = (plainRx raw b).pol.b
  de : ∀ b, c = b + 1 → c0 + 2 ≤ b → s.path.pol.de_r = (plainRx raw b).pol.de_r
  sync : ∀ b e, c = b + 1 → c0 + 2 ≤ e → (plainRx raw e).pol.de_r = true →
    (plainRx raw (e + 1)).pol.de_r = false → e < b →
    s.path.pol.c_polarity = (plainRx raw b).pol.c_polarity ∧
    s.path.pol.c_out = (plainRx raw b).pol.c_out

theorem follows_reset (raw : Nat → Receiver.In) (c0 : Nat) : Follows raw c0 0 Rx.reset where
  lane0 := rfl
  lane1 := rfl
  lane2 := rfl
  chan := rfl
  valid := rfl
  delay := fun b h => by omega
  dvi0 := fun h => by omega
  dvi1 := fun h => by omega
  rgb := fun b h => by omega
  de := fun b h => by omega
  sync := fun b e h => by omega

theorem follows_step {raw : Nat → Receiver.In} {c0 c : Nat} {s : Rx} (h : Follows raw c0 c s)
    (d : Bool) (hd : c0 ≤ c → d = true) : Follows raw c0 (c + 1) (s.step (raw c, d)) := by
  have hout : ∀ i, ChanSync.dataOut s.chan i = ChanSync.dataOut (plainRx raw c).chan i := fun i => by
    rw [h.chan]
  refine ⟨?_, ?_, ?_, ?_, ?_, fun b hb => ?_, fun hc => hd (by omega), fun hc => h.dvi0 (by omega),
    fun b hb hb1 => ?_, fun b hb hc => ?_, fun b e hb hc h1 h2 he => ?_⟩
  · show Receiver.Lane.step s.lane0 _ = _; rw [h.lane0]; rfl
  · show Receiver.Lane.step s.lane1 _ = _; rw [h.lane1]; rfl
  · show Receiver.Lane.step s.lane2 _ = _; rw [h.lane2]; rfl
  · show ChanSync.step 3 8 s.chan s.chanIn = ChanSync.step 3 8 _ (Receiver.chanIn _)
    rw [h.chan, Rx.chanIn, h.lane0, h.lane1, h.lane2]; rfl
  · show s.chan.chan_synced = (plainRx raw c).chan.chan_synced
    rw [h.chan]
  · obtain rfl : c = b := by omega
    exact ⟨hout 0, hout 1, hout 2, congrArg ChanSync.Word.de (hout 0)⟩
  · obtain rfl : c = b := by omega
    obtain ⟨a, rfl⟩ : ∃ a, c = a + 1 := ⟨c - 1, by omega⟩
    obtain ⟨g0, g1, g2, -⟩ := h.delay a rfl
    exact ⟨congrArg ChanSync.Word.d g2, congrArg ChanSync.Word.d g1, congrArg ChanSync.Word.d g0⟩
  · obtain rfl : c = b := by omega
    obtain ⟨a, rfl⟩ : ∃ a, c = a + 1 := ⟨c - 1, by omega⟩
    show Terc4.deO s.path.dec = (ChanSync.dataOut (plainRx raw a).chan 0).de
    rw [Terc4.deO, if_pos (h.dvi1 hc), (h.delay a rfl).2.2.2]
  · obtain rfl : c = b := by omega
    obtain ⟨a, rfl⟩ : ∃ a, c = a + 1 := ⟨c - 1, by omega⟩
    obtain ⟨g0, -, -, g3⟩ := h.delay a rfl
    have hde : Terc4.deO s.path.dec = (ChanSync.dataOut (plainRx raw a).chan 0).de := by
      rw [Terc4.deO, if_pos (h.dvi1 (by omega)), g3]
    have hr : SyncPolarity.deRising s.path.pol (s.path.polIn (s.pathIn d)) =
        SyncPolarity.deRising (plainRx raw a).pol (Receiver.polIn (plainRx raw a)) := by
      show (s.path.pol.de_r && !Terc4.deO s.path.dec) = ((plainRx raw a).pol.de_r && _)
      rw [hde, h.de a rfl (by omega)]; rfl
    have hc0 : (s.path.polIn (s.pathIn d)).data_in0.c =
        (Receiver.polIn (plainRx raw a)).data_in0.c := congrArg ChanSync.Word.c g0
    by_cases hea : e < a
    · obtain ⟨p1, p2⟩ := h.sync a e rfl hc h1 h2 hea
      constructor
      · show (if SyncPolarity.deRising _ _ then _ else _) =
          (if SyncPolarity.deRising (plainRx raw a).pol (Receiver.polIn (plainRx raw a)) then _ else _)
        rw [hr, hc0, p1]
      · show (if SyncPolarity.deRising _ _ then _ else _) =
          (if SyncPolarity.deRising (plainRx raw a).pol (Receiver.polIn (plainRx raw a)) then _ else _)
        rw [hr, hc0, p1]
    · obtain rfl : e = a := by omega
      have up : SyncPolarity.deRising (plainRx raw e).pol (Receiver.polIn (plainRx raw e)) = true := by
        show ((plainRx raw e).pol.de_r && !(plainRx raw (e + 1)).pol.de_r) = true
        rw [h1, h2]; rfl
      constructor
      · show (if SyncPolarity.deRising _ _ then _ else _) =
          (if SyncPolarity.deRising (plainRx raw e).pol (Receiver.polIn (plainRx raw e)) then _ else _)
        rw [hr, up, if_pos rfl, if_pos rfl, hc0]
      · show (if SyncPolarity.deRising _ _ then _ else _) =
          (if SyncPolarity.deRising (plainRx raw e).pol (Receiver.polIn (plainRx raw e)) then _ else _)
        rw [hr, up, if_pos rfl, if_pos rfl]

/-! ### The property -/

/-- **C123** A receiver with `hdmi=True` whose `dvimode` bit is 1 from pixel clock `c0` on does what a
receiver with `hdmi=False` does on the same lanes, one clock later: data-enable and colours from clock
`c0 + 2` on, the syncs from the first line end after that on.  Only the valid flag is not late. -/
theorem C123_same (raw : Nat → Receiver.In) (dvimode : Nat → Bool) (c0 : Nat)
    (hd : ∀ c, c0 ≤ c → dvimode c = true) :
    let plain := fun c => (trace Receiver.step Receiver.reset raw c).pol
    let out := fun c => (trace Rx.step Rx.reset (fun c => (raw c, dvimode c)) c).path.pol
    (∀ c, (out c).valid_o = (plain c).valid_o) ∧
    (∀ c, c0 + 2 ≤ c → SyncPolarity.de (out (c + 1)) = SyncPolarity.de (plain c) ∧
      (out (c + 1)).r = (plain c).r ∧ (out (c + 1)).g = (plain c).g ∧ (out (c + 1)).b = (plain c).b) ∧
    (∀ e c, c0 + 2 ≤ e → SyncPolarity.de (plain e) = true → SyncPolarity.de (plain (e + 1)) = false →
      e < c → SyncPolarity.hsync (out (c + 1)) = SyncPolarity.hsync (plain c) ∧
        SyncPolarity.vsync (out (c + 1)) = SyncPolarity.vsync (plain c)) := by
  intro plain out
  have inv : ∀ c, Follows raw c0 c (trace Rx.step Rx.reset (fun c => (raw c, dvimode c)) c) := by
    intro c
    induction c with
    | zero => exact follows_reset raw c0
    | succ c ih => exact follows_step ih _ (hd c)
  refine ⟨fun c => (inv c).valid, fun c hc => ⟨(inv (c + 1)).de c rfl hc, (inv (c + 1)).rgb c rfl (by omega)⟩,
    fun e c he h1 h2 hc => ?_⟩
  have := ((inv (c + 1)).sync c e rfl he h1 h2 hc).2
  exact ⟨congrArg (fun v => v.getLsbD 0) this, congrArg (fun v => v.getLsbD 1) this⟩

/-! ### From the transmitter to memory -/

section Memory

variable {σ : Type} {w : Nat} {E : Extractor σ w} {depth nslots aw al : Nat} {y : Nat → HdmiIn.In}
  {dvimode : Nat → Bool}

/-- The capture path inside the HDMI input with `hdmi=True`. -/
theorem mode_cap (t : Nat) : (hdmiMode E depth nslots aw al y dvimode t).cap =
    capture E depth nslots aw al (modeCaptureIn E depth nslots aw al y dvimode) t := by
  induction t with
  | zero => rfl
  | succ t ih =>
    show Capture.step E depth nslots aw al (hdmiMode E depth nslots aw al y dvimode t).cap _ = _
    rw [ih]; rfl

/-- The bit at each pixel clock. -/
theorem mode_bits {c0 : Nat}
    (hd : ∀ t, c0 ≤ countIn (fun u => (y u).pixEdge) 0 t → dvimode t = true) :
    ∃ D : Nat → Bool, (∀ c, c0 ≤ c → D c = true) ∧
      ∀ t, (y t).pixEdge = true → dvimode t = D (countIn (fun u => (y u).pixEdge) 0 t) := by
  classical
  refine ⟨fun c => if h : ∃ t, (y t).pixEdge = true ∧ countIn (fun u => (y u).pixEdge) 0 t = c then
    dvimode h.choose else true, fun c hc => ?_, fun t ht => ?_⟩
  · by_cases h : ∃ t, (y t).pixEdge = true ∧ countIn (fun u => (y u).pixEdge) 0 t = c
    · show dite _ _ _ = _
      rw [dif_pos h]
      exact hd _ (by rw [h.choose_spec.2]; exact hc)
    · show dite _ _ _ = _
      rw [dif_neg h]
  · have h : ∃ u, (y u).pixEdge = true ∧ countIn (fun u => (y u).pixEdge) 0 u =
        countIn (fun u => (y u).pixEdge) 0 t := ⟨t, ht, rfl⟩
    show _ = dite _ _ _
    rw [dif_pos h]
    obtain ⟨h1, h2⟩ := h.choose_spec
    generalize h.choose = u at h1 h2 ⊢
    -- two pixel clocks with the same number are the same
    have lt : ∀ a b, a < b → (y a).pixEdge = true →
        countIn (fun u => (y u).pixEdge) 0 a < countIn (fun u => (y u).pixEdge) 0 b := by
      intro a b hab ha
      obtain ⟨d, rfl⟩ : ∃ d, b = (a + 1) + d := ⟨b - (a + 1), by omega⟩
      rw [countIn_split, countIn_split]
      simp only [countIn, Nat.zero_add, Nat.add_zero, ha, if_true]
      omega
    rcases Nat.lt_trichotomy u t with g | g | g
    · have := lt _ _ g h1; omega
    · rw [g]
    · have := lt _ _ g ht; omega

/-- The video behind the receiver is the transmitter's video. -/
theorem mode_later {x : Nat → Phy} {k : Nat → Nat} {lead : Nat → Nat → Bool}
    {n0 f g : Nat} (tr : Training x n0 f g) (hskew : ∀ i j, i < 3 → j < 3 → k i ≤ k j + 70)
    {ph pv : Bool} {e : Nat} (he : g ≤ e) (std : StandardSyncs x ph pv e) (D : Nat → Bool)
    (hD : ∀ c, e ≤ c → D c = true) :
    ∃ L, (∀ i, i < 3 → k i / 10 + 3 ≤ L ∧ L ≤ k i / 10 + 24) ∧
      Later (fun c => HdmiMode.frameIn (trace Rx.step Rx.reset (fun c =>
        (⟨deserialised (laneBits x k lead 0) c, deserialised (laneBits x k lead 1) c,
          deserialised (laneBits x k lead 2) c⟩, D c)) c)) (sent pv x) L e := by
  obtain ⟨L, hL, hde, hv⟩ := received_video_de Receiver.reset reset_registers x k (laneBits x k lead) n0 f g
    (fun i _ => intact_lane _ _ _ n0 fun n _ => intact_serialise _ _ _ n) tr hskew ph pv e he std
  have dec : ∀ i n, (x n).de = true →
      Spec.Tmds.decodeByte (receivedWord (laneBits x k lead i) (k i) n) = (lane i (x n)).d := by
    intro i n hn
    show Spec.Tmds.decodeByte (receivedWord (serialise _ _ _) (k i) n) = _
    rw [intact_serialise]
    exact decode_sent (fun u => lane i (x u)) n (by rw [lane_de]; exact hn)
  obtain ⟨sv, sd, ss⟩ := C123_same (fun c => ⟨deserialised (laneBits x k lead 0) c,
    deserialised (laneBits x k lead 1) c, deserialised (laneBits x k lead 2) c⟩) D e hD
  have hL0 := hL 0 (by omega)
  refine ⟨L + 1, fun i hi => by have := hL i hi; omega, ?_⟩
  have end1 := (hde e he).trans std.ends.1
  have end2 := (hde (e + 1) (by omega)).trans std.ends.2
  rw [show e + 1 + L = e + L + 1 by omega] at end2
  refine ⟨fun n hn => ?_, fun n hn => ?_, fun n hn => ?_, fun n hn hn2 => ?_, std.ends.2⟩
  · have h1 := (hv (n + 1) (by omega)).1
    rw [show n + 1 + L = n + (L + 1) by omega] at h1
    exact (sv (n + (L + 1))).trans h1
  · exact (sd (n + L) (by omega)).1.trans (hv n hn).2.1
  · exact (ss (e + L) (n + L) (by omega) end1 end2 (by omega)).2.trans (hv n hn).2.2.2.2
  · obtain ⟨-, a, b, c⟩ := sd (n + L) (by omega)
    obtain ⟨a', b', c'⟩ := (hv n hn).2.2.1
    exact ⟨a.trans (a'.trans (dec 2 n hn2)), b.trans (b'.trans (dec 1 n hn2)),
      c.trans (c'.trans (dec 0 n hn2))⟩

/-- The video at the frame extractor is the transmitter's video. -/
theorem mode_video {x : Nat → Phy} {k : Nat → Nat} {lead : Nat → Nat → Bool} (hl : Lanes x k lead y)
    {n0 f g : Nat} (tr : Training x n0 f g) (hskew : ∀ i j, i < 3 → j < 3 → k i ≤ k j + 70)
    {ph pv : Bool} {e : Nat} (he : g ≤ e) (std : StandardSyncs x ph pv e)
    (hd : ∀ t, e ≤ countIn (fun u => (y u).pixEdge) 0 t → dvimode t = true) :
    ∃ V L, L ≤ k 0 / 10 + 24 ∧ Video (modeCaptureIn E depth nslots aw al y dvimode) V ∧
      Later V (sent pv x) L e := by
  obtain ⟨D, hD, hDt⟩ := mode_bits hd
  obtain ⟨L, hL, hlat⟩ := mode_later (lead := lead) tr hskew he std D hD
  refine ⟨_, L, (hL 0 (by omega)).2, fun t _ => ?_, hlat⟩
  show HdmiMode.frameIn (hdmiMode E depth nslots aw al y dvimode t).rx = HdmiMode.frameIn _
  congr 1
  refine trace_ticks Rx.step Rx.reset (fun u => (y u).pixEdge)
    (fun t => (hdmiMode E depth nslots aw al y dvimode t).rx) _ rfl (fun t => ?_) t
  show (if (y t).pixEdge then Rx.step (hdmiMode E depth nslots aw al y dvimode t).rx
    ((y t).raw, dvimode t) else _) = _
  by_cases h : (y t).pixEdge = true
  · rw [if_pos h, if_pos h, hl t h, hDt t h]
  · rw [if_neg h, if_neg h]

end Memory

/-- **C123** With `hdmi=True` and the `dvimode` bit set before pixel clock `le`, video of a DVI transmitter
reaches memory as with `hdmi=False` (C84), rgb mode. -/
theorem C123_to_memory (x : Nat → Phy) (k : Nat → Nat) (lead : Nat → Nat → Bool)
    (n0 f g : Nat) (tr : Training x n0 f g) (hskew : ∀ i j, i < 3 → j < 3 → k i ≤ k j + 70)
    (ph pv : Bool) (le : Nat) (hle : g ≤ le) (std : StandardSyncs x ph pv le)
    (pf depth nslots aw al : Nat) (hpf : 2 ≤ pf) (N f0 f1 T0 : Nat) (y : Nat → HdmiIn.In)
    (dvimode : Nat → Bool)
    (hd : ∀ t, le ≤ countIn (fun u => (y u).pixEdge) 0 t → dvimode t = true)
    (hl : Lanes x k lead y) (st : SteadyFrom pf N f0 (sent pv x)) (hlf : le < f0)
    (hf0 : FrameStarts (sent pv x) f0) (hf1 : FrameStarts (sent pv x) f1) (hf : f0 < f1)
    (hseen : f1 + k 0 / 10 + 26 ≤ countIn (fun u => (y u).pixEdge) 0 T0)
    (hsize : ∀ t, T0 ≤ t → Dma.wordsOf aw al (y t).frame_size = N) (hN : 1 ≤ N) (e s : Nat)
    (he : T0 ≤ e) :
    let z := modeCaptureIn (rgb pf) depth nslots aw al y dvimode
    AtRest (rgb pf) depth nslots aw al z T0 → SoftwareOwns (rgb pf) depth nslots aw al z T0 →
    NoOverflow (rgb pf) depth nslots aw al z T0 (e + 1) → Done (rgb pf) depth nslots aw al z e s →
    ∃ b t n, T0 ≤ b ∧ f1 ≤ t ∧ FrameStarts (sent pv x) t ∧
      (∀ u, u < n → ¬ FrameStarts (sent pv x) (t + 1 + u)) ∧
      let words := (groups pf (activePixels (sent pv x) (t + 2) n)).take N
      words.length = N ∧ Captured (rgb pf) depth nslots aw al z b e s words := by
  intro z rest own hno hdone
  obtain ⟨V, L, hL, hV, hlat⟩ := mode_video (E := rgb pf) (depth := depth) (nslots := nslots)
    (aw := aw) (al := al) hl tr hskew hle std hd
  obtain ⟨F, h, -⟩ := frames_to_memory hpf hV hlat st hlf hf0 hf1 hf
    (Nat.le_trans (by omega) hseen) hsize hN rest own
  obtain ⟨b, ws, h1, ⟨h2, h3, n, h4, -, -, rfl, h5⟩, h6⟩ := h e s he hno hdone
  exact ⟨b, F e, n, h1, h2, h3, h4, h5, h6⟩

/-- **C123**, ycbcr422 mode (the default), as in C84. -/
theorem C123_to_memory_ycbcr422 (x : Nat → Phy) (k : Nat → Nat) (lead : Nat → Nat → Bool)
    (n0 f g : Nat) (tr : Training x n0 f g) (hskew : ∀ i j, i < 3 → j < 3 → k i ≤ k j + 70)
    (ph pv : Bool) (le : Nat) (hle : g ≤ le) (std : StandardSyncs x ph pv le)
    (pf depth nslots aw al : Nat) (hpf : 2 ≤ pf) (N f0 f1 T0 : Nat) (y : Nat → HdmiIn.In)
    (dvimode : Nat → Bool)
    (hd : ∀ t, le ≤ countIn (fun u => (y u).pixEdge) 0 t → dvimode t = true)
    (hl : Lanes x k lead y) (st : SteadyFrom422 pf N f0 (sent pv x)) (hlf : le + 11 ≤ f0)
    (even : EvenLines le (sent pv x))
    (hf0 : FrameStarts (sent pv x) f0) (hf1 : FrameStarts (sent pv x) f1) (hf : f0 < f1)
    (hseen : f1 + k 0 / 10 + 26 ≤ countIn (fun u => (y u).pixEdge) 0 T0)
    (hsize : ∀ t, T0 ≤ t → Dma.wordsOf aw al (y t).frame_size = N) (hN : 1 ≤ N) (e s : Nat)
    (he : T0 ≤ e) :
    let z := modeCaptureIn (ycbcr422 pf) depth nslots aw al y dvimode
    AtRest (ycbcr422 pf) depth nslots aw al z T0 →
    SoftwareOwns (ycbcr422 pf) depth nslots aw al z T0 →
    NoOverflow (ycbcr422 pf) depth nslots aw al z T0 (e + 1) →
    Done (ycbcr422 pf) depth nslots aw al z e s →
    ∃ b t n, T0 ≤ b ∧ f1 ≤ t ∧ FrameStarts (sent pv x) t ∧
      (∀ u, u < n → ¬ FrameStarts (sent pv x) (t + 1 + u)) ∧
      let words := (groups pf (activePixels422 (sent pv x) (t + 2) n)).take N
      words.length = N ∧ Captured (ycbcr422 pf) depth nslots aw al z b e s words := by
  intro z rest own hno hdone
  obtain ⟨V, L, hL, hV, hlat⟩ := mode_video (E := ycbcr422 pf) (depth := depth) (nslots := nslots)
    (aw := aw) (al := al) hl tr hskew hle std hd
  obtain ⟨F, h, -⟩ := frames_to_memory422 hpf hV hlat st hlf even hf0 hf1 hf
    (Nat.le_trans (by omega) hseen) hsize hN rest own
  obtain ⟨b, ws, h1, ⟨h2, h3, n, h4, -, -, rfl, h5⟩, h6⟩ := h e s he hno hdone
  exact ⟨b, F e, n, h1, h2, h3, h4, h5, h6⟩

/-- **C123** With `hdmi=True` and the `dvimode` bit set from pixel clock `e` on, the resolution registers show
the width of each line and the height of each frame of a DVI transmitter as with `hdmi=False` (C81). -/
theorem C123_resolution (x : Nat → Phy) (k : Nat → Nat) (lead : Nat → Nat → Bool) (n0 f g : Nat)
    (tr : Training x n0 f g) (hskew : ∀ i j, i < 3 → j < 3 → k i ≤ k j + 70)
    (ph pv : Bool) (e : Nat) (he : g ≤ e) (std : StandardSyncs x ph pv e) (dvimode : Nat → Bool)
    (hd : ∀ c, e ≤ c → dvimode c = true) :
    let rx := trace Rx.step Rx.reset fun c => (⟨deserialised (laneBits x k lead 0) c,
      deserialised (laneBits x k lead 1) c, deserialised (laneBits x k lead 2) c⟩, dvimode c)
    ∃ L, (∀ i, i < 3 → k i / 10 + 4 ≤ L ∧ L ≤ k i / 10 + 25) ∧
      (∀ b n j, e < b → 0 < n → (x b).de = false → (∀ u, u < n → (x (b + 1 + u)).de = true) →
        (x (b + 1 + n)).de = false → (∀ u, u < j → ¬ LineEnd x (b + 1 + n + u)) →
        (rx (b + 1 + n + j + L)).res.hcounter_st = n % 2 ^ 11) ∧
      (∀ b n j, e < b → FrameSync x pv b = true → (∀ u, u < n → FrameSync x pv (b + 1 + u) = false) →
        FrameSync x pv (b + 1 + n) = true →
        (∀ u, u < j → FrameSync x pv (b + 1 + n + 1 + u) = false) →
        (rx (b + 1 + n + 1 + j + L)).res.vcounter_st = countIn (lineEnd x) (b + 1) n % 2 ^ 11) := by
  intro rx
  obtain ⟨L, hL, hlat⟩ := mode_later (lead := lead) tr hskew he std dvimode hd
  exact ⟨L + 1, fun i hi => by have := hL i hi; omega, resolution_follows x pv e L
    (fun u => (rx u).res) (fun u => (rx u).resIn) (fun _ => rfl)
    fun n hn => ⟨hlat.valid n hn, hlat.de n hn, hlat.vsync n hn⟩⟩

/-! ### A concrete case -/

theorem short_mode_owns {σ : Type} {w : Nat} (E : Extractor σ w) (d : Nat → Bool) :
    SoftwareOwns E 4 2 10 2 (modeCaptureIn E 4 2 10 2 shortRun d) 120 := by
  intro t n ht _ _
  have : ¬ (t = 119 ∧ n = 1) := by omega
  simp [modeCaptureIn, HdmiMode.capIn, shortRun, this]

set_option maxRecDepth 100000 in
/-- The hypotheses of C123 that differ from those of C84 hold for the run of C84 (see there for the
others), when software sets `dvimode` at instant 9: the third frame reaches memory as there. -/
example : (∀ t, 51 ≤ countIn (fun u => (shortRun u).pixEdge) 0 t → decide (9 ≤ t) = true) ∧
    93 + (13 * 0 + 2) / 10 + 26 ≤ countIn (fun u => (shortRun u).pixEdge) 0 120 ∧
    let z := modeCaptureIn (rgb 2) 4 2 10 2 shortRun fun t => decide (9 ≤ t)
    AtRest (rgb 2) 4 2 10 2 z 120 ∧ SoftwareOwns (rgb 2) 4 2 10 2 z 120 ∧
    NoOverflow (rgb 2) 4 2 10 2 z 120 165 ∧ Done (rgb 2) 4 2 10 2 z 164 1 ∧
    memWrites (rgb 2) 4 2 10 2 z 0 165 =
      [(100, [0x8b0203, 0x8a0203]), (101, [0x8d0203, 0x8c0203])] := by
  refine ⟨fun t ht => ?_, by decide +kernel, by unfold AtRest; decide +kernel, short_mode_owns _ _, ?_, ?_, ?_⟩
  · rw [countIn_all (fun u => (shortRun u).pixEdge) (fun _ => rfl)] at ht
    exact decide_eq_true (by omega)
  · unfold NoOverflow; decide +kernel
  · unfold Done; decide +kernel
  · decide +kernel

set_option maxRecDepth 100000 in
/-- The same in ycbcr422 mode: here the second frame reaches memory. -/
example :
    let z := modeCaptureIn (ycbcr422 2) 4 2 10 2 shortRun fun t => decide (9 ≤ t)
    AtRest (ycbcr422 2) 4 2 10 2 z 120 ∧ SoftwareOwns (ycbcr422 2) 4 2 10 2 z 120 ∧
    NoOverflow (ycbcr422 2) 4 2 10 2 z 120 133 ∧ Done (ycbcr422 2) 4 2 10 2 z 132 1 ∧
    memWrites (ycbcr422 2) 4 2 10 2 z 0 133 = [(100, [45603, 30498]), (101, [45859, 30499])] := by
  refine ⟨by unfold AtRest; decide +kernel, short_mode_owns _ _, ?_, ?_, ?_⟩
  · unfold NoOverflow; decide +kernel
  · unfold Done; decide +kernel
  · decide +kernel

end Verif.Props
