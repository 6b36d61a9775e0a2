import Verif.Spec.HdmiVideo
import Verif.Props.HdmiLock
import Verif.Props.HdmiMode

/-!
# C135: from an HDMI source to memory
-/

namespace Verif.Props

open Verif.HdmiMode Verif.Spec.HdmiIn Verif.Spec.Capture Verif.Spec.Frame Verif.Spec.Stream
  Verif.Spec.Receiver Verif.Spec.Serial Verif.Spec.Tmds Verif.VideoOut Verif.Gated
open Verif.Capture (rgb ycbcr422 Extractor)
open Spec.HdmiVideo (ideal lastLevels shifted IdleSync)
open Spec.Hdmi (Phase Triple Sends Acquire TmdsPixels CarriesSyncs LastPixel)

section Lemmas

variable {ph : Nat → Phase} {w : Nat → Triple} {c : Nat → BitVec 2} {n0 f g : Nat}

/-- The video behind the receiver. -/
theorem hdmi_later (s0 : Rx) (hs0 : HdmiRegisters s0) (k : Nat → Nat) (lead : Nat → Nat → Bool) (dvi : Nat → Bool)
    (hs : Sends ph w n0) (ha : Acquire ph n0 f g) (h4 : 4 ≤ n0) (hx : TmdsPixels ph w n0)
    (hskew : ∀ i j, i < 3 → j < 3 → k i ≤ k j + 70) (hd : ∀ t, dvi t = false) (hp : PlainLines ph w n0)
    (hc : CarriesSyncs ph w c n0) (pv : Bool) (le : Nat) (hle : g + 3 ≤ le) (hi : IdleSync ph c pv le) :
    ∃ L, (∀ i, i < 3 → k i / 10 ≤ L ∧ L ≤ k i / 10 + 21) ∧
      Later (fun t => HdmiMode.frameIn (hdmiRx s0 (hdmiBits w k lead) dvi t)) (shifted ph w c pv) L le := by
  obtain ⟨T, h1, h2, cc, h3, h5, h6⟩ := hdmi_core s0 hs0 ph w k lead dvi n0 f g hs ha h4 hx hskew hd hp
  have hla := ha.later
  have hlo := ha.long
  have hcc := cc_level hs hc (by omega) h3 h5
  have hde : ∀ j, Analysis.SyncPolarity.de (hdmiRx s0 (hdmiBits w k lead) dvi (T + 1 + j)).path.pol = true ↔
      ph (g + 3 + j) = .pixel := fun j => (h2 j).2.2.2.2.2.1
  have ends : ∀ j, (Analysis.SyncPolarity.de (hdmiRx s0 (hdmiBits w k lead) dvi (T + 1 + j)).path.pol &&
      !Analysis.SyncPolarity.de (hdmiRx s0 (hdmiBits w k lead) dvi (T + 1 + (j + 1))).path.pol) = true ↔
      LastPixel ph (g + 3 + j) := by
    intro j
    rw [Bool.and_eq_true, hde, Bool.not_eq_true', ← Bool.not_eq_true, hde]
    rfl
  obtain ⟨i, rfl⟩ : ∃ i, le = g + 3 + i := ⟨le - (g + 3), by omega⟩
  have hlast : ∀ d, cc (i + d) = lastLevels ph c (g + 4 + (i + d)) := by
    intro d
    induction d with
    | zero =>
      have h0 := (line_then_control hs (by omega) hi.ends).1
      rw [show g + 3 + i + 1 = g + 4 + i by omega] at h0
      refine ((hcc i).1 h0).trans ?_
      rw [show g + 4 + (i + 0) = (g + 3 + i) + 1 by omega]
      rw [show g + 4 + i = (g + 3 + i) + 1 by omega] at h0 ⊢
      rw [lastLevels, if_pos h0]
    | succ d ih =>
      rw [show g + 4 + (i + (d + 1)) = g + 4 + (i + d) + 1 by omega, lastLevels]
      by_cases h : ph (g + 4 + (i + d) + 1) = .control
      · rw [if_pos h]
        exact (hcc (i + d + 1)).1 h
      · rw [if_neg h]
        exact ((hcc (i + d)).2 h).trans ih
  -- after a line both levels of the vertical sync are idle
  have hidle : ∀ d, LastPixel ph (g + 3 + (i + d)) → (cc (i + d + 1)).getLsbD 1 = pv := by
    intro d h
    have h0 := (line_then_control hs (by omega) h).2
    rw [show g + 3 + (i + d) + 2 = g + 4 + (i + d + 1) by omega] at h0
    rw [(hcc (i + d + 1)).1 h0]
    have := hi.idle _ (by omega) h
    rw [show g + 3 + (i + d) + 2 = g + 4 + (i + d + 1) by omega] at this
    exact this
  have base : ∀ d, LastPixel ph (g + 3 + (i + d)) →
      (hdmiRx s0 (hdmiBits w k lead) dvi (T + 1 + (i + d + 1))).path.pol.c_polarity.getLsbD 1 = pv ∧
      (hdmiRx s0 (hdmiBits w k lead) dvi (T + 1 + (i + d + 1))).path.pol.c_out.getLsbD 1 =
        ((cc (i + d + 1)).getLsbD 1 ^^ pv) := by
    intro d h
    obtain ⟨a, b⟩ := h6 (i + d)
    rw [if_pos ((ends (i + d)).2 h)] at a b
    have e := hidle d h
    constructor
    · exact (congrArg (·.getLsbD 1) b).trans e
    · refine (congrArg (·.getLsbD 1) a).trans ?_
      rw [e, Bool.xor_self]; rfl
  have hpol : ∀ d, (hdmiRx s0 (hdmiBits w k lead) dvi (T + 1 + (i + d + 1))).path.pol.c_polarity.getLsbD 1 = pv ∧
      (hdmiRx s0 (hdmiBits w k lead) dvi (T + 1 + (i + d + 1))).path.pol.c_out.getLsbD 1 =
        ((cc (i + d + 1)).getLsbD 1 ^^ pv) := by
    intro d
    induction d with
    | zero => exact base 0 hi.ends
    | succ d ih =>
      by_cases h : LastPixel ph (g + 3 + (i + (d + 1)))
      · exact base _ h
      · obtain ⟨a, b⟩ := h6 (i + (d + 1))
        rw [if_neg fun hh => h ((ends (i + (d + 1))).1 hh)] at a b
        constructor
        · exact (congrArg (·.getLsbD 1) b).trans ih.1
        · refine (congrArg (·.getLsbD 1) a).trans ?_
          show BitVec.getLsbD (_ ^^^ _) 1 = _
          rw [BitVec.getLsbD_xor]
          exact congrArg (Bool.xor _) ih.1
  have hT := h1 0 (by omega)
  refine ⟨T - g - 2, fun i hi => by have := h1 i hi; omega, ?_⟩
  have key : ∀ n, g + 3 + i < n → ∃ d, n = g + 3 + (i + d + 1) ∧ n + (T - g - 2) = T + 1 + (i + d + 1) :=
    fun n hn => ⟨n - (g + 4 + i), by omega, by omega⟩
  refine ⟨fun n hn => ?_, fun n hn => ?_, fun n hn => ?_, fun n hn _ => ?_, ?_⟩
  · obtain ⟨d, rfl, e⟩ := key n hn
    rw [e]
    exact (h2 (i + d + 1)).2.2.2.2.1
  · obtain ⟨d, rfl, e⟩ := key n hn
    rw [e]
    show Analysis.SyncPolarity.de _ = decide _
    rw [Bool.eq_iff_iff, hde, decide_eq_true_iff]
  · obtain ⟨d, rfl, e⟩ := key n hn
    rw [e]
    show BitVec.getLsbD _ 1 = _
    rw [(hpol d).2, show i + d + 1 = i + (d + 1) by omega, hlast]
    show _ = ((lastLevels ph c (g + 3 + (i + (d + 1)) + 1)).getLsbD 1 ^^ pv)
    rw [show g + 4 + (i + (d + 1)) = g + 3 + (i + (d + 1)) + 1 by omega]
  · obtain ⟨d, rfl, e⟩ := key n hn
    rw [e]
    have := (h2 (i + d + 1)).2.2.2.2.2.2
    rw [show g + 4 + (i + d + 1) = g + 3 + (i + d + 1) + 1 by omega] at this
    exact this
  · exact decide_eq_false hi.ends.2

variable {σ : Type} {wd : Nat} {E : Extractor σ wd} {depth nslots aw al : Nat} {y : Nat → HdmiIn.In}
  {dvimode : Nat → Bool}

/-- The video at the frame extractor. -/
theorem hdmi_source_video {k : Nat → Nat} {lead : Nat → Nat → Bool} (hl : LanesOn (hdmiBits w k lead) y)
    (hs : Sends ph w n0) (ha : Acquire ph n0 f g) (h4 : 4 ≤ n0) (hx : TmdsPixels ph w n0)
    (hskew : ∀ i j, i < 3 → j < 3 → k i ≤ k j + 70) (hd : ∀ t, dvimode t = false) (hp : PlainLines ph w n0)
    (hc : CarriesSyncs ph w c n0) {pv : Bool} {le : Nat} (hle : g + 3 ≤ le) (hi : IdleSync ph c pv le) :
    ∃ V L, L ≤ k 0 / 10 + 21 ∧ Video (modeCaptureIn E depth nslots aw al y dvimode) V ∧
      Later V (shifted ph w c pv) L le := by
  obtain ⟨L, hL, hlat⟩ := hdmi_later Rx.reset ⟨by decide, by decide, by decide,
    fun i _ => ⟨show 0 < 8 by decide, show 0 < 8 by decide⟩⟩ k lead (fun _ => false) hs ha h4 hx hskew
    (fun _ => rfl) hp hc pv le hle hi
  refine ⟨_, L, (hL 0 (by omega)).2, fun t _ => ?_, hlat⟩
  show HdmiMode.frameIn (hdmiMode E depth nslots aw al y dvimode t).rx = HdmiMode.frameIn _
  congr 1
  refine trace_ticks Rx.step Rx.reset (fun u => (y u).pixEdge)
    (fun t => (hdmiMode E depth nslots aw al y dvimode t).rx) _ rfl (fun t => ?_) t
  show (if (y t).pixEdge then Rx.step (hdmiMode E depth nslots aw al y dvimode t).rx
    ((y t).raw, dvimode t) else _) = _
  by_cases h : (y t).pixEdge = true
  · rw [if_pos h, if_pos h, hl t h, hd]
  · rw [if_neg h, if_neg h]

end Lemmas

/-- **C135** From an HDMI source to memory, rgb mode, as far as it is true: the frames that reach memory are those
of the source with the colours one word early (C76), so that each line lacks its first pixel and ends with a pixel
made from a control word.  The receiver is built with `hdmi=True` and is not in DVI mode; the three lanes arrive
with any delays at most 70 bits apart; otherwise as in C84. -/
theorem C135_to_memory_partial (ph : Nat → Phase) (w : Nat → Triple) (c : Nat → BitVec 2) (k : Nat → Nat)
    (lead : Nat → Nat → Bool) (n0 f g : Nat) (hs : Sends ph w n0) (ha : Acquire ph n0 f g) (h4 : 4 ≤ n0)
    (hx : TmdsPixels ph w n0) (hp : PlainLines ph w n0) (hc : CarriesSyncs ph w c n0)
    (hskew : ∀ i j, i < 3 → j < 3 → k i ≤ k j + 70) (pv : Bool) (le : Nat) (hle : g + 3 ≤ le)
    (hi : IdleSync ph c pv le) (pf depth nslots aw al : Nat) (hpf : 2 ≤ pf) (N f0 f1 T0 : Nat)
    (y : Nat → HdmiIn.In) (dvimode : Nat → Bool) (hd : ∀ t, dvimode t = false)
    (hl : LanesOn (hdmiBits w k lead) y) (st : SteadyFrom pf N f0 (shifted ph w c pv)) (hlf : le < f0)
    (hf0 : FrameStarts (shifted ph w c pv) f0) (hf1 : FrameStarts (shifted ph w c pv) f1) (hf : f0 < f1)
    (hseen : f1 + k 0 / 10 + 23 ≤ countIn (fun u => (y u).pixEdge) 0 T0)
    (hsize : ∀ t, T0 ≤ t → Dma.wordsOf aw al (y t).frame_size = N) (hN : 1 ≤ N) (e s : Nat)
    (he : T0 ≤ e) :
    let z := modeCaptureIn (rgb pf) depth nslots aw al y dvimode
    AtRest (rgb pf) depth nslots aw al z T0 → SoftwareOwns (rgb pf) depth nslots aw al z T0 →
    NoOverflow (rgb pf) depth nslots aw al z T0 (e + 1) → Done (rgb pf) depth nslots aw al z e s →
    ∃ b t n, T0 ≤ b ∧ f1 ≤ t ∧ FrameStarts (shifted ph w c pv) t ∧
      (∀ u, u < n → ¬ FrameStarts (shifted ph w c pv) (t + 1 + u)) ∧
      let words := (groups pf (activePixels (shifted ph w c pv) (t + 2) n)).take N
      words.length = N ∧ Captured (rgb pf) depth nslots aw al z b e s words := by
  intro z rest own hno hdone
  obtain ⟨V, L, hL, hV, hlat⟩ := hdmi_source_video (E := rgb pf) (depth := depth) (nslots := nslots)
    (aw := aw) (al := al) hl hs ha h4 hx hskew hd hp hc hle hi
  obtain ⟨F, h, -⟩ := frames_to_memory hpf hV hlat st hlf hf0 hf1 hf
    (Nat.le_trans (by omega) hseen) hsize hN rest own
  obtain ⟨b, ws, h1, ⟨h2, h3, n, h4, -, -, rfl, h5⟩, h6⟩ := h e s he hno hdone
  exact ⟨b, F e, n, h1, h2, h3, h4, h5, h6⟩

/-- **C135**, ycbcr422 mode (the default), for lines and blanking as in C84. -/
theorem C135_to_memory_ycbcr422_partial (ph : Nat → Phase) (w : Nat → Triple) (c : Nat → BitVec 2) (k : Nat → Nat)
    (lead : Nat → Nat → Bool) (n0 f g : Nat) (hs : Sends ph w n0) (ha : Acquire ph n0 f g) (h4 : 4 ≤ n0)
    (hx : TmdsPixels ph w n0) (hp : PlainLines ph w n0) (hc : CarriesSyncs ph w c n0)
    (hskew : ∀ i j, i < 3 → j < 3 → k i ≤ k j + 70) (pv : Bool) (le : Nat) (hle : g + 3 ≤ le)
    (hi : IdleSync ph c pv le) (pf depth nslots aw al : Nat) (hpf : 2 ≤ pf) (N f0 f1 T0 : Nat)
    (y : Nat → HdmiIn.In) (dvimode : Nat → Bool) (hd : ∀ t, dvimode t = false)
    (hl : LanesOn (hdmiBits w k lead) y) (st : SteadyFrom422 pf N f0 (shifted ph w c pv)) (hlf : le + 11 ≤ f0)
    (even : EvenLines le (shifted ph w c pv))
    (hf0 : FrameStarts (shifted ph w c pv) f0) (hf1 : FrameStarts (shifted ph w c pv) f1) (hf : f0 < f1)
    (hseen : f1 + k 0 / 10 + 23 ≤ countIn (fun u => (y u).pixEdge) 0 T0)
    (hsize : ∀ t, T0 ≤ t → Dma.wordsOf aw al (y t).frame_size = N) (hN : 1 ≤ N) (e s : Nat)
    (he : T0 ≤ e) :
    let z := modeCaptureIn (ycbcr422 pf) depth nslots aw al y dvimode
    AtRest (ycbcr422 pf) depth nslots aw al z T0 → SoftwareOwns (ycbcr422 pf) depth nslots aw al z T0 →
    NoOverflow (ycbcr422 pf) depth nslots aw al z T0 (e + 1) → Done (ycbcr422 pf) depth nslots aw al z e s →
    ∃ b t n, T0 ≤ b ∧ f1 ≤ t ∧ FrameStarts (shifted ph w c pv) t ∧
      (∀ u, u < n → ¬ FrameStarts (shifted ph w c pv) (t + 1 + u)) ∧
      let words := (groups pf (activePixels422 (shifted ph w c pv) (t + 2) n)).take N
      words.length = N ∧ Captured (ycbcr422 pf) depth nslots aw al z b e s words := by
  intro z rest own hno hdone
  obtain ⟨V, L, hL, hV, hlat⟩ := hdmi_source_video (E := ycbcr422 pf) (depth := depth) (nslots := nslots)
    (aw := aw) (al := al) hl hs ha h4 hx hskew hd hp hc hle hi
  obtain ⟨F, h, -⟩ := frames_to_memory422 hpf hV hlat st hlf even hf0 hf1 hf
    (Nat.le_trans (by omega) hseen) hsize hN rest own
  obtain ⟨b, ws, h1, ⟨h2, h3, n, h4, -, -, rfl, h5⟩, h6⟩ := h e s he hno hdone
  exact ⟨b, F e, n, h1, h2, h3, h4, h5, h6⟩

/-! ### A concrete case -/

/-- A line of 20 pixels to lock, a line of two pixels, and three frames of four pixels; all pixels have the same
colour.  The vertical sync is active for one word before each frame. -/
def tinyPhase (n : Nat) : Phase :=
  if n = 30 ∨ n = 31 ∨ n = 68 ∨ n = 69 ∨ n = 88 ∨ n = 89 ∨ n = 112 ∨ n = 113 ∨ n = 156 ∨ n = 157 then .videoGuard
  else if (32 ≤ n ∧ n < 52) ∨ (70 ≤ n ∧ n < 72) ∨ (90 ≤ n ∧ n < 94) ∨ (114 ≤ n ∧ n < 118) ∨
    (158 ≤ n ∧ n < 162) then .pixel
  else .control

def tinySync (n : Nat) : BitVec 2 := if n = 84 ∨ n = 108 ∨ n = 152 then 2 else 0

def tinyWord (n : Nat) : Triple :=
  match tinyPhase n with
  | .control => ⟨if n = 84 ∨ n = 108 ∨ n = 152 then 0x154#10 else 0x354#10, 0x354#10, 0x354#10⟩
  | .videoGuard => Spec.Hdmi.videoGuard
  | _ => ⟨0x1F0#10, 0x230#10, 0x1C0#10⟩

/-- The lanes arrive 2, 15 and 28 bits late; software loads slot 1 with address 400 at instant 143. -/
def tinyRun (t : Nat) : HdmiIn.In :=
  { pixEdge := true
    raw := ⟨deserialised (hdmiBits tinyWord (fun i => 13 * i + 2) (fun _ _ => true) 0) t,
      deserialised (hdmiBits tinyWord (fun i => 13 * i + 2) (fun _ _ => true) 1) t,
      deserialised (hdmiBits tinyWord (fun i => 13 * i + 2) (fun _ _ => true) 2) t⟩
    wok := true, sysEdge := true, rok := t % 2 == 0
    busReady := t % 3 != 0, wdataValid := t % 4 != 0, frame_size := 8
    sw := fun n => if t = 143 ∧ n = 1 then ⟨some 1, some 400⟩ else ⟨none, none⟩ }

theorem tiny_control {n : Nat} (h : 162 ≤ n) : tinyPhase n = .control := by
  unfold tinyPhase
  rw [if_neg (by omega), if_neg (by omega)]

theorem tiny_island (n : Nat) : tinyPhase n ≠ .islandLead ∧ tinyPhase n ≠ .island ∧ tinyPhase n ≠ .islandTrail := by
  unfold tinyPhase
  split
  · exact ⟨by decide, by decide, by decide⟩
  · split <;> exact ⟨by decide, by decide, by decide⟩

theorem tinyWord_late {n : Nat} (h : 162 ≤ n) : tinyWord n = ⟨0x354#10, 0x354#10, 0x354#10⟩ := by
  unfold tinyWord
  rw [tiny_control h]
  dsimp only
  rw [if_neg (by omega)]

theorem tiny_pixel {n : Nat} (h : tinyPhase n = .pixel) : tinyWord n = ⟨0x1F0#10, 0x230#10, 0x1C0#10⟩ := by
  unfold tinyWord; rw [h]

theorem tiny_early {n : Nat} (h : tinyPhase n = .pixel) : n < 162 := by
  rcases Nat.lt_or_ge n 162 with h1 | h1
  · exact h1
  · rw [tiny_control h1] at h; exact absurd h (by decide)

theorem tiny_sends : Sends tinyPhase tinyWord 4 := by
  refine ⟨rfl, rfl, ?_, ?_, ?_, fun t _ _ h => absurd h (tiny_island _).1⟩
  · intro t _
    have : ∀ r, r < 162 → Spec.Hdmi.follows (tinyPhase r) (tinyPhase (r + 1)) = true := by decide +kernel
    rcases Nat.lt_or_ge t 162 with h | h
    · exact this t h
    · rw [tiny_control h, tiny_control (by omega)]; rfl
  · intro t _ h0 h1
    have : ∀ r, r < 162 → tinyPhase r ≠ .control → tinyPhase (r + 1) = .control →
        tinyPhase (r + 2) = .control := by decide +kernel
    rcases Nat.lt_or_ge t 162 with h | h
    · exact this t h h0 h1
    · exact tiny_control (by omega)
  · intro t _
    have : ∀ r, r < 162 → Spec.Hdmi.carries (tinyPhase r) (tinyWord r) := by decide +kernel
    rcases Nat.lt_or_ge t 162 with h | h
    · exact this t h
    · rw [tiny_control h, tinyWord_late h]; decide

theorem tiny_acquire : Acquire tinyPhase 4 30 52 where
  blank := fun n h1 h2 => by
    have : ∀ m, m < 14 → tinyPhase m = .control := by decide +kernel
    exact this n (by omega)
  later := by decide
  before := rfl
  period := fun n h1 h2 => by
    have : ∀ m, m < 52 → 30 ≤ m → tinyPhase m ≠ .control := by decide +kernel
    exact this n h2 h1
  long := by decide
  after := fun n h1 h2 => by
    have : ∀ m, m < 62 → 52 ≤ m → tinyPhase m = .control := by decide +kernel
    exact this n (by omega) h1

theorem tiny_pixels : TmdsPixels tinyPhase tinyWord 4 := by
  intro n i _ hp hi
  rw [tiny_pixel hp]
  have : ∀ i, i < 3 → transitionsBelow ((⟨0x1F0#10, 0x230#10, 0x1C0#10⟩ : Triple).channel i) 10 ≤ 5 := by
    decide +kernel
  exact this i hi

theorem tiny_plain : PlainLines tinyPhase tinyWord 4 := by
  intro t _ _ h1
  rw [tiny_pixel h1]; decide

theorem tiny_syncs : CarriesSyncs tinyPhase tinyWord tinySync 4 := by
  intro n _
  refine ⟨fun h => ?_, fun h => ?_⟩
  · have : ∀ r, r < 162 → tinyPhase r = .control → controlBits (tinyWord r).c0 = tinySync r := by decide +kernel
    rcases Nat.lt_or_ge n 162 with h1 | h1
    · exact this n h1 h
    · rw [tinyWord_late h1]
      unfold tinySync
      rw [if_neg (by omega)]; decide
  · have := tiny_island n
    rcases h with h | h | h
    · exact absurd h this.1
    · exact absurd h this.2.1
    · exact absurd h this.2.2

theorem tiny_idle : IdleSync tinyPhase tinySync false 71 where
  ends := ⟨by decide, by decide⟩
  idle := fun e he h => by
    have : ∀ r, r < 162 → tinyPhase r = .pixel → tinyPhase (r + 1) ≠ .pixel →
        (tinySync (r + 2)).getLsbD 1 = false := by decide +kernel
    exact this e (tiny_early h.1) h.1 h.2

theorem tiny_last {n : Nat} (h : 162 ≤ n) : lastLevels tinyPhase tinySync n = 0 := by
  obtain ⟨m, rfl⟩ : ∃ m, n = m + 1 := ⟨n - 1, by omega⟩
  show (if tinyPhase (m + 1) = .control then tinySync (m + 1) else _) = 0
  rw [if_pos (tiny_control h)]
  unfold tinySync
  rw [if_neg (by omega)]

theorem tiny_starts {t : Nat} (h : FrameStarts (shifted tinyPhase tinyWord tinySync false) t) :
    t = 82 ∨ t = 106 ∨ t = 150 := by
  have key : ∀ r, r < 162 → (shifted tinyPhase tinyWord tinySync false (r + 1)).vsync = true →
      (shifted tinyPhase tinyWord tinySync false r).vsync = false → r = 82 ∨ r = 106 ∨ r = 150 := by
    decide +kernel
  rcases Nat.lt_or_ge t 162 with h1 | h1
  · exact key t h1 h.2 h.1
  · have := h.2
    simp only [shifted, tiny_last (show 162 ≤ t + 1 + 1 by omega)] at this
    exact absurd this (by decide)

theorem tiny_frames {t n : Nat} (ht : FrameStarts (shifted tinyPhase tinyWord tinySync false) t)
    (hno : ∀ u, u < n → ¬ FrameStarts (shifted tinyPhase tinyWord tinySync false) (t + 1 + u))
    (hn : FrameStarts (shifted tinyPhase tinyWord tinySync false) (t + 1 + n)) :
    (t = 82 ∧ n = 23) ∨ (t = 106 ∧ n = 43) := by
  have h1 := tiny_starts ht
  have h2 := tiny_starts hn
  have h3 : ¬ (t = 82 ∧ n = 67) := by
    rintro ⟨rfl, rfl⟩
    exact hno 23 (by omega) (by unfold FrameStarts; decide +kernel)
  omega

theorem tiny_steady : SteadyFrom 2 2 82 (shifted tinyPhase tinyWord tinySync false) := by
  refine ⟨fun t n _ ht hno hn => ?_⟩
  rcases tiny_frames ht hno hn with ⟨rfl, rfl⟩ | ⟨rfl, rfl⟩ <;> decide +kernel

theorem tiny_ideal_starts {t : Nat} (h : FrameStarts (ideal tinyPhase tinyWord tinySync false) t) :
    t = 83 ∨ t = 107 ∨ t = 151 := by
  have := h.2
  simp only [ideal, tinySync, Bool.xor_false] at this
  by_cases h1 : t + 1 = 84 ∨ t + 1 = 108 ∨ t + 1 = 152
  · omega
  · rw [if_neg h1] at this; exact absurd this (by decide)

theorem tiny_ideal_steady : SteadyFrom 2 2 83 (ideal tinyPhase tinyWord tinySync false) := by
  refine ⟨fun t n _ ht hno hn => ?_⟩
  have h : (t = 83 ∧ n = 23) ∨ (t = 107 ∧ n = 43) := by
    have h1 := tiny_ideal_starts ht
    have h2 := tiny_ideal_starts hn
    have h3 : ¬ (t = 83 ∧ n = 67) := by
      rintro ⟨rfl, rfl⟩
      exact hno 23 (by omega) (by unfold FrameStarts; decide +kernel)
    omega
  rcases h with ⟨rfl, rfl⟩ | ⟨rfl, rfl⟩ <;> decide +kernel

theorem tiny_lanes : LanesOn (hdmiBits tinyWord (fun i => 13 * i + 2) (fun _ _ => true)) tinyRun := by
  intro t _
  rw [countIn_all (fun u => (tinyRun u).pixEdge) (fun _ => rfl)]; rfl

theorem tiny_owns {σ : Type} {w : Nat} (E : Extractor σ w) (d : Nat → Bool) :
    SoftwareOwns E 4 2 10 2 (modeCaptureIn E 4 2 10 2 tinyRun d) 144 := by
  intro t n ht _ _
  have : ¬ (t = 143 ∧ n = 1) := by omega
  simp [modeCaptureIn, HdmiMode.capIn, tinyRun, this]

/-- What its capture path sees. -/
abbrev tinyCapture : Nat → Verif.Capture.In := modeCaptureIn (rgb 2) 4 2 10 2 tinyRun fun _ => false

set_option maxRecDepth 100000 in
theorem tiny_rest : AtRest (rgb 2) 4 2 10 2 tinyCapture 144 := by unfold AtRest; decide +kernel

set_option maxRecDepth 100000 in
theorem tiny_room : NoOverflow (rgb 2) 4 2 10 2 tinyCapture 144 181 := by unfold NoOverflow; decide +kernel

set_option maxRecDepth 100000 in
theorem tiny_done : Done (rgb 2) 4 2 10 2 tinyCapture 180 1 := by unfold Done; decide +kernel

/-- The memory words written by instant 180, the newest pixel first. -/
def tinyMemory : List (Nat × List (BitVec 32)) :=
  [(100, [0x40AF10, 0x40AF10]), (101, [0xFDFDFD, 0x40AF10])]

set_option maxRecDepth 100000 in
theorem tiny_writes : memWrites (rgb 2) 4 2 10 2 tinyCapture 0 181 = tinyMemory := by decide +kernel

/-- All hypotheses of `C135_to_memory_partial` hold for this run with `T0 = 144`, frame starts 82 and 106, and the
transfer done at instant 180.  The last pixel of the frame in memory is `0xFDFDFD`, which the source has not
sent: it is what a control word looks like to the TMDS decoder. -/
example : ∃ b t n, 144 ≤ b ∧ 106 ≤ t ∧ FrameStarts (shifted tinyPhase tinyWord tinySync false) t ∧
    (∀ u, u < n → ¬ FrameStarts (shifted tinyPhase tinyWord tinySync false) (t + 1 + u)) ∧
    let words := (groups 2 (activePixels (shifted tinyPhase tinyWord tinySync false) (t + 2) n)).take 2
    words.length = 2 ∧
      Captured (rgb 2) 4 2 10 2 tinyCapture b 180 1 words :=
  C135_to_memory_partial tinyPhase tinyWord tinySync (fun i => 13 * i + 2) (fun _ _ => true) 4 30 52 tiny_sends
    tiny_acquire (by decide) tiny_pixels tiny_plain tiny_syncs (fun i j hi hj => by omega) false 71 (by decide)
    tiny_idle 2 4 2 10 2 (by decide) 2 82 106 144 tinyRun (fun _ => false) (fun _ => rfl) tiny_lanes tiny_steady
    (by decide) (by unfold FrameStarts; decide +kernel) (by unfold FrameStarts; decide +kernel) (by decide)
    (by decide +kernel) (fun t _ => by simp [Dma.wordsOf, tinyRun]) (by decide) 180 1 (by decide) tiny_rest
    (tiny_owns _ _) tiny_room tiny_done

theorem tiny_steady422 : SteadyFrom422 2 2 82 (shifted tinyPhase tinyWord tinySync false) := by
  refine ⟨fun u hu h1 h2 => ?_, fun t _ ht => ⟨ht, ?_⟩, fun t n _ ht hno hn => ?_⟩
  · have key : ∀ u, u < 162 → 82 ≤ u → (shifted tinyPhase tinyWord tinySync false u).de = true →
      (shifted tinyPhase tinyWord tinySync false (u + 1)).de = false → ∀ i, i < 11 →
      (shifted tinyPhase tinyWord tinySync false (u + 1 + i)).de = false := by decide +kernel
    exact key u (tiny_early (of_decide_eq_true h1)) hu h1 h2
  · rcases tiny_starts ht with rfl | rfl | rfl
    · have : ∀ u, u < 84 → 84 ≤ u + 12 → ((shifted tinyPhase tinyWord tinySync false u).valid_i &&
        (shifted tinyPhase tinyWord tinySync false u).de) = false := by decide +kernel
      exact this
    · have : ∀ u, u < 108 → 108 ≤ u + 12 → ((shifted tinyPhase tinyWord tinySync false u).valid_i &&
        (shifted tinyPhase tinyWord tinySync false u).de) = false := by decide +kernel
      exact this
    · have : ∀ u, u < 152 → 152 ≤ u + 12 → ((shifted tinyPhase tinyWord tinySync false u).valid_i &&
        (shifted tinyPhase tinyWord tinySync false u).de) = false := by decide +kernel
      exact this
  · rcases tiny_frames ht hno hn with ⟨rfl, rfl⟩ | ⟨rfl, rfl⟩ <;> decide +kernel

theorem tiny_even : EvenLines 71 (shifted tinyPhase tinyWord tinySync false) := by
  have key : ∀ u, u < 162 → 71 < u → (shifted tinyPhase tinyWord tinySync false u).de = true →
    lineOffset (shifted tinyPhase tinyWord tinySync false) u % 2 = 0 →
    (shifted tinyPhase tinyWord tinySync false (u + 1)).de = true := by decide +kernel
  exact fun u hu h1 h2 => key u (tiny_early (of_decide_eq_true h1)) hu h1 h2

set_option maxRecDepth 100000 in
/-- The hypotheses of `C135_to_memory_ycbcr422_partial` that differ from those of `C135_to_memory_partial`; here
the transfer is done at instant 192. -/
example : SteadyFrom422 2 2 82 (shifted tinyPhase tinyWord tinySync false) ∧
    EvenLines 71 (shifted tinyPhase tinyWord tinySync false) ∧
    let z := modeCaptureIn (ycbcr422 2) 4 2 10 2 tinyRun fun _ => false
    AtRest (ycbcr422 2) 4 2 10 2 z 144 ∧ SoftwareOwns (ycbcr422 2) 4 2 10 2 z 144 ∧
    NoOverflow (ycbcr422 2) 4 2 10 2 z 144 193 ∧ Done (ycbcr422 2) 4 2 10 2 z 192 1 := by
  refine ⟨tiny_steady422, tiny_even, by unfold AtRest; decide +kernel, tiny_owns _ _, ?_, ?_⟩
  · unfold NoOverflow; decide +kernel
  · unfold Done; decide +kernel

/-! ### The full claim -/

/-- C135, rgb mode: the frames that reach memory are those that the source has sent. -/
def C135_statement : Prop :=
  ∀ (ph : Nat → Phase) (w : Nat → Triple) (c : Nat → BitVec 2) (k : Nat → Nat)
    (lead : Nat → Nat → Bool) (n0 f g : Nat), Sends ph w n0 → Acquire ph n0 f g → 4 ≤ n0 →
    TmdsPixels ph w n0 → PlainLines ph w n0 → CarriesSyncs ph w c n0 →
    (∀ i j, i < 3 → j < 3 → k i ≤ k j + 70) → ∀ (pv : Bool) (le : Nat), g + 3 ≤ le → IdleSync ph c pv le →
    ∀ (pf depth nslots aw al : Nat), 2 ≤ pf → ∀ (N f0 f1 T0 : Nat) (y : Nat → HdmiIn.In) (dvimode : Nat → Bool),
    (∀ t, dvimode t = false) → LanesOn (hdmiBits w k lead) y → SteadyFrom pf N f0 (ideal ph w c pv) → le < f0 →
    FrameStarts (ideal ph w c pv) f0 → FrameStarts (ideal ph w c pv) f1 → f0 < f1 →
    f1 + k 0 / 10 + 26 ≤ countIn (fun u => (y u).pixEdge) 0 T0 →
    (∀ t, T0 ≤ t → Dma.wordsOf aw al (y t).frame_size = N) → 1 ≤ N → ∀ (e s : Nat), T0 ≤ e →
    let z := modeCaptureIn (rgb pf) depth nslots aw al y dvimode
    AtRest (rgb pf) depth nslots aw al z T0 → SoftwareOwns (rgb pf) depth nslots aw al z T0 →
    NoOverflow (rgb pf) depth nslots aw al z T0 (e + 1) → Done (rgb pf) depth nslots aw al z e s →
    ∃ b t n, T0 ≤ b ∧ FrameStarts (ideal ph w c pv) t ∧
      (∀ u, u < n → ¬ FrameStarts (ideal ph w c pv) (t + 1 + u)) ∧
      let words := (groups pf (activePixels (ideal ph w c pv) (t + 2) n)).take N
      words.length = N ∧ Captured (rgb pf) depth nslots aw al z b e s words

theorem pickIn_mem {α : Type} {p : Nat → Bool} {x : Nat → α} {t : Nat} {a : α} :
    ∀ {n}, a ∈ pickIn p x t n → ∃ u, p u = true ∧ a = x u
  | 0, h => absurd h (List.not_mem_nil)
  | n + 1, h => by
    rcases List.mem_append.1 h with h | h
    · exact pickIn_mem h
    · split at h
      · rename_i hp
        exact ⟨t + n, hp, List.mem_singleton.1 h⟩
      · exact absurd h (List.not_mem_nil)

/-- Every pixel of every word of a frame of this source has the same colour. -/
theorem tiny_colour {t n i : Nat} {l : List Nat} {p : Nat}
    (h : ((groups 2 (activePixels (ideal tinyPhase tinyWord tinySync false) t n)).take 2)[i]? = some l)
    (hp : p ∈ l) : p = 0x40AF10 := by
  have h1 := List.mem_of_mem_take (List.mem_of_getElem? h)
  obtain ⟨j, -, rfl⟩ := List.mem_map.1 h1
  have h2 := List.mem_of_mem_drop (List.mem_of_mem_take hp)
  obtain ⟨u, hu, rfl⟩ := pickIn_mem h2
  have hph : tinyPhase u = .pixel := of_decide_eq_true hu
  simp only [ideal, tiny_pixel hph]
  decide +kernel

/-- The code does not do this (see C76): here the source sends only pixels of the colour `0x40AF10`, and the frame
in memory ends with `0xFDFDFD`. -/
theorem C135_violated : ¬ C135_statement := by
  intro h
  obtain ⟨b, t, n, -, -, -, hlen, -, -, -, -, hmem⟩ := h tinyPhase tinyWord tinySync (fun i => 13 * i + 2)
    (fun _ _ => true) 4 30 52 tiny_sends tiny_acquire (by decide) tiny_pixels tiny_plain tiny_syncs
    (fun i j hi hj => by omega) false 71 (by decide) tiny_idle 2 4 2 10 2 (by decide) 2 83 107 144 tinyRun
    (fun _ => false) (fun _ => rfl) tiny_lanes tiny_ideal_steady (by decide)
    (by unfold FrameStarts; decide +kernel) (by unfold FrameStarts; decide +kernel) (by decide) (by decide +kernel)
    (fun t _ => by simp [Dma.wordsOf, tinyRun]) (by decide) 180 1 (by decide) tiny_rest (tiny_owns _ _)
    tiny_room tiny_done
  have bad : ∀ i, ((groups 2 (activePixels (ideal tinyPhase tinyWord tinySync false) (t + 2) n)).take 2)[i]? ≠
      some [0x40AF10, 0xFDFDFD] := fun i hi =>
    absurd (tiny_colour hi (p := 0xFDFDFD) (by simp)) (by decide)
  have m101 : (memory tinyMemory 101).map pixels = some [0x40AF10, 0xFDFDFD] := by decide +kernel
  have mnone : ∀ a, a ≠ 100 → a ≠ 101 → memory tinyMemory a = none := by
    intro a h1 h2
    simp [memory, tinyMemory, h1, h2]
  rw [show (180 + 1 : Nat) = 181 from rfl, tiny_writes] at hmem
  have g0 := hmem 0 (by omega)
  have g1 := hmem 1 (by omega)
  generalize Verif.Dma.Slot.word _ _ _ = a at g0 g1
  by_cases h1 : (a + 0) % 2 ^ 10 = 101
  · rw [h1] at g0
    exact bad 0 (g0.symm.trans m101)
  · by_cases h0 : (a + 0) % 2 ^ 10 = 100
    · rw [show (a + 1) % 2 ^ 10 = 101 by omega] at g1
      exact bad 1 (g1.symm.trans m101)
    · rw [mnone _ h0 h1] at g0
      have := List.getElem?_eq_none_iff.1 g0.symm
      omega

end Verif.Props
