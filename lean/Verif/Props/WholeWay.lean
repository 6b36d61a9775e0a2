import Verif.Props.Delivered
import Verif.Props.Bandwidth
import Verif.Props.OutputRate

/-!
# C99: from frame buffer to memory, with memories that are fast enough
-/

namespace Verif.Props

open Verif.HdmiIn Verif.Spec.HdmiIn Verif.Spec.Capture Verif.Spec.Frame Verif.Spec.Stream Verif.VideoOut
  Verif.Spec.VideoOut Verif.Output Verif.Spec.Output Verif.Spec.Loop Verif.Loop Verif.Spec.Link
open Verif.Capture (rgb ycbcr422)

/-- **C99** The whole way, with assumptions about the two memories only.  An output core in rgb mode
displays a frame buffer in mode `p`; its memory answers within `L` clocks and refuses commands at no
more than `r` clocks of a line time (C98).  The link is that of C91.  The memory of the receiver keeps up
over any `B` words, and its FIFO is deep enough for that and for its lag of `K` pixel clocks (C97).  If at
instant `T0`, once the output has run `L + r + 3` lines, four frames and 31 clocks plus the line delay, the
capture path is at rest and slot `s` is LOADED, the frame size is that of the picture, the clocks, the
FIFO and the bus stay alive, and software leaves LOADED slots alone and loads no other slot, then at some
instant slot `s` is done and holds the frame buffer: all its pixels, in order, with their red, green and
blue. -/
theorem C99_display_to_memory (cfg : Core.Config) (p : Params) (hp : RealMode p)
    (hraw : cfg.raw = false) (hlen : p.length / 2 ^ cfg.shift % 2 ^ cfg.aw = p.vres * p.hres)
    (mem : Nat → Nat) (i : Nat → Core.In)
    (hi : ∀ t, (i t).pvalid = true ∧ (i t).p = p ∧ (i t).mem = mem) (hr : ∀ t, (i t).ready = true)
    (L r : Nat) (hans : Core.AnswersWithin cfg i L) (href : Core.RefusesAtMost i p r)
    (hblank : r + 2 ≤ lineLen p - p.hres) (hfifo : L + r + 2 < cfg.depth)
    (D : Nat → Nat) (hskew : ∀ i j, i < 3 → j < 3 → D i ≤ D j + 70)
    (pf depth nslots aw al : Nat) (hpf : 2 ≤ pf) (y : Nat → In)
    (hl : Connected (fun u => rgbPhy (coreBeat cfg i u)) D y) (N T0 : Nat)
    (hN : N * pf = p.vres * p.hres)
    (hseen : (L + r + 3) * lineLen p + 4 * frameLen p + D 0 / 10 + 31 ≤
      countIn (fun u => (y u).pixEdge) 0 T0)
    (hsize : ∀ t, T0 ≤ t → Dma.wordsOf aw al (y t).frame_size = N)
    (alive : AliveIn y) (none : LoadsNoneIn y T0) (s : Nat) (hs : s < nslots)
    (B K : Nat) (hB : 1 ≤ B) (hdepth : B + (K + pf - 1) / pf < depth) :
    let z := captureIn (rgb pf) depth nslots aw al y
    KeepsUp (rgb pf) depth nslots aw al z B → LagsBy (rgb pf) depth nslots aw al z K →
    Spec.Capture.AtRest (rgb pf) depth nslots aw al z T0 → SoftwareOwns (rgb pf) depth nslots aw al z T0 →
    ((capture (rgb pf) depth nslots aw al z T0).dma.slots s).valid = true →
    ∃ e b, T0 ≤ b ∧ Done (rgb pf) depth nslots aw al z e s ∧
      Captured (rgb pf) depth nslots aw al z b e s
        (groups pf ((List.range (p.vres * p.hres)).map fun q =>
          let w := bufferWord cfg p mem q
          byte 0 w * 65536 + byte 1 w * 256 + byte 2 w)) := by
  intro z keeps lag rest own hload
  have hh : 0 < p.hres := by have := hp.wide; omega
  obtain ⟨h1, h2⟩ := C98_no_underflow cfg p hp.toValidMode hraw hp.lines hh hlen i
    (fun t => ⟨(hi t).1, (hi t).2.1⟩) hr L r hans href hblank hfifo
  exact C91_display_to_memory cfg p hp hraw hlen mem i hi ((L + r + 3) * lineLen p + 1) _ (h2 1)
    (fun t ht => ⟨hr t, h1 t (by omega)⟩) D hskew pf depth nslots aw al hpf y hl N T0 hN (by omega)
    hsize alive none s hs rest own hload fun T _ =>
      (C97_no_overflow pf depth nslots aw al B K hpf hB z keeps lag hdepth).2 T0 (T + 1)

/-- **C99**, receiver in ycbcr422 mode: the slot holds the picture of the frame buffer in 4:2:2. -/
theorem C99_display_to_memory_ycbcr422 (cfg : Core.Config) (p : Params) (hp : RealMode p)
    (hraw : cfg.raw = false) (hlen : p.length / 2 ^ cfg.shift % 2 ^ cfg.aw = p.vres * p.hres)
    (mem : Nat → Nat) (i : Nat → Core.In)
    (hi : ∀ t, (i t).pvalid = true ∧ (i t).p = p ∧ (i t).mem = mem) (hr : ∀ t, (i t).ready = true)
    (L r : Nat) (hans : Core.AnswersWithin cfg i L) (href : Core.RefusesAtMost i p r)
    (hblank : r + 2 ≤ lineLen p - p.hres) (hfifo : L + r + 2 < cfg.depth)
    (hev : p.hres % 2 = 0) (hbl : p.hres + 10 ≤ p.hscan)
    (D : Nat → Nat) (hskew : ∀ i j, i < 3 → j < 3 → D i ≤ D j + 70)
    (pf depth nslots aw al : Nat) (hpf : 2 ≤ pf) (y : Nat → In)
    (hl : Connected (fun u => rgbPhy (coreBeat cfg i u)) D y) (N T0 : Nat)
    (hN : N * pf = p.vres * p.hres)
    (hseen : (L + r + 3) * lineLen p + 4 * frameLen p + D 0 / 10 + 31 ≤
      countIn (fun u => (y u).pixEdge) 0 T0)
    (hsize : ∀ t, T0 ≤ t → Dma.wordsOf aw al (y t).frame_size = N)
    (alive : AliveIn y) (none : LoadsNoneIn y T0) (s : Nat) (hs : s < nslots)
    (B K : Nat) (hB : 1 ≤ B) (hdepth : B + (K + pf - 1) / pf < depth) :
    let z := captureIn (ycbcr422 pf) depth nslots aw al y
    KeepsUp (ycbcr422 pf) depth nslots aw al z B → LagsBy (ycbcr422 pf) depth nslots aw al z K →
    Spec.Capture.AtRest (ycbcr422 pf) depth nslots aw al z T0 →
    SoftwareOwns (ycbcr422 pf) depth nslots aw al z T0 →
    ((capture (ycbcr422 pf) depth nslots aw al z T0).dma.slots s).valid = true →
    ∃ e b, T0 ≤ b ∧ Done (ycbcr422 pf) depth nslots aw al z e s ∧
      Captured (ycbcr422 pf) depth nslots aw al z b e s
        (groups pf ((List.range (p.vres * p.hres)).map
          (pic422 fun q => colourOf (bufferWord cfg p mem q)))) := by
  intro z keeps lag rest own hload
  have hh : 0 < p.hres := by have := hp.wide; omega
  obtain ⟨h1, h2⟩ := C98_no_underflow cfg p hp.toValidMode hraw hp.lines hh hlen i
    (fun t => ⟨(hi t).1, (hi t).2.1⟩) hr L r hans href hblank hfifo
  exact C91_display_to_memory_ycbcr422 cfg p hp hraw hlen mem i hi ((L + r + 3) * lineLen p + 1) _ (h2 1)
    (fun t ht => ⟨hr t, h1 t (by omega)⟩) hev hbl D hskew pf depth nslots aw al hpf y hl N T0 hN
    (by omega) hsize alive none s hs rest own hload fun T _ =>
      (C97_no_overflow_ycbcr422 pf depth nslots aw al B K hpf hB z keeps lag hdepth).2 T0 (T + 1)

/-! ### A concrete case -/

/-- The memory of the output answers at once. -/
theorem wired_answers : Core.AnswersWithin loopCfg (fun _ => loopIn) 1 :=
  answers_at_once loopCfg _ rfl (fun _ => ⟨rfl, rfl, rfl⟩)

theorem wired_refuses : Core.RefusesAtMost (fun _ => loopIn) loopMode 0 := by
  intro t
  have : ∀ n, countIn (fun _ => !loopIn.memReady) t n = 0 := by
    intro n
    induction n with
    | zero => rfl
    | succ n ih => rw [countIn, ih]; rfl
  exact Nat.le_of_eq (this _)

/-- All hypotheses of C99 hold in the run of the example of C91. -/
example : RealMode loopMode ∧
    loopMode.length / 2 ^ loopCfg.shift % 2 ^ loopCfg.aw = loopMode.vres * loopMode.hres ∧
    Core.AnswersWithin loopCfg (fun _ => loopIn) 1 ∧ Core.RefusesAtMost (fun _ => loopIn) loopMode 0 ∧
    0 + 2 ≤ lineLen loopMode - loopMode.hres ∧ 1 + 0 + 2 < loopCfg.depth ∧
    (∀ i j, i < 3 → j < 3 → 7 * i + 3 ≤ 7 * j + 3 + 70) ∧
    Connected (fun u => rgbPhy (coreBeat loopCfg (fun _ => loopIn) u)) (fun i => 7 * i + 3)
      (runOn wiredRaw) ∧
    4 * 4 = loopMode.vres * loopMode.hres ∧
    (1 + 0 + 3) * lineLen loopMode + 4 * frameLen loopMode + (7 * 0 + 3) / 10 + 31 ≤
      countIn (fun u => (runOn wiredRaw u).pixEdge) 0 939 ∧
    (∀ t, Dma.wordsOf 10 2 (runOn wiredRaw t).frame_size = 4) ∧ AliveIn (runOn wiredRaw) ∧
    LoadsNoneIn (runOn wiredRaw) 939 ∧
    1 + (3 + 4 - 1) / 4 < 16 ∧
    let z := captureIn (rgb 4) 16 2 10 2 (runOn wiredRaw)
    KeepsUp (rgb 4) 16 2 10 2 z 1 ∧ LagsBy (rgb 4) 16 2 10 2 z 3 ∧
    Spec.Capture.AtRest (rgb 4) 16 2 10 2 z 939 ∧ SoftwareOwns (rgb 4) 16 2 10 2 z 939 ∧
    ((capture (rgb 4) 16 2 10 2 z 939).dma.slots 1).valid = true :=
  ⟨loopMode_real, by decide, wired_answers, wired_refuses, by decide, by decide,
    fun i j _ _ => by omega, wired_connected, by decide, by rw [run_count]; decide,
    fun t => by simp [Dma.wordsOf, runOn], run_alive _, run_none _, by decide,
    run_keeps wiredRaw (rgb 4) rfl, run_lag wiredRaw (rgb 4), (run_loaded wiredRaw (rgb 4)).1,
    run_owns wiredRaw (rgb 4), (run_loaded wiredRaw (rgb 4)).2⟩

/-- The hypotheses that differ in ycbcr422 mode. -/
example : loopMode.hres % 2 = 0 ∧ loopMode.hres + 10 ≤ loopMode.hscan ∧
    let z := captureIn (ycbcr422 4) 16 2 10 2 (runOn wiredRaw)
    KeepsUp (ycbcr422 4) 16 2 10 2 z 1 ∧ LagsBy (ycbcr422 4) 16 2 10 2 z 3 ∧
    Spec.Capture.AtRest (ycbcr422 4) 16 2 10 2 z 939 ∧ SoftwareOwns (ycbcr422 4) 16 2 10 2 z 939 ∧
    ((capture (ycbcr422 4) 16 2 10 2 z 939).dma.slots 1).valid = true :=
  ⟨by decide, by decide, run_keeps wiredRaw (ycbcr422 4) rfl, run_lag wiredRaw (ycbcr422 4),
    (run_loaded wiredRaw (ycbcr422 4)).1, run_owns wiredRaw (ycbcr422 4),
    (run_loaded wiredRaw (ycbcr422 4)).2⟩

end Verif.Props
