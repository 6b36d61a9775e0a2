import Verif.Props.HdmiMemory

/-!
# C136: the resolution of an HDMI source
-/

namespace Verif.Props

open Verif.HdmiMode Verif.Spec.Frame Verif.Spec.Stream Verif.Spec.Receiver Verif.Spec.Serial
  Verif.Spec.Tmds Verif.VideoOut Verif.Gated
open Spec.HdmiVideo (lastLevels shifted IdleSync)
open Spec.Hdmi (Phase Triple Sends Acquire TmdsPixels CarriesSyncs LastPixel)

/-- **C136** The resolution registers of an HDMI receiver that is not in DVI mode, connected to an HDMI source: with
some latency `L`, after each line they show the number of its pixels (in the 11 bits of the register) until the
next line ends; and after two starts of frames they show the number of lines between them until the next frame
starts.  A frame starts where the vertical sync of the control words becomes active. -/
theorem C136_resolution (s0 : Rx) (hs0 : HdmiRegisters s0) (ph : Nat → Phase) (w : Nat → Triple)
    (c : Nat → BitVec 2) (k : Nat → Nat) (lead : Nat → Nat → Bool) (dvi : Nat → Bool) (n0 f g : Nat)
    (hs : Sends ph w n0) (ha : Acquire ph n0 f g) (h4 : 4 ≤ n0) (hx : TmdsPixels ph w n0)
    (hskew : ∀ i j, i < 3 → j < 3 → k i ≤ k j + 70) (hd : ∀ t, dvi t = false) (hp : PlainLines ph w n0)
    (hc : CarriesSyncs ph w c n0) (pv : Bool) (le : Nat) (hle : g + 3 ≤ le) (hi : IdleSync ph c pv le) :
    let rx := hdmiRx s0 (hdmiBits w k lead) dvi
    ∃ L, (∀ i, i < 3 → k i / 10 + 1 ≤ L ∧ L ≤ k i / 10 + 22) ∧
      (∀ b n j, le < b → 0 < n → ph b ≠ .pixel → (∀ u, u < n → ph (b + 1 + u) = .pixel) →
        ph (b + 1 + n) ≠ .pixel → (∀ u, u < j → ¬ LastPixel ph (b + 1 + n + u)) →
        (rx (b + 1 + n + j + L)).res.hcounter_st = n % 2 ^ 11) ∧
      (∀ b n j, le < b → FrameStarts (shifted ph w c pv) b →
        (∀ u, u < n → ¬ FrameStarts (shifted ph w c pv) (b + 1 + u)) →
        FrameStarts (shifted ph w c pv) (b + 1 + n) →
        (∀ u, u < j → ¬ FrameStarts (shifted ph w c pv) (b + 1 + n + 1 + u)) →
        (rx (b + 1 + n + 1 + j + L)).res.vcounter_st =
          countIn (fun u => decide (ph u = .pixel ∧ ph (u + 1) ≠ .pixel)) (b + 1) n % 2 ^ 11) := by
  intro rx
  obtain ⟨L, hL, hlat⟩ := hdmi_later s0 hs0 k lead dvi hs ha h4 hx hskew hd hp hc pv le hle hi
  let x : Nat → Phy := fun n => { de := decide (ph n = .pixel), hsync := false
                                  vsync := (lastLevels ph c (n + 1)).getLsbD 1, r := 0, g := 0, b := 0 }
  obtain ⟨h1, h2⟩ := resolution_follows x pv le L (fun u => (rx u).res) (fun u => (rx u).resIn) (fun _ => rfl)
    fun n hn => ⟨hlat.valid n hn, hlat.de n hn, hlat.vsync n hn⟩
  have hsync : ∀ n, FrameSync x pv n = true ↔ FrameStarts (shifted ph w c pv) n := by
    intro n
    simp only [FrameSync, FrameStarts, shifted, x]
    generalize (lastLevels ph c (n + 1)).getLsbD 1 = a
    generalize (lastLevels ph c (n + 1 + 1)).getLsbD 1 = b
    cases a <;> cases b <;> cases pv <;> decide
  have hno : ∀ n, FrameSync x pv n = false ↔ ¬ FrameStarts (shifted ph w c pv) n := by
    intro n
    rw [← hsync, Bool.not_eq_true]
  refine ⟨L + 1, fun i hi => by have := hL i hi; omega, ?_, ?_⟩
  · intro b n j hb hn h0 ha he hj
    refine h1 b n j hb hn (decide_eq_false h0) (fun u hu => decide_eq_true (ha u hu)) (decide_eq_false he)
      fun u hu hh => hj u hu ⟨of_decide_eq_true hh.1, of_decide_eq_false hh.2⟩
  · intro b n j hb hs hn he hj
    have := h2 b n j hb ((hsync _).2 hs) (fun u hu => (hno _).2 (hn u hu)) ((hsync _).2 he)
      fun u hu => (hno _).2 (hj u hu)
    refine this.trans ?_
    congr 2
    funext u
    show (decide _ && !decide _) = _
    rw [Bool.decide_and, decide_not]

/-- Non-vacuity: after the second line of the source of C135 with four pixels the registers show 4 pixels, and after
the start of its third frame one line. -/
example : ∃ L,
    let rx := hdmiRx Rx.reset (hdmiBits tinyWord (fun i => 13 * i + 2) fun _ _ => true) fun _ => false
    (rx (118 + 10 + L)).res.hcounter_st = 4 ∧ (rx (151 + 10 + L)).res.vcounter_st = 1 := by
  obtain ⟨L, -, h1, h2⟩ := C136_resolution Rx.reset lock_registers tinyPhase tinyWord tinySync
    (fun i => 13 * i + 2) (fun _ _ => true) (fun _ => false) 4 30 52 tiny_sends tiny_acquire (by decide) tiny_pixels
    (fun i j hi hj => by omega) (fun _ => rfl) tiny_plain tiny_syncs false 71 (by decide) tiny_idle
  have hpix : ∀ u, u < 4 → tinyPhase (113 + 1 + u) = .pixel := by decide
  have hend : ∀ u, u < 10 → tinyPhase (113 + 1 + 4 + u) ≠ .pixel := by decide
  refine ⟨L, h1 113 4 10 (by decide) (by decide) (by decide) hpix (by decide) fun u hu hh => hend u hu hh.1,
    (h2 106 43 10 (by decide) (by unfold FrameStarts; decide +kernel) (fun u hu hh => ?_)
      (by unfold FrameStarts; decide +kernel) (fun u hu hh => ?_)).trans (by decide +kernel)⟩
  · have := tiny_starts hh; omega
  · have := tiny_starts hh; omega

end Verif.Props
