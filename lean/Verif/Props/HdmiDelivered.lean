import Verif.Props.HdmiMemory
import Verif.Props.Delivered

/-!
# C137: a LOADED slot receives a frame of an HDMI source
-/

namespace Verif.Props

open Verif.HdmiMode Verif.Spec.HdmiIn Verif.Spec.Capture Verif.Spec.Frame Verif.Spec.Stream
  Verif.Spec.Receiver Verif.Spec.Serial Verif.Spec.Tmds Verif.VideoOut Verif.Gated
open Verif.Capture (rgb ycbcr422 Extractor progress_slot Moves moves_of_alive sofs_at)
open Spec.HdmiVideo (ideal lastLevels shifted IdleSync)
open Spec.Hdmi (Phase Triple Sends Acquire TmdsPixels CarriesSyncs LastPixel)

/-- **C137** A LOADED slot receives a frame, rgb mode.  An HDMI receiver that is not in DVI mode is connected to an
HDMI source whose frames keep coming (otherwise as in C135).  If at instant `T0` the capture path is at rest and
slot `s` is LOADED, the clocks, the FIFO and the memory bus stay alive, software loads no other slot meanwhile, and
no overflow occurs until slot `s` is done, then the transfer to slot `s` is done at some instant, and the slot holds
a frame, with the colours one word early (C76). -/
theorem C137_delivered (ph : Nat → Phase) (w : Nat → Triple) (c : Nat → BitVec 2) (k : Nat → Nat)
    (lead : Nat → Nat → Bool) (n0 f g : Nat) (hs : Sends ph w n0) (ha : Acquire ph n0 f g) (h4 : 4 ≤ n0)
    (hx : TmdsPixels ph w n0) (hp : PlainLines ph w n0) (hc : CarriesSyncs ph w c n0)
    (hskew : ∀ i j, i < 3 → j < 3 → k i ≤ k j + 70) (pv : Bool) (le : Nat) (hle : g + 3 ≤ le)
    (hi : IdleSync ph c pv le) (pf depth nslots aw al : Nat) (hpf : 2 ≤ pf) (N f0 f1 T0 : Nat)
    (y : Nat → HdmiIn.In) (dvimode : Nat → Bool) (hd : ∀ t, dvimode t = false)
    (hl : LanesOn (hdmiBits w k lead) y) (st : SteadyFrom pf N f0 (shifted ph w c pv)) (hlf : le < f0)
    (hf0 : FrameStarts (shifted ph w c pv) f0) (hf1 : FrameStarts (shifted ph w c pv) f1) (hf : f0 < f1)
    (hframes : ∀ n, ∃ t, n ≤ t ∧ FrameStarts (shifted ph w c pv) t)
    (hseen : f1 + k 0 / 10 + 23 ≤ countIn (fun u => (y u).pixEdge) 0 T0)
    (hsize : ∀ t, T0 ≤ t → Dma.wordsOf aw al (y t).frame_size = N) (hN : 1 ≤ N)
    (alive : AliveIn y) (none : LoadsNoneIn y T0) (s : Nat) (hs' : s < nslots) :
    let z := modeCaptureIn (rgb pf) depth nslots aw al y dvimode
    Spec.Capture.AtRest (rgb pf) depth nslots aw al z T0 → SoftwareOwns (rgb pf) depth nslots aw al z T0 →
    ((capture (rgb pf) depth nslots aw al z T0).dma.slots s).valid = true →
    (∀ T, (∀ u, T0 ≤ u → u < T → ¬ Done (rgb pf) depth nslots aw al z u s) →
      NoOverflow (rgb pf) depth nslots aw al z T0 (T + 1)) →
    ∃ e b t n, T0 ≤ b ∧ f1 ≤ t ∧ Done (rgb pf) depth nslots aw al z e s ∧
      FrameStarts (shifted ph w c pv) t ∧
      (∀ u, u < n → ¬ FrameStarts (shifted ph w c pv) (t + 1 + u)) ∧
      let words := (groups pf (activePixels (shifted ph w c pv) (t + 2) n)).take N
      words.length = N ∧ Captured (rgb pf) depth nslots aw al z b e s words := by
  intro z rest own hload hno
  obtain ⟨V, L, hL, hV, hlat⟩ := hdmi_source_video (E := rgb pf) (depth := depth) (nslots := nslots)
    (aw := aw) (al := al) hl hs ha h4 hx hskew hd hp hc hle hi
  have hfr : ∀ c, ∃ t, c ≤ t ∧ FrameStarts V t := by
    intro c
    obtain ⟨t, ht, hst⟩ := hframes (c + le + 1)
    exact ⟨t + L, by omega, (later_starts hlat _ (by omega)).2 hst⟩
  have alive' : Alive z := ⟨alive.pix, alive.bus, alive.drained⟩
  obtain ⟨e, he, hd, hfirst⟩ := progress_slot own (show LoadsNone z T0 from none) hsize hN
    (moves_of_alive alive') (sofs_at hV alive.pix (sofs_rgb hpf hN (later_steady hlat hlf st) hfr))
    rest.2 s hs' hload hno
  obtain ⟨F, h, -⟩ := frames_to_memory hpf hV hlat st hlf hf0 hf1 hf
    (Nat.le_trans (by omega) hseen) hsize hN rest own
  obtain ⟨b, ws, h1, ⟨h2, h3, n, h4, -, -, rfl, h5⟩, h6⟩ := h e s he (hno e hfirst) hd
  exact ⟨e, b, F e, n, h1, h2, hd, h3, h4, h5, h6⟩

/-- **C137**, ycbcr422 mode (the default), for lines and blanking as in C84. -/
theorem C137_delivered_ycbcr422 (ph : Nat → Phase) (w : Nat → Triple) (c : Nat → BitVec 2) (k : Nat → Nat)
    (lead : Nat → Nat → Bool) (n0 f g : Nat) (hs : Sends ph w n0) (ha : Acquire ph n0 f g) (h4 : 4 ≤ n0)
    (hx : TmdsPixels ph w n0) (hp : PlainLines ph w n0) (hc : CarriesSyncs ph w c n0)
    (hskew : ∀ i j, i < 3 → j < 3 → k i ≤ k j + 70) (pv : Bool) (le : Nat) (hle : g + 3 ≤ le)
    (hi : IdleSync ph c pv le) (pf depth nslots aw al : Nat) (hpf : 2 ≤ pf) (N f0 f1 T0 : Nat)
    (y : Nat → HdmiIn.In) (dvimode : Nat → Bool) (hd : ∀ t, dvimode t = false)
    (hl : LanesOn (hdmiBits w k lead) y) (st : SteadyFrom422 pf N f0 (shifted ph w c pv)) (hlf : le + 11 ≤ f0)
    (even : EvenLines le (shifted ph w c pv))
    (hf0 : FrameStarts (shifted ph w c pv) f0) (hf1 : FrameStarts (shifted ph w c pv) f1) (hf : f0 < f1)
    (hframes : ∀ n, ∃ t, n ≤ t ∧ FrameStarts (shifted ph w c pv) t)
    (hseen : f1 + k 0 / 10 + 23 ≤ countIn (fun u => (y u).pixEdge) 0 T0)
    (hsize : ∀ t, T0 ≤ t → Dma.wordsOf aw al (y t).frame_size = N) (hN : 1 ≤ N)
    (alive : AliveIn y) (none : LoadsNoneIn y T0) (s : Nat) (hs' : s < nslots) :
    let z := modeCaptureIn (ycbcr422 pf) depth nslots aw al y dvimode
    Spec.Capture.AtRest (ycbcr422 pf) depth nslots aw al z T0 → SoftwareOwns (ycbcr422 pf) depth nslots aw al z T0 →
    ((capture (ycbcr422 pf) depth nslots aw al z T0).dma.slots s).valid = true →
    (∀ T, (∀ u, T0 ≤ u → u < T → ¬ Done (ycbcr422 pf) depth nslots aw al z u s) →
      NoOverflow (ycbcr422 pf) depth nslots aw al z T0 (T + 1)) →
    ∃ e b t n, T0 ≤ b ∧ f1 ≤ t ∧ Done (ycbcr422 pf) depth nslots aw al z e s ∧
      FrameStarts (shifted ph w c pv) t ∧
      (∀ u, u < n → ¬ FrameStarts (shifted ph w c pv) (t + 1 + u)) ∧
      let words := (groups pf (activePixels422 (shifted ph w c pv) (t + 2) n)).take N
      words.length = N ∧ Captured (ycbcr422 pf) depth nslots aw al z b e s words := by
  intro z rest own hload hno
  obtain ⟨V, L, hL, hV, hlat⟩ := hdmi_source_video (E := ycbcr422 pf) (depth := depth) (nslots := nslots)
    (aw := aw) (al := al) hl hs ha h4 hx hskew hd hp hc hle hi
  have hfr : ∀ c, ∃ t, c ≤ t ∧ FrameStarts V t := by
    intro c
    obtain ⟨t, ht, hst⟩ := hframes (c + le + 1)
    exact ⟨t + L, by omega, (later_starts hlat _ (by omega)).2 hst⟩
  have alive' : Alive z := ⟨alive.pix, alive.bus, alive.drained⟩
  obtain ⟨e, he, hd, hfirst⟩ := progress_slot own (show LoadsNone z T0 from none) hsize hN
    (moves_of_alive alive') (sofs_at hV alive.pix (sofs_ycbcr422 hpf hN (later_steady422 hlat even hlf st) hfr))
    rest.2 s hs' hload hno
  obtain ⟨F, h, -⟩ := frames_to_memory422 hpf hV hlat st hlf even hf0 hf1 hf
    (Nat.le_trans (by omega) hseen) hsize hN rest own
  obtain ⟨b, ws, h1, ⟨h2, h3, n, h4, -, -, rfl, h5⟩, h6⟩ := h e s he (hno e hfirst) hd
  exact ⟨e, b, F e, n, h1, h2, hd, h3, h4, h5, h6⟩

/-! ### A concrete case -/

/-- The source of C135, with its last frame again and again, every 44 words. -/
def cycIndex (n : Nat) : Nat := if n < 118 then n else 118 + (n - 118) % 44

def cycPhase (n : Nat) : Phase := tinyPhase (cycIndex n)
def cycWord (n : Nat) : Triple := tinyWord (cycIndex n)
def cycSync (n : Nat) : BitVec 2 := tinySync (cycIndex n)

/-- The run of C135 with this source. -/
def cycRun (t : Nat) : HdmiIn.In :=
  { tinyRun t with
    raw := ⟨deserialised (hdmiBits cycWord (fun i => 13 * i + 2) (fun _ _ => true) 0) t,
      deserialised (hdmiBits cycWord (fun i => 13 * i + 2) (fun _ _ => true) 1) t,
      deserialised (hdmiBits cycWord (fun i => 13 * i + 2) (fun _ _ => true) 2) t⟩ }

theorem cyc_le (n : Nat) : cycIndex n < 162 ∧ cycIndex n ≤ n ∧ ∀ m, m ≤ 118 → m ≤ n → m ≤ cycIndex n := by
  unfold cycIndex
  split
  · exact ⟨by omega, by omega, fun m _ _ => by omega⟩
  · refine ⟨by omega, ?_, fun m _ _ => by omega⟩
    have := Nat.mod_le (n - 118) 44
    omega

theorem cyc_add (n k : Nat) (hk : k ≤ 30) : cycIndex (n + k) = cycIndex n + k ∨
    (162 ≤ cycIndex n + k ∧ 118 ≤ cycIndex (n + k) ∧ cycIndex (n + k) < 148) := by
  unfold cycIndex
  split <;> split <;> omega

theorem tiny_gap : ∀ r, r < 149 → 118 ≤ r → tinyPhase r = .control ∧ tinyWord r = ⟨0x354#10, 0x354#10, 0x354#10⟩ ∧
    tinySync r = 0 ∧ lastLevels tinyPhase tinySync r = 0 := by decide +kernel

theorem cyc_same (n k : Nat) (hk : k ≤ 30) : cycPhase (n + k) = tinyPhase (cycIndex n + k) ∧
    cycWord (n + k) = tinyWord (cycIndex n + k) ∧ cycSync (n + k) = tinySync (cycIndex n + k) := by
  unfold cycPhase cycWord cycSync
  rcases cyc_add n k hk with h | ⟨h1, h2, h3⟩
  · rw [h]; exact ⟨rfl, rfl, rfl⟩
  · obtain ⟨a, b, c, -⟩ := tiny_gap _ (by omega) h2
    rw [a, b, c, tiny_control h1, tinyWord_late h1]
    refine ⟨rfl, rfl, ?_⟩
    unfold tinySync
    rw [if_neg (by omega)]

theorem cyc_early {n : Nat} (h : n < 118) : cycPhase n = tinyPhase n := by
  unfold cycPhase cycIndex
  rw [if_pos h]

theorem cyc_sends : Sends cycPhase cycWord 4 := by
  have hge : ∀ t, 4 ≤ t → 4 ≤ cycIndex t := fun t ht => (cyc_le t).2.2 4 (by decide) ht
  refine ⟨rfl, rfl, ?_, ?_, ?_, fun t _ _ h => absurd h (tiny_island _).1⟩
  · intro t ht
    rw [(cyc_same t 1 (by decide)).1]
    exact tiny_sends.next _ (hge t ht)
  · intro t ht h0 h1
    rw [(cyc_same t 1 (by decide)).1] at h1
    rw [(cyc_same t 2 (by decide)).1]
    exact tiny_sends.blanking _ (hge t ht) h0 h1
  · intro t ht
    exact tiny_sends.word _ (hge t ht)

theorem cyc_acquire : Acquire cycPhase 4 30 52 where
  blank := fun n h1 h2 => by rw [cyc_early (by omega)]; exact tiny_acquire.blank n h1 h2
  later := by decide
  before := rfl
  period := fun n h1 h2 => by rw [cyc_early (by omega)]; exact tiny_acquire.period n h1 h2
  long := by decide
  after := fun n h1 h2 => by rw [cyc_early (by omega)]; exact tiny_acquire.after n h1 h2

theorem cyc_pixels : TmdsPixels cycPhase cycWord 4 := fun n i hn hp hi =>
  tiny_pixels (cycIndex n) i ((cyc_le n).2.2 4 (by decide) hn) hp hi

theorem cyc_plain : PlainLines cycPhase cycWord 4 := by
  intro t ht h0 h1
  have h1' := h1
  rw [(cyc_same t 1 (by decide)).1] at h1'
  rw [(cyc_same t 1 (by decide)).2.1]
  exact tiny_plain (cycIndex t) ((cyc_le t).2.2 4 (by decide) ht) h0 h1'

theorem cyc_syncs : CarriesSyncs cycPhase cycWord cycSync 4 := fun n hn =>
  tiny_syncs (cycIndex n) ((cyc_le n).2.2 4 (by decide) hn)

theorem cyc_idle : IdleSync cycPhase cycSync false 71 where
  ends := ⟨by decide, by decide⟩
  idle := fun e he h => by
    rw [(cyc_same e 2 (by decide)).2.2]
    refine tiny_idle.idle _ ((cyc_le e).2.2 71 (by decide) he) ⟨h.1, ?_⟩
    rw [← (cyc_same e 1 (by decide)).1]
    exact h.2

theorem cyc_last (n : Nat) : lastLevels cycPhase cycSync n = lastLevels tinyPhase tinySync (cycIndex n) := by
  induction n with
  | zero => rfl
  | succ n ih =>
    show (if cycPhase (n + 1) = .control then cycSync (n + 1) else _) = _
    rcases cyc_add n 1 (by decide) with h | ⟨h1, h2, h3⟩
    · rw [ih, h]
      show (if tinyPhase (cycIndex (n + 1)) = .control then tinySync (cycIndex (n + 1)) else _) = _
      rw [h]; rfl
    · obtain ⟨a, -, c, d⟩ := tiny_gap _ (by omega) h2
      rw [d]
      show (if tinyPhase (cycIndex (n + 1)) = .control then tinySync (cycIndex (n + 1)) else _) = _
      rw [a, c]; rfl

/-- The video of the two sources. -/
theorem cyc_shifted (n k : Nat) (hk : k ≤ 29) : shifted cycPhase cycWord cycSync false (n + k) =
    shifted tinyPhase tinyWord tinySync false (cycIndex n + k) := by
  have hl : lastLevels cycPhase cycSync (n + k + 1) = lastLevels tinyPhase tinySync (cycIndex n + k + 1) := by
    rw [cyc_last, Nat.add_assoc]
    rcases cyc_add n (k + 1) (by omega) with h | ⟨h1, h2, h3⟩
    · rw [h]; rfl
    · rw [(tiny_gap _ (by omega) h2).2.2.2]
      exact (tiny_last h1).symm
  obtain ⟨a, -, -⟩ := cyc_same n k (by omega)
  obtain ⟨-, b, -⟩ := cyc_same n (k + 1) (by omega)
  unfold shifted
  rw [hl, a, show n + k + 1 = n + (k + 1) by omega, b]
  rfl

theorem cyc_starts_iff (n k : Nat) (hk : k ≤ 28) : FrameStarts (shifted cycPhase cycWord cycSync false) (n + k) ↔
    FrameStarts (shifted tinyPhase tinyWord tinySync false) (cycIndex n + k) := by
  unfold FrameStarts
  rw [cyc_shifted n k (by omega), Nat.add_assoc, cyc_shifted n (k + 1) (by omega)]
  rfl

theorem cyc_starts {t : Nat} (h : FrameStarts (shifted cycPhase cycWord cycSync false) t) :
    t = 82 ∨ t = 106 ∨ (150 ≤ t ∧ (t - 150) % 44 = 0) := by
  have := tiny_starts ((cyc_starts_iff t 0 (by decide)).1 h)
  unfold cycIndex at this
  split at this <;> omega

theorem cyc_starts_at (m : Nat) : FrameStarts (shifted cycPhase cycWord cycSync false) (150 + 44 * m) := by
  refine (cyc_starts_iff (150 + 44 * m) 0 (by decide)).2 ?_
  have : cycIndex (150 + 44 * m) = 150 := by
    unfold cycIndex
    rw [if_neg (by omega)]; omega
  rw [this]
  unfold FrameStarts; decide +kernel

theorem cyc_frames {t n : Nat} (ht : FrameStarts (shifted cycPhase cycWord cycSync false) t)
    (hno : ∀ u, u < n → ¬ FrameStarts (shifted cycPhase cycWord cycSync false) (t + 1 + u))
    (hn : FrameStarts (shifted cycPhase cycWord cycSync false) (t + 1 + n)) :
    (t = 82 ∧ n = 23) ∨ (t = 106 ∧ n = 43) ∨ (n = 43 ∧ ∃ m, t = 150 + 44 * m) := by
  rcases cyc_starts ht with rfl | rfl | ⟨h1, h2⟩
  · refine .inl ⟨rfl, ?_⟩
    have h3 := cyc_starts hn
    have h4 : ¬ 23 < n := fun h => hno 23 h (by unfold FrameStarts; decide +kernel)
    omega
  · refine .inr (.inl ⟨rfl, ?_⟩)
    have h3 := cyc_starts hn
    have h4 : ¬ 43 < n := fun h => hno 43 h (cyc_starts_at 0)
    omega
  · obtain ⟨m, rfl⟩ : ∃ m, t = 150 + 44 * m := ⟨(t - 150) / 44, by omega⟩
    refine .inr (.inr ⟨?_, m, rfl⟩)
    have h3 := cyc_starts hn
    have h4 : ¬ 43 < n := fun h => hno 43 h (by
      rw [show 150 + 44 * m + 1 + 43 = 150 + 44 * (m + 1) by omega]; exact cyc_starts_at _)
    omega

theorem cyc_period (m u : Nat) : shifted cycPhase cycWord cycSync false (152 + 44 * m + u) =
    shifted cycPhase cycWord cycSync false (152 + u) := by
  have := cyc_shifted (152 + 44 * m + u) 0 (by decide)
  have h2 := cyc_shifted (152 + u) 0 (by decide)
  have h3 : cycIndex (152 + 44 * m + u) = cycIndex (152 + u) := by
    unfold cycIndex
    rw [if_neg (by omega), if_neg (by omega)]; omega
  rw [h3] at this
  exact this.trans h2.symm

theorem pickIn_same {α : Type} {p : Nat → Bool} {x : Nat → α} {s t : Nat}
    (hp : ∀ u, p (s + u) = p (t + u)) (hx : ∀ u, x (s + u) = x (t + u)) :
    ∀ n, pickIn p x s n = pickIn p x t n
  | 0 => rfl
  | n + 1 => by
    show pickIn p x s n ++ _ = pickIn p x t n ++ _
    rw [pickIn_same hp hx n, hp, hx]

theorem cyc_active (m n : Nat) : activePixels (shifted cycPhase cycWord cycSync false) (152 + 44 * m) n =
    activePixels (shifted cycPhase cycWord cycSync false) 152 n :=
  pickIn_same (fun u => by rw [cyc_period]) (fun u => by rw [cyc_period]) n

theorem cyc_steady : SteadyFrom 2 2 82 (shifted cycPhase cycWord cycSync false) := by
  refine ⟨fun t n _ ht hno hn => ?_⟩
  rcases cyc_frames ht hno hn with ⟨rfl, rfl⟩ | ⟨rfl, rfl⟩ | ⟨rfl, m, rfl⟩
  · decide +kernel
  · decide +kernel
  · rw [show 150 + 44 * m + 2 = 152 + 44 * m by omega, cyc_active]
    decide +kernel

theorem cyc_lanes : LanesOn (hdmiBits cycWord (fun i => 13 * i + 2) (fun _ _ => true)) cycRun := by
  intro t _
  rw [countIn_all (fun u => (cycRun u).pixEdge) (fun _ => rfl)]; rfl

theorem cyc_alive : AliveIn cycRun := by
  refine ⟨fun T => ⟨T, Nat.le_refl _, rfl⟩, fun T => ⟨6 * T + 2, by omega, rfl, ?_, ?_⟩,
    fun T => ⟨4 * T, by omega, rfl, ?_⟩⟩
  · show ((6 * T + 2) % 2 == 0) = true
    rw [beq_iff_eq]; omega
  · show ((6 * T + 2) % 3 != 0) = true
    rw [bne_iff_ne]; omega
  · show ((4 * T) % 4 != 0) = false
    rw [bne_eq_false_iff_eq]; omega

theorem cyc_none : LoadsNoneIn cycRun 144 := by
  intro t n v ht _ h
  have : ¬ (t = 143 ∧ n = 1) := by omega
  simp [cycRun, tinyRun, this] at h

theorem cyc_owns {σ : Type} {w : Nat} (E : Extractor σ w) (d : Nat → Bool) :
    SoftwareOwns E 4 2 10 2 (modeCaptureIn E 4 2 10 2 cycRun d) 144 := by
  intro t n ht _ _
  have : ¬ (t = 143 ∧ n = 1) := by omega
  simp [modeCaptureIn, HdmiMode.capIn, cycRun, tinyRun, this]

abbrev cycCapture : Nat → Verif.Capture.In := modeCaptureIn (rgb 2) 4 2 10 2 cycRun fun _ => false

set_option maxRecDepth 100000 in
theorem cyc_rest : Spec.Capture.AtRest (rgb 2) 4 2 10 2 cycCapture 144 ∧
    ((capture (rgb 2) 4 2 10 2 cycCapture 144).dma.slots 1).valid = true := by
  unfold Spec.Capture.AtRest; decide +kernel

set_option maxRecDepth 100000 in
theorem cyc_room : NoOverflow (rgb 2) 4 2 10 2 cycCapture 144 181 := by unfold NoOverflow; decide +kernel

set_option maxRecDepth 100000 in
theorem cyc_done : Done (rgb 2) 4 2 10 2 cycCapture 180 1 := by unfold Done; decide +kernel

/-- All hypotheses of `C137_delivered` hold for this run. -/
example : ∃ e b t n, 144 ≤ b ∧ 106 ≤ t ∧ Done (rgb 2) 4 2 10 2 cycCapture e 1 ∧
    FrameStarts (shifted cycPhase cycWord cycSync false) t ∧
    (∀ u, u < n → ¬ FrameStarts (shifted cycPhase cycWord cycSync false) (t + 1 + u)) ∧
    let words := (groups 2 (activePixels (shifted cycPhase cycWord cycSync false) (t + 2) n)).take 2
    words.length = 2 ∧ Captured (rgb 2) 4 2 10 2 cycCapture b e 1 words := by
  refine C137_delivered cycPhase cycWord cycSync (fun i => 13 * i + 2) (fun _ _ => true) 4 30 52 cyc_sends
    cyc_acquire (by decide) cyc_pixels cyc_plain cyc_syncs (fun i j hi hj => by omega) false 71 (by decide)
    cyc_idle 2 4 2 10 2 (by decide) 2 82 106 144 cycRun (fun _ => false) (fun _ => rfl) cyc_lanes cyc_steady
    (by decide) (by unfold FrameStarts; decide +kernel) (by unfold FrameStarts; decide +kernel) (by decide)
    (fun n => ⟨150 + 44 * n, by omega, cyc_starts_at n⟩)
    (by decide +kernel) (fun t _ => by simp [Dma.wordsOf, cycRun, tinyRun]) (by decide) cyc_alive cyc_none 1
    (by decide) cyc_rest.1 (cyc_owns _ _) cyc_rest.2 fun T hT => ?_
  have : T ≤ 180 := by
    rcases Nat.lt_or_ge 180 T with h | h
    · exact absurd cyc_done (hT 180 (by decide) h)
    · exact h
  exact fun u h1 h2 => cyc_room u h1 (by omega)

theorem cyc_active422 (m n : Nat) :
    (activePixels422 (shifted cycPhase cycWord cycSync false) (152 + 44 * m) n).length =
    (activePixels422 (shifted cycPhase cycWord cycSync false) 152 n).length := by
  have h : ∀ (p : Nat → Bool) (x : Nat → Nat) s n, (pickIn p x s n).length = (pickIn p (fun _ => 0) s n).length := by
    intro p x s n
    induction n with
    | zero => rfl
    | succ n ih =>
      show (pickIn p x s n ++ _).length = (pickIn p (fun _ => 0) s n ++ _).length
      rw [List.length_append, List.length_append, ih]
      split <;> rfl
  unfold activePixels422
  rw [h, h _ (pixel422 _) 152]
  exact congrArg List.length (pickIn_same (s := 152 + 44 * m) (t := 152)
    (fun u => congrArg (fun v : Frame.In => v.valid_i && v.de) (cyc_period m u)) (fun _ => rfl) n)

theorem cyc_steady422 : SteadyFrom422 2 2 82 (shifted cycPhase cycWord cycSync false) := by
  refine ⟨fun u hu h1 h2 i hi => ?_, fun t ht hst => ⟨hst, fun u h1 h2 => ?_⟩, fun t n _ ht hno hn => ?_⟩
  · have e0 := cyc_shifted u 0 (by decide)
    have e1 := cyc_shifted u 1 (by decide)
    have e2 := cyc_shifted u (1 + i) (by omega)
    rw [Nat.add_assoc, e2, ← Nat.add_assoc]
    rw [show u + 0 = u from rfl] at e0
    rw [e0] at h1
    rw [e1] at h2
    exact tiny_steady422.blanking (cycIndex u) ((cyc_le u).2.2 82 (by decide) hu) h1 h2 i hi
  · obtain ⟨v, rfl⟩ : ∃ v, t = v + 10 := ⟨t - 10, by omega⟩
    have hv := (cyc_le v).2.2 72 (by decide) (by omega)
    obtain ⟨d, rfl⟩ : ∃ d, u = v + d := ⟨u - v, by omega⟩
    rw [cyc_shifted v d (by omega)]
    exact (tiny_steady422.clean (cycIndex v + 10) (by omega)
      ((cyc_starts_iff v 10 (by decide)).1 hst)).2 _ (by omega) (by omega)
  · rcases cyc_frames ht hno hn with ⟨rfl, rfl⟩ | ⟨rfl, rfl⟩ | ⟨rfl, m, rfl⟩
    · decide +kernel
    · decide +kernel
    · rw [show 150 + 44 * m + 2 = 152 + 44 * m by omega]
      have := cyc_active422 m 43
      unfold groups
      rw [List.length_map, List.length_range, this]
      decide +kernel

theorem cyc_offset (u : Nat) : lineOffset (shifted cycPhase cycWord cycSync false) u =
    lineOffset (shifted tinyPhase tinyWord tinySync false) (cycIndex u) := by
  induction u with
  | zero => rfl
  | succ u ih =>
    have e := cyc_shifted u 0 (by decide)
    rw [show u + 0 = u from rfl, show cycIndex u + 0 = cycIndex u from rfl] at e
    have h : lineOffset (shifted cycPhase cycWord cycSync false) (u + 1) =
        lineOffset (shifted tinyPhase tinyWord tinySync false) (cycIndex u + 1) := by
      show (if _ then _ + 1 else 0) = (if _ then _ + 1 else 0)
      rw [e, ih]
    rw [h]
    rcases Nat.lt_or_ge (cycIndex u) 161 with h1 | h1
    · rcases cyc_add u 1 (by decide) with h2 | ⟨h2, -, -⟩
      · rw [h2]
      · omega
    · have h2 : cycIndex u = 161 := by have := (cyc_le u).1; omega
      have h3 : cycIndex (u + 1) = 118 := by
        unfold cycIndex at h2 ⊢
        split at h2
        · omega
        · rw [if_neg (by omega)]; omega
      rw [h2, h3]; decide +kernel

theorem cyc_even : EvenLines 71 (shifted cycPhase cycWord cycSync false) := by
  intro u hu h1 h2
  have e0 := cyc_shifted u 0 (by decide)
  rw [show u + 0 = u from rfl] at e0
  rw [e0] at h1
  rw [cyc_shifted u 1 (by decide)]
  rw [cyc_offset] at h2
  exact tiny_even _ ((cyc_le u).2.2 72 (by decide) hu) h1 h2

abbrev cycCapture422 : Nat → Verif.Capture.In := modeCaptureIn (ycbcr422 2) 4 2 10 2 cycRun fun _ => false

set_option maxRecDepth 100000 in
theorem cyc_run422 : Spec.Capture.AtRest (ycbcr422 2) 4 2 10 2 cycCapture422 144 ∧
    ((capture (ycbcr422 2) 4 2 10 2 cycCapture422 144).dma.slots 1).valid = true ∧
    NoOverflow (ycbcr422 2) 4 2 10 2 cycCapture422 144 193 ∧ Done (ycbcr422 2) 4 2 10 2 cycCapture422 192 1 := by
  refine ⟨by unfold Spec.Capture.AtRest; decide +kernel, by decide +kernel, ?_, ?_⟩
  · unfold NoOverflow; decide +kernel
  · unfold Done; decide +kernel

/-- All hypotheses of `C137_delivered_ycbcr422` hold for this run. -/
example : ∃ e b t n, 144 ≤ b ∧ 106 ≤ t ∧ Done (ycbcr422 2) 4 2 10 2 cycCapture422 e 1 ∧
    FrameStarts (shifted cycPhase cycWord cycSync false) t ∧
    (∀ u, u < n → ¬ FrameStarts (shifted cycPhase cycWord cycSync false) (t + 1 + u)) ∧
    let words := (groups 2 (activePixels422 (shifted cycPhase cycWord cycSync false) (t + 2) n)).take 2
    words.length = 2 ∧ Captured (ycbcr422 2) 4 2 10 2 cycCapture422 b e 1 words := by
  refine C137_delivered_ycbcr422 cycPhase cycWord cycSync (fun i => 13 * i + 2) (fun _ _ => true) 4 30 52
    cyc_sends cyc_acquire (by decide) cyc_pixels cyc_plain cyc_syncs (fun i j hi hj => by omega) false 71
    (by decide) cyc_idle 2 4 2 10 2 (by decide) 2 82 106 144 cycRun (fun _ => false) (fun _ => rfl) cyc_lanes
    cyc_steady422 (by decide) cyc_even (by unfold FrameStarts; decide +kernel)
    (by unfold FrameStarts; decide +kernel) (by decide) (fun n => ⟨150 + 44 * n, by omega, cyc_starts_at n⟩)
    (by decide +kernel) (fun t _ => by simp [Dma.wordsOf, cycRun, tinyRun]) (by decide) cyc_alive cyc_none 1
    (by decide) cyc_run422.1 (cyc_owns _ _) cyc_run422.2.1 fun T hT => ?_
  have : T ≤ 192 := by
    rcases Nat.lt_or_ge 192 T with h | h
    · exact absurd cyc_run422.2.2.2 (hT 192 (by decide) h)
    · exact h
  exact fun u h1 h2 => cyc_run422.2.2.1 u h1 (by omega)

end Verif.Props
