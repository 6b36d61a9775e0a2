import Verif.Proofs.Capture

/-!
# C53, C83: captured frames reach memory intact
-/

namespace Verif.Props

open Verif.Capture Verif.Spec.Capture Verif.Spec.Frame Verif.Spec.Stream Verif.Gated

/-- The video has frames of at least `N` words, and the incomplete word that may remain at the end
of a frame, and before the first frame, is not one pixel short (C13). -/
structure Steady (pf N : Nat) (V : Nat → Frame.In) : Prop where
  start : (V 0).vsync = false
  first : ∀ t, FrameStarts V t → (∀ u, u < t → ¬ FrameStarts V u) →
    (activePixels V 0 (t + 1)).length % pf ≠ pf - 1
  frames : ∀ t n, FrameStarts V t → (∀ u, u < n → ¬ FrameStarts V (t + 1 + u)) →
    FrameStarts V (t + 1 + n) →
    N ≤ (groups pf (activePixels V (t + 2) n)).length ∧
    (activePixels V (t + 2) n).length % pf ≠ pf - 1

section Lemmas

/-- Pixels before the first frame only count. -/
theorem counter_before {pf : Nat} (hpf : 2 ≤ pf) {V : Nat → Frame.In} (h0 : (V 0).vsync = false)
    (t : Nat) (hno : ∀ u, u + 1 < t → ¬ FrameStarts V u) :
    (extractor pf V t).packer.pack_counter = (activePixels V 0 t).length % pf := by
  have hcr : Frame.Packer.counterRange pf = pf := if_neg (by omega)
  induction t with
  | zero => simp [activePixels, pickIn, Frame.Rgb.reset, Frame.Packer.reset]
  | succ t ih =>
    have hnf : ((V t).vsync && !(extractor pf V t).vsync_r) = false := by
      cases t with
      | zero => rw [h0]; rfl
      | succ t =>
        rw [Bool.eq_false_iff]
        intro hh
        have hr : (extractor pf V (t + 1)).vsync_r = (V t).vsync := rfl
        rw [hr] at hh
        simp only [Bool.and_eq_true, Bool.not_eq_true'] at hh
        exact hno t (by omega) ⟨hh.2, hh.1⟩
    have hs : (extractor pf V (t + 1)).packer.pack_counter =
        if (V t).vsync && !(extractor pf V t).vsync_r then 0
        else if (V t).valid_i && (V t).de then ((extractor pf V t).packer.pack_counter + 1) %
          Frame.Packer.counterRange pf
        else (extractor pf V t).packer.pack_counter := rfl
    rw [hs, hnf, ih (fun u hu => hno u (by omega)), hcr]
    unfold activePixels
    rw [pickIn, Nat.zero_add]
    by_cases hp : ((V t).valid_i && (V t).de) = true
    · rw [if_pos hp, if_pos hp]; simp
    · rw [if_neg hp, if_neg hp]; simp

/-- In steady video every frame is emitted without a stale word. -/
theorem steady_words {pf N : Nat} (hpf : 2 ≤ pf) {V : Nat → Frame.In} (st : Steady pf N V)
    (t n : Nat) (hs : FrameStarts V t) (hno : ∀ u, u < n → ¬ FrameStarts V (t + 1 + u)) :
    wordsOut pf V (t + 2) (n + 1) = groups pf (activePixels V (t + 2) n) := by
  rcases previous_start V t with h | ⟨s, m, rfl, h2, h3⟩
  · obtain ⟨-, hw⟩ := words_general pf hpf V t n hs hno
    rw [hw, if_neg, List.nil_append]
    rw [counter_before hpf st.start (t + 1) (fun u hu => h u (by omega))]
    have := st.first t hs h
    omega
  · exact C13_words_partial pf hpf V s m n h2 h3 hs hno (st.frames s m h2 h3 hs).2

end Lemmas

/-- **C53** Suppose the video consists of frames of at least `N` memory words, the frame size is set
to `N` words, software leaves LOADED slots alone and no overflow occurs up to instant `e`.  If a
transfer is reported done at instant `e`, it began at some instant `b` with a LOADED slot, and at
the end the memory holds at the slot's address the first `N` words of one frame: its active pixels
in order from the first one after the frame start, `pf` pixels per word, the first in the most
significant position.  During the transfer nothing else has been written. -/
theorem C53_frame_in_memory (pf depth nslots aw al : Nat) (hpf : 2 ≤ pf) (x : Nat → In)
    (V : Nat → Frame.In) (N : Nat) (hV : Video x V) (st : Steady pf N V)
    (hsize : ∀ t, Dma.wordsOf aw al (x t).frame_size = N) (hN : 1 ≤ N)
    (own : SoftwareOwns (rgb pf) depth nslots aw al x 0) (e k : Nat)
    (hno : NoOverflow (rgb pf) depth nslots aw al x 0 (e + 1))
    (hd : Done (rgb pf) depth nslots aw al x e k) :
    ∃ b t n, FrameStarts V t ∧ (∀ u, u < n → ¬ FrameStarts V (t + 1 + u)) ∧
      t + 2 + n < countIn (fun u => (x u).pixEdge) 0 (e + 1) ∧
      let words := (groups pf (activePixels V (t + 2) n)).take N
      words.length = N ∧ Captured (rgb pf) depth nslots aw al x b e k words := by
  obtain ⟨b, u, ws, -, -, huP, -, husof, hlen, hpre, hcap, -⟩ := core hV N hN 0 e k (Nat.zero_le _)
    ⟨rfl, rfl⟩ (fun t _ => hsize t) own hno hd
  obtain ⟨f, hfu, hfs, hquiet⟩ := sof_origin (sofLaw_rgb pf) st.start u husof
  obtain ⟨m, h1, h2, h3, -⟩ := frame_prefix (E := rgb pf) pf 0 N f u _ (activePixels V) hN
    (fun m hm => by
      rw [Nat.zero_add] at hm ⊢
      rw [← steady_words hpf st f m hfs hm, pickIn_map]
      rfl)
    rfl
    (fun n hn hs => ⟨n, by omega, (st.frames f n hfs hn hs).1⟩)
    hfu huP hquiet ws hlen hpre
  rw [Nat.zero_add] at h1 h2
  have h1' : f + 2 + m < ticks (fun u => (x u).pixEdge) (e + 1) := by omega
  refine ⟨b, f, m, hfs, h2, h1', ?_, ?_⟩
  · rw [← h3, List.length_map, hlen]
  · rw [← h3]; exact hcap

/-- Hypotheses of C53: two frames of four pixels, two pixels per word; the first one goes to
slot 1, which software has loaded with address 100. -/
def twoFrameVideo (t : Nat) : Frame.In :=
  { valid_i := true, vsync := t == 1 || t == 11
    de := (3 ≤ t && t < 7) || (13 ≤ t && t < 17), r := 1, g := 2, b := BitVec.ofNat 8 t }

def twoFrameRun (t : Nat) : In :=
  { pixEdge := true, video := twoFrameVideo t, wok := true, sysEdge := true, rok := t % 2 == 0
    busReady := t % 3 != 0, wdataValid := t % 4 != 0, frame_size := 8
    sw := fun n => if t = 0 ∧ n = 1 then ⟨some 1, some 400⟩ else ⟨none, none⟩ }

theorem twoFrame_starts {t : Nat} (h : FrameStarts twoFrameVideo t) : t = 0 ∨ t = 10 := by
  have := h.2
  simp only [twoFrameVideo, Bool.or_eq_true, beq_iff_eq] at this
  omega

theorem twoFrame_steady : Steady 2 2 twoFrameVideo := by
  refine ⟨rfl, fun t ht hno => ?_, fun t n ht hno hn => ?_⟩
  · rcases twoFrame_starts ht with rfl | rfl
    · decide
    · exact absurd (show FrameStarts twoFrameVideo 0 by unfold FrameStarts; decide) (hno 0 (by omega))
  · have h1 := twoFrame_starts ht
    have h2 := twoFrame_starts hn
    have : t = 0 ∧ n = 9 := by omega
    obtain ⟨rfl, rfl⟩ := this
    decide

theorem countIn_all (p : Nat → Bool) (hp : ∀ u, p u = true) (t : Nat) : countIn p 0 t = t := by
  induction t with
  | zero => rfl
  | succ t ih => rw [countIn, ih, if_pos (hp _)]

example : Video twoFrameRun twoFrameVideo ∧ Steady 2 2 twoFrameVideo ∧
    (∀ t, Dma.wordsOf 10 2 (twoFrameRun t).frame_size = 2) ∧
    SoftwareOwns (rgb 2) 4 2 10 2 twoFrameRun 0 ∧
    NoOverflow (rgb 2) 4 2 10 2 twoFrameRun 0 13 ∧ Done (rgb 2) 4 2 10 2 twoFrameRun 12 1 ∧
    memWrites (rgb 2) 4 2 10 2 twoFrameRun 0 13 =
      [(100, [0x010204, 0x010203]), (101, [0x010206, 0x010205])] := by
  refine ⟨fun t _ => ?_, twoFrame_steady, fun t => by simp [Dma.wordsOf, twoFrameRun], fun t n _ _ hv => ?_, ?_, ?_, ?_⟩
  · rw [countIn_all (fun u => (twoFrameRun u).pixEdge) (fun _ => rfl)]; rfl
  · by_cases ht : t = 0
    · subst ht
      exact absurd hv (by simp [capture, trace, reset, Dma.reset, Dma.Slot.valid])
    · have : ¬ (t = 0 ∧ n = 1) := fun h => ht h.1
      simp [twoFrameRun, this]
  · unfold NoOverflow; decide +kernel
  · unfold Done; decide +kernel
  · decide +kernel

/-- From clock `c` on the video has frames of at least `N` words, and the incomplete word that may
remain at the end of a frame is not one pixel short (C13). -/
structure SteadyFrom (pf N c : Nat) (V : Nat → Frame.In) : Prop where
  frames : ∀ t n, c ≤ t → FrameStarts V t → (∀ u, u < n → ¬ FrameStarts V (t + 1 + u)) →
    FrameStarts V (t + 1 + n) →
    N ≤ (groups pf (activePixels V (t + 2) n)).length ∧
    (activePixels V (t + 2) n).length % pf ≠ pf - 1

/-- The same for ycbcr422 mode, which also needs 11 clocks of blanking after every line and before
every frame start. -/
structure SteadyFrom422 (pf N c : Nat) (V : Nat → Frame.In) : Prop where
  blanking : BlankingFrom c 11 V
  clean : ∀ t, c ≤ t → FrameStarts V t → CleanStart V t
  frames : ∀ t n, c ≤ t → FrameStarts V t → (∀ u, u < n → ¬ FrameStarts V (t + 1 + u)) →
    FrameStarts V (t + 1 + n) →
    N ≤ (groups pf (activePixels422 V (t + 2) n)).length ∧
    (activePixels422 V (t + 2) n).length % pf ≠ pf - 1

/-- The frame of a transfer. -/
theorem restart_frames (pf depth nslots aw al : Nat) (hpf : 2 ≤ pf) (x : Nat → In)
    (V : Nat → Frame.In) (N f0 f1 T0 : Nat) (hV : Video x V) (st : SteadyFrom pf N f0 V)
    (hf0 : FrameStarts V f0) (hf1 : FrameStarts V f1) (hf : f0 < f1)
    (hseen : f1 + 2 ≤ countIn (fun u => (x u).pixEdge) 0 T0)
    (rest : AtRest (rgb pf) depth nslots aw al x T0)
    (hsize : ∀ t, T0 ≤ t → Dma.wordsOf aw al (x t).frame_size = N) (hN : 1 ≤ N)
    (own : SoftwareOwns (rgb pf) depth nslots aw al x T0) (e k : Nat) (he : T0 ≤ e)
    (hno : NoOverflow (rgb pf) depth nslots aw al x T0 (e + 1))
    (hd : Done (rgb pf) depth nslots aw al x e k) :
    ∃ b t n, T0 ≤ b ∧ f1 ≤ t ∧ FrameStarts V t ∧ (∀ u, u < n → ¬ FrameStarts V (t + 1 + u)) ∧
      countIn (fun u => (x u).pixEdge) 0 T0 ≤ t + 2 + n ∧
      t + 2 + n < countIn (fun u => (x u).pixEdge) 0 (e + 1) ∧
      ((groups pf (activePixels V (t + 2) n)).take N).length = N ∧
      Captured (rgb pf) depth nslots aw al x b e k ((groups pf (activePixels V (t + 2) n)).take N) ∧
      FrameOf (rgb pf) depth nslots aw al x V N T0 e t := by
  obtain ⟨b, u, ws, hb, hu, huP, -, husof, hlen, hpre, hcap, hor⟩ := core hV N hN T0 e k he rest hsize
    own hno hd
  have hu' : f1 + 2 ≤ u := Nat.le_trans hseen hu
  obtain ⟨f, hf1f, hfu, hfs, hquiet⟩ := sof_origin_from (sofLaw_rgb pf) f1 (u - (f1 + 2)) hf1
    (by rw [show f1 + 2 + (u - (f1 + 2)) = u by omega]; exact husof)
  rw [show f1 + 2 + (u - (f1 + 2)) = u by omega] at hfu hquiet
  obtain ⟨s, q, rfl, hs0, hs1⟩ : ∃ s m, f = s + 1 + m ∧ FrameStarts V s ∧
      ∀ u, u < m → ¬ FrameStarts V (s + 1 + u) := by
    rcases previous_start V f with h | h
    · exact absurd hf0 (h f0 (by omega))
    · exact h
  have hs : f0 ≤ s := by
    rcases Nat.lt_or_ge s f0 with h | h
    · have := hs1 (f0 - (s + 1)) (by omega)
      rw [show s + 1 + (f0 - (s + 1)) = f0 by omega] at this
      exact absurd hf0 this
    · exact h
  have hmod := (st.frames s q hs hs0 hs1 hfs).2
  obtain ⟨m, h1, h2, h3, hum⟩ := frame_prefix (E := rgb pf) pf 0 N (s + 1 + q) u _ (activePixels V) hN
    (fun m hm => by
      rw [Nat.zero_add] at hm ⊢
      rw [← C13_words_partial pf hpf V s q m hs0 hs1 hfs hm hmod, pickIn_map]
      rfl)
    rfl
    (fun n hn hs => ⟨n, by omega, (st.frames _ n (by omega) hfs hn hs).1⟩)
    hfu huP hquiet ws hlen hpre
  rw [Nat.zero_add] at h1 h2
  have h1' : s + 1 + q + 2 + m < ticks (fun u => (x u).pixEdge) (e + 1) := by omega
  refine ⟨b, s + 1 + q, m, hb, hf1f, hfs, h2, Nat.le_trans hu (by omega), h1', ?_, ?_, b, u, hor, hfu, hquiet⟩
  · rw [← h3, List.length_map, hlen]
  · rw [← h3]; exact hcap

/-- **C83** Capture can be started at any time, whatever has happened before.  Suppose that at
instant `T0` nothing is queued and no transfer is in progress, that the video has been steady since
the frame start `f0`, and that another frame start `f1` has been seen.  If from `T0` on the frame
size is `N` words, software leaves LOADED slots alone and no overflow occurs, then each transfer
that is done after `T0` has brought the first `N` words of one frame to memory. -/
theorem C83_restart (pf depth nslots aw al : Nat) (hpf : 2 ≤ pf) (x : Nat → In)
    (V : Nat → Frame.In) (N f0 f1 T0 : Nat) (hV : Video x V) (st : SteadyFrom pf N f0 V)
    (hf0 : FrameStarts V f0) (hf1 : FrameStarts V f1) (hf : f0 < f1)
    (hseen : f1 + 2 ≤ countIn (fun u => (x u).pixEdge) 0 T0)
    (rest : AtRest (rgb pf) depth nslots aw al x T0)
    (hsize : ∀ t, T0 ≤ t → Dma.wordsOf aw al (x t).frame_size = N) (hN : 1 ≤ N)
    (own : SoftwareOwns (rgb pf) depth nslots aw al x T0) (e k : Nat) (he : T0 ≤ e)
    (hno : NoOverflow (rgb pf) depth nslots aw al x T0 (e + 1))
    (hd : Done (rgb pf) depth nslots aw al x e k) :
    ∃ b t n, T0 ≤ b ∧ f1 ≤ t ∧ FrameStarts V t ∧ (∀ u, u < n → ¬ FrameStarts V (t + 1 + u)) ∧
      t + 2 + n < countIn (fun u => (x u).pixEdge) 0 (e + 1) ∧
      let words := (groups pf (activePixels V (t + 2) n)).take N
      words.length = N ∧ Captured (rgb pf) depth nslots aw al x b e k words := by
  obtain ⟨b, t, n, h1, h2, h3, h4, -, h5, h6, h7, -⟩ := restart_frames pf depth nslots aw al hpf x V N f0 f1
    T0 hV st hf0 hf1 hf hseen rest hsize hN own e k he hno hd
  exact ⟨b, t, n, h1, h2, h3, h4, h5, h6, h7⟩

/-- **C113** Frames arrive in order.  Under the hypotheses of C83 each transfer that is done has
brought the first `N` words of one frame to memory, and transfers that are done later bring later
frames: none is repeated and none overtakes another.  The words come from the pixel clocks after
`T0` and before the transfer is done. -/
theorem C113_in_order (pf depth nslots aw al : Nat) (hpf : 2 ≤ pf) (x : Nat → In)
    (V : Nat → Frame.In) (N f0 f1 T0 : Nat) (hV : Video x V) (st : SteadyFrom pf N f0 V)
    (hf0 : FrameStarts V f0) (hf1 : FrameStarts V f1) (hf : f0 < f1)
    (hseen : f1 + 2 ≤ countIn (fun u => (x u).pixEdge) 0 T0)
    (rest : AtRest (rgb pf) depth nslots aw al x T0)
    (hsize : ∀ t, T0 ≤ t → Dma.wordsOf aw al (x t).frame_size = N) (hN : 1 ≤ N)
    (own : SoftwareOwns (rgb pf) depth nslots aw al x T0) :
    InOrder (rgb pf) depth nslots aw al x T0 fun e t ws => f1 ≤ t ∧ FrameStarts V t ∧
      ∃ n, (∀ u, u < n → ¬ FrameStarts V (t + 1 + u)) ∧
        countIn (fun u => (x u).pixEdge) 0 T0 ≤ t + 2 + n ∧
        t + 2 + n < countIn (fun u => (x u).pixEdge) 0 (e + 1) ∧
        ws = (groups pf (activePixels V (t + 2) n)).take N ∧ ws.length = N := by
  refine in_order (V := V) hN fun e k he hno hd => ?_
  obtain ⟨b, t, n, h1, h2, h3, h4, h5, h5', h6, h7, h8⟩ := restart_frames pf depth nslots aw al hpf x V N
    f0 f1 T0 hV st hf0 hf1 hf hseen rest hsize hN own e k he hno hd
  exact ⟨b, t, _, h1, ⟨h2, h3, n, h4, h5, h5', rfl, h6⟩, h7, h8⟩

theorem active422_clean {V : Nat → Frame.In} {t n : Nat} (hq : CleanStart V (t + 1 + n)) :
    activePixels422 V (t + 2) n = activePixels422 V (t + 2) (n - 11) := by
  unfold activePixels422
  conv => lhs; rw [show n = (n - 11) + (n - (n - 11)) by omega]
  rw [Frame.pickIn_add, Frame.pickIn_none _ _ (t + 2 + (n - 11)), List.append_nil]
  intro j hj
  exact hq.2 _ (by omega) (by omega)

/-- The frame of a transfer. -/
theorem restart_frames422 (pf depth nslots aw al : Nat) (hpf : 2 ≤ pf) (x : Nat → In)
    (V : Nat → Frame.In) (N f0 f1 T0 : Nat) (hV : Video x V) (st : SteadyFrom422 pf N f0 V)
    (hf0 : FrameStarts V f0) (hf1 : FrameStarts V f1) (hf : f0 < f1)
    (hseen : f1 + 2 ≤ countIn (fun u => (x u).pixEdge) 0 T0)
    (rest : AtRest (ycbcr422 pf) depth nslots aw al x T0)
    (hsize : ∀ t, T0 ≤ t → Dma.wordsOf aw al (x t).frame_size = N) (hN : 1 ≤ N)
    (own : SoftwareOwns (ycbcr422 pf) depth nslots aw al x T0) (e k : Nat) (he : T0 ≤ e)
    (hno : NoOverflow (ycbcr422 pf) depth nslots aw al x T0 (e + 1))
    (hd : Done (ycbcr422 pf) depth nslots aw al x e k) :
    ∃ b t n, T0 ≤ b ∧ f1 ≤ t ∧ FrameStarts V t ∧ (∀ u, u < n → ¬ FrameStarts V (t + 1 + u)) ∧
      countIn (fun u => (x u).pixEdge) 0 T0 ≤ t + 13 + n ∧
      t + 13 + n < countIn (fun u => (x u).pixEdge) 0 (e + 1) ∧
      ((groups pf (activePixels422 V (t + 2) n)).take N).length = N ∧
      Captured (ycbcr422 pf) depth nslots aw al x b e k ((groups pf (activePixels422 V (t + 2) n)).take N) ∧
      FrameOf (ycbcr422 pf) depth nslots aw al x V N T0 e t := by
  obtain ⟨b, u, ws, hb, hu, huP, -, husof, hlen, hpre, hcap, hor⟩ := core hV N hN T0 e k he rest hsize
    own hno hd
  have hu' : f1 + 2 ≤ u := Nat.le_trans hseen hu
  obtain ⟨f, hf1f, hfu, hfs, hquiet⟩ := sof_origin_from (sofLaw_ycbcr422 pf) f1 (u - (f1 + 2)) hf1
    (by rw [show f1 + 2 + (u - (f1 + 2)) = u by omega]; exact husof)
  rw [show f1 + 2 + (u - (f1 + 2)) = u by omega] at hfu hquiet
  obtain ⟨s, q, rfl, hs0, hs1⟩ : ∃ s m, f = s + 1 + m ∧ FrameStarts V s ∧
      ∀ u, u < m → ¬ FrameStarts V (s + 1 + u) := by
    rcases previous_start V f with h | h
    · exact absurd hf0 (h f0 (by omega))
    · exact h
  have hs : f0 ≤ s := by
    rcases Nat.lt_or_ge s f0 with h | h
    · have := hs1 (f0 - (s + 1)) (by omega)
      rw [show s + 1 + (f0 - (s + 1)) = f0 by omega] at this
      exact absurd hf0 this
    · exact h
  -- a frame of at least one word is longer than the latency of the encoder
  have hlong : ∀ t n, f0 ≤ t → FrameStarts V t → (∀ u, u < n → ¬ FrameStarts V (t + 1 + u)) →
      FrameStarts V (t + 1 + n) → ∃ m, n = 11 + m ∧
        N ≤ (groups pf (activePixels422 V (t + 2) m)).length ∧
        (activePixels422 V (t + 2) m).length % pf ≠ pf - 1 := by
    intro t n ht h1 h2 h3
    obtain ⟨h4, h5⟩ := st.frames t n ht h1 h2 h3
    rw [active422_clean (st.clean _ (by omega) h3)] at h4 h5
    refine ⟨n - 11, ?_, h4, h5⟩
    rcases Nat.lt_or_ge n 11 with h | h
    · rw [show n - 11 = 0 by omega] at h4
      simp [activePixels422, pickIn, groups] at h4
      omega
    · omega
  have hmod := hlong s q hs hs0 hs1 hfs
  obtain ⟨q', rfl, -, hmod⟩ := hmod
  have hbl : ∀ t, f0 ≤ t → BlankingFrom (t + 2) 11 V := fun t ht =>
    blanking_mono st.blanking (by omega)
  obtain ⟨hc1, -⟩ := words422_general pf hpf V s q' (hbl s hs) (st.clean s hs hs0) hs1
  obtain ⟨m, h1, h2, h3, hum⟩ := frame_prefix (E := ycbcr422 pf) pf 11 N (s + 1 + (11 + q')) u _
    (activePixels422 V) hN
    (fun m hm => by
      obtain ⟨-, hw⟩ := words422_general pf hpf V (s + 1 + (11 + q')) m (hbl _ (by omega))
        (st.clean _ (by omega) hfs) hm
      rw [if_neg, List.nil_append] at hw
      · rw [← hw, pickIn_map]; rfl
      · rw [show s + 1 + (11 + q') + 1 = s + 2 + (11 + q') by omega, hc1]
        omega)
    rfl
    (fun n hn hs => by
      obtain ⟨m, h1, h2, -⟩ := hlong _ n (by omega) hfs hn hs
      exact ⟨m, h1, h2⟩)
    hfu huP hquiet ws hlen hpre
  have h1' : s + 1 + (11 + q') + 13 + m < ticks (fun u => (x u).pixEdge) (e + 1) := by omega
  refine ⟨b, s + 1 + (11 + q'), m, hb, hf1f, hfs, fun u hu => h2 u (by omega), Nat.le_trans hu (by omega), h1', ?_, ?_, b, u, hor, hfu, hquiet⟩
  · rw [← h3, List.length_map, hlen]
  · rw [← h3]; exact hcap

/-- **C83**, ycbcr422 mode (the default).  The pixels are the 4:2:2 values of C13. -/
theorem C83_restart_ycbcr422 (pf depth nslots aw al : Nat) (hpf : 2 ≤ pf) (x : Nat → In)
    (V : Nat → Frame.In) (N f0 f1 T0 : Nat) (hV : Video x V) (st : SteadyFrom422 pf N f0 V)
    (hf0 : FrameStarts V f0) (hf1 : FrameStarts V f1) (hf : f0 < f1)
    (hseen : f1 + 2 ≤ countIn (fun u => (x u).pixEdge) 0 T0)
    (rest : AtRest (ycbcr422 pf) depth nslots aw al x T0)
    (hsize : ∀ t, T0 ≤ t → Dma.wordsOf aw al (x t).frame_size = N) (hN : 1 ≤ N)
    (own : SoftwareOwns (ycbcr422 pf) depth nslots aw al x T0) (e k : Nat) (he : T0 ≤ e)
    (hno : NoOverflow (ycbcr422 pf) depth nslots aw al x T0 (e + 1))
    (hd : Done (ycbcr422 pf) depth nslots aw al x e k) :
    ∃ b t n, T0 ≤ b ∧ f1 ≤ t ∧ FrameStarts V t ∧ (∀ u, u < n → ¬ FrameStarts V (t + 1 + u)) ∧
      t + 2 + n < countIn (fun u => (x u).pixEdge) 0 (e + 1) ∧
      let words := (groups pf (activePixels422 V (t + 2) n)).take N
      words.length = N ∧ Captured (ycbcr422 pf) depth nslots aw al x b e k words := by
  obtain ⟨b, t, n, h1, h2, h3, h4, -, h5, h6, h7, -⟩ := restart_frames422 pf depth nslots aw al hpf x V N f0 f1
    T0 hV st hf0 hf1 hf hseen rest hsize hN own e k he hno hd
  exact ⟨b, t, n, h1, h2, h3, h4, by omega, h6, h7⟩

/-- **C113** Frames arrive in order, ycbcr422 mode.  Under the hypotheses of C83 each transfer that is
done has brought the first `N` words of one frame to memory, and transfers that are done later bring later
frames: none is repeated and none overtakes another.  The words come from the pixel clocks after
`T0` and before the transfer is done.  (The encoder delays them by 11 clocks.) -/
theorem C113_in_order_ycbcr422 (pf depth nslots aw al : Nat) (hpf : 2 ≤ pf) (x : Nat → In)
    (V : Nat → Frame.In) (N f0 f1 T0 : Nat) (hV : Video x V) (st : SteadyFrom422 pf N f0 V)
    (hf0 : FrameStarts V f0) (hf1 : FrameStarts V f1) (hf : f0 < f1)
    (hseen : f1 + 2 ≤ countIn (fun u => (x u).pixEdge) 0 T0)
    (rest : AtRest (ycbcr422 pf) depth nslots aw al x T0)
    (hsize : ∀ t, T0 ≤ t → Dma.wordsOf aw al (x t).frame_size = N) (hN : 1 ≤ N)
    (own : SoftwareOwns (ycbcr422 pf) depth nslots aw al x T0) :
    InOrder (ycbcr422 pf) depth nslots aw al x T0 fun e t ws => f1 ≤ t ∧ FrameStarts V t ∧
      ∃ n, (∀ u, u < n → ¬ FrameStarts V (t + 1 + u)) ∧
        countIn (fun u => (x u).pixEdge) 0 T0 ≤ t + 13 + n ∧
        t + 13 + n < countIn (fun u => (x u).pixEdge) 0 (e + 1) ∧
        ws = (groups pf (activePixels422 V (t + 2) n)).take N ∧ ws.length = N := by
  refine in_order (V := V) hN fun e k he hno hd => ?_
  obtain ⟨b, t, n, h1, h2, h3, h4, h5, h5', h6, h7, h8⟩ := restart_frames422 pf depth nslots aw al hpf x V N
    f0 f1 T0 hV st hf0 hf1 hf hseen rest hsize hN own e k he hno hd
  exact ⟨b, t, _, h1, ⟨h2, h3, n, h4, h5, h5', rfl, h6⟩, h7, h8⟩

/-- Hypotheses of C83: the run of C53, but software has loaded slot 1 only after the second frame
start, and before that the FIFO has lost words. -/
def restartRun (t : Nat) : In :=
  { twoFrameRun t with
    wok := 12 ≤ t
    sw := fun n => if t = 12 ∧ n = 1 then ⟨some 1, some 400⟩ else ⟨none, none⟩ }

theorem twoFrame_steadyFrom : SteadyFrom 2 2 0 twoFrameVideo :=
  ⟨fun t n _ h1 h2 h3 => twoFrame_steady.frames t n h1 h2 h3⟩

example : Video restartRun twoFrameVideo ∧ SteadyFrom 2 2 0 twoFrameVideo ∧
    FrameStarts twoFrameVideo 0 ∧ FrameStarts twoFrameVideo 10 ∧
    10 + 2 ≤ countIn (fun u => (restartRun u).pixEdge) 0 13 ∧
    AtRest (rgb 2) 4 2 10 2 restartRun 13 ∧
    (∀ t, Dma.wordsOf 10 2 (restartRun t).frame_size = 2) ∧
    SoftwareOwns (rgb 2) 4 2 10 2 restartRun 13 ∧
    NoOverflow (rgb 2) 4 2 10 2 restartRun 13 25 ∧ Done (rgb 2) 4 2 10 2 restartRun 24 1 ∧
    memWrites (rgb 2) 4 2 10 2 restartRun 0 25 =
      [(100, [0x01020e, 0x01020d]), (101, [0x010210, 0x01020f])] := by
  refine ⟨fun t _ => ?_, twoFrame_steadyFrom, by unfold FrameStarts; decide,
    by unfold FrameStarts; decide, by decide, by unfold AtRest; decide +kernel,
    fun t => by simp [Dma.wordsOf, restartRun, twoFrameRun], fun t n ht _ hv => ?_, ?_, ?_, ?_⟩
  · rw [countIn_all (fun u => (restartRun u).pixEdge) (fun _ => rfl)]; rfl
  · have : ¬ (t = 12 ∧ n = 1) := by omega
    simp [restartRun, this]
  · unfold NoOverflow; decide +kernel
  · unfold Done; decide +kernel
  · decide +kernel

/-- Hypotheses of C83 in ycbcr422 mode: two frames of four pixels. -/
def twoFrameVideo422 (t : Nat) : Frame.In :=
  { valid_i := true, vsync := t == 20 || t == 60
    de := (24 ≤ t && t < 28) || (64 ≤ t && t < 68)
    r := if t % 2 = 0 then 10 else 255, g := if t % 2 = 0 then 200 else 0
    b := if t % 2 = 0 then 90 else 17 }

def restartRun422 (t : Nat) : In :=
  { twoFrameRun t with
    video := twoFrameVideo422 t
    wok := 12 ≤ t
    sw := fun n => if t = 60 ∧ n = 1 then ⟨some 1, some 400⟩ else ⟨none, none⟩ }

theorem twoFrame422_starts {t : Nat} (h : FrameStarts twoFrameVideo422 t) : t = 19 ∨ t = 59 := by
  have := h.2
  simp only [twoFrameVideo422, Bool.or_eq_true, beq_iff_eq] at this
  omega

theorem twoFrame422_de {t : Nat} (h : 68 ≤ t) : (twoFrameVideo422 t).de = false := by
  simp only [twoFrameVideo422, Bool.or_eq_false_iff, Bool.and_eq_false_iff,
    decide_eq_false_iff_not]
  omega

theorem twoFrame422_steady : SteadyFrom422 2 2 19 twoFrameVideo422 := by
  refine ⟨fun u _ h1 h2 => ?_, fun t _ ht => ⟨ht, ?_⟩, fun t n _ ht hno hn => ?_⟩
  · have hu : u < 68 := by
      rcases Nat.lt_or_ge u 68 with h | h
      · exact h
      · rw [twoFrame422_de h] at h1; exact absurd h1 (by decide)
    have key : ∀ u, u < 68 → (twoFrameVideo422 u).de = true →
      (twoFrameVideo422 (u + 1)).de = false → ∀ i, i < 11 →
      (twoFrameVideo422 (u + 1 + i)).de = false := by decide +kernel
    exact key u hu h1 h2
  · rcases twoFrame422_starts ht with rfl | rfl
    · have : ∀ u, u < 21 → 21 ≤ u + 12 →
        ((twoFrameVideo422 u).valid_i && (twoFrameVideo422 u).de) = false := by decide
      exact this
    · have : ∀ u, u < 61 → 61 ≤ u + 12 →
        ((twoFrameVideo422 u).valid_i && (twoFrameVideo422 u).de) = false := by decide
      exact this
  · have h1 := twoFrame422_starts ht
    have h2 := twoFrame422_starts hn
    have : t = 19 ∧ n = 39 := by omega
    obtain ⟨rfl, rfl⟩ := this
    decide +kernel

example : Video restartRun422 twoFrameVideo422 ∧ SteadyFrom422 2 2 19 twoFrameVideo422 ∧
    FrameStarts twoFrameVideo422 19 ∧ FrameStarts twoFrameVideo422 59 ∧
    59 + 2 ≤ countIn (fun u => (restartRun422 u).pixEdge) 0 61 ∧
    AtRest (ycbcr422 2) 4 2 10 2 restartRun422 61 ∧
    (∀ t, Dma.wordsOf 10 2 (restartRun422 t).frame_size = 2) ∧
    SoftwareOwns (ycbcr422 2) 4 2 10 2 restartRun422 61 ∧
    NoOverflow (ycbcr422 2) 4 2 10 2 restartRun422 61 85 ∧
    Done (ycbcr422 2) 4 2 10 2 restartRun422 84 1 ∧
    memWrites (ycbcr422 2) 4 2 10 2 restartRun422 0 85 =
      [(100, [62 + 256 * 143, 175 + 256 * 100]), (101, [62 + 256 * 143, 175 + 256 * 100])] := by
  refine ⟨fun t _ => ?_, twoFrame422_steady, by unfold FrameStarts; decide,
    by unfold FrameStarts; decide, by decide, by unfold AtRest; decide +kernel,
    fun t => by simp [Dma.wordsOf, restartRun422, twoFrameRun], fun t n ht _ hv => ?_, ?_, ?_, ?_⟩
  · rw [countIn_all (fun u => (restartRun422 u).pixEdge) (fun _ => rfl)]; rfl
  · have : ¬ (t = 60 ∧ n = 1) := by omega
    simp [restartRun422, this]
  · unfold NoOverflow; decide +kernel
  · unfold Done; decide +kernel
  · decide +kernel

/-- Hypotheses of C113: four frames of four pixels, two pixels per word, at clocks 0, 10, 20 and 30;
software has loaded both slots at instant 12. -/
def fourFrameVideo (t : Nat) : Frame.In :=
  { valid_i := true, vsync := t < 40 && t % 10 == 1
    de := t < 40 && 3 ≤ t % 10 && t % 10 < 7, r := 1, g := 2, b := BitVec.ofNat 8 t }

def fourFrameRun (t : Nat) : In :=
  { twoFrameRun t with
    video := fourFrameVideo t
    sw := fun n => if t = 12 then ⟨some 1, some (400 + 400 * n)⟩ else ⟨none, none⟩ }

theorem fourFrame_starts {t : Nat} (h : FrameStarts fourFrameVideo t) :
    t = 0 ∨ t = 10 ∨ t = 20 ∨ t = 30 := by
  have := h.2
  simp only [fourFrameVideo, Bool.and_eq_true, beq_iff_eq, decide_eq_true_eq] at this
  omega

theorem fourFrame_steady : SteadyFrom 2 2 0 fourFrameVideo := by
  refine ⟨fun t n _ ht hno hn => ?_⟩
  have h1 := fourFrame_starts ht
  have h2 := fourFrame_starts hn
  have h3 : n = 9 := by
    rcases Nat.lt_or_ge 9 n with h | h
    · refine absurd ?_ (hno 9 h)
      have : t = 0 ∨ t = 10 ∨ t = 20 := by omega
      rcases this with rfl | rfl | rfl <;> · unfold FrameStarts; decide
    · omega
  subst h3
  have : t = 0 ∨ t = 10 ∨ t = 20 := by omega
  rcases this with rfl | rfl | rfl <;> decide

/-- The third frame goes to one slot and the fourth one to the other. -/
example : Video fourFrameRun fourFrameVideo ∧ SteadyFrom 2 2 0 fourFrameVideo ∧
    FrameStarts fourFrameVideo 0 ∧ FrameStarts fourFrameVideo 10 ∧
    10 + 2 ≤ countIn (fun u => (fourFrameRun u).pixEdge) 0 13 ∧
    AtRest (rgb 2) 4 2 10 2 fourFrameRun 13 ∧
    (∀ t, Dma.wordsOf 10 2 (fourFrameRun t).frame_size = 2) ∧
    SoftwareOwns (rgb 2) 4 2 10 2 fourFrameRun 13 ∧
    NoOverflow (rgb 2) 4 2 10 2 fourFrameRun 13 37 ∧
    Done (rgb 2) 4 2 10 2 fourFrameRun 24 0 ∧ Done (rgb 2) 4 2 10 2 fourFrameRun 36 1 ∧
    memWrites (rgb 2) 4 2 10 2 fourFrameRun 0 37 =
      [(100, [0x01020e, 0x01020d]), (101, [0x010210, 0x01020f]),
       (200, [0x010218, 0x010217]), (201, [0x01021a, 0x010219])] := by
  refine ⟨fun t _ => ?_, fourFrame_steady, by unfold FrameStarts; decide,
    by unfold FrameStarts; decide, by decide, by unfold AtRest; decide +kernel,
    fun t => by simp [Dma.wordsOf, fourFrameRun, twoFrameRun], fun t n ht _ hv => ?_, ?_, ?_, ?_, ?_⟩
  · rw [countIn_all (fun u => (fourFrameRun u).pixEdge) (fun _ => rfl)]; rfl
  · have : ¬ t = 12 := by omega
    simp [fourFrameRun, this]
  · unfold NoOverflow; decide +kernel
  · unfold Done; decide +kernel
  · unfold Done; decide +kernel
  · decide +kernel

end Verif.Props
