import Verif.Proofs.Loop

/-!
# C113: the frames of a film arrive in order, each one whole
-/

namespace Verif.Props

open Verif.HdmiIn Verif.Spec.HdmiIn Verif.Spec.Capture Verif.Spec.Frame Verif.Spec.Stream
  Verif.Spec.Receiver Verif.Spec.Serial Verif.VideoOut Verif.Output
  Verif.Spec.Output Verif.Spec.Loop Verif.Loop
open Verif.Capture (rgb ycbcr422 Extractor)

section

variable {p : Params} {x : Nat → Phy} {m0 d0 : Nat} {film : Nat → Nat → Colour}

/-- The frame in which the receiver locks, and bounds on it. -/
theorem lock_frame (p : Params) (m0 : Nat) : ∃ F, m0 + lineLen p ≤ F * frameLen p ∧
    F * frameLen p ≤ m0 + lineLen p + frameLen p := by
  have hpos : 0 < frameLen p := by
    have := fl_eq p
    have : 0 < lineLen p := Nat.succ_pos _
    omega
  refine ⟨(m0 + lineLen p) / frameLen p + 1, ?_, ?_⟩
  · have := Nat.lt_div_mul_add (a := m0 + lineLen p) hpos
    rw [Nat.succ_mul]; omega
  · have := Nat.div_mul_le_self (m0 + lineLen p) (frameLen p)
    rw [Nat.succ_mul]; omega

/-- What the receiver needs of a film, and when. -/
structure FilmFacts (p : Params) (x : Nat → Phy) (m0 d0 N : Nat) (F : Nat) : Prop where
  lock : Training x (F * frameLen p - lineLen p + d0) (F * frameLen p + d0)
    (F * frameLen p + p.hres + d0)
  standard : StandardSyncs x false false ((F + 1) * frameLen p + p.hres - 1 + d0)
  start0 : FrameStarts (sent false x) ((F + 1) * frameLen p + p.vsync_start * lineLen p - 1 + d0)
  start1 : FrameStarts (sent false x) ((F + 2) * frameLen p + p.vsync_start * lineLen p - 1 + d0)
  order0 : F * frameLen p + p.hres + d0 ≤ (F + 1) * frameLen p + p.hres - 1 + d0
  order1 : (F + 1) * frameLen p + p.hres - 1 + d0 <
    (F + 1) * frameLen p + p.vsync_start * lineLen p - 1 + d0
  order2 : (F + 1) * frameLen p + p.vsync_start * lineLen p - 1 + d0 <
    (F + 2) * frameLen p + p.vsync_start * lineLen p - 1 + d0
  late : m0 + d0 + p.hres + 11 ≤ (F + 1) * frameLen p + p.vsync_start * lineLen p - 1 + d0
  early : m0 + p.hres ≤ (F + 1) * frameLen p + p.hres - 1
  soon : (F + 2) * frameLen p + p.vsync_start * lineLen p - 1 + d0 ≤ m0 + d0 + 4 * frameLen p
  porch : p.hscan + 1 ≤ p.vsync_start * lineLen p
  first : m0 + lineLen p ≤ F * frameLen p
  some : 1 ≤ N

theorem film_facts (hp : RealMode p) (hx : Film p x m0 d0 film) {pf N : Nat}
    (hN : N * pf = p.vres * p.hres) : ∃ F, FilmFacts p x m0 d0 N F := by
  obtain ⟨F, hF1, hF2⟩ := lock_frame p m0
  have hfl := fl_eq p
  have hll : lineLen p = p.hscan + 1 := rfl
  have hr := hp.hres; have hw := hp.wide; have hln := hp.lines; have hvp := hp.vporch
  have hvs := hp.vs; have hve := hp.ve; have hlong := hp.long; have hpo := hp.hporch
  have hhs := hp.hs; have hhe := hp.he
  have hvl : lineLen p ≤ p.vsync_start * lineLen p := Nat.le_mul_of_pos_left _ (by omega)
  have hvl2 := line_le p p.vsync_start (by omega)
  have e1 : (F + 1) * frameLen p = F * frameLen p + frameLen p := Nat.succ_mul _ _
  have e2 : (F + 2) * frameLen p = F * frameLen p + frameLen p + frameLen p := by
    rw [← e1, ← Nat.succ_mul]
  refine ⟨F, raster_training hp hx F hF1, raster_standard hp hx (F + 1) (by omega),
    (raster_start hp hx _ (by omega)).2 ⟨F + 1, by omega⟩,
    (raster_start hp hx _ (by omega)).2 ⟨F + 2, by omega⟩, by omega, by omega, by omega, by omega,
    by omega, by omega, by omega, hF1, ?_⟩
  rcases Nat.eq_zero_or_pos N with h | h
  · rw [h, Nat.zero_mul] at hN
    have := Nat.mul_le_mul hln hw
    omega
  · exact h

/-- The number of the frame that follows the frame start at clock `t`. -/
def frameAfter (p : Params) (d0 t : Nat) : Nat :=
  (t + 1 - d0 - p.vsync_start * lineLen p) / frameLen p + 1

theorem frameAfter_eq (p : Params) (d0 m G : Nat)
    (hG : m + 1 = G * frameLen p + p.vsync_start * lineLen p) :
    frameAfter p d0 (m + d0) = G + 1 := by
  have hpos : 0 < frameLen p := by
    have := fl_eq p
    have : 0 < lineLen p := Nat.succ_pos _
    omega
  unfold frameAfter
  rw [show m + d0 + 1 - d0 - p.vsync_start * lineLen p = G * frameLen p by omega,
    Nat.mul_div_cancel _ hpos]

theorem film_in_order (hp : RealMode p) (hx : Film p x m0 d0 film)
    {pf depth nslots aw al : Nat} (hpf : 2 ≤ pf) {y : Nat → In} {V : Nat → Frame.In} {N F L T0 : Nat}
    (hN : N * pf = p.vres * p.hres) (ff : FilmFacts p x m0 d0 N F)
    (hV : Video (captureIn (rgb pf) depth nslots aw al y) V)
    (hlat : Later V (sent false x) L ((F + 1) * frameLen p + p.hres - 1 + d0))
    (hseen : m0 + d0 + 4 * frameLen p + L + 2 ≤ countIn (fun u => (y u).pixEdge) 0 T0)
    (hsize : ∀ t, T0 ≤ t → Dma.wordsOf aw al (y t).frame_size = N) :
    let z := captureIn (rgb pf) depth nslots aw al y
    AtRest (rgb pf) depth nslots aw al z T0 → SoftwareOwns (rgb pf) depth nslots aw al z T0 →
    InOrder (rgb pf) depth nslots aw al z T0 fun e j ws => m0 ≤ j * frameLen p ∧
      OnItsWay p (fun u => (y u).pixEdge) d0 (L + 2) T0 e j ∧ ws = groups pf ((List.range (p.vres * p.hres)).map fun q => rgb24 (film j q)) := by
  intro z rest own
  have hsoon := ff.soon; have hlate := ff.late; have horder := ff.order1; have horder2 := ff.order2
  have hporch := ff.porch
  refine Verif.Capture.inOrder_map (frameAfter p d0) (video_to_memory hpf hV hlat
    ⟨fun t n ht => (raster_steady hp hx hpf hN).frames t n (by omega)⟩ (by omega) ff.start0 ff.start1 ff.order2
    (by omega) hsize ff.some rest own) ?_ ?_
  · rintro e t ws ⟨h2, h3, n, h4, h6, h7, rfl, h5⟩
    obtain ⟨m, rfl⟩ : ∃ m, t = m + d0 := ⟨t - d0, by omega⟩
    have hm0 : m0 + p.hres ≤ m := by omega
    obtain ⟨G, hG⟩ := (raster_start hp hx m (by omega)).1 h3
    have hn := raster_short hp hx m n G (by omega) hG h4
    rw [raster_active hp hx m n G (by omega) hG hn] at h5 ⊢
    have hact := window_begun hp G m n hG hn (by
      intro h
      rw [h] at h5
      have := ff.some
      simp [groups] at h5
      omega)
    have e1 : (G + 1) * frameLen p = G * frameLen p + frameLen p := Nat.succ_mul _ _
    have e2 : (G + 1 + 1) * frameLen p = G * frameLen p + frameLen p + frameLen p := by
      rw [← e1, ← Nat.succ_mul]
    have hfl := fl_eq p
    have hll : lineLen p = p.hscan + 1 := rfl
    have hvl := line_le p p.vsync_start (by have := hp.vs; have := hp.ve; omega)
    have hlong := hp.long
    rw [whole_picture (by omega) hN (window_count hp G m n hG hn).2.1 _ h5, frameAfter_eq p d0 m G hG]
    exact ⟨by omega, ⟨by omega, by omega⟩, rfl⟩
  · rintro e t ws e' t' ws' ⟨h2, h3, -⟩ ⟨h2', h3', -⟩ htt
    obtain ⟨m, rfl⟩ : ∃ m, t = m + d0 := ⟨t - d0, by omega⟩
    obtain ⟨m', rfl⟩ : ∃ m, t' = m + d0 := ⟨t' - d0, by omega⟩
    obtain ⟨G, hG⟩ := (raster_start hp hx m (by omega)).1 h3
    obtain ⟨G', hG'⟩ := (raster_start hp hx m' (by omega)).1 h3'
    rw [frameAfter_eq p d0 m G hG, frameAfter_eq p d0 m' G' hG']
    rcases Nat.lt_or_ge G G' with h | h
    · omega
    · have := Nat.mul_le_mul_right (frameLen p) h; omega

/-- **C113** A film arrives in order, each frame whole.  A transmitter sends a film in mode `p`, whose
frame number `F` shows the picture `film F`, from pixel `m0` at clock `m0 + d0` on, over lanes with
any delays at most 70 bits apart.  Four frames and 25 clocks plus the lane delay later, at instant `T0`
or any time after, let the capture path be at rest; from then on the frame size is that of the
picture and software leaves LOADED slots alone.  As long as no overflow occurs, each transfer that is
done has brought one picture of the film to memory, all pixels of it and none of another picture, which
was on its way between `T0` and that instant, and transfers that are done later bring later pictures. -/
theorem C113_film (hp : RealMode p) (hx : Film p x m0 d0 film) (k : Nat → Nat)
    (lead : Nat → Nat → Bool) (hskew : ∀ i j, i < 3 → j < 3 → k i ≤ k j + 70)
    (pf depth nslots aw al : Nat) (hpf : 2 ≤ pf) (y : Nat → In) (hl : Lanes x k lead y) (N T0 : Nat)
    (hN : N * pf = p.vres * p.hres)
    (hseen : m0 + d0 + 4 * frameLen p + k 0 / 10 + 25 ≤ countIn (fun u => (y u).pixEdge) 0 T0)
    (hsize : ∀ t, T0 ≤ t → Dma.wordsOf aw al (y t).frame_size = N) :
    let z := captureIn (rgb pf) depth nslots aw al y
    AtRest (rgb pf) depth nslots aw al z T0 → SoftwareOwns (rgb pf) depth nslots aw al z T0 →
    InOrder (rgb pf) depth nslots aw al z T0 fun e j ws => m0 ≤ j * frameLen p ∧
      OnItsWay p (fun u => (y u).pixEdge) d0 (k 0 / 10 + 25) T0 e j ∧ ws = groups pf ((List.range (p.vres * p.hres)).map fun q => rgb24 (film j q)) := by
  intro z rest own
  obtain ⟨F, ff⟩ := film_facts hp hx hN
  obtain ⟨V, L, hL, hV, hlat⟩ := hdmi_video (E := rgb pf) (depth := depth) (nslots := nslots)
    (aw := aw) (al := al) hl ff.lock hskew ff.order0 ff.standard
  refine Verif.Capture.inOrder_map (fun j => j) (film_in_order hp hx hpf hN ff hV hlat (by omega) hsize rest own) ?_
    fun _ _ _ _ _ _ _ _ h => h
  rintro e j ws ⟨h1, ⟨h2, h3⟩, h4⟩
  exact ⟨h1, ⟨by omega, h3⟩, h4⟩

theorem film_in_order422 (hp : RealMode p) (hx : Film p x m0 d0 film)
    (hev : p.hres % 2 = 0) (hbl : p.hres + 10 ≤ p.hscan)
    {pf depth nslots aw al : Nat} (hpf : 2 ≤ pf) {y : Nat → In} {V : Nat → Frame.In} {N F L T0 : Nat}
    (hN : N * pf = p.vres * p.hres) (ff : FilmFacts p x m0 d0 N F)
    (hV : Video (captureIn (ycbcr422 pf) depth nslots aw al y) V)
    (hlat : Later V (sent false x) L ((F + 1) * frameLen p + p.hres - 1 + d0))
    (hseen : m0 + d0 + 4 * frameLen p + L + 2 ≤ countIn (fun u => (y u).pixEdge) 0 T0)
    (hsize : ∀ t, T0 ≤ t → Dma.wordsOf aw al (y t).frame_size = N) :
    let z := captureIn (ycbcr422 pf) depth nslots aw al y
    AtRest (ycbcr422 pf) depth nslots aw al z T0 → SoftwareOwns (ycbcr422 pf) depth nslots aw al z T0 →
    InOrder (ycbcr422 pf) depth nslots aw al z T0 fun e j ws => m0 ≤ j * frameLen p ∧
      OnItsWay p (fun u => (y u).pixEdge) d0 (L + 2) T0 e j ∧ ws = groups pf ((List.range (p.vres * p.hres)).map (pic422 (film j))) := by
  intro z rest own
  have hsoon := ff.soon; have hlate := ff.late; have horder := ff.order1; have horder2 := ff.order2
  have hporch := ff.porch
  refine Verif.Capture.inOrder_map (frameAfter p d0) (video_to_memory422 hpf hV hlat
    (raster_steady422 hp hx hev hbl hpf hN _ (by omega)) (by omega)
    (raster_even hp hx hev _ ff.early) ff.start0 ff.start1 ff.order2
    (by omega) hsize ff.some rest own) ?_ ?_
  · rintro e t ws ⟨h2, h3, n, h4, h6, h7, rfl, h5⟩
    obtain ⟨m, rfl⟩ : ∃ m, t = m + d0 := ⟨t - d0, by omega⟩
    have hm0 : m0 + p.hres ≤ m := by omega
    obtain ⟨G, hG⟩ := (raster_start hp hx m (by omega)).1 h3
    have hn := raster_short hp hx m n G (by omega) hG h4
    rw [raster_active422 hp hx hev m n G (by omega) hG hn] at h5 ⊢
    have hact := window_begun hp G m n hG hn (by
      intro h
      rw [h] at h5
      have := ff.some
      simp [groups] at h5
      omega)
    have e1 : (G + 1) * frameLen p = G * frameLen p + frameLen p := Nat.succ_mul _ _
    have e2 : (G + 1 + 1) * frameLen p = G * frameLen p + frameLen p + frameLen p := by
      rw [← e1, ← Nat.succ_mul]
    have hfl := fl_eq p
    have hll : lineLen p = p.hscan + 1 := rfl
    have hvl := line_le p p.vsync_start (by have := hp.vs; have := hp.ve; omega)
    have hlong := hp.long
    rw [whole_picture (by omega) hN (window_count hp G m n hG hn).2.1 _ h5, frameAfter_eq p d0 m G hG]
    exact ⟨by omega, ⟨by omega, by omega⟩, rfl⟩
  · rintro e t ws e' t' ws' ⟨h2, h3, -⟩ ⟨h2', h3', -⟩ htt
    obtain ⟨m, rfl⟩ : ∃ m, t = m + d0 := ⟨t - d0, by omega⟩
    obtain ⟨m', rfl⟩ : ∃ m, t' = m + d0 := ⟨t' - d0, by omega⟩
    obtain ⟨G, hG⟩ := (raster_start hp hx m (by omega)).1 h3
    obtain ⟨G', hG'⟩ := (raster_start hp hx m' (by omega)).1 h3'
    rw [frameAfter_eq p d0 m G hG, frameAfter_eq p d0 m' G' hG']
    rcases Nat.lt_or_ge G G' with h | h
    · omega
    · have := Nat.mul_le_mul_right (frameLen p) h; omega

/-- **C113**, receiver in ycbcr422 mode (the default). -/
theorem C113_film_ycbcr422 (hp : RealMode p) (hx : Film p x m0 d0 film)
    (hev : p.hres % 2 = 0) (hbl : p.hres + 10 ≤ p.hscan) (k : Nat → Nat)
    (lead : Nat → Nat → Bool) (hskew : ∀ i j, i < 3 → j < 3 → k i ≤ k j + 70)
    (pf depth nslots aw al : Nat) (hpf : 2 ≤ pf) (y : Nat → In) (hl : Lanes x k lead y) (N T0 : Nat)
    (hN : N * pf = p.vres * p.hres)
    (hseen : m0 + d0 + 4 * frameLen p + k 0 / 10 + 25 ≤ countIn (fun u => (y u).pixEdge) 0 T0)
    (hsize : ∀ t, T0 ≤ t → Dma.wordsOf aw al (y t).frame_size = N) :
    let z := captureIn (ycbcr422 pf) depth nslots aw al y
    AtRest (ycbcr422 pf) depth nslots aw al z T0 → SoftwareOwns (ycbcr422 pf) depth nslots aw al z T0 →
    InOrder (ycbcr422 pf) depth nslots aw al z T0 fun e j ws => m0 ≤ j * frameLen p ∧
      OnItsWay p (fun u => (y u).pixEdge) d0 (k 0 / 10 + 25) T0 e j ∧ ws = groups pf ((List.range (p.vres * p.hres)).map (pic422 (film j))) := by
  intro z rest own
  obtain ⟨F, ff⟩ := film_facts hp hx hN
  obtain ⟨V, L, hL, hV, hlat⟩ := hdmi_video (E := ycbcr422 pf) (depth := depth) (nslots := nslots)
    (aw := aw) (al := al) hl ff.lock hskew ff.order0 ff.standard
  refine Verif.Capture.inOrder_map (fun j => j) (film_in_order422 hp hx hev hbl hpf hN ff hV hlat (by omega) hsize rest own) ?_
    fun _ _ _ _ _ _ _ _ h => h
  rintro e j ws ⟨h1, ⟨h2, h3⟩, h4⟩
  exact ⟨h1, ⟨by omega, h3⟩, h4⟩

end

end Verif.Props
