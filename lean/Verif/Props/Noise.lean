import Verif.Props.Delivered
import Verif.Props.Errors

/-!
# C114: bit errors reach memory only as wrong colours
-/

namespace Verif.Props

open Verif.HdmiIn Verif.Spec.HdmiIn Verif.Spec.Capture Verif.Spec.Frame Verif.Spec.Stream
  Verif.Spec.Receiver Verif.Spec.Serial Verif.VideoOut Verif.Output Verif.Spec.Tmds
  Verif.Spec.Output Verif.Spec.Loop Verif.Loop
open Verif.Capture (rgb ycbcr422 Extractor moves_of_alive)

/-- The clock at which pixel `q` of frame `F` enters the physical layer. -/
def pixelTime (p : Params) (d0 F q : Nat) : Nat :=
  F * frameLen p + q / p.hres * lineLen p + q % p.hres + d0

/-- The film `film'` differs from the film `film` only in colours whose word has been hit: red is sent
on lane 2, green on lane 1 and blue on lane 0. -/
def OnlyHitColours (p : Params) (x : Nat → Phy) (k : Nat → Nat) (lead bits : Nat → Nat → Bool)
    (m0 d0 : Nat) (film film' : Nat → Nat → Colour) : Prop :=
  ∀ F q, q < p.vres * p.hres → m0 + d0 ≤ pixelTime p d0 F q →
    (¬ Hit x k lead bits 2 (pixelTime p d0 F q) → (film' F q).1 = (film F q).1) ∧
    (¬ Hit x k lead bits 1 (pixelTime p d0 F q) → (film' F q).2.1 = (film F q).2.1) ∧
    (¬ Hit x k lead bits 0 (pixelTime p d0 F q) → (film' F q).2.2 = (film F q).2.2)

section Lemmas

variable {p : Params} {x : Nat → Phy} {m0 d0 : Nat} {film : Nat → Nat → Colour} {k : Nat → Nat}
  {lead bits : Nat → Nat → Bool}

/-- The film that arrives. -/
def receivedFilm (p : Params) (d0 : Nat) (k : Nat → Nat) (bits : Nat → Nat → Bool) (F q : Nat) :
    Colour :=
  (decodeByte (receivedWord (bits 2) (k 2) (pixelTime p d0 F q)),
    decodeByte (receivedWord (bits 1) (k 1) (pixelTime p d0 F q)),
    decodeByte (receivedWord (bits 0) (k 0) (pixelTime p d0 F q)))

theorem pixelTime_eq {m : Nat} (hact : isActive p m = true) :
    pixelTime p d0 (frame p m) (line p m * p.hres + col p m) = m + d0 := by
  simp only [isActive, Bool.and_eq_true, decide_eq_true_eq] at hact
  have h1 : (line p m * p.hres + col p m) / p.hres = line p m := by
    rw [Nat.mul_comm, Nat.mul_add_div (by omega), Nat.div_eq_of_lt hact.1]; omega
  have h2 : (line p m * p.hres + col p m) % p.hres = col p m := by
    rw [Nat.mul_comm, Nat.mul_add_mod, Nat.mod_eq_of_lt hact.1]
  have := pixel_decomp p m
  unfold pixelTime
  rw [h1, h2]
  omega

theorem film_arrives (hx : Film p x m0 d0 film) (k : Nat → Nat) (bits : Nat → Nat → Bool) :
    Film p (arriving x k bits) m0 d0 (receivedFilm p d0 k bits) where
  de := hx.de
  hsync := hx.hsync
  vsync := hx.vsync
  rgb := fun m _ hact => by
    simp only [receivedFilm, arriving, pixelTime_eq hact]

theorem facts_arrive {N F : Nat} (ff : FilmFacts p x m0 d0 N F) (k : Nat → Nat)
    (bits : Nat → Nat → Bool) : FilmFacts p (arriving x k bits) m0 d0 N F where
  lock := ⟨ff.lock.blank, ff.lock.iso, ff.lock.later, ff.lock.before, ff.lock.active, ff.lock.ends,
    ff.lock.long⟩
  standard := ⟨ff.standard.ends, ff.standard.idle, ff.standard.hold⟩
  start0 := ff.start0
  start1 := ff.start1
  order0 := ff.order0
  order1 := ff.order1
  order2 := ff.order2
  late := ff.late
  early := ff.early
  soon := ff.soon
  porch := ff.porch
  first := ff.first
  some := ff.some

theorem only_hit (hp : RealMode p) (hx : Film p x m0 d0 film) (lead : Nat → Nat → Bool) :
    OnlyHitColours p x k lead bits m0 d0 film (receivedFilm p d0 k bits) := by
  intro F q hq hm
  have hpos : 0 < p.hres := by have := hp.wide; omega
  have hl : q / p.hres < p.vres := Nat.div_lt_of_lt_mul (by rw [Nat.mul_comm]; exact hq)
  have hc := Nat.mod_lt q hpos
  have hv := hp.vres; have hr := hp.hres
  obtain ⟨m, hmc⟩ : ∃ m, m + d0 = pixelTime p d0 F q := ⟨_, rfl⟩
  have hm' : m = F * frameLen p + q / p.hres * lineLen p + q % p.hres := by
    unfold pixelTime at hmc; omega
  obtain ⟨c1, c2, c3⟩ := frame_coord p F (q / p.hres) (q % p.hres) (by omega) (by omega)
  rw [← hm'] at c1 c2 c3
  have hact : isActive p m = true := by
    simp only [isActive, Bool.and_eq_true, decide_eq_true_eq]; omega
  have hrgb := hx.rgb m (by omega) hact
  rw [c1, c2, c3, Nat.mul_comm (q / p.hres), Nat.div_add_mod, hmc] at hrgb
  have hde := hx.de m (by omega)
  rw [hact, hmc] at hde
  rw [← hrgb]
  have dec : ∀ i, ¬ Hit x k lead bits i (pixelTime p d0 F q) →
      decodeByte (receivedWord (bits i) (k i) (pixelTime p d0 F q)) =
        (lane i (x (pixelTime p d0 F q))).d := by
    intro i hh
    rw [not_hit hh]
    exact decode_sent (fun u => lane i (x u)) _ (by rw [lane_de]; exact hde)
  exact ⟨dec 2, dec 1, dec 0⟩

theorem isolated_mono {n0 n1 : Nat} (h : IsolatedErrors x k lead bits n0) (hn : n0 ≤ n1) :
    IsolatedErrors x k lead bits n1 := fun i n j hi hn' => h i n j hi (by omega)

end Lemmas

section

variable {p : Params} {x : Nat → Phy} {m0 d0 : Nat} {film : Nat → Nat → Colour}

/-- **C114** Bit errors reach memory only as wrong colours.  A transmitter sends a film in mode `p` (as in
C113), but from pixel `m0` on bits of pixels may arrive wrong: any number of them, on all lanes, those
of one lane at least 40 bits apart.  Then as in C113 each transfer that is done brings one picture
to memory and transfers that are done later bring later pictures, of a film that differs from the one
that was sent only in those colours of those pixels whose own bits have been hit. -/
theorem C114_film (hp : RealMode p) (hx : Film p x m0 d0 film) (k : Nat → Nat)
    (lead bits : Nat → Nat → Bool) (herr : IsolatedErrors x k lead bits (m0 + d0))
    (hskew : ∀ i j, i < 3 → j < 3 → k i ≤ k j + 70)
    (pf depth nslots aw al : Nat) (hpf : 2 ≤ pf) (y : Nat → In) (hl : LanesOn bits y) (N T0 : Nat)
    (hN : N * pf = p.vres * p.hres)
    (hseen : m0 + d0 + 4 * frameLen p + k 0 / 10 + 25 ≤ countIn (fun u => (y u).pixEdge) 0 T0)
    (hsize : ∀ t, T0 ≤ t → Dma.wordsOf aw al (y t).frame_size = N) :
    let z := captureIn (rgb pf) depth nslots aw al y
    Spec.Capture.AtRest (rgb pf) depth nslots aw al z T0 → SoftwareOwns (rgb pf) depth nslots aw al z T0 →
    ∃ film', OnlyHitColours p x k lead bits m0 d0 film film' ∧
      InOrder (rgb pf) depth nslots aw al z T0 fun e j ws => m0 ≤ j * frameLen p ∧
        OnItsWay p (fun u => (y u).pixEdge) d0 (k 0 / 10 + 25) T0 e j ∧
        ws = groups pf ((List.range (p.vres * p.hres)).map fun q => rgb24 (film' j q)) := by
  intro z rest own
  obtain ⟨F, ff⟩ := film_facts hp hx hN
  obtain ⟨V, L, hL, hV, hlat⟩ := hdmi_video_errors (E := rgb pf) (depth := depth) (nslots := nslots)
    (aw := aw) (al := al) hl
    (isolated_only_pixels (isolated_mono herr (n1 := F * frameLen p - lineLen p + d0) (by have := ff.first; omega)))
    ff.lock hskew ff.order0 ff.standard
  refine ⟨_, only_hit hp hx lead, Verif.Capture.inOrder_map (fun j => j) (film_in_order hp (film_arrives hx k bits) hpf hN
    (facts_arrive ff k bits) hV hlat (by omega) hsize rest own) ?_
    fun _ _ _ _ _ _ _ _ h => h⟩
  rintro e j ws ⟨h1, ⟨h2, h3⟩, h4⟩
  exact ⟨h1, ⟨by omega, h3⟩, h4⟩

/-- **C114** Bit errors do not prevent a picture from being delivered (C91). -/
theorem C114_delivered (hp : RealMode p) (hx : Film p x m0 d0 film) (k : Nat → Nat)
    (lead bits : Nat → Nat → Bool) (herr : IsolatedErrors x k lead bits (m0 + d0))
    (hskew : ∀ i j, i < 3 → j < 3 → k i ≤ k j + 70)
    (pf depth nslots aw al : Nat) (hpf : 2 ≤ pf) (y : Nat → In) (hl : LanesOn bits y) (N T0 : Nat)
    (hN : N * pf = p.vres * p.hres)
    (hseen : m0 + d0 + 4 * frameLen p + k 0 / 10 + 25 ≤ countIn (fun u => (y u).pixEdge) 0 T0)
    (hsize : ∀ t, T0 ≤ t → Dma.wordsOf aw al (y t).frame_size = N)
    (alive : AliveIn y) (none : LoadsNoneIn y T0) (s : Nat) (hs : s < nslots) :
    let z := captureIn (rgb pf) depth nslots aw al y
    Spec.Capture.AtRest (rgb pf) depth nslots aw al z T0 → SoftwareOwns (rgb pf) depth nslots aw al z T0 →
    ((capture (rgb pf) depth nslots aw al z T0).dma.slots s).valid = true →
    (∀ T, (∀ u, T0 ≤ u → u < T → ¬ Done (rgb pf) depth nslots aw al z u s) →
      NoOverflow (rgb pf) depth nslots aw al z T0 (T + 1)) →
    ∃ film' e b j, OnlyHitColours p x k lead bits m0 d0 film film' ∧ T0 ≤ b ∧
      m0 ≤ j * frameLen p ∧ OnItsWay p (fun u => (y u).pixEdge) d0 (k 0 / 10 + 25) T0 e j ∧
      Done (rgb pf) depth nslots aw al z e s ∧
      Captured (rgb pf) depth nslots aw al z b e s
        (groups pf ((List.range (p.vres * p.hres)).map fun q => rgb24 (film' j q))) := by
  intro z rest own hload hno
  obtain ⟨F, ff⟩ := film_facts hp hx hN
  obtain ⟨V, L, hL, hV, hlat⟩ := hdmi_video_errors (E := rgb pf) (depth := depth) (nslots := nslots)
    (aw := aw) (al := al) hl
    (isolated_only_pixels (isolated_mono herr (n1 := F * frameLen p - lineLen p + d0) (by have := ff.first; omega)))
    ff.lock hskew ff.order0 ff.standard
  obtain ⟨e, b, j, h1, h2, ⟨h3, h4⟩, h5⟩ := film_delivered hp (film_arrives hx k bits) hpf hN
    (facts_arrive ff k bits) hV hlat (by omega) hsize alive.pix (moves_of_alive (alive_in alive)) none hs rest own
    hload hno
  exact ⟨_, e, b, j, only_hit hp hx lead, h1, h2, ⟨by omega, h4⟩, h5⟩

/-- **C114**, receiver in ycbcr422 mode (the default). -/
theorem C114_film_ycbcr422 (hp : RealMode p) (hx : Film p x m0 d0 film)
    (hev : p.hres % 2 = 0) (hbl : p.hres + 10 ≤ p.hscan) (k : Nat → Nat)
    (lead bits : Nat → Nat → Bool) (herr : IsolatedErrors x k lead bits (m0 + d0))
    (hskew : ∀ i j, i < 3 → j < 3 → k i ≤ k j + 70)
    (pf depth nslots aw al : Nat) (hpf : 2 ≤ pf) (y : Nat → In) (hl : LanesOn bits y) (N T0 : Nat)
    (hN : N * pf = p.vres * p.hres)
    (hseen : m0 + d0 + 4 * frameLen p + k 0 / 10 + 25 ≤ countIn (fun u => (y u).pixEdge) 0 T0)
    (hsize : ∀ t, T0 ≤ t → Dma.wordsOf aw al (y t).frame_size = N) :
    let z := captureIn (ycbcr422 pf) depth nslots aw al y
    Spec.Capture.AtRest (ycbcr422 pf) depth nslots aw al z T0 → SoftwareOwns (ycbcr422 pf) depth nslots aw al z T0 →
    ∃ film', OnlyHitColours p x k lead bits m0 d0 film film' ∧
      InOrder (ycbcr422 pf) depth nslots aw al z T0 fun e j ws => m0 ≤ j * frameLen p ∧
        OnItsWay p (fun u => (y u).pixEdge) d0 (k 0 / 10 + 25) T0 e j ∧
        ws = groups pf ((List.range (p.vres * p.hres)).map (pic422 (film' j))) := by
  intro z rest own
  obtain ⟨F, ff⟩ := film_facts hp hx hN
  obtain ⟨V, L, hL, hV, hlat⟩ := hdmi_video_errors (E := ycbcr422 pf) (depth := depth) (nslots := nslots)
    (aw := aw) (al := al) hl
    (isolated_only_pixels (isolated_mono herr (n1 := F * frameLen p - lineLen p + d0) (by have := ff.first; omega)))
    ff.lock hskew ff.order0 ff.standard
  refine ⟨_, only_hit hp hx lead, Verif.Capture.inOrder_map (fun j => j) (film_in_order422 hp (film_arrives hx k bits) hev hbl hpf hN
    (facts_arrive ff k bits) hV hlat (by omega) hsize rest own) ?_
    fun _ _ _ _ _ _ _ _ h => h⟩
  rintro e j ws ⟨h1, ⟨h2, h3⟩, h4⟩
  exact ⟨h1, ⟨by omega, h3⟩, h4⟩

/-- **C114**, receiver in ycbcr422 mode (the default). -/
theorem C114_delivered_ycbcr422 (hp : RealMode p) (hx : Film p x m0 d0 film)
    (hev : p.hres % 2 = 0) (hbl : p.hres + 10 ≤ p.hscan) (k : Nat → Nat)
    (lead bits : Nat → Nat → Bool) (herr : IsolatedErrors x k lead bits (m0 + d0))
    (hskew : ∀ i j, i < 3 → j < 3 → k i ≤ k j + 70)
    (pf depth nslots aw al : Nat) (hpf : 2 ≤ pf) (y : Nat → In) (hl : LanesOn bits y) (N T0 : Nat)
    (hN : N * pf = p.vres * p.hres)
    (hseen : m0 + d0 + 4 * frameLen p + k 0 / 10 + 25 ≤ countIn (fun u => (y u).pixEdge) 0 T0)
    (hsize : ∀ t, T0 ≤ t → Dma.wordsOf aw al (y t).frame_size = N)
    (alive : AliveIn y) (none : LoadsNoneIn y T0) (s : Nat) (hs : s < nslots) :
    let z := captureIn (ycbcr422 pf) depth nslots aw al y
    Spec.Capture.AtRest (ycbcr422 pf) depth nslots aw al z T0 → SoftwareOwns (ycbcr422 pf) depth nslots aw al z T0 →
    ((capture (ycbcr422 pf) depth nslots aw al z T0).dma.slots s).valid = true →
    (∀ T, (∀ u, T0 ≤ u → u < T → ¬ Done (ycbcr422 pf) depth nslots aw al z u s) →
      NoOverflow (ycbcr422 pf) depth nslots aw al z T0 (T + 1)) →
    ∃ film' e b j, OnlyHitColours p x k lead bits m0 d0 film film' ∧ T0 ≤ b ∧
      m0 ≤ j * frameLen p ∧ OnItsWay p (fun u => (y u).pixEdge) d0 (k 0 / 10 + 25) T0 e j ∧
      Done (ycbcr422 pf) depth nslots aw al z e s ∧
      Captured (ycbcr422 pf) depth nslots aw al z b e s
        (groups pf ((List.range (p.vres * p.hres)).map (pic422 (film' j)))) := by
  intro z rest own hload hno
  obtain ⟨F, ff⟩ := film_facts hp hx hN
  obtain ⟨V, L, hL, hV, hlat⟩ := hdmi_video_errors (E := ycbcr422 pf) (depth := depth) (nslots := nslots)
    (aw := aw) (al := al) hl
    (isolated_only_pixels (isolated_mono herr (n1 := F * frameLen p - lineLen p + d0) (by have := ff.first; omega)))
    ff.lock hskew ff.order0 ff.standard
  obtain ⟨e, b, j, h1, h2, ⟨h3, h4⟩, h5⟩ := film_delivered422 hp (film_arrives hx k bits) hev hbl hpf hN
    (facts_arrive ff k bits) hV hlat (by omega) hsize alive.pix (moves_of_alive (alive_in alive)) none hs rest own
    hload hno
  exact ⟨_, e, b, j, only_hit hp hx lead, h1, h2, ⟨by omega, h4⟩, h5⟩

end

/-! ### A concrete case -/

/-- A film in the mode of the example of C85: pixel `q` of frame `F` has red `16 F + q`. -/
def sampleFilm (F q : Nat) : Colour := (BitVec.ofNat 8 (16 * F + q), BitVec.ofNat 8 q, 77)

def filmVideo (m : Nat) : Phy :=
  { de := isActive loopMode m, hsync := isHsync loopMode m, vsync := isVsync loopMode m
    r := (sampleFilm (frame loopMode m) (line loopMode m * loopMode.hres + col loopMode m)).1
    g := (sampleFilm (frame loopMode m) (line loopMode m * loopMode.hres + col loopMode m)).2.1
    b := (sampleFilm (frame loopMode m) (line loopMode m * loopMode.hres + col loopMode m)).2.2 }

theorem sample_film : Film loopMode filmVideo 0 0 sampleFilm :=
  ⟨fun _ _ => rfl, fun _ _ => rfl, fun _ _ => rfl, fun _ _ _ => rfl⟩

/-- In each frame bit 3 of the first pixel arrives wrong on lane 2. -/
def noisyBits (i n : Nat) : Bool :=
  laneBits filmVideo (fun i => 7 * i + 18) (fun _ _ => true) i n ^^
    (i == 2 && n % 810 == (7 * 2 + 18 + 40 + 3) % 810)

theorem noisy_hit (i n j : Nat) (hj : j < 10)
    (h : noisyBits i (7 * i + 18 + 10 * (n + 4) + j) ≠
      laneBits filmVideo (fun i => 7 * i + 18) (fun _ _ => true) i (7 * i + 18 + 10 * (n + 4) + j)) :
    i = 2 ∧ n % 81 = 0 ∧ j = 3 := by
  have : (i == 2 && (7 * i + 18 + 10 * (n + 4) + j) % 810 == (7 * 2 + 18 + 40 + 3) % 810) = true := by
    cases hc : (i == 2 && (7 * i + 18 + 10 * (n + 4) + j) % 810 == (7 * 2 + 18 + 40 + 3) % 810) with
    | true => rfl
    | false =>
      refine absurd ?_ h
      unfold noisyBits
      rw [hc, Bool.xor_false]
  simp only [Bool.and_eq_true, beq_iff_eq] at this
  omega

theorem noisy_isolated : IsolatedErrors filmVideo (fun i => 7 * i + 18) (fun _ _ => true) noisyBits 0 := by
  intro i n j hi _ hj h
  obtain ⟨rfl, hn, rfl⟩ := noisy_hit i n j hj h
  constructor
  · show isActive loopMode n = true
    have h1 : n % 27 = 0 := by omega
    have h2 : n / 27 % 3 = 0 := by omega
    simp only [isActive, col, line, lineLen, loopMode, h1, h2]
    rfl
  · intro d hd0 hd
    have : (2 == 2 && (7 * 2 + 18 + 10 * (n + 4) + 3 + d) % 810 == (7 * 2 + 18 + 40 + 3) % 810) = false := by
      rw [beq_self_eq_true, Bool.true_and, beq_eq_false_iff_ne]
      omega
    show noisyBits 2 (7 * 2 + 18 + 10 * (n + 4) + 3 + d) = _
    unfold noisyBits
    rw [this, Bool.xor_false]

/-- The receiver of the example of C91, on these lanes. -/
def noisyRaw (t : Nat) : Receiver.In :=
  ⟨deserialised (noisyBits 0) (t / 2), deserialised (noisyBits 1) (t / 2),
    deserialised (noisyBits 2) (t / 2)⟩

local notation "noisyRun" => runOn noisyRaw

theorem noisy_lanes : LanesOn noisyBits noisyRun := by
  intro t ht
  have ht : (t % 2 == 1) = true := ht
  rw [beq_iff_eq] at ht
  show Receiver.In.mk (deserialised (noisyBits 0) (t / 2)) (deserialised (noisyBits 1) (t / 2))
    (deserialised (noisyBits 2) (t / 2)) = _
  rw [run_count, show (t + 0 % 2) / 2 = t / 2 by omega]

/-- All hypotheses of C114, and of C113 for the same film, in rgb mode. -/
example : RealMode loopMode ∧ Film loopMode filmVideo 0 0 sampleFilm ∧
    IsolatedErrors filmVideo (fun i => 7 * i + 18) (fun _ _ => true) noisyBits (0 + 0) ∧
    Hit filmVideo (fun i => 7 * i + 18) (fun _ _ => true) noisyBits 2 810 ∧
    LanesOn noisyBits noisyRun ∧
    (∀ i j, i < 3 → j < 3 → 7 * i + 18 ≤ 7 * j + 18 + 70) ∧
    4 * 4 = loopMode.vres * loopMode.hres ∧
    0 + 0 + 4 * frameLen loopMode + (7 * 0 + 18) / 10 + 25 ≤
      countIn (fun u => (noisyRun u).pixEdge) 0 939 ∧
    (∀ t, Dma.wordsOf 10 2 (noisyRun t).frame_size = 4) ∧ AliveIn noisyRun ∧
    LoadsNoneIn noisyRun 939 ∧
    let z := captureIn (rgb 4) 16 2 10 2 noisyRun
    SoftwareOwns (rgb 4) 16 2 10 2 z 939 ∧ Spec.Capture.AtRest (rgb 4) 16 2 10 2 z 939 ∧
    ((capture (rgb 4) 16 2 10 2 z 939).dma.slots 1).valid = true ∧
    (∀ T, (∀ u, 939 ≤ u → u < T → ¬ Done (rgb 4) 16 2 10 2 z u 1) →
      NoOverflow (rgb 4) 16 2 10 2 z 939 (T + 1)) :=
  ⟨loopMode_real, sample_film, noisy_isolated, ⟨3, by omega, by simp [noisyBits]⟩, noisy_lanes,
    fun i j _ _ => by omega, by decide, by rw [run_count]; decide,
    fun t => by simp [Dma.wordsOf, runOn], run_alive noisyRaw, run_none noisyRaw, run_owns noisyRaw (rgb 4),
    (run_loaded noisyRaw (rgb 4)).1, (run_loaded noisyRaw (rgb 4)).2,
    fun T _ => (C97_no_overflow 4 16 2 10 2 1 3 (by omega) (by omega) _
      (run_keeps noisyRaw (rgb 4) rfl) (run_lag noisyRaw (rgb 4)) (by decide)).2 939 (T + 1)⟩

/-- The hypotheses that differ in ycbcr422 mode. -/
example : loopMode.hres % 2 = 0 ∧ loopMode.hres + 10 ≤ loopMode.hscan ∧
    let z := captureIn (ycbcr422 4) 16 2 10 2 noisyRun
    SoftwareOwns (ycbcr422 4) 16 2 10 2 z 939 ∧ Spec.Capture.AtRest (ycbcr422 4) 16 2 10 2 z 939 ∧
    ((capture (ycbcr422 4) 16 2 10 2 z 939).dma.slots 1).valid = true ∧
    ∀ T, NoOverflow (ycbcr422 4) 16 2 10 2 z 939 (T + 1) :=
  ⟨by decide, by decide, run_owns noisyRaw (ycbcr422 4), (run_loaded noisyRaw (ycbcr422 4)).1, (run_loaded noisyRaw (ycbcr422 4)).2,
    fun T => (C97_no_overflow_ycbcr422 4 16 2 10 2 1 3 (by omega) (by omega) _
      (run_keeps noisyRaw (ycbcr422 4) rfl) (run_lag noisyRaw (ycbcr422 4)) (by decide)).2 939 (T + 1)⟩

end Verif.Props
