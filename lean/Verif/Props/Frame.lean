import Verif.Proofs.Frame

/-!
# Frame extraction (rgb mode) and overflow reporting: properties
-/

namespace Verif.Props

open Verif.Spec.Frame Verif.Spec.Stream

section Rgb

open Verif.Frame

/-- A frame starts at clock `t + 1`: vsync rises. -/
def FrameStarts (x : Nat → In) (t : Nat) : Prop :=
  (x t).vsync = false ∧ (x (t + 1)).vsync = true

/-- The active pixels of clocks `t, ..., t + n - 1`, as 24-bit colour values `0xRRGGBB`. -/
def activePixels (x : Nat → In) (t n : Nat) : List Nat :=
  pickIn (fun u => (x u).valid_i && (x u).de)
    (fun u => ((x u).r.toNat * 256 + (x u).g.toNat) * 256 + (x u).b.toNat) t n

/-- State of the extractor at clock `t`. -/
abbrev extractor (pf : Nat) (x : Nat → In) (t : Nat) : Rgb.State := trace (Rgb.step pf) Rgb.reset x t

/-- The words offered to the capture FIFO at clocks `t, ..., t + n - 1`, each as the list of its
32-bit pixels, most significant first. -/
def wordsOut (pf : Nat) (x : Nat → In) (t n : Nat) : List (List Nat) :=
  pickIn (fun u => (extractor pf x u).packer.cur_word_valid)
    (fun u => (msFirst (Packer.word pf (extractor pf x u).packer)).map BitVec.toNat) t n

/-- The start-of-frame bits of these words. -/
def sofOut (pf : Nat) (x : Nat → In) (t n : Nat) : List Bool :=
  pickIn (fun u => (extractor pf x u).packer.cur_word_valid)
    (fun u => (extractor pf x u).packer.sof) t n

theorem pickIn_map {α β : Type} (f : α → β) (p : Nat → Bool) (x : Nat → α) (t n : Nat) :
    (pickIn p x t n).map f = pickIn p (fun u => f (x u)) t n := by
  induction n with
  | zero => rfl
  | succ n ih =>
    simp only [pickIn, List.map_append, ih]
    cases p (t + n) <;> rfl

theorem groups_map {α β : Type} (f : α → β) (n : Nat) (l : List α) :
    (groups n l).map (List.map f) = groups n (l.map f) := by
  simp only [groups, List.map_map, List.length_map]
  apply List.map_congr_left
  intro k _
  simp only [Function.comp_apply, List.map_drop, List.map_take]

theorem encodedPixel_toNat (x : In) : (Rgb.encodedPixel x).toNat =
    (x.r.toNat * 256 + x.g.toNat) * 256 + x.b.toNat := by
  have hg := x.g.isLt
  have hb := x.b.isLt
  have e1 : ∀ (a : Nat) (b : Nat), b < 2 ^ 8 → a <<< 8 ||| b = a * 256 + b := by
    intro a b hb
    rw [← Nat.shiftLeft_add_eq_or_of_lt hb, Nat.shiftLeft_eq]
  have e2 : ∀ (a : Nat) (b : Nat), b < 2 ^ 16 → a <<< 16 ||| b = a * 65536 + b := by
    intro a b hb
    rw [← Nat.shiftLeft_add_eq_or_of_lt hb, Nat.shiftLeft_eq]
  unfold Rgb.encodedPixel
  simp only [BitVec.toNat_append]
  rw [e1 _ _ hb, e1 _ _ x.r.isLt]
  show (0 * 256 + _) <<< 16 ||| _ = _
  rw [e2 _ _ (by omega)]
  omega

theorem feed_frame {pf : Nat} {x : Nat → In} {t : Nat} (h : FrameStarts x t) :
    (Rgb.feed pf x (t + 1)).new_frame = true := by
  rw [Rgb.feed_new_frame, h.1, h.2]; rfl

theorem feed_noframe {pf : Nat} {x : Nat → In} {t : Nat} (h : ¬ FrameStarts x t) :
    (Rgb.feed pf x (t + 1)).new_frame = false := by
  rw [Rgb.feed_new_frame, Bool.eq_false_iff]
  intro hh
  simp only [Bool.and_eq_true, Bool.not_eq_true'] at hh
  exact h ⟨hh.2, hh.1⟩

theorem activePixels_eq (pf : Nat) (x : Nat → In) (t n : Nat) :
    activePixels x t n = (pickIn (fun u => (Rgb.feed pf x u).en) (fun u => (Rgb.feed pf x u).px) t
      n).map BitVec.toNat := by
  rw [pickIn_map]
  unfold activePixels
  congr 1
  funext u
  exact (encodedPixel_toNat _).symm

/-- Everything emitted after a frame start, including a stale word. -/
theorem words_general (pf : Nat) (hpf : 2 ≤ pf) (x : Nat → In) (t n : Nat)
    (hs : FrameStarts x t) (hno : ∀ u, u < n → ¬ FrameStarts x (t + 1 + u)) :
    (extractor pf x (t + 2 + n)).packer.pack_counter = (activePixels x (t + 2) n).length % pf ∧
    wordsOut pf x (t + 2) (n + 1) =
      (if (extractor pf x (t + 1)).packer.pack_counter + 1 = pf then
        [(msFirst (Packer.word pf (extractor pf x (t + 2)).packer)).map BitVec.toNat] else []) ++
      groups pf (activePixels x (t + 2) n) := by
  obtain ⟨h1, -, h3⟩ := Packer.frame_inv hpf (by show 0 < pf; omega) (t + 1) (feed_frame hs) n
    (fun u hu => by
      have := feed_noframe (pf := pf) (hno u hu)
      rwa [show t + 1 + u + 1 = t + 1 + 1 + u by omega] at this)
    (s0 := Packer.reset 0) (x := Rgb.feed pf x)
  have hp : ∀ u, trace (Packer.step pf) (Packer.reset 0) (Rgb.feed pf x) u =
      (extractor pf x u).packer := fun u => (Rgb.packer_trace pf x u).symm
  simp only [hp] at h1 h3
  refine ⟨?_, ?_⟩
  · rw [show t + 2 + n = t + 1 + 1 + n from rfl, h1, rest_length, activePixels_eq pf]
    simp
  · have := congrArg (List.map (List.map BitVec.toNat)) h3
    rw [pickIn_map, List.map_append, groups_map, ← activePixels_eq] at this
    show pickIn _ _ (t + 1 + 1) (n + 1) = _
    rw [this]
    congr 1
    split <;> rfl

/-- C13, rgb mode: the words offered between a frame start and the next are the active pixels of
the frame in order, `pf` per word, the first in the most significant position. -/
def C13_statement : Prop :=
  ∀ (pf : Nat) (x : Nat → In) (t n : Nat), 2 ≤ pf → FrameStarts x t →
    (∀ u, u < n → ¬ FrameStarts x (t + 1 + u)) →
    wordsOut pf x (t + 2) (n + 1) = groups pf (activePixels x (t + 2) n)

/-- Witness: frames of three pixels, two pixels per word. -/
def threePixels (t : Nat) : In :=
  { valid_i := true, vsync := t % 8 == 1, de := 3 ≤ t % 8 && t % 8 < 6, r := 0, g := 0
    b := BitVec.ofNat 8 t }

/-- **C13** is false of the code: if the number of pixels of a frame is one less than a multiple
of `pf`, the incomplete word is emitted as the first word of the next frame. -/
theorem C13_violated : ¬ C13_statement := by
  intro h
  have := h 2 threePixels 8 5 (by decide) (by unfold FrameStarts; decide)
    (by unfold FrameStarts; decide)
  exact absurd this (by decide)

/-- **C13**, the part that holds: the claim for every frame that follows a frame whose number of
pixels is not one less than a multiple of `pf` (in particular if it is a multiple of `pf`, as for
all common resolutions). -/
theorem C13_words_partial (pf : Nat) (hpf : 2 ≤ pf) (x : Nat → In) (t m n : Nat)
    (hs0 : FrameStarts x t) (hno0 : ∀ u, u < m → ¬ FrameStarts x (t + 1 + u))
    (hs : FrameStarts x (t + 1 + m))
    (hno : ∀ u, u < n → ¬ FrameStarts x (t + 1 + m + 1 + u))
    (hlen : (activePixels x (t + 2) m).length % pf ≠ pf - 1) :
    wordsOut pf x (t + 1 + m + 2) (n + 1) = groups pf (activePixels x (t + 1 + m + 2) n) := by
  obtain ⟨h1, -⟩ := words_general pf hpf x t m hs0 hno0
  obtain ⟨-, h2⟩ := words_general pf hpf x (t + 1 + m) n hs hno
  rw [h2, if_neg, List.nil_append]
  rw [show t + 1 + m + 1 = t + 2 + m by omega, h1]
  omega

/-- **C13** After the stale word, if there is one, the words are right in every case. -/
theorem C13_words_after_stale (pf : Nat) (hpf : 2 ≤ pf) (x : Nat → In) (t m n : Nat)
    (hs0 : FrameStarts x t) (hno0 : ∀ u, u < m → ¬ FrameStarts x (t + 1 + u))
    (hs : FrameStarts x (t + 1 + m))
    (hno : ∀ u, u < n → ¬ FrameStarts x (t + 1 + m + 1 + u))
    (hlen : (activePixels x (t + 2) m).length % pf = pf - 1) :
    ∃ stale, wordsOut pf x (t + 1 + m + 2) (n + 1) =
      stale :: groups pf (activePixels x (t + 1 + m + 2) n) := by
  obtain ⟨h1, -⟩ := words_general pf hpf x t m hs0 hno0
  obtain ⟨-, h2⟩ := words_general pf hpf x (t + 1 + m) n hs hno
  rw [if_pos] at h2
  · exact ⟨_, h2⟩
  · rw [show t + 1 + m + 1 = t + 2 + m by omega, h1]
    omega

/-- Frames of four pixels, two per word. -/
def fourPixels (t : Nat) : In :=
  { valid_i := true, vsync := t % 10 == 1, de := 3 ≤ t % 10 && t % 10 < 7, r := 1, g := 2
    b := BitVec.ofNat 8 t }

example : FrameStarts fourPixels 0 ∧ (∀ u, u < 9 → ¬ FrameStarts fourPixels (1 + u)) ∧
    FrameStarts fourPixels 10 ∧ (activePixels fourPixels 2 9).length % 2 ≠ 2 - 1 ∧
    wordsOut 2 fourPixels 12 10 =
      [[0x01020d, 0x01020e], [0x01020f, 0x010210]] := by
  unfold FrameStarts; decide

/-- **C14** Of the words offered between a frame start and the next exactly the first carries the
start-of-frame mark. -/
theorem C14_sof (pf : Nat) (x : Nat → In) (t n : Nat)
    (hs : FrameStarts x t) (hno : ∀ u, u < n → ¬ FrameStarts x (t + 1 + u)) :
    firstOnly (sofOut pf x (t + 2) (n + 1)) := by
  have h := Packer.firstOnly_sof (t + 1) (feed_frame hs) n
    (fun u hu => by
      have := feed_noframe (pf := pf) (hno u hu)
      rwa [show t + 1 + u + 1 = t + 1 + 1 + u by omega] at this)
    (s0 := Packer.reset 0) (pf := pf) (x := Rgb.feed pf x)
  have hp : ∀ u, trace (Packer.step pf) (Packer.reset 0) (Rgb.feed pf x) u =
      (extractor pf x u).packer := fun u => (Rgb.packer_trace pf x u).symm
  simp only [hp] at h
  exact h

example : sofOut 2 fourPixels 12 10 = [true, false] := by decide

/-- **C67** A memory port of one pixel per word is not supported: `Signal(max=1)` has one bit, so
only every other pixel of a frame is written (after a stale word that is emitted if the extractor
was in phase 0). -/
theorem C67_half_the_pixels (x : Nat → In) (t n : Nat)
    (hs : FrameStarts x t) (hno : ∀ u, u < n → ¬ FrameStarts x (t + 1 + u)) :
    ∃ stale, stale.length ≤ 1 ∧ wordsOut 1 x (t + 2) (n + 1) =
      stale ++ (everyOther (activePixels x (t + 2) n)).map fun p => [p] := by
  obtain ⟨-, h3⟩ := Packer.single_inv (t + 1) (feed_frame (pf := 1) hs) n
    (fun u hu => by
      have := feed_noframe (pf := 1) (hno u hu)
      rwa [show t + 1 + u + 1 = t + 1 + 1 + u by omega] at this)
    (s0 := Packer.reset 0) (x := Rgb.feed 1 x)
  have hp : ∀ u, trace (Packer.step 1) (Packer.reset 0) (Rgb.feed 1 x) u =
      (extractor 1 x u).packer := fun u => (Rgb.packer_trace 1 x u).symm
  simp only [hp] at h3
  have hmap : ∀ l : List (BitVec 32), (everyOther l).map BitVec.toNat =
      everyOther (l.map BitVec.toNat) := by
    intro l
    induction l using everyOther.induct with
    | case1 => rfl
    | case2 => rfl
    | case3 a b l ih => simp [everyOther, ih]
  have := congrArg (List.map (List.map BitVec.toNat)) h3
  rw [pickIn_map, List.map_append, List.map_map] at this
  refine ⟨List.map (List.map BitVec.toNat)
    (if (extractor 1 x (t + 1)).packer.pack_counter = 0 then
      [Packer.word 1 (extractor 1 x (t + 1 + 1)).packer] else []), ?_, ?_⟩
  rotate_left
  · show pickIn _ _ (t + 1 + 1) (n + 1) = _
    have e : (fun u => (msFirst (Packer.word 1 (extractor 1 x u).packer)).map BitVec.toNat) =
        fun u => (Packer.word 1 (extractor 1 x u).packer).map BitVec.toNat := rfl
    rw [e, this, activePixels_eq 1, ← hmap, List.map_map]
    rfl
  · split <;> simp

/-- C67: every active pixel is captured, for every pack factor. -/
def C67_statement : Prop :=
  ∀ (pf : Nat) (x : Nat → In) (t n : Nat), 0 < pf → FrameStarts x t →
    (∀ u, u < n → ¬ FrameStarts x (t + 1 + u)) →
    (activePixels x (t + 2) n).length % pf = 0 →
    ∀ p ∈ activePixels x (t + 2) n, ∃ w ∈ wordsOut pf x (t + 2) (n + 1), p ∈ w

/-- **C67** is false of the code for one pixel per word. -/
theorem C67_violated : ¬ C67_statement := by
  intro h
  have := h 1 fourPixels 10 9 (by decide) (by unfold FrameStarts; decide)
    (by unfold FrameStarts; decide) (by decide) 0x01020e (by decide)
  exact absurd this (by decide)

theorem mem_groups {n : Nat} (hn : 0 < n) (l : List Nat) (hl : l.length % n = 0) (p : Nat)
    (hp : p ∈ l) : ∃ w ∈ groups n l, p ∈ w := by
  obtain ⟨i, hi, rfl⟩ := List.mem_iff_getElem.1 hp
  have hd := Nat.div_add_mod l.length n
  have hi2 := Nat.div_add_mod i n
  have hm := Nat.mod_lt i hn
  refine ⟨(l.drop (i / n * n)).take n, ?_, ?_⟩
  · unfold groups
    rw [List.mem_map]
    refine ⟨i / n, List.mem_range.2 ?_, rfl⟩
    rw [hl, Nat.add_zero] at hd
    rw [← hd] at hi
    exact Nat.div_lt_of_lt_mul hi
  · rw [List.mem_iff_getElem]
    refine ⟨i % n, ?_, ?_⟩
    · rw [List.length_take, List.length_drop]
      rw [Nat.mul_comm] at hi2
      omega
    · rw [List.getElem_take, List.getElem_drop]
      congr 1
      rw [Nat.mul_comm]; exact hi2

/-- **C67**, the part that holds: with at least two pixels per word every active pixel is
captured. -/
theorem C67_all_captured_partial (pf : Nat) (hpf : 2 ≤ pf) (x : Nat → In) (t n : Nat)
    (hs : FrameStarts x t) (hno : ∀ u, u < n → ¬ FrameStarts x (t + 1 + u))
    (hl : (activePixels x (t + 2) n).length % pf = 0) :
    ∀ p ∈ activePixels x (t + 2) n, ∃ w ∈ wordsOut pf x (t + 2) (n + 1), p ∈ w := by
  intro p hp
  obtain ⟨w, hw, hpw⟩ := mem_groups (show 0 < pf by omega) _ hl p hp
  refine ⟨w, ?_, hpw⟩
  rw [(words_general pf hpf x t n hs hno).2]
  exact List.mem_append_right _ hw

end Rgb

section Overflow

open Verif.Frame.Overflow

/-- Overflow logic at instant `t`. -/
abbrev overflow (x : Nat → In) (t : Nat) : State := trace step reset x t

/-- **C15** The pixel domain flag is set exactly if a word was lost and no reset pulse has arrived
in the pixel clock domain since. -/
theorem C15_flag (x : Nat → In) (t : Nat) :
    (overflow x t).pix_overflow = true ↔
      ∃ u, u < t ∧ (x u).pixEdge = true ∧ (x u).lost = true ∧
        ∀ v, u < v → v < t → (x v).pixEdge = true → (overflow x v).rst.o = false := by
  induction t with
  | zero =>
    constructor
    · intro h; exact Bool.noConfusion (show false = true from h)
    · rintro ⟨u, hu, -⟩; omega
  | succ t ih =>
    have hs : (overflow x (t + 1)).pix_overflow = if (x t).pixEdge then
        (if (x t).lost then true else if (overflow x t).rst.o then false
          else (overflow x t).pix_overflow) else (overflow x t).pix_overflow := rfl
    rw [hs]
    constructor
    · intro h
      by_cases hp : (x t).pixEdge = true
      · rw [if_pos hp] at h
        by_cases hl : (x t).lost = true
        · exact ⟨t, by omega, hp, hl, fun v _ _ => by omega⟩
        · rw [if_neg hl] at h
          by_cases ho : (overflow x t).rst.o = true
          · rw [if_pos ho] at h; exact absurd h (by decide)
          · rw [if_neg ho] at h
            obtain ⟨u, hu, h1, h2, h3⟩ := ih.1 h
            refine ⟨u, by omega, h1, h2, fun v hv hvt hpv => ?_⟩
            by_cases hvt' : v = t
            · subst hvt'; exact Bool.eq_false_iff.2 ho
            · exact h3 v hv (by omega) hpv
      · rw [if_neg hp] at h
        obtain ⟨u, hu, h1, h2, h3⟩ := ih.1 h
        refine ⟨u, by omega, h1, h2, fun v hv hvt hpv => ?_⟩
        by_cases hvt' : v = t
        · subst hvt'; exact absurd hpv hp
        · exact h3 v hv (by omega) hpv
    · rintro ⟨u, hu, h1, h2, h3⟩
      by_cases hut : u = t
      · subst hut; rw [if_pos h1, if_pos h2]
      · have hold := ih.2 ⟨u, by omega, h1, h2, fun v hv hvt hpv => h3 v hv (by omega) hpv⟩
        by_cases hp : (x t).pixEdge = true
        · rw [if_pos hp, h3 t (by omega) (by omega) hp, hold]
          simp
        · rw [if_neg hp]; exact hold

/-- **C15** Without a lost word software never reads an overflow. -/
theorem C15_no_false_report (x : Nat → In) (t : Nat)
    (h : ∀ u, u < t → ¬ ((x u).pixEdge = true ∧ (x u).lost = true)) :
    csr (overflow x t) = false := by
  have key : ∀ t, (∀ u, u < t → ¬ ((x u).pixEdge = true ∧ (x u).lost = true)) →
      (overflow x t).pix_overflow = false ∧ (overflow x t).s0 = false ∧
        (overflow x t).sys_overflow = false := by
    intro t
    induction t with
    | zero => intro _; exact ⟨rfl, rfl, rfl⟩
    | succ t ih =>
      intro h
      obtain ⟨-, h2, h3⟩ := ih fun u hu => h u (by omega)
      have h1 : ∀ n, n ≤ t + 1 → (overflow x n).pix_overflow = false := by
        intro n hn
        rw [Bool.eq_false_iff]
        intro hf
        obtain ⟨u, hu, hp, hl, -⟩ := (C15_flag x n).1 hf
        exact h u (by omega) ⟨hp, hl⟩
      refine ⟨h1 (t + 1) (Nat.le_refl _), ?_, ?_⟩
      · show (if (x t).sysEdge then (overflow x t).pix_overflow else (overflow x t).s0) = false
        rw [h1 t (by omega), h2]; simp
      · show (if (x t).sysEdge then (overflow x t).s0 else (overflow x t).sys_overflow) = false
        rw [h2, h3]; simp
  simp [csr, (key t h).2.2]

theorem count_pos_split (p : Nat → Bool) (t : Nat) : ∀ n k, k + 1 ≤ countIn p t n →
    ∃ m, m < n ∧ p (t + m) = true ∧ k ≤ countIn p t m := by
  intro n
  induction n with
  | zero => intro k h; simp [countIn] at h
  | succ n ih =>
    intro k h
    rw [countIn] at h
    by_cases hp : p (t + n) = true
    · rw [if_pos hp] at h
      exact ⟨n, by omega, hp, by omega⟩
    · rw [if_neg hp] at h
      obtain ⟨m, hm, h1, h2⟩ := ih k (by omega)
      exact ⟨m, by omega, h1, h2⟩

/-- From a quiet state, without resets, a loss is reported after two system clock edges. -/
theorem reported (s0 : State) (x : Nat → In) (t u n : Nat) (hq : Quiet (trace step s0 x t))
    (hre : ∀ v, t ≤ v → v < u + 1 + n → ((x v).sysEdge && (x v).re) = false) (htu : t ≤ u)
    (hp : (x u).pixEdge = true) (hl : (x u).lost = true)
    (hsys : 2 ≤ countIn (fun v => (x v).sysEdge) (u + 1) n) :
    csr (trace step s0 x (u + 1 + n)) = true := by
  have hquiet : ∀ k, t + k ≤ u + 1 + n → Quiet (trace step s0 x (t + k)) := by
    intro k
    induction k with
    | zero => intro _; exact hq
    | succ k ih =>
      intro hk
      exact quiet_step _ _ (ih (by omega)) (hre (t + k) (by omega) (by omega))
  have hqv : ∀ v, t ≤ v → v ≤ u + 1 + n → Quiet (trace step s0 x v) := by
    intro v h1 h2
    have := hquiet (v - t) (by omega)
    rwa [show t + (v - t) = v by omega] at this
  have hflag : ∀ k, k ≤ n → (trace step s0 x (u + 1 + k)).pix_overflow = true := by
    intro k
    induction k with
    | zero =>
      intro _
      show (if (x u).pixEdge then (if (x u).lost then true else _) else _) = true
      rw [hp, hl]; rfl
    | succ k ih =>
      intro hk
      show (if (x (u + 1 + k)).pixEdge then (if (x (u + 1 + k)).lost then true
        else if (trace step s0 x (u + 1 + k)).rst.o then false
        else (trace step s0 x (u + 1 + k)).pix_overflow)
        else (trace step s0 x (u + 1 + k)).pix_overflow) = true
      rw [quiet_o _ (hqv _ (by omega) (by omega)), ih (by omega)]
      simp
  have hs0 : ∀ k, k ≤ n → 1 ≤ countIn (fun v => (x v).sysEdge) (u + 1) k →
      (trace step s0 x (u + 1 + k)).s0 = true := by
    intro k
    induction k with
    | zero => intro _ h; simp [countIn] at h
    | succ k ih =>
      intro hk h
      rw [countIn] at h
      show (if (x (u + 1 + k)).sysEdge then (trace step s0 x (u + 1 + k)).pix_overflow
        else (trace step s0 x (u + 1 + k)).s0) = true
      by_cases he : (x (u + 1 + k)).sysEdge = true
      · rw [if_pos he]; exact hflag k (by omega)
      · rw [if_neg he]; rw [if_neg he] at h; exact ih (by omega) (by omega)
  have hs1 : ∀ k, k ≤ n → 2 ≤ countIn (fun v => (x v).sysEdge) (u + 1) k →
      (trace step s0 x (u + 1 + k)).sys_overflow = true := by
    intro k
    induction k with
    | zero => intro _ h; simp [countIn] at h
    | succ k ih =>
      intro hk h
      rw [countIn] at h
      show (if (x (u + 1 + k)).sysEdge then (trace step s0 x (u + 1 + k)).s0
        else (trace step s0 x (u + 1 + k)).sys_overflow) = true
      by_cases he : (x (u + 1 + k)).sysEdge = true
      · rw [if_pos he]; rw [if_pos he] at h; exact hs0 k (by omega) (by omega)
      · rw [if_neg he]; rw [if_neg he] at h; exact ih (by omega) (by omega)
  obtain ⟨-, -, -, -, hm⟩ := hqv (u + 1 + n) (by omega) (Nat.le_refl _)
  simp [csr, hs1 n (Nat.le_refl _) hsys, hm]

/-- **C15** Before software has used its reset, every loss is visible to software after two system
clock edges, for good. -/
theorem C15_reported (x : Nat → In) (u n : Nat)
    (hre : ∀ v, v < u + 1 + n → ((x v).sysEdge && (x v).re) = false)
    (hp : (x u).pixEdge = true) (hl : (x u).lost = true)
    (hsys : 2 ≤ countIn (fun v => (x v).sysEdge) (u + 1) n) :
    csr (overflow x (u + 1 + n)) = true :=
  reported reset x 0 u n ⟨false, false, rfl, rfl, rfl⟩ (fun v _ h => hre v h) (Nat.zero_le _) hp hl
    hsys

/-- C66: a loss after the last reset written by software is reported, once both clocks have run
for long enough. -/
def C66_statement : Prop :=
  ∀ (x : Nat → In) (r u : Nat), r < u →
    ((x r).sysEdge && (x r).re) = true →
    (∀ v, r < v → ((x v).sysEdge && (x v).re) = false) →
    (x u).pixEdge = true → (x u).lost = true →
    (∀ n, ∃ m, n ≤ m ∧ (x m).pixEdge = true) → (∀ n, ∃ m, n ≤ m ∧ (x m).sysEdge = true) →
    ∃ t, u < t ∧ csr (overflow x t) = true

/-- The schedule of the witness: both clocks have an edge at every instant; software resets at
instant 0 and a word is lost at instant 1, before the reset has crossed to the pixel domain. -/
def raceIn (t : Nat) : In := { pixEdge := true, lost := t == 1, sysEdge := true, re := t == 0 }

/-- Second witness: the system clock is eight times faster than the pixel clock, software resets
at instants 1 and 4, and a word is lost at 23. -/
def twiceIn (t : Nat) : In :=
  { pixEdge := t % 8 == 7, lost := t == 23, sysEdge := true, re := t == 1 || t == 4 }

/-- A state without loss, reset or report that is a fixed point stays. -/
theorem stays (x : Nat → In) (t : Nat) (s : State) (h0 : overflow x t = s)
    (h : ∀ v, t ≤ v → step s (x v) = s) (k : Nat) : overflow x (t + k) = s := by
  induction k with
  | zero => exact h0
  | succ k ih =>
    show step (overflow x (t + k)) (x (t + k)) = s
    rw [ih]; exact h _ (by omega)

/-- **C66** is false of the code: a word lost between the reset and its arrival in the pixel clock
domain is forgotten. -/
theorem C66_violated : ¬ C66_statement := by
  intro h
  obtain ⟨t, ht, hc⟩ := h raceIn 0 1 (by decide) (by decide)
    (fun v hv => by
      have : (v == 0) = false := by rw [beq_eq_false_iff_ne]; omega
      simp [raceIn, this])
    (by decide) (by decide) (fun n => ⟨n, Nat.le_refl _, rfl⟩) (fun n => ⟨n, Nat.le_refl _, rfl⟩)
  have h8 : ∀ t, t < 8 → csr (overflow raceIn t) = false := by decide
  by_cases hlt : t < 8
  · rw [h8 t hlt] at hc; exact absurd hc (by decide)
  · have hst := stays raceIn 8 (overflow raceIn 8) rfl (fun v hv => by
      have e1 : (v == 0) = false := by rw [beq_eq_false_iff_ne]; omega
      have e2 : (v == 1) = false := by rw [beq_eq_false_iff_ne]; omega
      unfold raceIn
      rw [e1, e2]
      decide) (t - 8)
    rw [show 8 + (t - 8) = t by omega] at hst
    rw [hst] at hc
    exact absurd hc (by decide)

/-- **C66** A second defect of the reset: two resets in quick succession cancel out before they
reach the pixel clock domain, no acknowledge comes back, and the mask hides every later loss. -/
theorem C66_double_reset : ∀ t, csr (overflow twiceIn t) = false := by
  intro t
  have h26 : ∀ t, t < 26 → csr (overflow twiceIn t) = false := by decide +kernel
  by_cases hlt : t < 26
  · exact h26 t hlt
  · have hst := stays twiceIn 26 (overflow twiceIn 26) rfl (fun v hv => by
      have e1 : (v == 1) = false := by rw [beq_eq_false_iff_ne]; omega
      have e2 : (v == 4) = false := by rw [beq_eq_false_iff_ne]; omega
      have e3 : (v == 23) = false := by rw [beq_eq_false_iff_ne]; omega
      unfold twiceIn
      rw [e1, e2, e3]
      generalize (v % 8 == 7) = a
      revert a
      decide +kernel) (t - 26)
    rw [show 26 + (t - 26) = t by omega] at hst
    rw [hst]
    decide +kernel

/-- **C66**, the part that holds.  Software resets once, in a state in which no reset is under way;
after three pixel clock edges and then three system clock edges the handshake is complete, and
every later loss is reported. -/
theorem C66_reported_partial (x : Nat → In) (r a b u n : Nat)
    (hq : Quiet (overflow x r))
    (hr1 : (x r).sysEdge = true) (hr2 : (x r).re = true)
    (hre : ∀ v, r < v → v < u + 1 + n → ((x v).sysEdge && (x v).re) = false)
    (hpix : 3 ≤ countIn (fun v => (x v).pixEdge) (r + 1) a)
    (hsys : 3 ≤ countIn (fun v => (x v).sysEdge) (r + 1 + a) b) (hu : r + 1 + a + b ≤ u)
    (hp : (x u).pixEdge = true) (hl : (x u).lost = true)
    (hsys2 : 2 ≤ countIn (fun v => (x v).sysEdge) (u + 1) n) :
    csr (overflow x (u + 1 + n)) = true := by
  obtain ⟨bb, aa, hst⟩ := stage_start _ (x r) hq hr1 hr2
  obtain ⟨c, d, hc, hd, hcd, hs, h1, h2⟩ := stage_run reset x (r + 1) bb aa hst (a + b)
    (fun v hv => hre _ (by omega) (by omega))
  have h2' := h2 a b rfl hpix
  have hc3 : c = 3 := by
    rcases Nat.lt_or_ge c 3 with hlt | hge
    · have := hcd hlt; omega
    · omega
  obtain rfl : d = 3 := by omega
  subst hc3
  refine reported reset x (r + 1 + (a + b)) u n (stage_quiet bb aa _ hs) (fun v h3 h4 => ?_) (by omega)
    hp hl hsys2
  exact hre v (by omega) h4

/-- Both clocks at every instant, reset at 3, loss at 20: reported at 23. -/
example : let x : Nat → In := fun t => ⟨true, t == 20, true, t == 3⟩
    Quiet (overflow x 3) ∧ 3 ≤ countIn (fun v => (x v).pixEdge) 4 3 ∧
    3 ≤ countIn (fun v => (x v).sysEdge) 7 3 ∧
    2 ≤ countIn (fun v => (x v).sysEdge) 21 2 ∧ csr (overflow x 23) = true ∧
    csr (overflow x 22) = false := by
  refine ⟨⟨false, false, by decide, by decide, by decide⟩, ?_⟩
  decide

/-- What has been cleared when a reset has come so far. -/
def Cleared (c d : Nat) (s : State) : Prop :=
  (c = 3 → s.pix_overflow = false) ∧ (1 ≤ d → s.s0 = false) ∧ (2 ≤ d → s.sys_overflow = false)

theorem cleared_step (b a : Bool) (c d : Nat) (hc : c ≤ 3) (hd : d ≤ 3) (hcd : c < 3 → d = 0)
    (s : State) (x : In) (h : Stage b a c d s) (hcl : Cleared c d s)
    (hlost : (x.pixEdge && x.lost) = false) :
    Cleared (if x.pixEdge then min 3 (c + 1) else c)
      (if c = 3 then (if x.sysEdge then min 3 (d + 1) else d) else 0) (step s x) := by
  obtain ⟨h1, -, -⟩ := h
  obtain ⟨k1, k2, k3⟩ := hcl
  have hps : (step s x).pix_overflow = if x.pixEdge then
      (if x.lost then true else if s.rst.o then false else s.pix_overflow)
      else s.pix_overflow := rfl
  have hs0 : (step s x).s0 = if x.sysEdge then s.pix_overflow else s.s0 := rfl
  have hs1 : (step s x).sys_overflow = if x.sysEdge then s.s0 else s.sys_overflow := rfl
  refine ⟨fun h => ?_, fun h => ?_, fun h => ?_⟩
  · rw [hps]
    by_cases hp : x.pixEdge = true
    · rw [if_pos hp] at h ⊢
      have hl : x.lost = false := by rw [hp] at hlost; exact hlost
      rw [hl, if_neg (by decide)]
      by_cases hc3 : c = 3
      · rw [k1 hc3]; simp
      · obtain rfl : c = 2 := by omega
        have : s.rst.o = true := by rw [h1]; cases b <;> rfl
        rw [this]; rfl
    · rw [if_neg hp] at h ⊢; exact k1 h
  · rw [hs0]
    by_cases hc3 : c = 3
    · rw [if_pos hc3] at h
      by_cases hp : x.sysEdge = true
      · rw [if_pos hp]; exact k1 hc3
      · rw [if_neg hp] at h ⊢; exact k2 h
    · rw [if_neg hc3] at h; omega
  · rw [hs1]
    by_cases hc3 : c = 3
    · rw [if_pos hc3] at h
      by_cases hp : x.sysEdge = true
      · rw [if_pos hp] at h ⊢; exact k2 (by omega)
      · rw [if_neg hp] at h ⊢; exact k3 h
    · rw [if_neg hc3] at h; omega

/-- **C68** After software has reset the overflow flag (in a state in which no reset is under way)
it reads 0 from the next clock on, at every instant, as long as no further word is lost. -/
theorem C68_reset_clears (x : Nat → In) (r n : Nat) (hq : Quiet (overflow x r))
    (hr1 : (x r).sysEdge = true) (hr2 : (x r).re = true)
    (hre : ∀ v, r < v → v < r + 1 + n → ((x v).sysEdge && (x v).re) = false)
    (hlost : ∀ v, r < v → v < r + 1 + n → ((x v).pixEdge && (x v).lost) = false) :
    csr (overflow x (r + 1 + n)) = false := by
  obtain ⟨b, a, hst⟩ := stage_start _ (x r) hq hr1 hr2
  have key : ∀ k, k ≤ n → ∃ c d, c ≤ 3 ∧ d ≤ 3 ∧ (c < 3 → d = 0) ∧
      Stage b a c d (overflow x (r + 1 + k)) ∧ Cleared c d (overflow x (r + 1 + k)) := by
    intro k
    induction k with
    | zero =>
      intro _
      exact ⟨0, 0, by omega, by omega, fun _ => rfl, hst, by omega, by omega, by omega⟩
    | succ k ih =>
      intro hk
      obtain ⟨c, d, hc, hd, hcd, h1, h2⟩ := ih (by omega)
      refine ⟨_, _, ?_, ?_, ?_, stage_step b a c d hc hd hcd _ (x (r + 1 + k)) h1
        (hre _ (by omega) (by omega)), cleared_step b a c d hc hd hcd _ _ h1 h2
        (hlost _ (by omega) (by omega))⟩
      · split <;> omega
      · split
        · split <;> omega
        · omega
      · intro h
        have : c ≠ 3 := by
          intro e; subst e; split at h <;> omega
        rw [if_neg this]
  obtain ⟨c, d, hc, hd, hcd, ⟨-, -, h1⟩, -, -, h2⟩ := key n (Nat.le_refl _)
  unfold csr
  rw [h1]
  by_cases h3 : 3 ≤ d
  · rw [h2 (by omega)]; rfl
  · simp [h3]

/-- A loss at 2 is reported at 5; software resets at 6 and reads 0 from 7 on. -/
example : let x : Nat → In := fun t => ⟨true, t == 2, true, t == 6⟩
    Quiet (overflow x 6) ∧ csr (overflow x 5) = true ∧ csr (overflow x 6) = true ∧
    (overflow x 7).sys_overflow = true ∧ ∀ k, k < 20 → csr (overflow x (7 + k)) = false := by
  refine ⟨⟨false, false, by decide, by decide, by decide⟩, ?_⟩
  decide

end Overflow
end Verif.Props
