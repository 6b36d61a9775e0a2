import Verif.Proofs.Frame422
import Verif.Props.Frame

/-!
# Frame extraction in ycbcr422 mode: properties
-/

namespace Verif.Props

open Verif.Spec.Frame Verif.Frame

/-- State of the extractor at clock `t`, in ycbcr422 mode. -/
abbrev extractor422 (pf : Nat) (x : Nat → In) (t : Nat) : Ycbcr422.State :=
  trace (Ycbcr422.step pf) Ycbcr422.reset x t

/-- The words offered to the capture FIFO at clocks `t, ..., t + n - 1`, each as the list of its
16-bit pixels, most significant first. -/
def wordsOut422 (pf : Nat) (x : Nat → In) (t n : Nat) : List (List Nat) :=
  pickIn (fun u => (extractor422 pf x u).packer.cur_word_valid)
    (fun u => (msFirst (Packer.word pf (extractor422 pf x u).packer)).map BitVec.toNat) t n

/-- The start-of-frame bits of these words. -/
def sofOut422 (pf : Nat) (x : Nat → In) (t n : Nat) : List Bool :=
  pickIn (fun u => (extractor422 pf x u).packer.cur_word_valid)
    (fun u => (extractor422 pf x u).packer.sof) t n

/-- The 4:2:2 values of the active pixels of clocks `t, ..., t + n - 1`. -/
def activePixels422 (x : Nat → In) (t n : Nat) : List Nat :=
  pickIn (fun u => (x u).valid_i && (x u).de) (pixel422 x) t n

/-- A frame starts at `t + 1`, with no active pixel at that clock and the 11 clocks before. -/
def CleanStart (x : Nat → In) (t : Nat) : Prop :=
  FrameStarts x t ∧ ∀ u, u < t + 2 → t + 2 ≤ u + 12 → ((x u).valid_i && (x u).de) = false

theorem blanking_from {n : Nat} {x : Nat → In} (hb : BlankingAtLeast n x) (c : Nat) :
    BlankingFrom c n x := fun u _ => hb u

theorem blanking_mono {n c d : Nat} {x : Nat → In} (hb : BlankingFrom c n x) (h : c ≤ d) :
    BlankingFrom d n x := fun u hu => hb u (Nat.le_trans h hu)

theorem feed422 (pf : Nat) (x : Nat → In) (t n : Nat) (hb : BlankingFrom (t + 2) 11 x)
    (hq : CleanStart x t) :
    (pickIn (fun u => (Ycbcr422.feed pf x u).en) (fun u => (Ycbcr422.feed pf x u).px) (t + 2)
      (11 + n)).map BitVec.toNat = activePixels422 x (t + 2) n := by
  rw [pickIn_add, pickIn_none, List.nil_append, pickIn_map]
  · apply pickIn_shift
    · intro j _
      rw [Ycbcr422.feed_en, if_pos (by omega), show t + 2 + 11 + j - 11 = t + 2 + j by omega]
    · intro j _ h
      simp only [Bool.and_eq_true] at h
      have := Ycbcr422.encoded_at pf x (t + 2 + j) (blanking_mono hb (by omega)) h.2
      rw [show t + 2 + j + 11 = t + 2 + 11 + j by omega] at this
      exact this
  · intro j hj
    rw [Ycbcr422.feed_en]
    by_cases h : 11 ≤ t + 2 + j
    · rw [if_pos h]; exact hq.2 _ (by omega) (by omega)
    · rw [if_neg h]

theorem feed422_start {pf : Nat} {x : Nat → In} {t : Nat} (h : FrameStarts x t) :
    (Ycbcr422.feed pf x (t + 1)).new_frame = true := by
  rw [Ycbcr422.feed_new_frame, h.1, h.2]; rfl

theorem feed422_nostart {pf : Nat} {x : Nat → In} {t : Nat} (h : ¬ FrameStarts x t) :
    (Ycbcr422.feed pf x (t + 1)).new_frame = false := by
  rw [Ycbcr422.feed_new_frame, Bool.eq_false_iff]
  intro hh
  simp only [Bool.and_eq_true, Bool.not_eq_true'] at hh
  exact h ⟨hh.2, hh.1⟩

/-- Everything emitted after a clean frame start, including a stale word. -/
theorem words422_general (pf : Nat) (hpf : 2 ≤ pf) (x : Nat → In)
    (t n : Nat) (hb : BlankingFrom (t + 2) 11 x) (hs : CleanStart x t) (hno : ∀ u, u < 11 + n → ¬ FrameStarts x (t + 1 + u)) :
    (extractor422 pf x (t + 2 + (11 + n))).packer.pack_counter =
      (activePixels422 x (t + 2) n).length % pf ∧
    wordsOut422 pf x (t + 2) (11 + n + 1) =
      (if (extractor422 pf x (t + 1)).packer.pack_counter + 1 = pf then
        [(msFirst (Packer.word pf (extractor422 pf x (t + 2)).packer)).map BitVec.toNat] else []) ++
      groups pf (activePixels422 x (t + 2) n) := by
  obtain ⟨h1, -, h3⟩ := Packer.frame_inv hpf (by show 0 < pf; omega) (t + 1) (feed422_start hs.1)
    (11 + n)
    (fun u hu => by
      have := feed422_nostart (pf := pf) (hno u hu)
      rwa [show t + 1 + u + 1 = t + 1 + 1 + u by omega] at this)
    (s0 := Packer.reset 0) (x := Ycbcr422.feed pf x)
  have hp : ∀ u, trace (Packer.step pf) (Packer.reset 0) (Ycbcr422.feed pf x) u =
      (extractor422 pf x u).packer := fun u => (Ycbcr422.packer_trace pf x u).symm
  simp only [hp] at h1 h3
  have hf := feed422 pf x t n hb hs
  refine ⟨?_, ?_⟩
  · rw [show t + 2 + (11 + n) = t + 1 + 1 + (11 + n) from rfl, h1, rest_length, ← hf]
    simp
  · have := congrArg (List.map (List.map BitVec.toNat)) h3
    rw [pickIn_map, List.map_append, groups_map] at this
    show pickIn _ _ (t + 1 + 1) (11 + n + 1) = _
    rw [this, ← hf]
    congr 1
    split <;> rfl

/-- C13, ycbcr422 mode: for a source with at least 11 clocks of blanking after each line and before
each frame start, the words offered from a frame start until 11 clocks after the last pixel are the
active pixels in 4:2:2, in order, `pf` per word, the first in the most significant position. -/
def C13_ycbcr422_statement : Prop :=
  ∀ (pf : Nat) (x : Nat → In) (t n : Nat), 2 ≤ pf → BlankingAtLeast 11 x → CleanStart x t →
    (∀ u, u < 11 + n → ¬ FrameStarts x (t + 1 + u)) →
    wordsOut422 pf x (t + 2) (11 + n + 1) = groups pf (activePixels422 x (t + 2) n)

/-- Witness: frames of one line of 5 pixels, two pixels per word. -/
def fivePixels (t : Nat) : In :=
  { valid_i := true, vsync := t % 40 == 20, de := t % 40 < 5, r := 10, g := 200, b := 90 }

theorem blanking_periodic (P n : Nat) (hP : 0 < P) (x : Nat → In)
    (hx : ∀ t, (x t).de = (x (t % P)).de)
    (h : ∀ u, u < P → (x u).de = true → (x (u + 1)).de = false →
      ∀ i, i < n → (x (u + 1 + i)).de = false) : BlankingAtLeast n x := by
  intro u h1 h2 i hi
  have key : ∀ j, (x (u + j)).de = (x (u % P + j)).de := by
    intro j; rw [hx (u + j), hx (u % P + j), Nat.mod_add_mod]
  have h0 := key 0
  simp only [Nat.add_zero] at h0
  rw [Nat.add_assoc, key, ← Nat.add_assoc]
  exact h (u % P) (Nat.mod_lt _ hP) (by rw [← h0]; exact h1) (by rw [← key]; exact h2) i hi

theorem fivePixels_blanking : BlankingAtLeast 11 fivePixels :=
  blanking_periodic 40 11 (by decide) fivePixels
    (fun t => by simp [fivePixels]) (by decide)

/-- **C13** is false of the code in ycbcr422 mode, too. -/
theorem C13_ycbcr422_violated : ¬ C13_ycbcr422_statement := by
  intro h
  have := h 2 fivePixels 59 25 (by decide) fivePixels_blanking
    ⟨by unfold FrameStarts; decide, by
      have e : ∀ u, u < 61 → 61 ≤ u + 12 →
        ((fivePixels u).valid_i && (fivePixels u).de) = false := by decide
      exact e⟩
    (by unfold FrameStarts; decide +kernel)
  exact absurd this (by decide +kernel)

/-- **C13**, ycbcr422 mode, the part that holds: the claim for every frame that follows a frame
whose number of pixels is not one less than a multiple of `pf`. -/
theorem C13_ycbcr422_partial (pf : Nat) (hpf : 2 ≤ pf) (x : Nat → In) (hb : BlankingAtLeast 11 x)
    (t m n : Nat)
    (hs0 : CleanStart x t) (hno0 : ∀ u, u < 11 + m → ¬ FrameStarts x (t + 1 + u))
    (hs : CleanStart x (t + 1 + (11 + m)))
    (hno : ∀ u, u < 11 + n → ¬ FrameStarts x (t + 1 + (11 + m) + 1 + u))
    (hlen : (activePixels422 x (t + 2) (m + 11)).length % pf ≠ pf - 1) :
    wordsOut422 pf x (t + 1 + (11 + m) + 2) (11 + n + 1) =
      groups pf (activePixels422 x (t + 1 + (11 + m) + 2) n) := by
  obtain ⟨h1, -⟩ := words422_general pf hpf x t m (blanking_from hb _) hs0 hno0
  obtain ⟨-, h2⟩ := words422_general pf hpf x (t + 1 + (11 + m)) n (blanking_from hb _) hs hno
  rw [h2, if_neg, List.nil_append]
  rw [show t + 1 + (11 + m) + 1 = t + 2 + (11 + m) by omega, h1]
  have e : activePixels422 x (t + 2) (m + 11) = activePixels422 x (t + 2) m := by
    unfold activePixels422
    rw [pickIn_add]
    rw [pickIn_none _ _ (t + 2 + m), List.append_nil]
    intro j hj
    exact hs.2 _ (by omega) (by omega)
  rw [e] at hlen
  omega

/-- **C14**, ycbcr422 mode: of the words offered between a frame start and the next exactly the
first carries the start-of-frame mark. -/
theorem C14_sof_ycbcr422 (pf : Nat) (x : Nat → In) (t n : Nat)
    (hs : FrameStarts x t) (hno : ∀ u, u < n → ¬ FrameStarts x (t + 1 + u)) :
    firstOnly (sofOut422 pf x (t + 2) (n + 1)) := by
  have h := Packer.firstOnly_sof (t + 1) (feed422_start hs) n
    (fun u hu => by
      have := feed422_nostart (pf := pf) (hno u hu)
      rwa [show t + 1 + u + 1 = t + 1 + 1 + u by omega] at this)
    (s0 := Packer.reset 0) (pf := pf) (x := Ycbcr422.feed pf x)
  have hp : ∀ u, trace (Packer.step pf) (Packer.reset 0) (Ycbcr422.feed pf x) u =
      (extractor422 pf x u).packer := fun u => (Ycbcr422.packer_trace pf x u).symm
  simp only [hp] at h
  exact h

/-- Frames of one line of 4 pixels, alternately of two colours. -/
def fourPixels422 (t : Nat) : In :=
  { valid_i := true, vsync := t % 40 == 20, de := t % 40 < 4
    r := if t % 2 = 0 then 10 else 255, g := if t % 2 = 0 then 200 else 0
    b := if t % 2 = 0 then 90 else 17 }

/-- `⟨10,200,90⟩` is `⟨175,89,31⟩` and `⟨255,0,17⟩` is `⟨62,112,255⟩` in YCbCr. -/
example : BlankingAtLeast 11 fourPixels422 ∧ FrameStarts fourPixels422 19 ∧
    FrameStarts fourPixels422 59 ∧ (activePixels422 fourPixels422 21 39).length % 2 ≠ 1 ∧
    groups 2 (activePixels422 fourPixels422 61 30) =
      [[175 + 256 * 100, 62 + 256 * 143], [175 + 256 * 100, 62 + 256 * 143]] ∧
    wordsOut422 2 fourPixels422 61 40 =
      [[175 + 256 * 100, 62 + 256 * 143], [175 + 256 * 100, 62 + 256 * 143]] ∧
    sofOut422 2 fourPixels422 61 40 = [true, false] := by
  refine ⟨blanking_periodic 40 11 (by decide) fourPixels422 (fun t => by simp [fourPixels422])
    (by decide), by unfold FrameStarts; decide, by unfold FrameStarts; decide, by decide +kernel,
    by decide +kernel, by decide +kernel, by decide +kernel⟩

end Verif.Props
