import Verif.Spec.Bandwidth
import Verif.Proofs.CaptureLive
import Mathlib.Tactic.Ring

/-!
# Bandwidth of the capture path: lemmas
-/

namespace Verif.Capture

open Verif.Spec.Capture Verif.Spec.Frame Verif.Spec.Stream Verif.Props

/-! ## Pace of the packer -/

/-- Pixels gathered for the word that is not yet written. -/
def gathered {α : Type} (pf : Nat) (p : Frame.Packer.State α) : Nat :=
  if p.cur_word_valid then pf else p.pack_counter

/-- A packer state that can be reached. -/
def PackOk {α : Type} (pf : Nat) (p : Frame.Packer.State α) : Prop :=
  p.pack_counter < pf ∧ (p.cur_word_valid = true → p.pack_counter = 0)

theorem pack_step {α : Type} {pf : Nat} (hpf : 2 ≤ pf) {p : Frame.Packer.State α}
    (h : PackOk pf p) (i : Frame.Packer.In α) :
    PackOk pf (Frame.Packer.step pf p i) ∧
    gathered pf (Frame.Packer.step pf p i) + (if p.cur_word_valid then pf else 0) ≤
      gathered pf p + 1 := by
  obtain ⟨h1, h2⟩ := h
  have hr : Frame.Packer.counterRange pf = pf := by
    unfold Frame.Packer.counterRange; rw [if_neg (by omega)]
  have hm : p.pack_counter + 1 < pf → (p.pack_counter + 1) % pf = p.pack_counter + 1 :=
    fun h => Nat.mod_eq_of_lt h
  have hm' : p.pack_counter + 1 = pf → (p.pack_counter + 1) % pf = 0 := fun h => by
    rw [h, Nat.mod_self]
  unfold PackOk gathered Frame.Packer.step
  simp only [hr]
  cases hv : p.cur_word_valid <;> cases i.new_frame <;> cases i.en <;>
    by_cases hc : p.pack_counter + 1 = pf <;> simp [hv, hc] at h2 ⊢ <;> omega

/-- What is used of a mode of `FrameExtraction`. -/
structure Packs {σ : Type} {w : Nat} (E : Extractor σ w) : Prop where
  pf : 2 ≤ E.pf
  reset : PackOk E.pf (E.packer E.reset)
  step : ∀ s v, ∃ i, E.packer (E.step s v) = Frame.Packer.step E.pf (E.packer s) i

theorem packs_rgb {pf : Nat} (hpf : 2 ≤ pf) : Packs (rgb pf) :=
  ⟨hpf, ⟨by show 0 < pf; omega, fun _ => rfl⟩, fun _ _ => ⟨_, rfl⟩⟩

theorem packs_ycbcr422 {pf : Nat} (hpf : 2 ≤ pf) : Packs (ycbcr422 pf) :=
  ⟨hpf, ⟨by show 0 < pf; omega, fun _ => rfl⟩, fun _ _ => ⟨_, rfl⟩⟩

section Lemmas

variable {σ : Type} {w : Nat} {E : Extractor σ w} {depth nslots aw al : Nat} {x : Nat → In}

local notation "cap" => capture E depth nslots aw al x
local notation "pixE" => (fun u => In.pixEdge (x u))

/-- A word is offered to the FIFO at instant `u`. -/
def offersAt (E : Extractor σ w) (depth nslots aw al : Nat) (x : Nat → In) (u : Nat) : Bool :=
  (x u).pixEdge && offers E (capture E depth nslots aw al x u).frame

/-- A word is taken from the FIFO at instant `u`. -/
def takesAt (E : Extractor σ w) (depth nslots aw al : Nat) (x : Nat → In) (u : Nat) : Bool :=
  AsyncFifo.sourceValid (capture E depth nslots aw al x u).fifo
      (fifoIn E (capture E depth nslots aw al x u) (x u)) &&
    (fifoIn E (capture E depth nslots aw al x u) (x u)).pop

local notation "offer" => offersAt E depth nslots aw al x
local notation "take" => takesAt E depth nslots aw al x
local notation "write" => writesWord E depth nslots aw al x

theorem packer_ok (hE : Packs E) (t : Nat) : PackOk E.pf (E.packer (cap t).frame) := by
  induction t with
  | zero => exact hE.reset
  | succ t ih =>
    show PackOk E.pf (E.packer (if (x t).pixEdge then E.step (cap t).frame (x t).video
      else (cap t).frame))
    split
    · obtain ⟨i, hi⟩ := hE.step (cap t).frame (x t).video
      rw [hi]
      exact (pack_step hE.pf ih i).1
    · exact ih

theorem gathered_next (hE : Packs E) (t : Nat) :
    gathered E.pf (E.packer (cap (t + 1)).frame) + (if offer t then E.pf else 0) ≤
      gathered E.pf (E.packer (cap t).frame) + (if (x t).pixEdge then 1 else 0) := by
  show gathered E.pf (E.packer (if (x t).pixEdge then E.step (cap t).frame (x t).video
      else (cap t).frame)) + _ ≤ _
  unfold offersAt
  cases h : (x t).pixEdge with
  | false => simp
  | true =>
    obtain ⟨i, hi⟩ := hE.step (cap t).frame (x t).video
    simp only [if_true, Bool.true_and, hi]
    exact (pack_step hE.pf (packer_ok hE t) i).2

theorem gathered_le (hE : Packs E) (t : Nat) :
    gathered E.pf (E.packer (cap t).frame) ≤ E.pf := by
  have := (packer_ok (depth := depth) (nslots := nslots) (aw := aw) (al := al) (x := x) hE t).1
  unfold gathered
  split
  · exact Nat.le_refl _
  · omega

/-- Words are offered at most once every `pf` pixel clocks. -/
theorem pace (hE : Packs E) (a n : Nat) :
    countIn offer a n * E.pf + gathered E.pf (E.packer (cap (a + n)).frame) ≤
        E.pf + countIn pixE a n ∧
    countIn offer a n * E.pf ≤ E.pf - 1 + countIn pixE a n := by
  induction n with
  | zero =>
    simp only [countIn]
    refine ⟨?_, by omega⟩
    have := gathered_le (depth := depth) (nslots := nslots) (aw := aw) (al := al) (x := x) hE a
    simpa using this
  | succ n ih =>
    obtain ⟨i1, i2⟩ := ih
    have h := gathered_next (depth := depth) (nslots := nslots) (aw := aw) (al := al) (x := x) hE (a + n)
    have hpf := hE.pf
    rw [show a + n + 1 = a + (n + 1) by omega] at h
    simp only [countIn]
    cases ho : offer (a + n) with
    | false =>
      rw [ho] at h
      simp only [Bool.false_eq_true, if_false, Nat.add_zero] at h ⊢
      exact ⟨by omega, by split <;> omega⟩
    | true =>
      rw [ho] at h
      simp only [if_true] at h ⊢
      have hp : (x (a + n)).pixEdge = true := by
        unfold offersAt at ho
        rw [Bool.and_eq_true] at ho
        exact ho.1
      have hg : gathered E.pf (E.packer (cap (a + n)).frame) = E.pf := by
        unfold offersAt offers at ho
        rw [Bool.and_eq_true] at ho
        unfold gathered
        rw [if_pos ho.2]
      rw [Nat.add_mul, Nat.one_mul]
      simp only [hp, if_true] at h ⊢
      exact ⟨by omega, by omega⟩

/-! ## Words in the FIFO -/

theorem length_next (t : Nat) :
    (cap (t + 1)).fifo.length + (if take t then 1 else 0) =
      (cap t).fifo.length + (if write t then 1 else 0) := by
  rw [fifo_next]
  unfold takesAt writesWord AsyncFifo.step
  generalize fifoIn E (cap t) (x t) = i
  cases hq : (cap t).fifo with
  | nil =>
    simp [AsyncFifo.sourceValid]
    split <;> simp
  | cons a q =>
    split <;> split <;> simp_all

theorem length_from (a n : Nat) :
    (cap (a + n)).fifo.length + countIn take a n = (cap a).fifo.length + countIn write a n := by
  induction n with
  | zero => rfl
  | succ n ih =>
    have := length_next (E := E) (depth := depth) (nslots := nslots) (aw := aw) (al := al) (x := x)
      (a + n)
    rw [show a + n + 1 = a + (n + 1) by omega] at this
    simp only [countIn]
    omega

theorem count_add (p : Nat → Bool) (a m n : Nat) :
    countIn p a (m + n) = countIn p a m + countIn p (a + m) n := by
  induction n with
  | zero => rfl
  | succ n ih =>
    rw [← Nat.add_assoc, countIn, countIn, ih, ← Nat.add_assoc, Nat.add_assoc a m n]
    omega

theorem count_le {p q : Nat → Bool} (h : ∀ u, p u = true → q u = true) (a n : Nat) :
    countIn p a n ≤ countIn q a n := by
  induction n with
  | zero => exact Nat.le_refl _
  | succ n ih =>
    simp only [countIn]
    have := h (a + n)
    cases hp : p (a + n) <;> cases hq : q (a + n) <;> simp_all
    omega

theorem write_le (a n : Nat) : countIn write a n ≤ countIn offer a n := by
  refine count_le (fun u h => ?_) a n
  unfold writesWord at h
  rw [Bool.and_eq_true] at h
  exact h.2

/-! ## Turns -/

/-- What happens at a system clock at which nothing is taken although the FIFO is not empty. -/
theorem idle_step {t : Nat} (hne : (cap t).fifo ≠ []) (hno : take t = false) :
    ((cap t).dma.fsm = .transferPixels → (cap (t + 1)).dma.fsm = .transferPixels ∧
      ¬ ((x t).sysEdge = true ∧ (x t).rok = true ∧ (x t).busReady = true)) ∧
    ((cap t).dma.fsm = .waitSof → (cap (t + 1)).dma.fsm ≠ .eof ∧
      ((x t).sysEdge = true → (x t).rok = true → (cap (t + 1)).dma.fsm = .transferPixels)) ∧
    ((cap t).dma.fsm = .eof → (x t).sysEdge = true → (x t).wdataValid = false →
      (cap (t + 1)).dma.fsm = .waitSof) := by
  have hne' : (cap t).fifo.isEmpty = false := by
    cases h : (cap t).fifo with
    | nil => exact absurd h hne
    | cons _ _ => rfl
  have hv : (dmaIn (cap t) (x t)).valid = (x t).rok := by
    show ((x t).rok && !(cap t).fifo.isEmpty) = _
    rw [hne']; simp
  unfold takesAt AsyncFifo.sourceValid at hno
  simp only [fifoIn, hne', Bool.not_false, Bool.and_true] at hno
  refine ⟨fun hf => ?_, fun hf => ?_, fun hf hs hw => ?_⟩
  · have h1 : Dma.frameReady (cap t).dma (dmaIn (cap t) (x t)) = (x t).busReady := by
      simp only [Dma.frameReady, hf]; rfl
    rw [h1] at hno
    rw [fsm_next, hf, hv]
    refine ⟨?_, fun ⟨a, b, c⟩ => by simp [a, b, c] at hno⟩
    split
    · rename_i hs
      rw [hs, Bool.true_and] at hno
      simp only [hno, Bool.false_and, Bool.false_eq_true, if_false]
    · rfl
  · have h1 : Dma.frameReady (cap t).dma (dmaIn (cap t) (x t)) =
        (!Dma.addressValid (cap t).dma || !(dmaIn (cap t) (x t)).sof) := by
      simp only [Dma.frameReady, hf]
    rw [h1] at hno
    rw [fsm_next, hf, hv]
    constructor
    · split
      · simp only []; split <;> simp
      · simp
    · intro hs hr
      rw [if_pos hs]
      rw [hs, hr] at hno
      simp at hno
      simp only [hno, hr, Bool.and_self, if_true]
  · rw [fsm_next, hf, if_pos hs, hw]; rfl

/-- As long as the FIFO is not empty and nothing is taken, a transfer goes on waiting. -/
theorem idle_from {t e : Nat} (hte : t ≤ e) (hne : ∀ u, t ≤ u → u < e → (cap u).fifo ≠ [])
    (hno : ∀ u, t ≤ u → u < e → take u = false) :
    ((cap t).dma.fsm = .transferPixels → (cap e).dma.fsm = .transferPixels) ∧
    ((cap t).dma.fsm ≠ .eof → (cap e).dma.fsm ≠ .eof) := by
  induction e with
  | zero => rw [Nat.le_zero.1 hte]; exact ⟨id, id⟩
  | succ e ih =>
    rcases Nat.lt_or_eq_of_le hte with h | rfl
    · obtain ⟨i1, i2⟩ := ih (by omega) (fun u h1 h2 => hne u h1 (by omega))
        (fun u h1 h2 => hno u h1 (by omega))
      obtain ⟨s1, s2, -⟩ := idle_step (hne e (by omega) (by omega)) (hno e (by omega) (by omega))
      refine ⟨fun h => (s1 (i1 h)).1, fun h => ?_⟩
      have := i2 h
      cases hf : (cap e).dma.fsm with
      | waitSof => exact (s2 hf).1
      | transferPixels => rw [(s1 hf).1]; decide
      | eof => exact absurd hf this
    · exact ⟨id, id⟩

/-- In a turn a word is taken. -/
theorem turn {t e u v y : Nat} (htu : t ≤ u) (huv : u < v) (hvy : v < y) (hye : y < e)
    (hne : ∀ u, t ≤ u → u < e → (cap u).fifo ≠ [])
    (hu : (x u).sysEdge = true ∧ (x u).wdataValid = false)
    (hv : (x v).sysEdge = true ∧ (x v).rok = true)
    (hy : (x y).sysEdge = true ∧ (x y).rok = true ∧ (x y).busReady = true) :
    ∃ z, t ≤ z ∧ z ≤ y ∧ take z = true := by
  by_contra hcon
  have hno : ∀ z, t ≤ z → z ≤ y → take z = false := fun z h1 h2 => by
    cases h : take z with
    | false => rfl
    | true => exact absurd ⟨z, h1, h2, h⟩ hcon
  have h1 : (cap (u + 1)).dma.fsm ≠ .eof := by
    obtain ⟨s1, s2, s3⟩ := idle_step (hne u htu (by omega)) (hno u htu (by omega))
    cases hf : (cap u).dma.fsm with
    | waitSof => exact (s2 hf).1
    | transferPixels => rw [(s1 hf).1]; decide
    | eof => rw [s3 hf hu.1 hu.2]; decide
  have h2 : (cap v).dma.fsm ≠ .eof := (idle_from (t := u + 1) (e := v) (by omega)
    (fun z a b => hne z (by omega) (by omega)) (fun z a b => hno z (by omega) (by omega))).2 h1
  have h3 : (cap (v + 1)).dma.fsm = .transferPixels := by
    obtain ⟨s1, s2, -⟩ := idle_step (hne v (by omega) (by omega)) (hno v (by omega) (by omega))
    cases hf : (cap v).dma.fsm with
    | waitSof => exact (s2 hf).2 hv.1 hv.2
    | transferPixels => exact (s1 hf).1
    | eof => exact absurd hf h2
  have h4 : (cap y).dma.fsm = .transferPixels := (idle_from (t := v + 1) (e := y) (by omega)
    (fun z a b => hne z (by omega) (by omega)) (fun z a b => hno z (by omega) (by omega))).1 h3
  exact ((idle_step (hne y (by omega) (by omega)) (hno y (by omega) (by omega))).1 h4).2 hy

theorem count_pos {p : Nat → Bool} {a n z : Nat} (h1 : a ≤ z) (h2 : z < a + n) (hp : p z = true) :
    1 ≤ countIn p a n := by
  induction n with
  | zero => omega
  | succ n ih =>
    simp only [countIn]
    rcases Nat.lt_or_ge z (a + n) with h | h
    · have := ih h; omega
    · rw [show a + n = z by omega, hp]; simp

theorem served {k t e : Nat} (h : Serves x t e k)
    (hne : ∀ u, t ≤ u → u < e → (cap u).fifo ≠ []) : k ≤ countIn take t (e - t) := by
  induction k generalizing t with
  | zero => exact Nat.zero_le _
  | succ k ih =>
    obtain ⟨u, v, y, h1, h2, h3, h4, hu, hv, hy, hrest⟩ := h
    have hk := ih hrest (fun z a b => hne z (by omega) b)
    obtain ⟨z, z1, z2, z3⟩ := turn h1 h2 h3 h4 hne hu hv hy
    have hc := count_pos (a := t) (n := y + 1 - t) z1 (by omega) z3
    have := count_add take t (y + 1 - t) (e - (y + 1))
    rw [show y + 1 - t + (e - (y + 1)) = e - t by omega, show t + (y + 1 - t) = y + 1 by omega] at this
    omega

/-! ## Occupancy -/

theorem reach {p : Nat → Bool} {a n c : Nat} (h : c ≤ countIn p a n) :
    ∃ m, m ≤ n ∧ countIn p a m = c := by
  induction n with
  | zero => exact ⟨0, Nat.le_refl _, by simp [countIn] at h ⊢; omega⟩
  | succ n ih =>
    by_cases h' : c ≤ countIn p a n
    · obtain ⟨m, h1, h2⟩ := ih h'
      exact ⟨m, by omega, h2⟩
    · refine ⟨n + 1, Nat.le_refl _, ?_⟩
      simp only [countIn] at h ⊢
      split at h <;> split <;> simp_all <;> omega

theorem served_all {B : Nat} (hk : KeepsUp E depth nslots aw al x B) (q : Nat) {t e : Nat} (hte : t ≤ e)
    (hne : ∀ u, t ≤ u → u < e → (cap u).fifo ≠ []) (hq : q * (B * E.pf) ≤ countIn pixE t (e - t)) :
    q * B ≤ countIn take t (e - t) := by
  induction q generalizing t with
  | zero => omega
  | succ q ih =>
    rw [Nat.add_mul, Nat.one_mul] at hq ⊢
    obtain ⟨m, h1, h2⟩ := reach (c := B * E.pf) (p := pixE) (a := t) (n := e - t) (by omega)
    have ha := count_add pixE t m (e - t - m)
    have hb := count_add take t m (e - t - m)
    rw [show m + (e - t - m) = e - t by omega] at ha hb
    have hs := served (hk t (t + m) (fun u a b => hne u a (by omega))
      (by rw [show t + m - t = m by omega, h2])) (fun u a b => hne u a (by omega))
    have := ih (t := t + m) (by omega) (fun u a b => hne u (by omega) b)
      (by rw [show e - (t + m) = e - t - m by omega]; omega)
    rw [show e - (t + m) = e - t - m by omega] at this
    rw [show t + m - t = m by omega] at hs
    omega

theorem last_empty (t : Nat) : ∃ a, a ≤ t ∧ (cap a).fifo = [] ∧
    ∀ u, a < u → u ≤ t → (cap u).fifo ≠ [] := by
  induction t with
  | zero => exact ⟨0, Nat.le_refl _, rfl, fun u h1 h2 => by omega⟩
  | succ t ih =>
    by_cases h : (cap (t + 1)).fifo = []
    · exact ⟨t + 1, Nat.le_refl _, h, fun u h1 h2 => by omega⟩
    · obtain ⟨a, h1, h2, h3⟩ := ih
      refine ⟨a, by omega, h2, fun u h4 h5 => ?_⟩
      rcases Nat.lt_or_eq_of_le h5 with h6 | rfl
      · exact h3 u h4 (by omega)
      · exact h

/-- The FIFO never holds more than `B` words. -/
theorem occupancy (hE : Packs E) {B : Nat} (hB : 1 ≤ B) (hk : KeepsUp E depth nslots aw al x B) (t : Nat) :
    (cap t).fifo.length ≤ B := by
  obtain ⟨a, h1, h2, h3⟩ := last_empty (E := E) (depth := depth) (nslots := nslots) (aw := aw) (al := al)
    (x := x) t
  rcases Nat.lt_or_eq_of_le h1 with h | rfl
  swap
  · rw [h2]; exact Nat.zero_le _
  obtain ⟨n, rfl⟩ : ∃ n, t = a + 1 + n := ⟨t - (a + 1), by omega⟩
  have hl := length_from (E := E) (depth := depth) (nslots := nslots) (aw := aw) (al := al) (x := x) a (1 + n)
  rw [h2, List.length_nil, Nat.zero_add, ← Nat.add_assoc] at hl
  have hw := write_le (E := E) (depth := depth) (nslots := nslots) (aw := aw) (al := al) (x := x) a (1 + n)
  have hp := (pace (E := E) (depth := depth) (nslots := nslots) (aw := aw) (al := al) (x := x) hE a (1 + n)).2
  have hc := count_add pixE a 1 n
  have ht := count_add take a 1 n
  have h1' : countIn pixE a 1 ≤ 1 := by simp only [countIn]; split <;> omega
  have hpf := hE.pf
  have hBp : 0 < B * E.pf := Nat.mul_pos hB (by omega)
  have hs := served_all hk (countIn pixE (a + 1) n / (B * E.pf)) (t := a + 1) (e := a + 1 + n) (by omega)
    (fun u p q => h3 u (by omega) (by omega))
    (by rw [show a + 1 + n - (a + 1) = n by omega]; exact Nat.div_mul_le_self _ _)
  rw [show a + 1 + n - (a + 1) = n by omega] at hs
  have hlt : countIn pixE (a + 1) n < (countIn pixE (a + 1) n / (B * E.pf) + 1) * (B * E.pf) := by
    rw [Nat.mul_comm]; exact Nat.lt_mul_div_succ _ hBp
  generalize countIn pixE (a + 1) n / (B * E.pf) = q at hs hlt
  have h5 : countIn offer a (1 + n) * E.pf < (q * B + B + 1) * E.pf := by
    have e : (q + 1) * (B * E.pf) + E.pf = (q * B + B + 1) * E.pf := by ring
    rw [← e]; omega
  have h6 := Nat.lt_of_mul_lt_mul_right h5
  omega

end Lemmas

end Verif.Capture
