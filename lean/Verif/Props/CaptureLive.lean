import Verif.Proofs.CaptureLive
import Verif.Props.Capture

/-!
# C87, C88: loaded slots are filled
-/

namespace Verif.Props

open Verif.Capture Verif.Spec.Capture Verif.Spec.Frame Verif.Spec.Stream Verif.Gated

section Sofs

variable {σ : Type} {w : Nat} {E : Extractor σ w} {V : Nat → Frame.In}

theorem sof_of_first {t n : Nat}
    (h : firstOnly (pickIn (fun u => offers E (extract E V u))
      (fun u => (offered E (extract E V u)).1) t n))
    (hlen : 1 ≤ (pickIn (fun u => offers E (extract E V u))
      (fun u => (offered E (extract E V u)).1) t n).length) :
    ∃ u, t ≤ u ∧ offers E (extract E V u) = true ∧ (offered E (extract E V u)).1 = true := by
  have h0 : (pickIn (fun u => offers E (extract E V u))
      (fun u => (offered E (extract E V u)).1) t n)[0]? = some true := by
    cases hl : pickIn (fun u => offers E (extract E V u))
      (fun u => (offered E (extract E V u)).1) t n with
    | nil => rw [hl] at hlen; simp at hlen
    | cons b l => rw [hl] at h; rw [h.1]; rfl
  obtain ⟨u, h1, -, h2, h3, -⟩ := pick_at' _ _ _ _ _ _ h0
  exact ⟨u, h1, h2, h3⟩

theorem pickIn_length {α β : Type} (p : Nat → Bool) (f : Nat → α) (g : Nat → β) (t n : Nat) :
    (pickIn p f t n).length = (pickIn p g t n).length := by
  induction n with
  | zero => rfl
  | succ n ih =>
    rw [pickIn, pickIn, List.length_append, List.length_append, ih]
    split <;> rfl

theorem sofs_rgb {pf N f0 : Nat} (hpf : 2 ≤ pf) (hN : 1 ≤ N) (st : SteadyFrom pf N f0 V)
    (hfr : ∀ c, ∃ t, c ≤ t ∧ FrameStarts V t) (c : Nat) :
    ∃ u, c ≤ u ∧ offers (rgb pf) (extract (rgb pf) V u) = true ∧
      (offered (rgb pf) (extract (rgb pf) V u)).1 = true := by
  obtain ⟨t, ht, hs⟩ := hfr (max c f0)
  obtain ⟨t', ht', hs'⟩ := hfr (t + 1)
  rcases next_start V t (t' - t) with h | ⟨n, -, h2, h3⟩
  · have := h (t' - t - 1) (by omega)
    rw [show t + 1 + (t' - t - 1) = t' by omega] at this
    exact absurd hs' this
  have hw := (words_general pf hpf V t n hs h3).2
  have hge := (st.frames t n (by omega) hs h3 h2).1
  obtain ⟨u, h4, h5⟩ := sof_of_first (E := rgb pf) (C14_sof pf V t n hs h3) (by
    rw [pickIn_length _ _ (fun u => (msFirst (Frame.Packer.word pf
      (extractor pf V u).packer)).map BitVec.toNat)]
    show 1 ≤ (wordsOut pf V (t + 2) (n + 1)).length
    rw [hw, List.length_append]
    omega)
  exact ⟨u, by omega, h5⟩

theorem sofs_ycbcr422 {pf N f0 : Nat} (hpf : 2 ≤ pf) (hN : 1 ≤ N) (st : SteadyFrom422 pf N f0 V)
    (hfr : ∀ c, ∃ t, c ≤ t ∧ FrameStarts V t) (c : Nat) :
    ∃ u, c ≤ u ∧ offers (ycbcr422 pf) (extract (ycbcr422 pf) V u) = true ∧
      (offered (ycbcr422 pf) (extract (ycbcr422 pf) V u)).1 = true := by
  obtain ⟨t, ht, hs⟩ := hfr (max c f0)
  obtain ⟨t', ht', hs'⟩ := hfr (t + 1)
  rcases next_start V t (t' - t) with h | ⟨n, -, h2, h3⟩
  · have := h (t' - t - 1) (by omega)
    rw [show t + 1 + (t' - t - 1) = t' by omega] at this
    exact absurd hs' this
  have hge := (st.frames t n (by omega) hs h3 h2).1
  rw [active422_clean (st.clean _ (by omega) h2)] at hge
  have hn : 11 ≤ n := by
    rcases Nat.lt_or_ge n 11 with h | h
    · rw [show n - 11 = 0 by omega] at hge
      simp [activePixels422, pickIn, groups] at hge
      omega
    · exact h
  have h3' := h3
  obtain ⟨m, rfl⟩ : ∃ m, n = 11 + m := ⟨n - 11, by omega⟩
  rw [show 11 + m - 11 = m by omega] at hge
  have hw := (words422_general pf hpf V t m (blanking_mono st.blanking (by omega))
    (st.clean t (by omega) hs) h3).2
  obtain ⟨u, h4, h5⟩ := sof_of_first (E := ycbcr422 pf) (C14_sof_ycbcr422 pf V t (11 + m) hs h3') (by
    rw [pickIn_length _ _ (fun u => (msFirst (Frame.Packer.word pf
      (extractor422 pf V u).packer)).map BitVec.toNat)]
    show 1 ≤ (wordsOut422 pf V (t + 2) (11 + m + 1)).length
    rw [hw, List.length_append]
    omega)
  exact ⟨u, by omega, h5⟩

end Sofs

/-- **C87** A slot that software has LOADED is filled.  Suppose that at instant `T0` the capture path
is at rest and slot `k` is LOADED, that frames keep coming (as in C83), that the clocks, the FIFO
and the memory bus stay alive, that software loads no other slot meanwhile, and that no overflow
occurs until slot `k` is done.  Then the transfer to slot `k` is done at some instant `e`, and it has
brought the first `N` words of one frame to memory. -/
theorem C87_filled (pf depth nslots aw al : Nat) (hpf : 2 ≤ pf) (x : Nat → In)
    (V : Nat → Frame.In) (N f0 f1 T0 : Nat) (hV : Video x V) (st : SteadyFrom pf N f0 V)
    (hf0 : FrameStarts V f0) (hf1 : FrameStarts V f1) (hf : f0 < f1)
    (hseen : f1 + 2 ≤ countIn (fun u => (x u).pixEdge) 0 T0)
    (hframes : ∀ c, ∃ t, c ≤ t ∧ FrameStarts V t) (alive : Alive x)
    (rest : AtRest (rgb pf) depth nslots aw al x T0)
    (hsize : ∀ t, T0 ≤ t → Dma.wordsOf aw al (x t).frame_size = N) (hN : 1 ≤ N)
    (own : SoftwareOwns (rgb pf) depth nslots aw al x T0) (none : LoadsNone x T0)
    (k : Nat) (hk : k < nslots)
    (hload : ((capture (rgb pf) depth nslots aw al x T0).dma.slots k).valid = true)
    (hno : ∀ T, (∀ u, T0 ≤ u → u < T → ¬ Done (rgb pf) depth nslots aw al x u k) →
      NoOverflow (rgb pf) depth nslots aw al x T0 (T + 1)) :
    ∃ e b t n, T0 ≤ b ∧ Done (rgb pf) depth nslots aw al x e k ∧ f1 ≤ t ∧ FrameStarts V t ∧
      (∀ u, u < n → ¬ FrameStarts V (t + 1 + u)) ∧
      let words := (groups pf (activePixels V (t + 2) n)).take N
      words.length = N ∧ Captured (rgb pf) depth nslots aw al x b e k words := by
  obtain ⟨e, he, hd, hfirst⟩ := progress_slot own none hsize hN (moves_of_alive alive)
    (sofs_at hV alive.pix (sofs_rgb hpf hN st hframes)) rest.2 k hk hload hno
  obtain ⟨b, t, n, h1, h2, h3, h4, -, h5⟩ := C83_restart pf depth nslots aw al hpf x V N f0 f1 T0 hV
    st hf0 hf1 hf hseen rest hsize hN own e k he (hno e hfirst) hd
  exact ⟨e, b, t, n, h1, hd, h2, h3, h4, h5⟩

/-- **C87**, ycbcr422 mode (the default). -/
theorem C87_filled_ycbcr422 (pf depth nslots aw al : Nat) (hpf : 2 ≤ pf) (x : Nat → In)
    (V : Nat → Frame.In) (N f0 f1 T0 : Nat) (hV : Video x V) (st : SteadyFrom422 pf N f0 V)
    (hf0 : FrameStarts V f0) (hf1 : FrameStarts V f1) (hf : f0 < f1)
    (hseen : f1 + 2 ≤ countIn (fun u => (x u).pixEdge) 0 T0)
    (hframes : ∀ c, ∃ t, c ≤ t ∧ FrameStarts V t) (alive : Alive x)
    (rest : AtRest (ycbcr422 pf) depth nslots aw al x T0)
    (hsize : ∀ t, T0 ≤ t → Dma.wordsOf aw al (x t).frame_size = N) (hN : 1 ≤ N)
    (own : SoftwareOwns (ycbcr422 pf) depth nslots aw al x T0) (none : LoadsNone x T0)
    (k : Nat) (hk : k < nslots)
    (hload : ((capture (ycbcr422 pf) depth nslots aw al x T0).dma.slots k).valid = true)
    (hno : ∀ T, (∀ u, T0 ≤ u → u < T → ¬ Done (ycbcr422 pf) depth nslots aw al x u k) →
      NoOverflow (ycbcr422 pf) depth nslots aw al x T0 (T + 1)) :
    ∃ e b t n, T0 ≤ b ∧ Done (ycbcr422 pf) depth nslots aw al x e k ∧ f1 ≤ t ∧ FrameStarts V t ∧
      (∀ u, u < n → ¬ FrameStarts V (t + 1 + u)) ∧
      let words := (groups pf (activePixels422 V (t + 2) n)).take N
      words.length = N ∧ Captured (ycbcr422 pf) depth nslots aw al x b e k words := by
  obtain ⟨e, he, hd, hfirst⟩ := progress_slot own none hsize hN (moves_of_alive alive)
    (sofs_at hV alive.pix (sofs_ycbcr422 hpf hN st hframes)) rest.2 k hk hload hno
  obtain ⟨b, t, n, h1, h2, h3, h4, -, h5⟩ := C83_restart_ycbcr422 pf depth nslots aw al hpf x V N f0
    f1 T0 hV st hf0 hf1 hf hseen rest hsize hN own e k he (hno e hfirst) hd
  exact ⟨e, b, t, n, h1, hd, h2, h3, h4, h5⟩

/-- The hypotheses of C87 and C88: frames of four pixels without end. -/
theorem fourPixels422_starts {t : Nat} (h : FrameStarts fourPixels422 t) : t % 40 = 19 := by
  have := h.2
  simp only [fourPixels422, beq_iff_eq] at this
  omega

theorem fourPixels422_start (q : Nat) : FrameStarts fourPixels422 (40 * q + 19) := by
  constructor
  · simp only [fourPixels422, beq_eq_false_iff_ne, ne_eq]; omega
  · simp only [fourPixels422, beq_iff_eq]; omega

theorem fourPixels422_count {t : Nat} (h : t % 40 = 19) :
    (activePixels422 fourPixels422 (t + 2) 39).length = 4 := by
  have : ∀ f : Nat → Nat, (pickIn (fun u => (fourPixels422 u).valid_i && (fourPixels422 u).de) f
      (t + 2) 39).length = 4 := by
    intro f
    rw [pickIn_length _ f (fun _ => 0), Frame.pickIn_shift _
      (fun u => (fourPixels422 u).valid_i && (fourPixels422 u).de) _ (fun _ => 0) (t + 2) 21 39]
    · decide
    · intro j _
      simp only [fourPixels422, Bool.true_and, decide_eq_decide]
      omega
    · intro _ _ _; rfl
  exact this _

theorem fourPixels422_steady : SteadyFrom422 2 2 19 fourPixels422 := by
  refine ⟨blanking_from (blanking_periodic 40 11 (by decide) fourPixels422
    (fun t => by simp [fourPixels422]) (by decide)) _, fun t _ ht => ⟨ht, fun u h1 h2 => ?_⟩,
    fun t n _ ht hno hn => ?_⟩
  · have := fourPixels422_starts ht
    simp only [fourPixels422, Bool.true_and, decide_eq_false_iff_not]
    omega
  · have h1 := fourPixels422_starts ht
    have h2 := fourPixels422_starts hn
    have h3 : n = 39 := by
      rcases Nat.lt_or_ge 39 n with h | h
      · have := hno 39 h
        rw [show t + 1 + 39 = 40 * (t / 40 + 1) + 19 by omega] at this
        exact absurd (fourPixels422_start _) this
      · omega
    subst h3
    have hc := fourPixels422_count h1
    constructor
    · rw [groups, List.length_map, List.length_range, hc]
    · rw [hc]; decide

/-- Software loads slots 0 and 1 at instant 60. -/
def liveRun (t : Nat) : In :=
  { twoFrameRun t with
    video := fourPixels422 t
    sw := fun n => if t = 60 ∧ n ≤ 1 then ⟨some 1, some (400 + 40 * n)⟩ else ⟨none, none⟩ }

theorem liveRun_alive : Alive liveRun := by
  refine ⟨fun T => ⟨T, Nat.le_refl _, rfl⟩, fun T => ⟨6 * T + 2, by omega, rfl, ?_, ?_⟩,
    fun T => ⟨4 * T, by omega, rfl, ?_⟩⟩
  · simp only [liveRun, twoFrameRun, beq_iff_eq]; omega
  · simp only [liveRun, twoFrameRun, bne_iff_ne]; omega
  · simp [liveRun, twoFrameRun]

theorem liveRun_owns : SoftwareOwns (ycbcr422 2) 4 2 10 2 liveRun 61 := by
  intro t n ht _ _
  have : ¬ (t = 60 ∧ n ≤ 1) := by omega
  simp [liveRun, this]


theorem liveRun_noOverflow : NoOverflow (ycbcr422 2) 4 2 10 2 liveRun 61 145 := by
  unfold NoOverflow; decide +kernel

theorem liveRun_done : Done (ycbcr422 2) 4 2 10 2 liveRun 144 1 := by
  unfold Done; decide +kernel

theorem liveRun_frames (c : Nat) : ∃ t, c ≤ t ∧ FrameStarts fourPixels422 t :=
  ⟨40 * c + 19, by omega, fourPixels422_start c⟩

/-- Hypotheses of C87 and C88: slot 1 has to wait for slot 0. -/
example : Video liveRun fourPixels422 ∧ SteadyFrom422 2 2 19 fourPixels422 ∧
    FrameStarts fourPixels422 19 ∧ FrameStarts fourPixels422 (40 * 1 + 19) ∧
    40 * 1 + 19 + 2 ≤ countIn (fun u => (liveRun u).pixEdge) 0 61 ∧
    (∀ c, ∃ t, c ≤ t ∧ FrameStarts fourPixels422 t) ∧ Alive liveRun ∧
    AtRest (ycbcr422 2) 4 2 10 2 liveRun 61 ∧
    (∀ t, Dma.wordsOf 10 2 (liveRun t).frame_size = 2) ∧
    SoftwareOwns (ycbcr422 2) 4 2 10 2 liveRun 61 ∧ LoadsNone liveRun 61 ∧
    ((capture (ycbcr422 2) 4 2 10 2 liveRun 61).dma.slots 1).valid = true ∧
    (∀ T, (∀ u, 61 ≤ u → u < T → ¬ Done (ycbcr422 2) 4 2 10 2 liveRun u 1) →
      NoOverflow (ycbcr422 2) 4 2 10 2 liveRun 61 (T + 1)) ∧
    Done (ycbcr422 2) 4 2 10 2 liveRun 104 0 ∧ Done (ycbcr422 2) 4 2 10 2 liveRun 144 1 := by
  refine ⟨fun t _ => ?_, fourPixels422_steady, fourPixels422_start 0, fourPixels422_start 1,
    by decide, liveRun_frames, liveRun_alive, by unfold AtRest; decide +kernel,
    fun t => by simp [Dma.wordsOf, liveRun, twoFrameRun], liveRun_owns, fun t n v ht _ hv => ?_,
    by decide +kernel, fun T hT t h1 h2 => ?_, by unfold Done; decide +kernel, liveRun_done⟩
  · rw [countIn_all (fun u => (liveRun u).pixEdge) (fun _ => rfl)]; rfl
  · have : ¬ (t = 60 ∧ n ≤ 1) := by omega
    simp [liveRun, this] at hv
  · refine liveRun_noOverflow t h1 ?_
    rcases Nat.lt_or_ge 144 T with h | h
    · exact absurd liveRun_done (hT 144 (by omega) h)
    · omega

/-- **C87** Whatever software does with the slots that are not LOADED, if some slot is LOADED then
some transfer is done. -/
theorem C87_progress (pf depth nslots aw al : Nat) (hpf : 2 ≤ pf) (x : Nat → In)
    (V : Nat → Frame.In) (N f0 T0 : Nat) (hV : Video x V) (st : SteadyFrom pf N f0 V)
    (hframes : ∀ c, ∃ t, c ≤ t ∧ FrameStarts V t) (alive : Alive x)
    (rest : (capture (rgb pf) depth nslots aw al x T0).dma.fsm = .waitSof)
    (hsize : ∀ t, T0 ≤ t → Dma.wordsOf aw al (x t).frame_size = N) (hN : 1 ≤ N)
    (own : SoftwareOwns (rgb pf) depth nslots aw al x T0)
    (n : Nat) (hn : n < nslots)
    (hload : ((capture (rgb pf) depth nslots aw al x T0).dma.slots n).valid = true)
    (hno : ∀ T, (∀ u k, T0 ≤ u → u < T → ¬ Done (rgb pf) depth nslots aw al x u k) →
      NoOverflow (rgb pf) depth nslots aw al x T0 (T + 1)) :
    ∃ e k, T0 ≤ e ∧ Done (rgb pf) depth nslots aw al x e k := by
  by_contra hcon
  have hnever : ∀ u k, T0 ≤ u → ¬ Done (rgb pf) depth nslots aw al x u k :=
    fun u k hu hd => hcon ⟨u, k, hu, hd⟩
  obtain ⟨e, he, k, hd⟩ := progress own hsize hN (moves_of_alive alive)
    (sofs_at hV alive.pix (sofs_rgb hpf hN st hframes))
    (fun T t h1 h2 => hno T (fun u k h _ => hnever u k h) t h1 (by omega)) T0 (Nat.le_refl _) rest n
    hn hload
  exact hcon ⟨e, k, he, hd⟩

/-- **C87**, ycbcr422 mode. -/
theorem C87_progress_ycbcr422 (pf depth nslots aw al : Nat) (hpf : 2 ≤ pf) (x : Nat → In)
    (V : Nat → Frame.In) (N f0 T0 : Nat) (hV : Video x V) (st : SteadyFrom422 pf N f0 V)
    (hframes : ∀ c, ∃ t, c ≤ t ∧ FrameStarts V t) (alive : Alive x)
    (rest : (capture (ycbcr422 pf) depth nslots aw al x T0).dma.fsm = .waitSof)
    (hsize : ∀ t, T0 ≤ t → Dma.wordsOf aw al (x t).frame_size = N) (hN : 1 ≤ N)
    (own : SoftwareOwns (ycbcr422 pf) depth nslots aw al x T0)
    (n : Nat) (hn : n < nslots)
    (hload : ((capture (ycbcr422 pf) depth nslots aw al x T0).dma.slots n).valid = true)
    (hno : ∀ T, (∀ u k, T0 ≤ u → u < T → ¬ Done (ycbcr422 pf) depth nslots aw al x u k) →
      NoOverflow (ycbcr422 pf) depth nslots aw al x T0 (T + 1)) :
    ∃ e k, T0 ≤ e ∧ Done (ycbcr422 pf) depth nslots aw al x e k := by
  by_contra hcon
  have hnever : ∀ u k, T0 ≤ u → ¬ Done (ycbcr422 pf) depth nslots aw al x u k :=
    fun u k hu hd => hcon ⟨u, k, hu, hd⟩
  obtain ⟨e, he, k, hd⟩ := progress own hsize hN (moves_of_alive alive)
    (sofs_at hV alive.pix (sofs_ycbcr422 hpf hN st hframes))
    (fun T t h1 h2 => hno T (fun u k h _ => hnever u k h) t h1 (by omega)) T0 (Nat.le_refl _) rest n
    hn hload
  exact hcon ⟨e, k, he, hd⟩

/-- **C88** Two slots (the default): a LOADED slot is filled whatever software does with the other
slot, and at most one transfer to the other slot comes first. -/
theorem C88_double_buffer (pf depth aw al : Nat) (hpf : 2 ≤ pf) (x : Nat → In)
    (V : Nat → Frame.In) (N f0 f1 T0 : Nat) (hV : Video x V) (st : SteadyFrom pf N f0 V)
    (hf0 : FrameStarts V f0) (hf1 : FrameStarts V f1) (hf : f0 < f1)
    (hseen : f1 + 2 ≤ countIn (fun u => (x u).pixEdge) 0 T0)
    (hframes : ∀ c, ∃ t, c ≤ t ∧ FrameStarts V t) (alive : Alive x)
    (rest : AtRest (rgb pf) depth 2 aw al x T0)
    (hsize : ∀ t, T0 ≤ t → Dma.wordsOf aw al (x t).frame_size = N) (hN : 1 ≤ N)
    (own : SoftwareOwns (rgb pf) depth 2 aw al x T0) (k : Nat) (hk : k < 2)
    (hload : ((capture (rgb pf) depth 2 aw al x T0).dma.slots k).valid = true)
    (hno : ∀ T, (∀ u, T0 ≤ u → u < T → ¬ Done (rgb pf) depth 2 aw al x u k) →
      NoOverflow (rgb pf) depth 2 aw al x T0 (T + 1)) :
    ∃ e b t n, T0 ≤ b ∧ Done (rgb pf) depth 2 aw al x e k ∧
      (∀ u v i j, T0 ≤ u → u < e → T0 ≤ v → v < e → Done (rgb pf) depth 2 aw al x u i →
        Done (rgb pf) depth 2 aw al x v j → u = v) ∧
      f1 ≤ t ∧ FrameStarts V t ∧ (∀ u, u < n → ¬ FrameStarts V (t + 1 + u)) ∧
      let words := (groups pf (activePixels V (t + 2) n)).take N
      words.length = N ∧ Captured (rgb pf) depth 2 aw al x b e k words := by
  obtain ⟨e, he, hd, hfirst, hone⟩ := progress_two own hsize hN (moves_of_alive alive)
    (sofs_at hV alive.pix (sofs_rgb hpf hN st hframes)) rest.2 k hk hload hno
  obtain ⟨b, t, n, h1, h2, h3, h4, -, h5⟩ := C83_restart pf depth 2 aw al hpf x V N f0 f1 T0 hV
    st hf0 hf1 hf hseen rest hsize hN own e k he (hno e hfirst) hd
  exact ⟨e, b, t, n, h1, hd, hone, h2, h3, h4, h5⟩

/-- **C88**, ycbcr422 mode (the default).  The hypotheses are met by the example of C87, in which
software loads both slots. -/
theorem C88_double_buffer_ycbcr422 (pf depth aw al : Nat) (hpf : 2 ≤ pf) (x : Nat → In)
    (V : Nat → Frame.In) (N f0 f1 T0 : Nat) (hV : Video x V) (st : SteadyFrom422 pf N f0 V)
    (hf0 : FrameStarts V f0) (hf1 : FrameStarts V f1) (hf : f0 < f1)
    (hseen : f1 + 2 ≤ countIn (fun u => (x u).pixEdge) 0 T0)
    (hframes : ∀ c, ∃ t, c ≤ t ∧ FrameStarts V t) (alive : Alive x)
    (rest : AtRest (ycbcr422 pf) depth 2 aw al x T0)
    (hsize : ∀ t, T0 ≤ t → Dma.wordsOf aw al (x t).frame_size = N) (hN : 1 ≤ N)
    (own : SoftwareOwns (ycbcr422 pf) depth 2 aw al x T0) (k : Nat) (hk : k < 2)
    (hload : ((capture (ycbcr422 pf) depth 2 aw al x T0).dma.slots k).valid = true)
    (hno : ∀ T, (∀ u, T0 ≤ u → u < T → ¬ Done (ycbcr422 pf) depth 2 aw al x u k) →
      NoOverflow (ycbcr422 pf) depth 2 aw al x T0 (T + 1)) :
    ∃ e b t n, T0 ≤ b ∧ Done (ycbcr422 pf) depth 2 aw al x e k ∧
      (∀ u v i j, T0 ≤ u → u < e → T0 ≤ v → v < e → Done (ycbcr422 pf) depth 2 aw al x u i →
        Done (ycbcr422 pf) depth 2 aw al x v j → u = v) ∧
      f1 ≤ t ∧ FrameStarts V t ∧ (∀ u, u < n → ¬ FrameStarts V (t + 1 + u)) ∧
      let words := (groups pf (activePixels422 V (t + 2) n)).take N
      words.length = N ∧ Captured (ycbcr422 pf) depth 2 aw al x b e k words := by
  obtain ⟨e, he, hd, hfirst, hone⟩ := progress_two own hsize hN (moves_of_alive alive)
    (sofs_at hV alive.pix (sofs_ycbcr422 hpf hN st hframes)) rest.2 k hk hload hno
  obtain ⟨b, t, n, h1, h2, h3, h4, -, h5⟩ := C83_restart_ycbcr422 pf depth 2 aw al hpf x V N f0 f1
    T0 hV st hf0 hf1 hf hseen rest hsize hN own e k he (hno e hfirst) hd
  exact ⟨e, b, t, n, h1, hd, hone, h2, h3, h4, h5⟩

/-- **C88** More than two slots: a slot that is not selected is never filled as long as at every
instant some slot with a lower number is LOADED. -/
theorem C88_starved {σ : Type} {w : Nat} (E : Extractor σ w) (depth nslots aw al : Nat)
    (x : Nat → In) (T0 k : Nat) (hk : k < nslots)
    (hcur : (capture E depth nslots aw al x T0).dma.current_slot ≠ k)
    (hlow : ∀ t, T0 ≤ t → ∃ j, j < k ∧ ((capture E depth nslots aw al x t).dma.slots j).valid = true)
    (e : Nat) (he : T0 ≤ e) : ¬ Done E depth nslots aw al x e k := by
  have hinv : ∀ n, (capture E depth nslots aw al x (T0 + n)).dma.current_slot ≠ k := by
    intro n
    induction n with
    | zero => exact hcur
    | succ n ih =>
      show (capture E depth nslots aw al x (T0 + n + 1)).dma.current_slot ≠ k
      rw [dma_next]
      by_cases hs : (x (T0 + n)).sysEdge = true
      · rw [if_pos hs]
        show (if _ then Dma.selectSlot nslots _ else _) ≠ k
        split
        · obtain ⟨j, hj, hv⟩ := hlow (T0 + n) (by omega)
          unfold Dma.selectSlot
          cases hf : (List.range nslots).find? fun n' =>
              ((capture E depth nslots aw al x (T0 + n)).dma.slots n').valid with
          | none =>
            have := List.find?_eq_none.1 hf j (List.mem_range.2 (by omega))
            exact absurd hv this
          | some m =>
            intro hm
            rw [Option.getD_some] at hm
            subst hm
            obtain ⟨-, i, hi, hmi, hlt⟩ := List.find?_eq_some_iff_getElem.1 hf
            rw [List.getElem_range] at hmi
            have := hlt j (by omega)
            rw [List.getElem_range, hv] at this
            exact absurd this (by decide)
        · exact ih
      · rw [if_neg hs]; exact ih
  intro hd
  have := hinv (e - T0)
  rw [show T0 + (e - T0) = e by omega] at this
  exact this hd.2.1

/-- Hypotheses of `C88_starved`: three slots are LOADED at instant 60, and software loads slots 0 and
1 again as soon as they are done. -/
def greedyIn (t : Nat) (s : State Frame.Ycbcr422.State 16) : In :=
  { liveRun t with
    sw := fun n =>
      if t = 60 ∧ n ≤ 2 ∨ 60 < t ∧ n ≤ 1 ∧ (s.dma.slots n).status = 2#2 then ⟨some 1, some 400⟩
      else ⟨none, none⟩ }

def greedyState : Nat → State Frame.Ycbcr422.State 16
  | 0 => reset (ycbcr422 2)
  | t + 1 => step (ycbcr422 2) 4 3 10 2 (greedyState t) (greedyIn t (greedyState t))

def greedyRun (t : Nat) : In := greedyIn t (greedyState t)

theorem greedy_capture (t : Nat) : capture (ycbcr422 2) 4 3 10 2 greedyRun t = greedyState t := by
  induction t with
  | zero => rfl
  | succ t ih =>
    show step _ _ _ _ _ (capture (ycbcr422 2) 4 3 10 2 greedyRun t) (greedyRun t) = _
    rw [ih]
    rfl

/-- One of the slots 0 and 1 is always LOADED. -/
structure Greedy (s : Dma.State) : Prop where
  two : (s.slots 2).status = 1#2
  cur : s.current_slot = 0 ∨ s.current_slot = 1
  some : (s.slots 0).status = 1#2 ∧ (s.slots 1).status = 1#2 ∨
    s.fsm = .waitSof ∧ ((s.slots 0).status = 1#2 ∧ (s.slots 1).status = 2#2 ∨
      (s.slots 0).status = 2#2 ∧ (s.slots 1).status = 1#2)

theorem greedy_status (t n : Nat) (ht : 60 < t) :
    ((greedyState (t + 1)).dma.slots n).status =
      if n ≤ 1 ∧ ((greedyState t).dma.slots n).status = 2#2 then 1#2
      else if Dma.addressDone (greedyState t).dma (dmaIn (greedyState t) (greedyRun t)) &&
          decide ((greedyState t).dma.current_slot = n) then 2#2
      else ((greedyState t).dma.slots n).status := by
  show (((greedyRun t).sw n).status.getD _) = _
  have hsw : (greedyRun t).sw n =
      if t = 60 ∧ n ≤ 2 ∨ 60 < t ∧ n ≤ 1 ∧ ((greedyState t).dma.slots n).status = 2#2 then
        ⟨some 1, some 400⟩ else ⟨none, none⟩ := rfl
  rw [hsw]
  by_cases h : n ≤ 1 ∧ ((greedyState t).dma.slots n).status = 2#2
  · rw [if_pos (.inr ⟨ht, h⟩), if_pos h]; rfl
  · rw [if_neg (fun h' => h'.elim (fun h' => by omega) fun h' => h h'.2), if_neg h]; rfl

theorem greedy_next (t : Nat) (ht : 60 < t) (g : Greedy (greedyState t).dma) :
    Greedy (greedyState (t + 1)).dma := by
  obtain ⟨g2, gc, gs⟩ := g
  have hst := greedy_status t
  have hcur : (greedyState (t + 1)).dma.current_slot =
      if !Dma.addressValid (greedyState t).dma || Dma.addressDone (greedyState t).dma
        (dmaIn (greedyState t) (greedyRun t)) then Dma.selectSlot 3 (greedyState t).dma
      else (greedyState t).dma.current_slot := rfl
  have hsel : Dma.selectSlot 3 (greedyState t).dma = 0 ∨
      Dma.selectSlot 3 (greedyState t).dma = 1 := by
    have v1 : (1#2).getLsbD 0 = true := by decide
    have v2 : (2#2).getLsbD 0 = false := by decide
    rcases gs with ⟨h0, h1⟩ | ⟨-, ⟨h0, h1⟩ | ⟨h0, h1⟩⟩
    · left; simp [Dma.selectSlot, List.range, List.range.loop, Dma.Slot.valid, h0]
    · left; simp [Dma.selectSlot, List.range, List.range.loop, Dma.Slot.valid, h0]
    · right; simp [Dma.selectSlot, List.range, List.range.loop, Dma.Slot.valid, h0, h1]
  refine ⟨?_, ?_, ?_⟩
  · rw [hst 2 ht, if_neg (by omega), if_neg, g2]
    simp only [Bool.and_eq_true, decide_eq_true_eq]
    omega
  · rw [hcur]
    split
    · exact hsel
    · exact gc
  · rw [hst 0 ht, hst 1 ht]
    rcases gs with ⟨h0, h1⟩ | ⟨hw, ⟨h0, h1⟩ | ⟨h0, h1⟩⟩
    · rw [h0, h1]
      cases hd : Dma.addressDone (greedyState t).dma (dmaIn (greedyState t) (greedyRun t)) with
      | false => left; simp
      | true =>
        right
        refine ⟨?_, ?_⟩
        · simp only [Dma.addressDone, Bool.and_eq_true, decide_eq_true_eq, Bool.not_eq_true'] at hd
          show (match (greedyState t).dma.fsm with
            | .waitSof => _
            | .transferPixels => _
            | .eof => if (dmaIn (greedyState t) (greedyRun t)).wdataValid then Dma.Fsm.eof
              else .waitSof) = _
          rw [hd.1, hd.2]
          rfl
        · rcases gc with h | h <;> rw [h] <;> simp
    · left
      have : Dma.addressDone (greedyState t).dma (dmaIn (greedyState t) (greedyRun t)) = false := by
        simp [Dma.addressDone, hw]
      rw [this, h0, h1]; simp
    · left
      have : Dma.addressDone (greedyState t).dma (dmaIn (greedyState t) (greedyRun t)) = false := by
        simp [Dma.addressDone, hw]
      rw [this, h0, h1]; simp

theorem greedy_from (t : Nat) : Greedy (greedyState (61 + t)).dma := by
  induction t with
  | zero => exact ⟨by decide +kernel, by decide +kernel, by decide +kernel⟩
  | succ t ih => exact greedy_next (61 + t) (by omega) ih

/-- Slot 2 is never filled although the clocks, the bus and the frames stay alive, software leaves
LOADED slots alone, and one transfer after the other is done. -/
example : Alive greedyRun ∧ SoftwareOwns (ycbcr422 2) 4 3 10 2 greedyRun 61 ∧
    (∀ t, 61 ≤ t → ((capture (ycbcr422 2) 4 3 10 2 greedyRun t).dma.slots 2).valid = true) ∧
    (∀ e, 61 ≤ e → ¬ Done (ycbcr422 2) 4 3 10 2 greedyRun e 2) ∧
    Done (ycbcr422 2) 4 3 10 2 greedyRun 104 0 ∧ Done (ycbcr422 2) 4 3 10 2 greedyRun 144 1 ∧
    Done (ycbcr422 2) 4 3 10 2 greedyRun 180 0 := by
  have hg : ∀ t, 61 ≤ t → Greedy (capture (ycbcr422 2) 4 3 10 2 greedyRun t).dma := by
    intro t ht
    rw [greedy_capture, show t = 61 + (t - 61) by omega]
    exact greedy_from _
  have v1 : (1#2).getLsbD 0 = true := by decide
  refine ⟨⟨liveRun_alive.pix, liveRun_alive.bus, liveRun_alive.drained⟩, fun t n ht _ hv => ?_,
    fun t ht => ?_, ?_, ?_, ?_, ?_⟩
  · rw [greedy_capture] at hv
    show (if t = 60 ∧ n ≤ 2 ∨ 60 < t ∧ n ≤ 1 ∧ ((greedyState t).dma.slots n).status = 2#2 then
      _ else _) = _
    rw [if_neg]
    rintro (h | h)
    · omega
    · unfold Dma.Slot.valid at hv
      rw [h.2.2] at hv
      exact absurd hv (by decide)
  · unfold Dma.Slot.valid
    rw [(hg t ht).two]; exact v1
  · refine C88_starved (ycbcr422 2) 4 3 10 2 greedyRun 61 2 (by decide) ?_ fun t ht => ?_
    · have := (hg 61 (Nat.le_refl _)).cur
      omega
    · rcases (hg t ht).some with h | ⟨-, h | h⟩
      · exact ⟨0, by decide, by unfold Dma.Slot.valid; rw [h.1]; exact v1⟩
      · exact ⟨0, by decide, by unfold Dma.Slot.valid; rw [h.1]; exact v1⟩
      · exact ⟨1, by decide, by unfold Dma.Slot.valid; rw [h.2]; exact v1⟩
  · unfold Done; rw [greedy_capture]; decide +kernel
  · unfold Done; rw [greedy_capture]; decide +kernel
  · unfold Done; rw [greedy_capture]; decide +kernel

end Verif.Props
