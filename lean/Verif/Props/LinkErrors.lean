import Verif.Props.WerSys
import Verif.Props.Errors

/-!
# C129: what the word error rate says about the link
-/

namespace Verif.Props

open Spec.Tmds Spec.Serial Spec.Stream Spec.Wer Verif.Receiver Verif.Gated

/-- A lane with isolated wrong bits, in pixels and in blanking: the words of the clocks `n0 … n0 + 9`
arrive intact, and from then on wrong bits are at least 90 bits apart.  Anything may have arrived
before. -/
structure SparseErrors (i : Nat → Encoder.In) (k : Nat) (lead bits : Nat → Bool) (n0 : Nat) : Prop where
  training : ∀ n, n0 ≤ n → n ≤ n0 + 9 → receivedWord bits k n = sentWord i n
  apart : ∀ p, k + 10 * (n0 + 4) ≤ p → bits p ≠ serialise k lead (encoderOut i) p →
    ∀ d, 0 < d → d < 90 → bits (p + d) = serialise k lead (encoderOut i) (p + d)

/-- Blanking begins with the ten clocks from `n0` on, and later lasts at least four clocks each time. -/
structure LongBlanking (i : Nat → Encoder.In) (n0 : Nat) : Prop where
  first : ∀ n, n0 ≤ n → n ≤ n0 + 9 → (i n).de = false
  later : ∀ n, n0 ≤ n → (i n).de = true → (i (n + 1)).de = false →
    (i (n + 2)).de = false ∧ (i (n + 3)).de = false ∧ (i (n + 4)).de = false

section Sparse

variable {i : Nat → Encoder.In} {k : Nat} {lead bits : Nat → Bool} {n0 : Nat}

/-- A damaged word has exactly one wrong bit. -/
theorem sparse_flip (h : SparseErrors i k lead bits n0) {n : Nat} (hn : n0 ≤ n)
    (hne : receivedWord bits k n ≠ sentWord i n) :
    ∃ j, j < 10 ∧ bits (k + 10 * (n + 4) + j) ≠ serialise k lead (encoderOut i) (k + 10 * (n + 4) + j) ∧
      receivedWord bits k n = sentWord i n ^^^ BitVec.twoPow 10 j := by
  obtain ⟨j, hj, hb⟩ : ∃ j, j < 10 ∧
      bits (k + 10 * (n + 4) + j) ≠ serialise k lead (encoderOut i) (k + 10 * (n + 4) + j) := by
    refine Classical.byContradiction fun hc => hne ?_
    rw [receivedWord_of_bits (bits' := serialise k lead (encoderOut i))]
    · exact intact_serialise _ _ _ n
    · intro j hj
      exact Classical.byContradiction fun hb => hc ⟨j, hj, hb⟩
  refine ⟨j, hj, hb, ?_⟩
  rw [← intact_serialise i k lead n]
  apply BitVec.eq_of_getLsbD_eq
  intro m hm
  rw [BitVec.getLsbD_xor, receivedWord, receivedWord, CharSync.getLsbD_wordAt _ _ _ hm,
    CharSync.getLsbD_wordAt _ _ _ hm, BitVec.getLsbD_twoPow, decide_eq_true hj, Bool.true_and]
  rcases Nat.lt_trichotomy m j with hlt | rfl | hgt
  · rw [decide_eq_false (by omega), Bool.xor_false]
    refine Classical.byContradiction fun hb' => hb ?_
    have := h.apart _ (by omega) hb' (j - m) (by omega) (by omega)
    rwa [show k + 10 * (n + 4) + m + (j - m) = k + 10 * (n + 4) + j by omega] at this
  · rw [decide_eq_true rfl, Bool.xor_true]
    revert hb
    cases bits _ <;> cases serialise k lead _ _ <;> simp
  · rw [decide_eq_false (by omega), Bool.xor_false]
    have := h.apart _ (by omega) hb (m - j) (by omega) (by omega)
    rwa [show k + 10 * (n + 4) + j + (m - j) = k + 10 * (n + 4) + m by omega] at this

/-- The eight words after a damaged one arrive intact. -/
theorem sparse_after (h : SparseErrors i k lead bits n0) {n m : Nat} (hn : n0 ≤ n)
    (hne : receivedWord bits k n ≠ sentWord i n) (h1 : n < m) (h2 : m ≤ n + 8) :
    receivedWord bits k m = sentWord i m := by
  refine Classical.byContradiction fun hne' => ?_
  obtain ⟨j, hj, hb, -⟩ := sparse_flip h hn hne
  obtain ⟨j', hj', hb', -⟩ := sparse_flip h (by omega : n0 ≤ m) hne'
  have := h.apart _ (by omega) hb (10 * (m - n) + j' - j) (by omega) (by omega)
  rw [show k + 10 * (n + 4) + j + (10 * (m - n) + j' - j) = k + 10 * (m + 4) + j' by omega] at this
  exact hb' this

/-- Damaged words, even in blanking, do not hide the word boundary if they are at least nine clocks
apart. -/
theorem rare_lane (htr : ∀ n, n0 ≤ n → n ≤ n0 + 9 → receivedWord bits k n = sentWord i n)
    (hap : ∀ n m, n0 ≤ n → receivedWord bits k n ≠ sentWord i n → n < m → m ≤ n + 8 →
      receivedWord bits k m = sentWord i m) (hl : LongBlanking i n0) :
    LaneWords k bits n0 where
  training := fun n h1 h2 => blanking_token (htr n h1 h2) (hl.first n h1 h2)
  often := fun n hn => by
    -- an intact pixel
    have pixel : ∀ m, n0 ≤ m → receivedWord bits k m = sentWord i m → (i m).de = true →
        TmdsAt (receivedWord bits k) m := fun m _ hw hd => by
      right; rw [hw]; exact (C03_data_words i _ hd).2.2
    -- an intact word next to intact words
    have good : ∀ m, n0 ≤ m → receivedWord bits k m = sentWord i m →
        (n0 < m → receivedWord bits k (m - 1) = sentWord i (m - 1)) →
        receivedWord bits k (m + 1) = sentWord i (m + 1) → TmdsAt (receivedWord bits k) m := by
      intro m hm hw hw1 hw2
      cases hd : (i m).de
      · refine .inl ⟨blanking_token hw hd, ?_⟩
        by_cases h0 : m = n0
        · exact .inr (blanking_token hw2 (hl.first _ (by omega) (by omega)))
        · cases hd1 : (i (m - 1)).de
          · exact .inl ⟨by omega, blanking_token (hw1 (by omega)) hd1⟩
          · have := hl.later (m - 1) (by omega) hd1 (by rwa [show m - 1 + 1 = m by omega])
            exact .inr (blanking_token hw2 (by rw [show m + 1 = m - 1 + 2 by omega]; exact this.1))
      · exact pixel m hm hw hd
    -- three words after one that may be damaged, if the five from the next one on are intact
    have run : ∀ m, n0 ≤ m → (n0 < m → receivedWord bits k (m - 1) = sentWord i (m - 1)) →
        (∀ u, u < 4 → receivedWord bits k (m + u) = sentWord i (m + u)) →
        TmdsAt (receivedWord bits k) m ∧ TmdsAt (receivedWord bits k) (m + 1) ∧
          TmdsAt (receivedWord bits k) (m + 2) := by
      intro m hm h1 h2
      exact ⟨good m hm (h2 0 (by omega)) h1 (h2 1 (by omega)),
        good (m + 1) (by omega) (h2 1 (by omega)) (fun _ => h2 0 (by omega)) (h2 2 (by omega)),
        good (m + 2) (by omega) (h2 2 (by omega)) (fun _ => h2 1 (by omega)) (h2 3 (by omega))⟩
    have next : ∀ c, n0 ≤ c → n ≤ c + 2 → c ≤ n + 2 → receivedWord bits k c ≠ sentWord i c →
        ∃ m, n ≤ m ∧ m ≤ n + 4 ∧ TmdsAt (receivedWord bits k) m ∧
          TmdsAt (receivedWord bits k) (m + 1) ∧ TmdsAt (receivedWord bits k) (m + 2) := by
      intro c hc1 hc2 hc3 hne
      refine ⟨c + 2, by omega, by omega, run (c + 2) (by omega)
        (fun _ => hap c _ hc1 hne (by omega) (by omega))
        (fun u hu => hap c _ hc1 hne (by omega) (by omega))⟩
    by_cases e0 : n0 < n ∧ receivedWord bits k (n - 1) ≠ sentWord i (n - 1)
    · exact next (n - 1) (by omega) (by omega) (by omega) e0.2
    by_cases e1 : receivedWord bits k n ≠ sentWord i n
    · exact next n (by omega) (by omega) (by omega) e1
    by_cases e2 : receivedWord bits k (n + 1) ≠ sentWord i (n + 1)
    · exact next (n + 1) (by omega) (by omega) (by omega) e2
    by_cases e3 : receivedWord bits k (n + 2) ≠ sentWord i (n + 2)
    · exact next (n + 2) (by omega) (by omega) (by omega) e3
    have e0 : n0 < n → receivedWord bits k (n - 1) = sentWord i (n - 1) :=
      fun h0 => Classical.byContradiction fun hc => e0 ⟨h0, hc⟩
    rw [Decidable.not_not] at e1 e2 e3
    by_cases e4 : receivedWord bits k (n + 3) = sentWord i (n + 3)
    · refine ⟨n, by omega, by omega, run n hn e0 fun u hu => ?_⟩
      have : u = 0 ∨ u = 1 ∨ u = 2 ∨ u = 3 := by omega
      rcases this with rfl | rfl | rfl | rfl <;> assumption
    -- the fourth word is damaged
    have f0 := good n hn e1 e0 e2
    have f1 := good (n + 1) (by omega) e2 (fun _ => e1) e3
    by_cases e5 : TmdsAt (receivedWord bits k) (n + 2)
    · exact ⟨n, by omega, by omega, f0, f1, e5⟩
    have d2 : (i (n + 2)).de = false := by
      cases hd : (i (n + 2)).de
      · rfl
      · exact absurd (pixel (n + 2) (by omega) e3 hd) e5
    have d1 : (i (n + 1)).de = true := by
      cases hd : (i (n + 1)).de
      · exact absurd (.inl ⟨blanking_token e3 d2, .inl ⟨by omega, blanking_token e2 hd⟩⟩) e5
      · rfl
    obtain ⟨-, d4, d5⟩ := hl.later (n + 1) (by omega) d1 d2
    have after : ∀ u, 0 < u → u ≤ 8 → receivedWord bits k (n + 3 + u) = sentWord i (n + 3 + u) :=
      fun u h1 h2 => hap (n + 3) _ (by omega) e4 (by omega) (by omega)
    have t4 := blanking_token (after 1 (by omega) (by omega)) d4
    have t5 := blanking_token (after 2 (by omega) (by omega)) d5
    exact ⟨n + 4, by omega, by omega, .inl ⟨t4, .inr t5⟩, .inl ⟨t5, .inl ⟨by omega, t4⟩⟩,
      good (n + 6) (by omega) (after 3 (by omega) (by omega))
        (fun _ => after 2 (by omega) (by omega)) (after 4 (by omega) (by omega))⟩

/-- Isolated wrong bits, even in blanking, do not hide the word boundary. -/
theorem sparse_lane (h : SparseErrors i k lead bits n0) (hl : LongBlanking i n0) : LaneWords k bits n0 :=
  rare_lane h.training (fun _ _ hn hne h1 h2 => sparse_after h hn hne h1 h2) hl

end Sparse

/-- A control word with one wrong bit among its low nine counts as an error. -/
theorem token_flip_counts : ∀ w ∈ tokens, ∀ j : Fin 9, isErrorWord (w ^^^ BitVec.twoPow 10 j.val) = true := by
  decide +kernel

theorem periodCount_le {bits L k : Nat} {p q : Nat → Bool}
    (h : ∀ n, k * 2 ^ bits < n + L + 3 → p n = true → q n = true) :
    periodCount bits L p k ≤ periodCount bits L q k := by
  refine List.countP_mono_left fun n _ hp => ?_
  rw [Bool.and_eq_true, decide_eq_true_eq] at hp ⊢
  exact ⟨hp.1, h (n - L) (by omega) hp.2⟩

/-- **C129** The word error rate that software reads is a statement about the link.  A lane with isolated
wrong bits is received from any state; its words go to the word error counter.  For every period `P` that
begins after the ten blanking clocks have been received, what software reads once the period has been
handed over for three system clock edges and until the next one is, is at most the number of damaged
words of that period, and at least the number of those damaged in blanking in one of their low nine
bits. -/
theorem C129_bounds (i : Nat → Encoder.In) (k : Nat) (lead bits : Nat → Bool) (n0 : Nat)
    (h : SparseErrors i k lead bits n0) (hl : LongBlanking i n0)
    (l0 : Lane) (hl0 : l0.charsync.control_counter ≤ 7) (b : Nat) (x : Nat → Wer.Sys.In)
    (hw : WerWords x fun n => (laneFrom l0 bits n).charsync.data) (ho : SysOften b x)
    (P r u t : Nat) (hP : n0 + k / 10 + 18 ≤ P * 2 ^ b) (hr : HandedOver b x P r) (hru : r < u)
    (hlatest : ∀ r', HandedOver b x (P + 1) r' → u ≤ r')
    (hthree : 3 ≤ countIn (fun t => (x t).sysEdge) (r + 1) (u - (r + 1)))
    (hu : (x u).sysEdge = true ∧ (x u).update = true) (hut : u < t)
    (hno : ∀ v, u < v → v < t → ((x v).sysEdge && (x v).update) = false) :
    periodCount b (k / 10 + 6) (fun n => !(i n).de &&
      (receivedWord bits k n).setWidth 9 != (sentWord i n).setWidth 9) P ≤ (werSys b x t).value ∧
    (werSys b x t).value ≤
      periodCount b (k / 10 + 6) (fun n => receivedWord bits k n != sentWord i n) P := by
  rw [C93_value b x _ hw ho P r u t hr hru hlatest hu hut hno, if_pos hthree]
  have he : periodErrors b (fun n => (laneFrom l0 bits n).charsync.data) P =
      periodCount b (k / 10 + 6) (fun n => isErrorWord (receivedWord bits k n)) P := by
    refine List.countP_congr fun n _ => ?_
    rw [Bool.and_eq_true, Bool.and_eq_true, decide_eq_true_eq]
    refine and_congr_right fun hn => ?_
    have := (lane_aligned_errors l0 hl0 k bits n0 (sparse_lane h hl) (n - (k / 10 + 6)) (by omega)).1
    rw [show n - (k / 10 + 6) + 6 + k / 10 = n by omega] at this
    beta_reduce
    rw [this]
  rw [he]
  constructor
  · refine periodCount_le fun n hn hp => ?_
    simp only [Bool.and_eq_true, Bool.not_eq_true', bne_iff_ne] at hp
    obtain ⟨j, hj, -, hj'⟩ := sparse_flip h (n := n) (by omega) fun hc => hp.2 (by rw [hc])
    have hj9 : j < 9 := by
      refine Nat.lt_of_le_of_ne (by omega) fun hc => hp.2 ?_
      subst hc
      rw [hj', BitVec.setWidth_xor]
      have : (BitVec.twoPow 10 9).setWidth 9 = 0#9 := by decide
      rw [this, BitVec.xor_zero]
    rw [hj']
    exact token_flip_counts _ (List.mem_of_getElem? (C03_control_words i n hp.1)) ⟨j, hj9⟩
  · refine periodCount_le fun n _ hp => ?_
    rw [bne_iff_ne]
    intro hc
    rw [hc, sentWord, encoder_no_error] at hp
    exact absurd hp (by decide)

/-- **C129** On a lane without errors software reads zero for every period that begins after the ten
blanking clocks have been received. -/
theorem C129_clean (i : Nat → Encoder.In) (k : Nat) (lead : Nat → Bool) (n0 : Nat)
    (hl : LongBlanking i n0) (l0 : Lane) (hl0 : l0.charsync.control_counter ≤ 7) (b : Nat)
    (x : Nat → Wer.Sys.In)
    (hw : WerWords x fun n => (laneFrom l0 (serialise k lead (encoderOut i)) n).charsync.data)
    (ho : SysOften b x) (P r u t : Nat) (hP : n0 + k / 10 + 18 ≤ P * 2 ^ b) (hr : HandedOver b x P r)
    (hru : r < u) (hlatest : ∀ r', HandedOver b x (P + 1) r' → u ≤ r')
    (hthree : 3 ≤ countIn (fun t => (x t).sysEdge) (r + 1) (u - (r + 1)))
    (hu : (x u).sysEdge = true ∧ (x u).update = true) (hut : u < t)
    (hno : ∀ v, u < v → v < t → ((x v).sysEdge && (x v).update) = false) :
    (werSys b x t).value = 0 := by
  have h := (C129_bounds i k lead _ n0
    ⟨fun n _ _ => intact_serialise i k lead n, fun p _ hne => absurd rfl hne⟩ hl l0 hl0 b x hw ho P r u t
    hP hr hru hlatest hthree hu hut hno).2
  refine Nat.le_zero.1 (Nat.le_trans h (Nat.le_of_eq (List.countP_eq_zero.2 fun n _ => ?_)))
  beta_reduce
  rw [intact_serialise]
  simp

/-! ### A concrete case: lines of six pixels and ten blanking clocks, periods of 32 pixel clocks -/

def sparseVideo (n : Nat) : Encoder.In := ⟨BitVec.ofNat 8 (7 * n), 1, decide (10 ≤ n % 16)⟩

/-- A wrong bit in the blanking clock 33, one in the pixel of clock 44. -/
def sparseBits (p : Nat) : Bool :=
  serialise 18 (fun _ => true) (encoderOut sparseVideo) p ^^
    (p == 18 + 10 * (33 + 4) + 2 || p == 18 + 10 * (44 + 4) + 5)

def sparseRun (t : Nat) : Wer.Sys.In :=
  { pixEdge := t % 2 == 0, sysEdge := true,
    data := (laneFrom Lane.reset sparseBits (t / 2)).charsync.data, update := t == 140 }

theorem sparseRun_pix (t : Nat) : werPix sparseRun t = (t + 1) / 2 := by
  induction t with
  | zero => rfl
  | succ t ih =>
    have h : werPix sparseRun (t + 1) = werPix sparseRun t + if t % 2 == 0 then 1 else 0 :=
      ticks_succ (fun t => (sparseRun t).pixEdge) t
    rw [h, ih]
    by_cases e : t % 2 = 0
    · rw [if_pos (by simp [e])]; omega
    · rw [if_neg (by simp [e])]; omega

theorem sparseRun_sys (a n : Nat) : countIn (fun t => (sparseRun t).sysEdge) a n = n := by
  induction n with
  | zero => rfl
  | succ n ih => rw [countIn, ih]; rfl

theorem sparse_case : SparseErrors sparseVideo 18 (fun _ => true) sparseBits 0 where
  training := fun n _ hn => by
    rw [receivedWord_of_bits (bits' := serialise 18 (fun _ => true) (encoderOut sparseVideo))]
    · exact intact_serialise _ _ _ n
    · intro j hj
      rw [sparseBits, beq_false_of_ne (by omega), beq_false_of_ne (by omega)]; simp
  apart := fun p _ hne d h1 h2 => by
    have key : p = 18 + 10 * (33 + 4) + 2 ∨ p = 18 + 10 * (44 + 4) + 5 := by
      refine Classical.byContradiction fun hc => hne ?_
      rw [sparseBits, beq_false_of_ne (by omega), beq_false_of_ne (by omega)]; simp
    rw [sparseBits, beq_false_of_ne (by omega), beq_false_of_ne (by omega)]; simp

example : SparseErrors sparseVideo 18 (fun _ => true) sparseBits 0 ∧ LongBlanking sparseVideo 0 ∧
    WerWords sparseRun (fun n => (laneFrom Lane.reset sparseBits n).charsync.data) ∧
    SysOften 5 sparseRun ∧ 0 + 18 / 10 + 18 ≤ 1 * 2 ^ 5 ∧ HandedOver 5 sparseRun 1 130 ∧
    (∀ r', HandedOver 5 sparseRun (1 + 1) r' → 140 ≤ r') ∧
    3 ≤ countIn (fun t => (sparseRun t).sysEdge) 131 9 ∧
    periodCount 5 7 (fun n => !(sparseVideo n).de && (receivedWord sparseBits 18 n).setWidth 9 !=
      (sentWord sparseVideo n).setWidth 9) 1 = 1 ∧
    periodCount 5 7 (fun n => receivedWord sparseBits 18 n != sentWord sparseVideo n) 1 = 2 := by
  refine ⟨sparse_case, ⟨fun n _ hn => decide_eq_false (by omega), fun n _ h1 h2 => ?_⟩, fun t ht => ?_,
    fun r r' hr hr' h => ?_, by decide, ⟨rfl, by rw [sparseRun_pix]; rfl⟩, fun r' h => ?_, ?_, ?_, ?_⟩
  · have h1 := of_decide_eq_true h1
    have h2 := of_decide_eq_false h2
    exact ⟨decide_eq_false (by omega), decide_eq_false (by omega), decide_eq_false (by omega)⟩
  · have : t % 2 = 0 := by simpa [sparseRun] using ht
    rw [sparseRun_pix]
    show (laneFrom Lane.reset sparseBits (t / 2)).charsync.data = _
    congr 3; omega
  · rw [sparseRun_pix, sparseRun_pix] at h
    rw [sparseRun_sys]
    have : r % 2 = 0 := by simpa [sparseRun] using hr
    omega
  · have := h.2
    rw [sparseRun_pix] at this
    omega
  · rw [sparseRun_sys]; omega
  · decide +kernel
  · decide +kernel

end Verif.Props
