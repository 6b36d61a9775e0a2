import Verif.Props.Receiver

/-!
# C109, C110, C111: transmission errors
-/

namespace Verif.Props

open Spec.Stream Spec.Tmds Spec.Serial Spec.Receiver Verif.VideoOut Verif.Receiver

/-- Some bit of the word of clock `n` on lane `i` arrives wrong. -/
def Hit (x : Nat → Phy) (k : Nat → Nat) (lead bits : Nat → Nat → Bool) (i n : Nat) : Prop :=
  ∃ j, j < 10 ∧ bits i (k i + 10 * (n + 4) + j) ≠ laneBits x k lead i (k i + 10 * (n + 4) + j)

/-- From clock `n0` on, only isolated bits of pixels arrive wrong: wrong bits of the same lane are at
least 40 bits apart.  Anything may have arrived before. -/
def IsolatedErrors (x : Nat → Phy) (k : Nat → Nat) (lead bits : Nat → Nat → Bool) (n0 : Nat) : Prop :=
  ∀ i n j, i < 3 → n0 ≤ n → j < 10 →
    bits i (k i + 10 * (n + 4) + j) ≠ laneBits x k lead i (k i + 10 * (n + 4) + j) →
    (x n).de = true ∧ ∀ d, 0 < d → d < 40 →
      bits i (k i + 10 * (n + 4) + j + d) = laneBits x k lead i (k i + 10 * (n + 4) + j + d)

theorem receivedWord_of_bits {bits bits' : Nat → Bool} {k n : Nat}
    (h : ∀ j, j < 10 → bits (k + 10 * (n + 4) + j) = bits' (k + 10 * (n + 4) + j)) :
    receivedWord bits k n = receivedWord bits' k n := by
  apply BitVec.eq_of_getLsbD_eq
  intro j hj
  rw [receivedWord, receivedWord, CharSync.getLsbD_wordAt _ _ _ hj, CharSync.getLsbD_wordAt _ _ _ hj]
  exact h j hj

/-- The word of a clock that is not hit. -/
theorem not_hit {x : Nat → Phy} {k : Nat → Nat} {lead bits : Nat → Nat → Bool} {i n : Nat}
    (h : ¬ Hit x k lead bits i n) :
    receivedWord (bits i) (k i) n = sentWord (fun u => lane i (x u)) n := by
  rw [receivedWord_of_bits (bits' := laneBits x k lead i)]
  · exact intact_serialise _ _ _ n
  · intro j hj
    exact Classical.byContradiction fun hne => h ⟨j, hj, hne⟩

/-- A pixel word with one wrong bit is not a control word. -/
theorem word_flip : ∀ (d : BitVec 8) (b : Bool) (j : Fin 10),
    Encoder.word (Encoder.qm d) b ^^^ BitVec.twoPow 10 j.val ∉ tokens := by
  have h : ∀ w ∈ tokens, ∀ (j : Fin 10) (d : BitVec 8) (b : Bool),
      Encoder.word (Encoder.qm d) b ^^^ BitVec.twoPow 10 j.val ≠ w := by
    decide +kernel
  exact fun d b j hw => h _ hw j d b rfl

theorem isolated_only_pixels {x : Nat → Phy} {k : Nat → Nat} {lead bits : Nat → Nat → Bool} {n0 : Nat}
    (h : IsolatedErrors x k lead bits n0) (i : Nat) (hi : i < 3) :
    OnlyPixelErrors (fun u => lane i (x u)) (k i) (bits i) n0 where
  blanking := fun n hn hd => by
    refine not_hit (lead := lead) ?_
    rintro ⟨j, hj, hne⟩
    have := (h i n j hi hn hj hne).1
    rw [lane_de, this] at hd
    exact absurd hd (by decide)
  pixels := fun n hn hd => by
    by_cases hh : Hit x k lead bits i n
    · obtain ⟨j, hj, hne⟩ := hh
      obtain ⟨b, hw⟩ : ∃ b, sentWord (fun u => lane i (x u)) n =
          Encoder.word (Encoder.qm (lane i (x n)).d) b := by
        rcases Encoder.run_out_cases (fun u => lane i (x u)) n with ⟨-, b, hw⟩ | ⟨hde, -⟩
        · exact ⟨b, hw⟩
        · rw [hd] at hde; exact absurd hde (by decide)
      have e : receivedWord (bits i) (k i) n =
          sentWord (fun u => lane i (x u)) n ^^^ BitVec.twoPow 10 j := by
        rw [← intact_serialise _ (k i) (lead i) n]
        apply BitVec.eq_of_getLsbD_eq
        intro m hm
        rw [BitVec.getLsbD_xor, receivedWord, receivedWord, CharSync.getLsbD_wordAt _ _ _ hm,
          CharSync.getLsbD_wordAt _ _ _ hm, BitVec.getLsbD_twoPow, decide_eq_true hj, Bool.true_and]
        show _ = (laneBits x k lead i _ ^^ _)
        rcases Nat.lt_trichotomy m j with hlt | rfl | hgt
        · rw [decide_eq_false (by omega), Bool.xor_false]
          refine Classical.byContradiction fun hne' => hne ?_
          have := (h i n m hi hn hm hne').2 (j - m) (by omega) (by omega)
          rwa [show k i + 10 * (n + 4) + m + (j - m) = k i + 10 * (n + 4) + j by omega] at this
        · rw [decide_eq_true rfl, Bool.xor_true]
          revert hne
          cases bits i _ <;> cases laneBits x k lead i _ <;> simp
        · rw [decide_eq_false (by omega), Bool.xor_false]
          have := (h i n j hi hn hj hne).2 (m - j) (by omega) (by omega)
          rwa [show k i + 10 * (n + 4) + j + (m - j) = k i + 10 * (n + 4) + m by omega] at this
      rw [e, hw]
      exact word_flip _ b ⟨j, hj⟩
    · rw [not_hit hh]
      exact (C03_data_words _ n hd).1
  rare := fun n hn => by
    -- the words after a hit word
    have after : ∀ m, n0 ≤ m → Hit x k lead bits i m → ∀ u, u < 3 → ¬ Hit x k lead bits i (m + 1 + u) := by
      rintro m hm ⟨j, hj, hne⟩ u hu ⟨j', hj', hne'⟩
      have := (h i m j hi hm hj hne).2 (10 * (1 + u) + j' - j) (by omega) (by omega)
      rw [show k i + 10 * (m + 4) + j + (10 * (1 + u) + j' - j) =
        k i + 10 * (m + 1 + u + 4) + j' by omega] at this
      exact hne' this
    by_cases h0 : Hit x k lead bits i n
    · exact ⟨n + 1, by omega, by omega, fun u hu => not_hit (after n hn h0 u hu)⟩
    by_cases h1 : Hit x k lead bits i (n + 1)
    · exact ⟨n + 2, by omega, by omega, fun u hu => not_hit (after (n + 1) (by omega) h1 u hu)⟩
    by_cases h2 : Hit x k lead bits i (n + 2)
    · exact ⟨n + 3, by omega, by omega, fun u hu => not_hit (after (n + 2) (by omega) h2 u hu)⟩
    refine ⟨n, by omega, by omega, fun u hu => ?_⟩
    have : u = 0 ∨ u = 1 ∨ u = 2 := by omega
    rcases this with rfl | rfl | rfl
    · exact not_hit h0
    · exact not_hit h1
    · exact not_hit h2

/-- **C109** Bit errors in pixels damage the colours they hit and nothing else.  After anything at all
before clock `n0`, ten blanking clocks, a line of at least 15 pixels and the end of another line `e`, as
long as wrong bits of the same lane are at least 40 bits apart and in active video: the outputs of the
receiver are the transmitter's video, with the syncs made active-high, except for the colours whose
words were hit. -/
theorem C109_bit_errors (s0 : Receiver.State) (hs0 : Registers s0) (x : Nat → Phy) (k : Nat → Nat)
    (lead bits : Nat → Nat → Bool) (n0 f g : Nat) (herr : IsolatedErrors x k lead bits n0)
    (tr : Training x n0 f g) (hskew : ∀ i j, i < 3 → j < 3 → k i ≤ k j + 70)
    (ph pv : Bool) (e : Nat) (he : g ≤ e) (std : StandardSyncs x ph pv e) :
    ∃ L, (∀ i, i < 3 → k i / 10 + 2 ≤ L ∧ L ≤ k i / 10 + 23) ∧ ∀ n, e < n →
      let out := (rxOn s0 bits (n + L)).pol
      out.valid_o = true ∧ Analysis.SyncPolarity.de out = (x n).de ∧
      ((x n).de = true →
        (¬ Hit x k lead bits 2 n → out.r = (x n).r) ∧ (¬ Hit x k lead bits 1 n → out.g = (x n).g) ∧
        (¬ Hit x k lead bits 0 n → out.b = (x n).b)) ∧
      Analysis.SyncPolarity.hsync out = ((x n).hsync ^^ ph) ∧
      Analysis.SyncPolarity.vsync out = ((x n).vsync ^^ pv) := by
  obtain ⟨L, hL, h⟩ := C109_video s0 hs0 x k bits n0 f g (fun i hi => isolated_only_pixels herr i hi)
    tr hskew ph pv e he std
  refine ⟨L, hL, fun n hn => ?_⟩
  obtain ⟨h1, h2, h3, h4⟩ := h n hn
  exact ⟨h1, h2, fun hd => ⟨fun hh => (h3 hd).1 (not_hit hh), fun hh => (h3 hd).2.1 (not_hit hh),
    fun hh => (h3 hd).2.2 (not_hit hh)⟩, h4⟩

/-- **C110** All errors are forgotten.  Whatever arrives before clock `n0`, if the lanes arrive intact
from then on the receiver reproduces the video after ten blanking clocks, a line of at least 15 pixels
and the end of another line. -/
theorem C110_forgotten (s0 : Receiver.State) (hs0 : Registers s0) (x : Nat → Phy) (k : Nat → Nat)
    (lead bits : Nat → Nat → Bool) (n0 f g : Nat)
    (hbits : ∀ i p, i < 3 → k i + 10 * (n0 + 4) ≤ p → bits i p = laneBits x k lead i p)
    (tr : Training x n0 f g) (hskew : ∀ i j, i < 3 → j < 3 → k i ≤ k j + 70)
    (ph pv : Bool) (e : Nat) (he : g ≤ e) (std : StandardSyncs x ph pv e) :
    ∃ L, (∀ i, i < 3 → k i / 10 + 2 ≤ L ∧ L ≤ k i / 10 + 23) ∧ ∀ n, e < n →
      let out := (rxOn s0 bits (n + L)).pol
      out.valid_o = true ∧ Analysis.SyncPolarity.de out = (x n).de ∧
      ((x n).de = true → out.r = (x n).r ∧ out.g = (x n).g ∧ out.b = (x n).b) ∧
      Analysis.SyncPolarity.hsync out = ((x n).hsync ^^ ph) ∧
      Analysis.SyncPolarity.vsync out = ((x n).vsync ^^ pv) := by
  have hno : ∀ i n j, i < 3 → n0 ≤ n →
      bits i (k i + 10 * (n + 4) + j) = laneBits x k lead i (k i + 10 * (n + 4) + j) :=
    fun i n j hi hn => hbits i _ hi (by omega)
  obtain ⟨L, hL, h⟩ := C109_bit_errors s0 hs0 x k lead bits n0 f g
    (fun i n j hi hn _ hne => absurd (hno i n j hi hn) hne) tr hskew ph pv e he std
  refine ⟨L, hL, fun n hn => ?_⟩
  have hn0 : n0 ≤ n := by have := tr.later; have := tr.long; omega
  obtain ⟨h1, h2, h3, h4⟩ := h n hn
  exact ⟨h1, h2, fun hd => ⟨(h3 hd).1 fun ⟨j, _, hne⟩ => hne (hno 2 n j (by omega) hn0),
    (h3 hd).2.1 fun ⟨j, _, hne⟩ => hne (hno 1 n j (by omega) hn0),
    (h3 hd).2.2 fun ⟨j, _, hne⟩ => hne (hno 0 n j (by omega) hn0)⟩, h4⟩

/-- **C111** What a damaged control word does.  The receiver can keep the word boundary (`LaneWords`), and
shows the video correctly up to clock `e`; at clock `e` the words that arrive on the three lanes disagree on whether it is a blanking clock, because
some of them are damaged.  Then the outputs for the next clock, `e + 1`, are flagged invalid, even though
it arrives intact. -/
theorem C111_disagree (s0 : Receiver.State) (hs0 : Registers s0) (x : Nat → Phy) (k : Nat → Nat)
    (bits : Nat → Nat → Bool) (n0 f g e : Nat)
    (herr : ∀ i, i < 3 → LaneWords (k i) (bits i) n0)
    (hagree : ∀ n, n0 + 10 ≤ n → n < e → LanesAgree x k bits n)
    (tr : Training x n0 f g) (hskew : ∀ i j, i < 3 → j < 3 → k i ≤ k j + 70) (he : g + 15 ≤ e)
    (i j : Nat) (hi : i < 3) (hj : j < 3) (hctl : receivedWord (bits i) (k i) e ∈ tokens)
    (hpix : receivedWord (bits j) (k j) e ∉ tokens) :
    ∃ L, (∀ i, i < 3 → k i / 10 + 2 ≤ L ∧ L ≤ k i / 10 + 23) ∧
      (∀ n, g ≤ n → n < e → (g < n → (rxOn s0 bits (n + L)).pol.valid_o = true) ∧
        Analysis.SyncPolarity.de (rxOn s0 bits (n + L)).pol = (x n).de) ∧
      (rxOn s0 bits (e + 1 + L)).pol.valid_o = false := by
  obtain ⟨T, hT, hd⟩ := rx_chan_synced hs0 herr tr hskew (fun m h1 h2 => hagree m h1 (by omega))
  have hT0 := hT 0 (by omega)
  have hn0 : n0 + 10 ≤ g := by have := tr.later; have := tr.long; omega
  refine ⟨T + 1 - g, fun i hi => by have := hT i hi; omega, fun n h1 h2 => ?_, ?_⟩
  · obtain ⟨u, rfl⟩ : ∃ u, n = g + u := ⟨n - g, by omega⟩
    obtain ⟨a, b, -⟩ := hd u (fun m h1 h2 => hagree m h1 (by omega))
    rw [show g + u + (T + 1 - g) = T + u + 1 by omega]
    refine ⟨fun h => b (by omega), ?_⟩
    show (ChanSync.dataOut (rxOn s0 bits (T + u)).chan 0).de = _
    rw [a 0 (by omega)]
    exact chan_word_de hs0 herr 0 (g + u) (by omega) (hagree _ (by omega) (by omega))
  · obtain ⟨u, rfl⟩ : ∃ u, e = g + u := ⟨e - g, by omega⟩
    obtain ⟨a, -, v0, v1, v2⟩ := hd u (fun m h1 h2 => hagree m h1 (by omega))
    rw [show g + u + 1 + (T + 1 - g) = T + u + 1 + 1 by omega]
    show (ChanSync.step 3 8 (rxOn s0 bits (T + u)).chan (chanIn (rxOn s0 bits (T + u)))).chan_synced = false
    have hw : ∀ i, i < 3 → ((ChanSync.dataOut (rxOn s0 bits (T + u)).chan i).de = true ↔
        receivedWord (bits i) (k i) (g + u) ∉ tokens) := by
      intro i hi
      have := (chan_word hs0 herr i (g + u) (by omega)).2.1
      rw [show min i 2 = i by omega] at this
      rw [a i hi]
      unfold chanWord
      rw [show min i 2 = i by omega]
      exact this
    have hsome : ChanSync.someControl 3 (rxOn s0 bits (T + u)).chan = true := by
      rw [ChanSync.someControl_iff]
      refine ⟨i, hi, ?_⟩
      rw [← Bool.not_eq_true, hw i hi]
      exact fun h => h hctl
    have hall : ChanSync.allControl 3 (rxOn s0 bits (T + u)).chan = false := by
      rw [← Bool.not_eq_true, ChanSync.allControl_iff]
      intro h
      have := h j hj
      rw [(hw j hj).2 hpix] at this
      exact absurd this (by decide)
    have hval : (chanIn (rxOn s0 bits (T + u))).valid_i = true := by
      show ((rxOn s0 bits _).lane0.decod.valid_o && (rxOn s0 bits _).lane1.decod.valid_o &&
        (rxOn s0 bits _).lane2.decod.valid_o) = true
      rw [v0, v1, v2]; rfl
    simp only [ChanSync.step, hval, hsome, hall]
    rfl

/-- **C111**, the property as stated: when a single clock is damaged, all others are shown
correctly. -/
def C111_statement : Prop :=
  ∀ (s0 : Receiver.State), Registers s0 → ∀ (x : Nat → Phy) (k : Nat → Nat)
    (lead bits : Nat → Nat → Bool) (n0 f g e : Nat), Training x n0 f g →
    (∀ i j, i < 3 → j < 3 → k i ≤ k j + 70) → g + 40 ≤ e →
    (∀ i n, i < 3 → n0 ≤ n → n ≠ e → ¬ Hit x k lead bits i n) →
    ∃ L, (∀ i, i < 3 → k i / 10 + 2 ≤ L ∧ L ≤ k i / 10 + 23) ∧
      ∀ n, g < n → n ≠ e → (rxOn s0 bits (n + L)).pol.valid_o = true ∧
        Analysis.SyncPolarity.de (rxOn s0 bits (n + L)).pol = (x n).de

/-- The example of C80 with one wrong bit on lane 1, the first bit of clock 158, in blanking. -/
def damagedBits (i p : Nat) : Bool :=
  laneBits rxVideo rxDelay (fun _ _ => true) i p ^^ (i == 1 && p == 28 + 10 * (158 + 4))

theorem damaged_hit (i n : Nat) (h : Hit rxVideo rxDelay (fun _ _ => true) damagedBits i n) :
    i = 1 ∧ n = 158 := by
  obtain ⟨j, hj, hne⟩ := h
  unfold damagedBits at hne
  by_cases hc : (i == 1 && rxDelay i + 10 * (n + 4) + j == 28 + 10 * (158 + 4)) = true
  · simp only [Bool.and_eq_true, beq_iff_eq] at hc
    obtain ⟨rfl, hc⟩ := hc
    have : rxDelay 1 = 28 := rfl
    omega
  · rw [Bool.not_eq_true] at hc
    rw [hc, Bool.xor_false] at hne
    exact absurd rfl hne

theorem rxDelay_skew (i j : Nat) (hi : i < 3) (hj : j < 3) : rxDelay i ≤ rxDelay j + 70 := by
  have : ∀ i, i < 3 → ∀ j, j < 3 → rxDelay i ≤ rxDelay j + 70 := by decide
  exact this i hi j hj

theorem damaged_lane (i : Nat) (_ : i < 3) : LaneWords (rxDelay i) (damagedBits i) 0 where
  training := fun n _ h => by
    have hd : (lane i (rxVideo n)).de = false := by rw [lane_de]; exact decide_eq_false (by omega)
    exact blanking_token (i := fun u => lane i (rxVideo u))
      (not_hit fun hh => by have := (damaged_hit i n hh).2; omega) hd
  often := fun n _ => by
    have htok : ∀ m, m ≠ 158 → (rxVideo m).de = false →
        receivedWord (damagedBits i) (rxDelay i) m ∈ tokens := fun m hm hd =>
      blanking_token (i := fun u => lane i (rxVideo u)) (not_hit fun h => hm (damaged_hit i m h).2)
        (by rw [lane_de]; exact hd)
    have good : ∀ m, m ≠ 158 → TmdsAt (receivedWord (damagedBits i) (rxDelay i)) m := by
      intro m hm
      cases hd : (rxVideo m).de
      · left
        refine ⟨htok m hm hd, ?_⟩
        have hd := of_decide_eq_false hd
        by_cases h1 : m % 48 = 27 ∨ m = 157
        · exact .inl ⟨by omega, htok _ (by omega) (decide_eq_false (by omega))⟩
        · exact .inr (htok _ (by omega) (decide_eq_false (by omega)))
      · right
        rw [not_hit fun h => hm (damaged_hit i m h).2]
        exact (C03_data_words _ _ (by rw [lane_de]; exact hd)).2.2
    by_cases h : n ≤ 158 ∧ 158 ≤ n + 2
    · exact ⟨159, by omega, by omega, good _ (by omega), good _ (by omega), good _ (by omega)⟩
    · exact ⟨n, by omega, by omega, good _ (by omega), good _ (by omega), good _ (by omega)⟩

theorem damaged_agree (n : Nat) (hn : n < 158) : LanesAgree rxVideo rxDelay damagedBits n := by
  intro i _
  rw [not_hit fun h => by have := (damaged_hit i n h).2; omega]
  constructor
  · intro ht
    cases hd : (rxVideo n).de
    · rfl
    · exact absurd ht (C03_data_words _ n (by rw [lane_de]; exact hd)).1
  · exact fun hd => List.mem_of_getElem? (C03_control_words (fun u => lane i (rxVideo u)) n
      (by rw [lane_de]; exact hd))

/-- The property does not hold: one wrong bit in blanking makes the next clock invalid. -/
theorem C111_violated : ¬ C111_statement := by
  intro h
  obtain ⟨L, hL, hall⟩ := h Receiver.reset reset_registers rxVideo rxDelay (fun _ _ => true) damagedBits
    0 28 48 158 rxVideo_training rxDelay_skew (by omega)
    (fun i n _ _ hn hh => hn (damaged_hit i n hh).2)
  have h0 : receivedWord (damagedBits 0) (rxDelay 0) 158 ∈ tokens := by
    rw [not_hit (x := rxVideo) (k := rxDelay) (lead := fun _ _ => true)
      (fun hh => absurd (damaged_hit 0 158 hh).1 (by decide))]
    exact List.mem_of_getElem? (C03_control_words _ 158 rfl)
  have h1 : receivedWord (damagedBits 1) (rxDelay 1) 158 ∉ tokens := by
    have e : receivedWord (damagedBits 1) (rxDelay 1) 158 = 0b1101010101#10 := by
      have hs : sentWord (fun u => lane 1 (rxVideo u)) 158 = 0b1101010100#10 := by
        have := C03_control_words (fun u => lane 1 (rxVideo u)) 158 rfl
        exact (Option.some.inj this).symm
      rw [← intact_serialise _ (rxDelay 1) (fun _ => true) 158] at hs
      apply BitVec.eq_of_getLsbD_eq
      intro j hj
      have hs := congrArg (fun w => w.getLsbD j) hs
      simp only [receivedWord] at hs ⊢
      rw [CharSync.getLsbD_wordAt _ _ _ hj] at hs ⊢
      show (laneBits rxVideo rxDelay (fun _ _ => true) 1 _ ^^ _) = _
      unfold laneBits
      rw [hs]
      have : ∀ j, j < 10 → ((0b1101010100#10).getLsbD j ^^
          (1 == 1 && rxDelay 1 + 10 * (158 + 4) + j == 28 + 10 * (158 + 4))) =
          (0b1101010101#10).getLsbD j := by decide
      exact this j hj
    rw [e]
    decide
  obtain ⟨L0, hL0, hok, hbad⟩ := C111_disagree Receiver.reset reset_registers rxVideo rxDelay damagedBits
    0 28 48 158 damaged_lane (fun n _ h => damaged_agree n h) rxVideo_training rxDelay_skew (by omega) 0 1 (by omega) (by omega) h0 h1
  have a1 := hL 0 (by omega)
  have a2 := hL0 0 (by omega)
  by_cases hn : 159 + L0 - L = 158
  · -- the latencies would differ by one, but the last pixel of clock 143 fixes it
    have h3 := (hok 143 (by omega) (by omega)).2
    have h4 := (hall 142 (by omega) (by omega)).2
    rw [show 143 + L0 = 142 + L by omega, h4] at h3
    have h5 := (hok 144 (by omega) (by omega)).2
    have h6 := (hall 143 (by omega) (by omega)).2
    rw [show 144 + L0 = 143 + L by omega, h6] at h5
    exact absurd h5 (by decide)
  · have := (hall (159 + L0 - L) (by omega) hn).1
    rw [show 159 + L0 - L + L = 158 + 1 + L0 by omega, hbad] at this
    exact absurd this (by decide)

/-! ### A concrete case -/

/-- The example of C80 with wrong bits on lane 1 in the pixels of clocks 172 and 176, and with nothing
but ones before it. -/
def flippedBits (i p : Nat) : Bool :=
  laneBits rxVideo rxDelay (fun _ _ => true) i p ^^
    (i == 1 && (p == 28 + 10 * (172 + 4) + 3 || p == 28 + 10 * (176 + 4) + 7))

example : IsolatedErrors rxVideo rxDelay (fun _ _ => true) flippedBits 0 := by
  intro i n j hi _ hj hne
  have key : i = 1 ∧ (28 + 10 * (n + 4) + j = 28 + 10 * (172 + 4) + 3 ∨
      28 + 10 * (n + 4) + j = 28 + 10 * (176 + 4) + 7) := by
    apply Classical.byContradiction
    intro hc
    apply hne
    unfold flippedBits
    by_cases h1 : i = 1
    · subst h1
      have hd : rxDelay 1 = 28 := rfl
      rw [hd]
      have e1 : (28 + 10 * (n + 4) + j == 28 + 10 * (172 + 4) + 3) = false :=
        beq_false_of_ne fun h => hc ⟨rfl, .inl h⟩
      have e2 : (28 + 10 * (n + 4) + j == 28 + 10 * (176 + 4) + 7) = false :=
        beq_false_of_ne fun h => hc ⟨rfl, .inr h⟩
      rw [e1, e2]; simp
    · rw [beq_false_of_ne h1, Bool.false_and, Bool.xor_false]
  obtain ⟨rfl, hp⟩ := key
  refine ⟨decide_eq_true (by rcases hp with h | h <;> omega), fun d hd1 hd2 => ?_⟩
  unfold flippedBits
  have hd : rxDelay 1 = 28 := rfl
  rw [hd]
  have e1 : (28 + 10 * (n + 4) + j + d == 28 + 10 * (172 + 4) + 3) = false :=
    beq_false_of_ne (by omega)
  have e2 : (28 + 10 * (n + 4) + j + d == 28 + 10 * (176 + 4) + 7) = false :=
    beq_false_of_ne (by omega)
  rw [e1, e2]; simp

end Verif.Props
