import Verif.Props.Errors

/-!
# C112: transmission errors that change the syncs
-/

namespace Verif.Props

open Spec.Stream Spec.Tmds Spec.Serial Spec.Receiver Verif.VideoOut Verif.Receiver

/-- The last line end before a clock. -/
theorem last_line_end {x : Nat → Phy} {e : Nat} (h : LineEnd x e) (j : Nat) :
    ∃ e' i, e ≤ e' ∧ e' + i = e + j ∧ LineEnd x e' ∧ ∀ u, u < i → ¬ LineEnd x (e' + 1 + u) := by
  induction j with
  | zero => exact ⟨e, 0, Nat.le_refl _, rfl, h, fun u hu => absurd hu (Nat.not_lt_zero _)⟩
  | succ j ih =>
    obtain ⟨e', i, g1, g2, g3, g4⟩ := ih
    by_cases hl : LineEnd x (e' + 1 + i)
    · exact ⟨e + (j + 1), 0, by omega, rfl, by rw [show e + (j + 1) = e' + 1 + i by omega]; exact hl,
        fun u hu => absurd hu (Nat.not_lt_zero _)⟩
    · refine ⟨e', i + 1, g1, by omega, g3, fun u hu => ?_⟩
      rcases Nat.lt_succ_iff_lt_or_eq.mp hu with h | h
      · exact g4 u h
      · rw [h]; exact hl

theorem intact_bits {x : Nat → Phy} {k : Nat → Nat} {bits : Nat → Nat → Bool} {n : Nat}
    (h : receivedWord (bits 0) (k 0) n = sentWord (fun u => lane 0 (x u)) n) (hd : (x n).de = false) :
    (controlBits (receivedWord (bits 0) (k 0) n)).getLsbD 0 = (x n).hsync ∧
    (controlBits (receivedWord (bits 0) (k 0) n)).getLsbD 1 = (x n).vsync := by
  rw [h, controlBits_sent (fun u => lane 0 (x u)) n hd]
  have hbits : ∀ h v : Bool, (BitVec.ofBool v ++ BitVec.ofBool h).getLsbD 0 = h ∧
      (BitVec.ofBool v ++ BitVec.ofBool h).getLsbD 1 = v := by decide
  exact hbits _ _

/-- **C112** Errors that damage pixels and syncs, but do not turn one into the other, stay where they are,
as long as the first control word after each line arrives intact on lane 0.  The three lanes are damaged
as in `KindErrors`; the syncs are standard from the end of line `e` on.  After lock, every clock `n` from
then on is shown with the right data-enable, with the right colours where the words arrived intact, and
with the right syncs if the word of the last blanking clock `b` (`n` itself, in blanking) arrived intact
on lane 0. -/
theorem C112_partial (s0 : Receiver.State) (hs0 : Registers s0) (x : Nat → Phy)
    (k : Nat → Nat) (bits : Nat → Nat → Bool) (n0 f g : Nat)
    (herr : ∀ i, i < 3 → KindErrors (fun u => lane i (x u)) (k i) (bits i) n0)
    (tr : Training x n0 f g) (hskew : ∀ i j, i < 3 → j < 3 → k i ≤ k j + 70)
    (ph pv : Bool) (e : Nat) (he : g ≤ e) (std : StandardSyncs x ph pv e)
    (hfirst : ∀ n, e ≤ n → LineEnd x n →
      receivedWord (bits 0) (k 0) (n + 1) = sentWord (fun u => lane 0 (x u)) (n + 1)) :
    ∃ L, (∀ i, i < 3 → k i / 10 + 2 ≤ L ∧ L ≤ k i / 10 + 23) ∧ ∀ n, e < n →
      let out := (rxOn s0 bits (n + L)).pol
      out.valid_o = true ∧ Analysis.SyncPolarity.de out = (x n).de ∧
      ((x n).de = true →
        (receivedWord (bits 2) (k 2) n = sentWord (fun u => lane 2 (x u)) n → out.r = (x n).r) ∧
        (receivedWord (bits 1) (k 1) n = sentWord (fun u => lane 1 (x u)) n → out.g = (x n).g) ∧
        (receivedWord (bits 0) (k 0) n = sentWord (fun u => lane 0 (x u)) n → out.b = (x n).b)) ∧
      ∀ b, e < b → b ≤ n → (x b).de = false → (∀ m, b < m → m ≤ n → (x m).de = true) →
        receivedWord (bits 0) (k 0) b = sentWord (fun u => lane 0 (x u)) b →
        Analysis.SyncPolarity.hsync out = ((x n).hsync ^^ ph) ∧
        Analysis.SyncPolarity.vsync out = ((x n).vsync ^^ pv) := by
  have hagree := kind_agree herr
  have hn0 : n0 + 10 ≤ g := by have := tr.later; have := tr.long; omega
  obtain ⟨L, hL, h1, h2, h3⟩ := C112_received s0 hs0 x k bits n0 f g (kind_words herr tr)
    (fun n hn => hagree n (by omega)) tr hskew
  refine ⟨L, hL, fun n hn => ?_⟩
  obtain ⟨va, vd, vr, vg, vb⟩ := h1 n (by omega)
  have dec : ∀ i, (lane i (x n)).de = true →
      receivedWord (bits i) (k i) n = sentWord (fun u => lane i (x u)) n →
      decodeByte (receivedWord (bits i) (k i) n) = (lane i (x n)).d := by
    intro i hd hw
    rw [hw]
    exact decode_sent (fun u => lane i (x u)) n hd
  refine ⟨va (by omega), vd, fun hd => ⟨fun hw => vr.trans (dec 2 hd hw), fun hw => vg.trans (dec 1 hd hw),
    fun hw => vb.trans (dec 0 hd hw)⟩, fun b hb hbn hbd hact hw => ?_⟩
  clear va vd vr vg vb dec hn
  obtain ⟨j, rfl⟩ : ∃ j, n = b + j := ⟨n - b, by omega⟩
  clear hbn
  induction j with
  | zero =>
    obtain ⟨e', i, g1, g2, g3, g4⟩ := last_line_end std.ends (b - e - 1)
    have := h2 e' i (by omega) g3 g4 (by rw [← hbd]; congr 2; omega)
    rw [show e' + 1 + i = b by omega, (intact_bits hw hbd).1, (intact_bits hw hbd).2,
      (intact_bits (hfirst e' g1 g3) g3.2).1, (intact_bits (hfirst e' g1 g3) g3.2).2,
      (std.idle e' g1 g3).1, (std.idle e' g1 g3).2] at this
    exact this
  | succ j ih =>
    have ih := ih fun m hm1 hm2 => hact m hm1 (by omega)
    have hd := hact (b + (j + 1)) (by omega) (by omega)
    have := h3 (b + j) (by omega) hd
    have hh := std.hold (b + j) (by omega) hd
    rw [show b + (j + 1) = b + j + 1 by omega, this.1, this.2, ih.1, ih.2, hh.1, hh.2]
    exact ⟨rfl, rfl⟩

/-- **C112** What a wrong first control word after a line does.  A line ends at clock `e`, and the next
word of lane 0 arrives as another control word than was sent.  Then the syncs of the whole blanking
interval are shown relative to the wrong levels: in every clock that arrives intact, each sync that was
damaged is shown inverted, up to the next line. -/
theorem C112_inverted (s0 : Receiver.State) (hs0 : Registers s0) (x : Nat → Phy)
    (k : Nat → Nat) (bits : Nat → Nat → Bool) (n0 f g : Nat)
    (herr : ∀ i, i < 3 → KindErrors (fun u => lane i (x u)) (k i) (bits i) n0)
    (tr : Training x n0 f g) (hskew : ∀ i j, i < 3 → j < 3 → k i ≤ k j + 70) :
    ∃ L, (∀ i, i < 3 → k i / 10 + 2 ≤ L ∧ L ≤ k i / 10 + 23) ∧
      ∀ e j, g ≤ e → LineEnd x e → (∀ u, u ≤ j → (x (e + 1 + u)).de = false) →
        receivedWord (bits 0) (k 0) (e + 1 + j) = sentWord (fun u => lane 0 (x u)) (e + 1 + j) →
        ∀ dh dv, controlBits (receivedWord (bits 0) (k 0) (e + 1)) =
          BitVec.ofBool ((x (e + 1)).vsync ^^ dv) ++ BitVec.ofBool ((x (e + 1)).hsync ^^ dh) →
        let out := (rxOn s0 bits (e + 1 + j + L)).pol
        Analysis.SyncPolarity.hsync out = ((x (e + 1 + j)).hsync ^^ (x (e + 1)).hsync ^^ dh) ∧
        Analysis.SyncPolarity.vsync out = ((x (e + 1 + j)).vsync ^^ (x (e + 1)).vsync ^^ dv) := by
  have hagree := kind_agree herr
  obtain ⟨L, hL, -, h2, -⟩ := C112_received s0 hs0 x k bits n0 f g (kind_words herr tr)
    (fun n hn => hagree n (by omega)) tr hskew
  refine ⟨L, hL, fun e j he hend hblank hw dh dv hdam => ?_⟩
  have := h2 e j he hend (fun u hu h => by
    rw [LineEnd, hblank u (by omega)] at h
    exact absurd h.1 (by decide)) (hblank j (Nat.le_refl _))
  rw [(intact_bits hw (hblank j (Nat.le_refl _))).1, (intact_bits hw (hblank j (Nat.le_refl _))).2,
    hdam] at this
  have hbits : ∀ h v : Bool, (BitVec.ofBool v ++ BitVec.ofBool h).getLsbD 0 = h ∧
      (BitVec.ofBool v ++ BitVec.ofBool h).getLsbD 1 = v := by decide
  rw [(hbits _ _).1, (hbits _ _).2] at this
  exact ⟨this.1.trans (Bool.xor_assoc _ _ _).symm, this.2.trans (Bool.xor_assoc _ _ _).symm⟩

/-- **C112**, the property as stated: when a single control word of lane 0 arrives as another control
word, the syncs of all other blanking clocks are shown correctly. -/
def C112_statement : Prop :=
  ∀ (s0 : Receiver.State), Registers s0 → ∀ (x : Nat → Phy) (k : Nat → Nat)
    (lead bits : Nat → Nat → Bool) (n0 f g c : Nat), Training x n0 f g →
    (∀ i j, i < 3 → j < 3 → k i ≤ k j + 70) → g + 40 ≤ c → (x c).de = false →
    receivedWord (bits 0) (k 0) c ∈ tokens →
    (∀ i n, i < 3 → n0 ≤ n → Hit x k lead bits i n → i = 0 ∧ n = c) →
    ∀ (ph pv : Bool) (e : Nat), g ≤ e → StandardSyncs x ph pv e →
    ∃ L, (∀ i, i < 3 → k i / 10 + 2 ≤ L ∧ L ≤ k i / 10 + 23) ∧
      ∀ n, e < n → n ≠ c → (x n).de = false →
        Analysis.SyncPolarity.hsync (rxOn s0 bits (n + L)).pol = ((x n).hsync ^^ ph) ∧
        Analysis.SyncPolarity.vsync (rxOn s0 bits (n + L)).pol = ((x n).vsync ^^ pv)

/-- A single control word that arrives as another control word. -/
theorem one_kind {x : Nat → Phy} {k : Nat → Nat} {lead bits : Nat → Nat → Bool} {n0 c : Nat}
    (hd : (x c).de = false) (ht : receivedWord (bits 0) (k 0) c ∈ tokens)
    (h : ∀ i n, i < 3 → n0 ≤ n → Hit x k lead bits i n → i = 0 ∧ n = c) (i : Nat) (hi : i < 3) :
    KindErrors (fun u => lane i (x u)) (k i) (bits i) n0 where
  blanking := fun n hn hde => by
    by_cases hh : Hit x k lead bits i n
    · obtain ⟨rfl, rfl⟩ := h i n hi hn hh
      exact ht
    · exact blanking_token (not_hit hh) hde
  pixels := fun n hn hde => by
    by_cases hh : Hit x k lead bits i n
    · obtain ⟨rfl, rfl⟩ := h i n hi hn hh
      rw [lane_de, hd] at hde
      exact absurd hde (by decide)
    · rw [not_hit hh]
      exact (C03_data_words _ n hde).1
  rare := fun n hn => ⟨n, Nat.le_refl _, by omega, fun u _ hde => by
    by_cases hh : Hit x k lead bits i (n + u)
    · obtain ⟨rfl, rfl⟩ := h i (n + u) hi (by omega) hh
      rw [lane_de, hd] at hde
      exact absurd hde (by decide)
    · exact not_hit hh⟩

/-- The example of C80 with one wrong bit on lane 0: bit 9 of the word of clock `c`. -/
def wrongSyncBits (c i p : Nat) : Bool :=
  laneBits rxVideo rxDelay (fun _ _ => true) i p ^^ (i == 0 && p == 3 + 10 * (c + 4) + 9)

theorem wrongSync_hit (c i n : Nat) (h : Hit rxVideo rxDelay (fun _ _ => true) (wrongSyncBits c) i n) :
    i = 0 ∧ n = c := by
  obtain ⟨j, hj, hne⟩ := h
  unfold wrongSyncBits at hne
  by_cases hc : (i == 0 && rxDelay i + 10 * (n + 4) + j == 3 + 10 * (c + 4) + 9) = true
  · simp only [Bool.and_eq_true, beq_iff_eq] at hc
    obtain ⟨rfl, hc⟩ := hc
    have : rxDelay 0 = 3 := rfl
    omega
  · rw [Bool.not_eq_true] at hc
    rw [hc, Bool.xor_false] at hne
    exact absurd rfl hne

/-- What arrives instead of the control word of clock `c`: the one with the other vertical sync. -/
theorem wrongSync_word (c : Nat) (hd : (rxVideo c).de = false) :
    receivedWord (wrongSyncBits c 0) (rxDelay 0) c ∈ tokens ∧
    controlBits (receivedWord (wrongSyncBits c 0) (rxDelay 0) c) =
      BitVec.ofBool (!(rxVideo c).vsync) ++ BitVec.ofBool (rxVideo c).hsync := by
  have e : receivedWord (wrongSyncBits c 0) (rxDelay 0) c =
      sentWord (fun u => lane 0 (rxVideo u)) c ^^^ BitVec.twoPow 10 9 := by
    rw [← intact_serialise _ (rxDelay 0) (fun _ => true) c]
    apply BitVec.eq_of_getLsbD_eq
    intro m hm
    rw [BitVec.getLsbD_xor, receivedWord, receivedWord, CharSync.getLsbD_wordAt _ _ _ hm,
      CharSync.getLsbD_wordAt _ _ _ hm, BitVec.getLsbD_twoPow]
    show (laneBits rxVideo rxDelay (fun _ _ => true) 0 _ ^^ _) = (laneBits rxVideo rxDelay (fun _ _ => true) 0 _ ^^ _)
    congr 1
    have h3 : rxDelay 0 = 3 := rfl
    rw [h3]
    by_cases h9 : m = 9
    · subst h9; simp
    · rw [beq_false_of_ne (by omega : 3 + 10 * (c + 4) + m ≠ 3 + 10 * (c + 4) + 9),
        decide_eq_false (by omega : ¬ 9 = m)]
      simp
  have hs := C03_control_words (fun u => lane 0 (rxVideo u)) c hd
  have hc : (lane 0 (rxVideo c)).c = BitVec.ofBool (rxVideo c).vsync ++ BitVec.ofBool (rxVideo c).hsync := rfl
  rw [hc] at hs
  rw [e, sentWord]
  revert hs
  generalize encoderOut _ _ = w
  generalize (rxVideo c).vsync = v
  generalize (rxVideo c).hsync = h
  intro hs
  have : ∀ v h, ∀ w ∈ tokens[(BitVec.ofBool v ++ BitVec.ofBool h : BitVec 2).toNat]?,
      w ^^^ BitVec.twoPow 10 9 ∈ tokens ∧
      controlBits (w ^^^ BitVec.twoPow 10 9) = BitVec.ofBool (!v) ++ BitVec.ofBool h := by
    decide +kernel
  exact this v h w hs

/-- The property does not hold: one wrong bit in the first word after a line inverts the vertical sync
of the rest of the blanking interval. -/
theorem C112_violated : ¬ C112_statement := by
  intro h
  have hd : (rxVideo 144).de = false := rfl
  obtain ⟨ht, hb⟩ := wrongSync_word 144 hd
  have hhit : ∀ i n, i < 3 → 0 ≤ n →
      Hit rxVideo rxDelay (fun _ _ => true) (wrongSyncBits 144) i n → i = 0 ∧ n = 144 :=
    fun i n _ _ hh => wrongSync_hit 144 i n hh
  obtain ⟨L, hL, hall⟩ := h Receiver.reset reset_registers rxVideo rxDelay (fun _ _ => true)
    (wrongSyncBits 144) 0 28 48 144 rxVideo_training rxDelay_skew (by omega) hd ht hhit true false 95
    (by omega) rxVideo_standard
  obtain ⟨L0, hL0, hbad⟩ := C112_inverted Receiver.reset reset_registers rxVideo rxDelay
    (wrongSyncBits 144) 0 28 48 (one_kind hd ht hhit) rxVideo_training rxDelay_skew
  have a1 := hL 0 (by omega)
  have a2 := hL0 0 (by omega)
  have a3 := hL 2 (by omega)
  have a4 := hL0 2 (by omega)
  have k0 : rxDelay 0 = 3 := rfl
  have k2 : rxDelay 2 = 65 := rfl
  rw [k0] at a1 a2
  rw [k2] at a3 a4
  have blank : ∀ n, 144 ≤ n → n < 172 → (rxVideo n).de = false := by
    intro n h1 h2
    exact decide_eq_false (by omega)
  have novs : ∀ n, 144 ≤ n → n < 172 → (rxVideo n).vsync = false := by
    intro n h1 h2
    exact decide_eq_false (by omega)
  have bad : ∀ j, 1 ≤ j → j < 28 →
      Analysis.SyncPolarity.vsync (rxOn Receiver.reset (wrongSyncBits 144) (144 + j + L0)).pol = true := by
    intro j h1 h2
    have := (hbad 143 j (by omega) ⟨rfl, rfl⟩ (fun u hu => blank _ (by omega) (by omega))
      (not_hit fun hh => by have := (wrongSync_hit 144 0 _ hh).2; omega) false true (by
        show controlBits (receivedWord (wrongSyncBits 144 0) (rxDelay 0) 144) = _
        rw [hb, Bool.xor_true, Bool.xor_false])).2
    rw [show 143 + 1 + j = 144 + j by omega] at this
    rw [this, novs _ (by omega) (by omega), novs _ (by omega) (by omega)]
    rfl
  have good : ∀ n, 145 ≤ n → n < 172 →
      Analysis.SyncPolarity.vsync (rxOn Receiver.reset (wrongSyncBits 144) (n + L)).pol = false := by
    intro n h1 h2
    rw [(hall n (by omega) (by omega) (blank n (by omega) h2)).2, novs n (by omega) h2]
    rfl
  rcases Nat.le_total L L0 with hle | hle
  · have g1 := good (145 + (L0 - L)) (by omega) (by omega)
    have b1 := bad 1 (by omega) (by omega)
    rw [show 145 + (L0 - L) + L = 144 + 1 + L0 by omega, b1] at g1
    exact absurd g1 (by decide)
  · have g1 := good (171 - (L - L0)) (by omega) (by omega)
    have b1 := bad 27 (by omega) (by omega)
    rw [show 171 - (L - L0) + L = 144 + 27 + L0 by omega, b1] at g1
    exact absurd g1 (by decide)

/-! ### A concrete case -/

/-- The hypotheses of `C112_partial` are met by the example with a wrong vertical sync at clock 160. -/
example : (∀ i, i < 3 → KindErrors (fun u => lane i (rxVideo u)) (rxDelay i) (wrongSyncBits 160 i) 0) ∧
    Training rxVideo 0 28 48 ∧ StandardSyncs rxVideo true false 95 ∧
    ∀ n, 95 ≤ n → LineEnd rxVideo n →
      receivedWord (wrongSyncBits 160 0) (rxDelay 0) (n + 1) =
        sentWord (fun u => lane 0 (rxVideo u)) (n + 1) := by
  refine ⟨fun i hi => one_kind (lead := fun _ _ => true) (c := 160) rfl (wrongSync_word 160 rfl).1
    (fun i n _ _ hh => wrongSync_hit 160 i n hh) i hi, rxVideo_training, rxVideo_standard,
    fun n _ hl => not_hit (lead := fun _ _ => true) fun hh => ?_⟩
  have := (wrongSync_hit 160 0 _ hh).2
  obtain rfl : n = 159 := by omega
  exact absurd hl.1 (by decide)

end Verif.Props
