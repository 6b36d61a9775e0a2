import Verif.Model.Serializer
import Verif.Spec.Link
import Verif.Props.DataCapture
import Verif.Props.HdmiIn
import Verif.Proofs.Gearbox

/-!
# C89, C90: the serial link between the encoders and the receiver
-/

namespace Verif.Props

open Verif.Serializer Verif.Spec.Link Verif.Spec.Serial Verif.Spec.Stream Verif.DataCapture
  Verif.Gated Verif.VideoOut

/-! ### Transmitter -/

/-- `ed_2x_pol` after `m` `pix2x` edges, when `self.data` is `W n` during the pixel clock `n`.  Time
starts at the beginning of pixel clock 0; the `pix2x` edges of pixel clock `n` are `2 n` in its middle
and `2 n + 1` at its end, just before which the clock is high and low. -/
def s6Half (W : Nat → BitVec 10) (m : Nat) : BitVec 5 :=
  trace Serializer.S6.step Serializer.S6.reset (fun m => ⟨m % 2 == 0, W (m / 2)⟩) m

/-- The bits at the pad of a Spartan-6 serializer. -/
def s6Pad (inverted : Bool) (W : Nat → BitVec 10) (p : Nat) : Bool :=
  (Serializer.S6.pins (Serializer.S6.ed2x inverted (s6Half W (p / 5 + 1)))).getD (p % 5) false

/-- The bits at the pad of a 7-series serializer. -/
def s7Pad (inverted : Bool) (W : Nat → BitVec 10) (p : Nat) : Bool :=
  (Serializer.S7.pins (padWord inverted (W (p / 10)))).getD (p % 10) false

theorem pins5 (v : BitVec 5) (j : Nat) (hj : j < 5) :
    (Serializer.S6.pins v).getD j false = v.getLsbD j := by
  have : j = 0 ∨ j = 1 ∨ j = 2 ∨ j = 3 ∨ j = 4 := by omega
  rcases this with rfl | rfl | rfl | rfl | rfl <;> rfl

theorem pins10 (v : BitVec 10) (j : Nat) (hj : j < 10) :
    (Serializer.S7.pins v).getD j false = v.getLsbD j := by
  have : j = 0 ∨ j = 1 ∨ j = 2 ∨ j = 3 ∨ j = 4 ∨ j = 5 ∨ j = 6 ∨ j = 7 ∨ j = 8 ∨ j = 9 := by omega
  rcases this with rfl | rfl | rfl | rfl | rfl | rfl | rfl | rfl | rfl | rfl <;> rfl

/-- **C89** On the pair, a Spartan-6 transmitter sends the words of the encoder (or of the raw
stream) back to back, each least significant bit first, whatever the polarity of the pad. -/
theorem C89_s6_transmitted (inverted : Bool) (W : Nat → BitVec 10) (lead : Nat → Bool) (p : Nat) :
    swapped inverted (s6Pad inverted W p) = serialise 0 lead W p := by
  have hj : p % 5 < 5 := Nat.mod_lt _ (by omega)
  have h1 : (Serializer.S6.ed2x inverted (s6Half W (p / 5 + 1))).getLsbD (p % 5) =
      ((s6Half W (p / 5 + 1)).getLsbD (p % 5) ^^ inverted) := by
    cases inverted <;> simp [Serializer.S6.ed2x, hj]
  have h2 : (s6Half W (p / 5 + 1)).getLsbD (p % 5) = (W (p / 10)).getLsbD (p % 10) := by
    show (Serializer.S6.step (s6Half W (p / 5)) ⟨p / 5 % 2 == 0, W (p / 5 / 2)⟩).getLsbD (p % 5) = _
    rw [Serializer.S6.step, show p / 5 / 2 = p / 10 by omega]
    by_cases h : p / 5 % 2 = 0
    · simp only [h, beq_self_eq_true, if_true, BitVec.getLsbD_extractLsb', hj, decide_true,
        Bool.true_and]
      congr 1; omega
    · have : (p / 5 % 2 == 0) = false := by simp [h]
      simp only [this, Bool.false_eq_true, if_false, BitVec.getLsbD_extractLsb', hj, decide_true,
        Bool.true_and]
      congr 1; omega
  rw [swapped, s6Pad, pins5 _ _ hj, h1, h2, serialise]
  simp

/-- **C89** The same for a 7-series transmitter. -/
theorem C89_s7_transmitted (inverted : Bool) (W : Nat → BitVec 10) (lead : Nat → Bool) (p : Nat) :
    swapped inverted (s7Pad inverted W p) = serialise 0 lead W p := by
  have hj : p % 10 < 10 := Nat.mod_lt _ (by omega)
  rw [swapped, s7Pad, pins10 _ _ hj, serialise]
  cases inverted <;> simp [padWord, hj]

/-- **C89** The clock lane of a 7-series transmitter is high during the first five bits of each word
and low during the last five, whatever the polarity of its pad. -/
theorem C89_s7_clock (inverted : Bool) (p : Nat) :
    swapped inverted (s7Pad inverted (fun _ => Serializer.S7.clockWord) p) = clockLine p := by
  rw [C89_s7_transmitted inverted _ (fun _ => false), serialise, if_neg (by omega)]
  have key : ∀ j, j < 10 → Serializer.S7.clockWord.getLsbD j = decide (j < 5) := by decide
  exact key _ (Nat.mod_lt _ (by omega))

/-- **C89** The clock lane of a Spartan-6 transmitter is high exactly while the pixel clock is. -/
theorem C89_s6_clock (inverted high : Bool) :
    swapped inverted (Serializer.S6.clockPad inverted high) = high := by
  cases inverted <;> cases high <;> rfl

/-- Both kinds of transmitter, with a pad of each polarity, on a word that is not symmetric. -/
example : (List.range 10).map (fun p => s6Pad false (fun _ => 0b0010110111#10) p) =
      [true, true, true, false, true, true, false, true, false, false] ∧
    (List.range 10).map (fun p => s6Pad true (fun _ => 0b0010110111#10) p) =
      [false, false, false, true, false, false, true, false, true, true] ∧
    (List.range 10).map (fun p => s7Pad true (fun _ => 0b0010110111#10) p) =
      [false, false, false, true, false, false, true, false, true, true] := by decide +kernel

/-! ### Receiver -/

/-- A register that is loaded with `v` at the ticks holds what `v` was at the latest one. -/
theorem held {α : Type} (p : Nat → Bool) (d v : Nat → α)
    (hd : ∀ t, d (t + 1) = if p t then v t else d t) (t : Nat) (ht : 0 < ticks p t) :
    ∃ t', t' < t ∧ p t' = true ∧ ticks p t = ticks p t' + 1 ∧ d t = v t' := by
  induction t with
  | zero => exact absurd ht (by show ¬ 0 < 0; omega)
  | succ t ih =>
    rw [ticks_succ] at ht ⊢
    rw [hd]
    by_cases h : p t = true
    · exact ⟨t, by omega, h, by rw [if_pos h], by rw [if_pos h]⟩
    · rw [if_neg h] at ht ⊢
      obtain ⟨t', h1, h2, h3, h4⟩ := ih (by omega)
      exact ⟨t', by omega, h2, by omega, by rw [if_neg h]; exact h4⟩

/-- The words at the pixel clocks agree with a serial stream once its words have begun. -/
theorem as_serial (p : Nat → Bool) (d : Nat → BitVec 10) (K : Nat) (w : Nat → BitVec 10)
    (h : ∀ t j, p t = true → j < 10 → K ≤ 10 * ticks p t + j →
      (d t).getLsbD j = (w ((10 * ticks p t + j - K) / 10)).getLsbD ((10 * ticks p t + j - K) % 10)) :
    ∃ lead, ∀ t, p t = true → d t = deserialised (serialise K lead w) (ticks p t) := by
  obtain ⟨Y, hY, -⟩ := exists_seq p d 0
  refine ⟨fun q => (Y (q / 10)).getLsbD (q % 10), fun t ht => ?_⟩
  apply BitVec.eq_of_getLsbD_eq
  intro j hj
  rw [deserialised, wordAt, getLsbD_ofBits, decide_eq_true hj, Bool.true_and, serialise]
  by_cases hk : 10 * ticks p t + j < K
  · rw [if_pos hk, show (10 * ticks p t + j) / 10 = ticks p t by omega,
      show (10 * ticks p t + j) % 10 = j by omega, hY t ht]
  · rw [if_neg hk]
    exact h t j ht hj (by omega)

/-- The five bits that a Spartan-6 SERDES hands over at the `pix2x` edge number `m` are the bits
`5 m, ..., 5 m + 4` of the pair, through a pad of the given polarity. -/
def S6Receives (inverted : Bool) (x : Nat → DataCapture.S6.In) (line : Nat → Bool) : Prop :=
  ∀ t, (x t).pix2xEdge = true →
    (x t).dsr2 = ofBits 5 fun j => swapped inverted (line (5 * edges2x x t + j))

/-- **C89** A Spartan-6 receiver with two `pix2x` clocks per pixel clock delivers the serial stream
of the pair, `20 - 5 e` bits later (earlier, if `e` is more than 4): nothing is lost, repeated or
reordered, whatever the polarity of the pad. -/
theorem C89_s6_received (n : Nat) (inverted : Bool) (x : Nat → DataCapture.S6.In)
    (k : Nat) (lead : Nat → Bool) (w : Nat → BitVec 10)
    (hr : S6Receives inverted x (serialise k lead w)) (e : Nat) (he : 5 * e ≤ k + 10)
    (hc : TwoPer (fun t => (x t).pix2xEdge) (fun t => (x t).pixEdge) e) :
    ∃ lead', ∀ t, (x t).pixEdge = true → (s6 n inverted x t).d =
      deserialised (serialise (k + 20 - 5 * e) lead' w) (countIn (fun t => (x t).pixEdge) 0 t) := by
  refine as_serial (fun t => (x t).pixEdge) (fun t => (s6 n inverted x t).d) _ w
    fun t j ht hj hk => ?_
  obtain ⟨t', -, h2, h3, h4⟩ := held (fun t => (x t).pixEdge) (fun t => (s6 n inverted x t).d)
    (fun t => if inverted then ~~~(s6 n inverted x t).dsr else (s6 n inverted x t).dsr)
    (fun _ => rfl) t (by omega)
  have he' : edges2x x t' = 2 * ticks (fun t => (x t).pixEdge) t' + e := hc t' h2
  have hb := dsr_bit n inverted x (fun p => swapped inverted (serialise k lead w p)) hr t' j hj
    (by omega)
  generalize ticks (fun t => (x t).pixEdge) t = c at hk h3 ⊢
  rw [he', show 5 * (2 * ticks (fun t => (x t).pixEdge) t' + e) + j - 10 =
    10 * c + j + 5 * e - 20 by omega, serialise, if_neg (by omega),
    show 10 * c + j + 5 * e - 20 - k = 10 * c + j - (k + 20 - 5 * e) by omega] at hb
  show (s6 n inverted x t).d.getLsbD j = _
  rw [show (s6 n inverted x t).d = _ from h4]
  cases inverted
  · simpa [swapped] using hb
  · simp only [if_true, BitVec.getLsbD_not, hj, decide_true, Bool.true_and, hb]
    simp [swapped]

/-- What happens at one instant in a 7-series capture block: clock edges and the eight bits of the two
SERDES at the `pix1p25x` edge. -/
structure S7Samples where
  pix1p25xEdge : Bool
  pixEdge : Bool
  mq : BitVec 8
  sq : BitVec 8

/-- The word `d` of a 7-series capture block at instant `t` (datacapture.py:375-392). -/
def s7Word (inverted : Bool) (x : Nat → S7Samples) (t : Nat) : BitVec 10 :=
  (Gearbox.gearbox (fun t => ⟨(x t).pix1p25xEdge, (x t).pixEdge,
    DataCapture.S7.masterData inverted (x t).mq⟩) t).o

/-- The eight bits of the master SERDES at the `pix1p25x` edge number `m` are the bits
`8 m, ..., 8 m + 7` of the pair, through a pad of the given polarity. -/
def S7Receives (inverted : Bool) (x : Nat → S7Samples) (line : Nat → Bool) : Prop :=
  ∀ t, (x t).pix1p25xEdge = true → (x t).mq =
    ofBits 8 fun j => swapped inverted (line (8 * countIn (fun t => (x t).pix1p25xEdge) 0 t + j))

/-- At each pixel clock the bits taken so far by the `pix1p25x` clock, eight at a time, are at most 30
less and 40 more than those handed over by the pixel clock, ten at a time. -/
def InStep (fast slow : Nat → Bool) : Prop :=
  ∀ t, slow t = true → 10 * countIn slow 0 t ≤ 8 * countIn fast 0 t + 30 ∧
    8 * countIn fast 0 t ≤ 10 * countIn slow 0 t + 40

/-- **C90** A 7-series receiver whose two clocks stay in step delivers the serial stream of the pair,
50 bits later, whatever the polarity of the pad. -/
theorem C90_s7_received (inverted : Bool) (x : Nat → S7Samples) (k : Nat) (lead : Nat → Bool)
    (w : Nat → BitVec 10) (hr : S7Receives inverted x (serialise k lead w))
    (hc : InStep (fun t => (x t).pix1p25xEdge) (fun t => (x t).pixEdge)) :
    ∃ lead', ∀ t, (x t).pixEdge = true → s7Word inverted x t =
      deserialised (serialise (k + 50) lead' w) (countIn (fun t => (x t).pixEdge) 0 t) := by
  refine as_serial (fun t => (x t).pixEdge) (fun t => s7Word inverted x t) _ w
    fun t j ht hj hk => ?_
  have hm : ∀ t, (x t).pix1p25xEdge = true → DataCapture.S7.masterData inverted (x t).mq =
      ofBits 8 fun j =>
        serialise k lead w (8 * countIn (fun t => (x t).pix1p25xEdge) 0 t + j) := by
    intro t ht
    rw [hr t ht, DataCapture.S7.masterData]
    apply BitVec.eq_of_getLsbD_eq
    intro j hj
    cases inverted
    · simp only [Bool.false_eq_true, if_false, getLsbD_ofBits, swapped, Bool.xor_false]
    · simp only [if_true, BitVec.getLsbD_not, getLsbD_ofBits, hj, decide_true, Bool.true_and,
        swapped, Bool.xor_true, Bool.not_not]
  obtain ⟨t', -, h2, h3, h4⟩ := held (fun t => (x t).pixEdge) (fun t => s7Word inverted x t)
    (fun t => s7Word inverted x (t + 1)) (fun t => by
      show s7Word inverted x (t + 1) = if (x t).pixEdge then s7Word inverted x (t + 1) else _
      by_cases h : (x t).pixEdge = true
      · rw [if_pos h]
      · rw [if_neg h]
        show (if (x t).pixEdge then _ else s7Word inverted x t) = _
        rw [if_neg h]) t (by omega)
  have hb := Gearbox.word_at (x := fun t => ⟨(x t).pix1p25xEdge, (x t).pixEdge,
    DataCapture.S7.masterData inverted (x t).mq⟩) hm t' h2 (hc t' h2).1 (hc t' h2).2
  show (s7Word inverted x t).getLsbD j = _
  rw [show s7Word inverted x t = _ from h4]
  rw [s7Word, hb, wordAt, getLsbD_ofBits, decide_eq_true hj, Bool.true_and, Gearbox.written]
  show (if 10 * ticks (fun t => (x t).pixEdge) t' + j < 40 then false else
    serialise k lead w (10 * ticks (fun t => (x t).pixEdge) t' + j - 40)) = _
  rw [if_neg (by omega), serialise, if_neg (by omega),
    show 10 * ticks (fun t => (x t).pixEdge) t' + j - 40 - k =
      10 * ticks (fun t => (x t).pixEdge) t + j - (k + 50) by omega]

/-- **C90** The polarity of the pad makes no difference to the phase detector either: with the
inverting output of the input buffer on the slave SERDES, both samples it compares are bits of the
pair, `line` where the master samples and `line'` where the slave samples. -/
theorem C90_s7_samples (inverted : Bool) (line line' : Nat → Bool) :
    DataCapture.S7.masterData inverted (ofBits 8 fun j => swapped inverted (line j)) =
      ofBits 8 line ∧
    DataCapture.S7.slaveData inverted (ofBits 8 fun j => !swapped inverted (line' j)) =
      ofBits 8 line' := by
  constructor <;> apply BitVec.eq_of_getLsbD_eq <;> intro j hj <;> cases inverted <;>
    simp only [DataCapture.S7.masterData, DataCapture.S7.slaveData, swapped, getLsbD_ofBits, hj,
      Bool.false_eq_true, if_false, if_true, BitVec.getLsbD_not, decide_true, Bool.true_and,
      Bool.xor_false, Bool.xor_true, Bool.not_not]

/-! ### The whole link -/

/-- Lane `i` of a transmitter of either family showing the video `x`: the bits on the pair. -/
def txLine (pad : Bool → (Nat → BitVec 10) → Nat → Bool) (inverted : Nat → Bool) (x : Nat → Phy)
    (i : Nat) (p : Nat) : Bool :=
  swapped (inverted i) (pad (inverted i) (encoderOut fun u => lane i (x u)) p)

theorem delayed_serialise (D : Nat) (lead lead' : Nat → Bool) (W : Nat → BitVec 10) :
    delayed D lead (serialise 0 lead' W) = serialise D lead W := by
  funext p
  unfold delayed
  by_cases h : p < D
  · rw [if_pos h, serialise, if_pos h]
  · rw [if_neg h, serialise, serialise, if_neg h, if_neg (by omega), Nat.sub_zero]

theorem txLine_serial {pad : Bool → (Nat → BitVec 10) → Nat → Bool} (hp : pad = s6Pad ∨ pad = s7Pad)
    (inverted : Nat → Bool) (x : Nat → Phy) (i D : Nat) (lead : Nat → Bool) :
    delayed D lead (txLine pad inverted x i) =
      serialise D lead (encoderOut fun u => lane i (x u)) := by
  rw [← delayed_serialise D lead (fun _ => false)]
  congr 1
  funext p
  rcases hp with rfl | rfl
  · exact C89_s6_transmitted _ _ _ _
  · exact C89_s7_transmitted _ _ _ _

/-- **C89** The link as a whole.  A transmitter of either family shows the video `x`; its three pairs
arrive `D i` bits later at a Spartan-6 receiver with two `pix2x` clocks per pixel clock.  Pads of
either end may be inverted.  Then the three capture blocks deliver the serialised words of the
encoders with delays that differ as the `D i` do: what C80, C84 and C85 ask of the lanes. -/
theorem C89_lanes (pad : Bool → (Nat → BitVec 10) → Nat → Bool) (hp : pad = s6Pad ∨ pad = s7Pad)
    (txInverted rxInverted : Nat → Bool) (x : Nat → Phy) (D : Nat → Nat) (lead : Nat → Nat → Bool)
    (n : Nat) (z : Nat → Nat → DataCapture.S6.In) (y : Nat → HdmiIn.In) (e : Nat)
    (he : ∀ i, i < 3 → 5 * e ≤ D i + 10)
    (hclk : ∀ i t, (z i t).pixEdge = (y t).pixEdge)
    (htwo : ∀ i, TwoPer (fun t => (z i t).pix2xEdge) (fun t => (z i t).pixEdge) e)
    (hrx : ∀ i, i < 3 → S6Receives (rxInverted i) (z i)
      (delayed (D i) (lead i) (txLine pad txInverted x i)))
    (hraw : ∀ t, (y t).pixEdge = true → (y t).raw = ⟨(s6 n (rxInverted 0) (z 0) t).d, (s6 n (rxInverted 1) (z 1) t).d,
      (s6 n (rxInverted 2) (z 2) t).d⟩) :
    ∃ lead', Lanes x (fun i => D i + 20 - 5 * e) lead' y := by
  have key : ∀ i, i < 3 → ∃ l, ∀ t, (y t).pixEdge = true → (s6 n (rxInverted i) (z i) t).d =
      deserialised (serialise (D i + 20 - 5 * e) l (encoderOut fun u => lane i (x u)))
        (countIn (fun u => (y u).pixEdge) 0 t) := by
    intro i hi
    have h := hrx i hi
    rw [txLine_serial hp] at h
    obtain ⟨l, hl⟩ := C89_s6_received n (rxInverted i) (z i) _ _ _ h e (he i hi) (htwo i)
    refine ⟨l, fun t ht => ?_⟩
    rw [hl t ((hclk i t).trans ht), show (fun t => (z i t).pixEdge) = fun t => (y t).pixEdge from
      funext (hclk i)]
  obtain ⟨l0, h0⟩ := key 0 (by omega)
  obtain ⟨l1, h1⟩ := key 1 (by omega)
  obtain ⟨l2, h2⟩ := key 2 (by omega)
  refine ⟨fun i => if i = 0 then l0 else if i = 1 then l1 else l2, fun t ht => ?_⟩
  rw [hraw t ht, h0 t ht, h1 t ht, h2 t ht]
  rfl

/-- **C90** The same for a 7-series receiver. -/
theorem C90_lanes (pad : Bool → (Nat → BitVec 10) → Nat → Bool) (hp : pad = s6Pad ∨ pad = s7Pad)
    (txInverted rxInverted : Nat → Bool) (x : Nat → Phy) (D : Nat → Nat) (lead : Nat → Nat → Bool)
    (z : Nat → Nat → S7Samples) (y : Nat → HdmiIn.In)
    (hclk : ∀ i t, (z i t).pixEdge = (y t).pixEdge)
    (hstep : ∀ i, InStep (fun t => (z i t).pix1p25xEdge) (fun t => (z i t).pixEdge))
    (hrx : ∀ i, i < 3 → S7Receives (rxInverted i) (z i)
      (delayed (D i) (lead i) (txLine pad txInverted x i)))
    (hraw : ∀ t, (y t).pixEdge = true → (y t).raw = ⟨s7Word (rxInverted 0) (z 0) t, s7Word (rxInverted 1) (z 1) t,
      s7Word (rxInverted 2) (z 2) t⟩) :
    ∃ lead', Lanes x (fun i => D i + 50) lead' y := by
  have key : ∀ i, i < 3 → ∃ l, ∀ t, (y t).pixEdge = true → s7Word (rxInverted i) (z i) t =
      deserialised (serialise (D i + 50) l (encoderOut fun u => lane i (x u)))
        (countIn (fun u => (y u).pixEdge) 0 t) := by
    intro i hi
    have h := hrx i hi
    rw [txLine_serial hp] at h
    obtain ⟨l, hl⟩ := C90_s7_received (rxInverted i) (z i) _ _ _ h (hstep i)
    refine ⟨l, fun t ht => ?_⟩
    rw [hl t ((hclk i t).trans ht), show (fun t => (z i t).pixEdge) = fun t => (y t).pixEdge from
      funext (hclk i)]
  obtain ⟨l0, h0⟩ := key 0 (by omega)
  obtain ⟨l1, h1⟩ := key 1 (by omega)
  obtain ⟨l2, h2⟩ := key 2 (by omega)
  refine ⟨fun i => if i = 0 then l0 else if i = 1 then l1 else l2, fun t ht => ?_⟩
  rw [hraw t ht, h0 t ht, h1 t ht, h2 t ht]
  rfl

/-- A transmitter of either family showing the video `x` is connected to the receiver `y` of either
family; the line of lane `i` delays by `D i` bits. -/
inductive Connected (x : Nat → Phy) (D : Nat → Nat) (y : Nat → HdmiIn.In) : Prop
  | s6 (pad : Bool → (Nat → BitVec 10) → Nat → Bool) (hp : pad = s6Pad ∨ pad = s7Pad)
      (txInverted rxInverted : Nat → Bool) (lead : Nat → Nat → Bool) (n : Nat)
      (z : Nat → Nat → DataCapture.S6.In) (e : Nat) (he4 : e ≤ 4)
      (he : ∀ i, i < 3 → 5 * e ≤ D i + 10)
      (hclk : ∀ i t, (z i t).pixEdge = (y t).pixEdge)
      (htwo : ∀ i, TwoPer (fun t => (z i t).pix2xEdge) (fun t => (z i t).pixEdge) e)
      (hrx : ∀ i, i < 3 → S6Receives (rxInverted i) (z i)
        (delayed (D i) (lead i) (txLine pad txInverted x i)))
      (hraw : ∀ t, (y t).pixEdge = true → (y t).raw = ⟨(s6 n (rxInverted 0) (z 0) t).d, (s6 n (rxInverted 1) (z 1) t).d,
        (s6 n (rxInverted 2) (z 2) t).d⟩)
  | s7 (pad : Bool → (Nat → BitVec 10) → Nat → Bool) (hp : pad = s6Pad ∨ pad = s7Pad)
      (txInverted rxInverted : Nat → Bool) (lead : Nat → Nat → Bool)
      (z : Nat → Nat → S7Samples) (hclk : ∀ i t, (z i t).pixEdge = (y t).pixEdge)
      (hstep : ∀ i, InStep (fun t => (z i t).pix1p25xEdge) (fun t => (z i t).pixEdge))
      (hrx : ∀ i, i < 3 → S7Receives (rxInverted i) (z i)
        (delayed (D i) (lead i) (txLine pad txInverted x i)))
      (hraw : ∀ t, (y t).pixEdge = true → (y t).raw = ⟨s7Word (rxInverted 0) (z 0) t, s7Word (rxInverted 1) (z 1) t,
        s7Word (rxInverted 2) (z 2) t⟩)

/-- Whatever the families, the receiver gets what C84 and C85 ask of the lanes, at most 50 bits after
the line's own delay. -/
theorem connected_lanes {x : Nat → Phy} {D : Nat → Nat} {y : Nat → HdmiIn.In}
    (h : Connected x D y) : ∃ c lead', c ≤ 50 ∧ Lanes x (fun i => D i + c) lead' y := by
  cases h with
  | s6 pad hp txInverted rxInverted lead n z e he4 he hclk htwo hrx hraw =>
    obtain ⟨l, hl⟩ := C89_lanes pad hp txInverted rxInverted x D lead n z y e he hclk htwo hrx hraw
    refine ⟨20 - 5 * e, l, by omega, ?_⟩
    rw [show (fun i => D i + (20 - 5 * e)) = fun i => D i + 20 - 5 * e from funext fun i => by omega]
    exact hl
  | s7 pad hp txInverted rxInverted lead z hclk hstep hrx hraw =>
    obtain ⟨l, hl⟩ := C90_lanes pad hp txInverted rxInverted x D lead z y hclk hstep hrx hraw
    exact ⟨50, l, by omega, hl⟩

/-! ### Concrete links -/

/-- The line of lane `i` in the examples: the video of the examples of C84 from a 7-series
transmitter with lane 2 inverted, `7 i + 3` bits late. -/
def exampleLine (i : Nat) : Nat → Bool :=
  delayed (7 * i + 3) (fun _ => true) (txLine s7Pad (fun i => i == 2) shortVideo i)

/-- A Spartan-6 capture block, lane 1 inverted: `pix2x` at every instant, the pixel clock at the odd
ones. -/
def exampleS6 (i t : Nat) : DataCapture.S6.In :=
  ⟨true, t % 2 == 1, false, false, false, false, false,
    ofBits 5 fun j => swapped (i == 1) (exampleLine i (5 * t + j)), ⟨false, false, false, false, false, false⟩, false⟩

/-- A 7-series capture block, lane 1 inverted: `pix1p25x` every fourth instant, the pixel clock every
fifth. -/
def exampleS7 (i t : Nat) : S7Samples :=
  ⟨t % 4 == 0, t % 5 == 0,
    ofBits 8 fun j => swapped (i == 1) (exampleLine i (8 * ((t + 3) / 4) + j)), 0⟩

theorem count_mod (a r : Nat) (ha : 0 < a) (hr : r < a) (t : Nat) :
    countIn (fun t => t % a == r) 0 t = (t + (a - 1 - r)) / a := by
  induction t with
  | zero => exact (Nat.div_eq_of_lt (by omega)).symm
  | succ t ih =>
    rw [countIn, ih, Nat.zero_add]
    have h1 := Nat.div_add_mod t a
    have h2 := Nat.mod_lt t ha
    generalize t / a = q at h1
    generalize t % a = m at h1 h2 ⊢
    have hs : ∀ v, v < a → (a * q + v) / a = q := fun v hv => by
      rw [Nat.mul_add_div ha, Nat.div_eq_of_lt hv, Nat.add_zero]
    have hs' : ∀ v, a ≤ v → v < 2 * a → (a * q + v) / a = q + 1 := fun v h1 h2 => by
      have : v / a = 1 := Nat.div_eq_of_lt_le (by omega) (by omega)
      rw [Nat.mul_add_div ha, this]
    by_cases h : m = r
    · subst h
      rw [show t + (a - 1 - m) = a * q + (a - 1) by omega,
        show t + 1 + (a - 1 - m) = a * q + a by omega, hs _ (by omega), hs' _ (by omega) (by omega)]
      simp
    · have hb : (m == r) = false := by simp [h]
      simp only [hb, Bool.false_eq_true, if_false, Nat.add_zero]
      rcases Nat.lt_or_ge m r with h' | h'
      · rw [show t + (a - 1 - r) = a * q + (m + (a - 1 - r)) by omega,
          show t + 1 + (a - 1 - r) = a * q + (m + 1 + (a - 1 - r)) by omega, hs _ (by omega),
          hs _ (by omega)]
      · rw [show t + (a - 1 - r) = a * q + (m + (a - 1 - r)) by omega,
          show t + 1 + (a - 1 - r) = a * q + (m + 1 + (a - 1 - r)) by omega, hs' _ (by omega) (by omega),
          hs' _ (by omega) (by omega)]

set_option maxRecDepth 100000 in
/-- The hypotheses of C89 about the receiver hold; the pixel clock number 40 delivers, in lane 1 with
an inverted pad, bits of the words 37 and 38 of the encoder. -/
example : (∀ i, S6Receives (i == 1) (exampleS6 i) (exampleLine i)) ∧
    (∀ i, TwoPer (fun t => (exampleS6 i t).pix2xEdge) (fun t => (exampleS6 i t).pixEdge) 1) ∧
    (s6 8 true (exampleS6 1) 81).d =
      deserialised (serialise 25 (fun _ => true) (encoderOut fun u => lane 1 (shortVideo u))) 40 ∧
    (s6 8 true (exampleS6 1) 81).d ≠ (s6 8 true (exampleS6 1) 83).d := by
  refine ⟨fun i t _ => ?_, fun i t ht => ?_, by decide +kernel, by decide +kernel⟩
  · rw [edges2x, countIn_all (fun v => (exampleS6 i v).pix2xEdge) (fun _ => rfl)]; rfl
  · rw [countIn_all (fun v => (exampleS6 i v).pix2xEdge) (fun _ => rfl)]
    have h := count_mod 2 1 (by omega) (by omega) t
    have ht : (t % 2 == 1) = true := ht
    rw [beq_iff_eq] at ht
    show t = 2 * countIn (fun t => t % 2 == 1) 0 t + 1
    omega

set_option maxRecDepth 100000 in
/-- The hypotheses of C90 about the receiver hold; the pixel clock number 40 delivers, in lane 1 with
an inverted pad, bits of the words 34 and 35 of the encoder. -/
example : (∀ i, S7Receives (i == 1) (exampleS7 i) (exampleLine i)) ∧
    (∀ i, InStep (fun t => (exampleS7 i t).pix1p25xEdge) (fun t => (exampleS7 i t).pixEdge)) ∧
    s7Word true (exampleS7 1) 200 =
      deserialised (serialise 60 (fun _ => true) (encoderOut fun u => lane 1 (shortVideo u))) 40 := by
  refine ⟨fun i t ht => ?_, fun i t ht => ?_, by decide +kernel⟩
  · have h := count_mod 4 0 (by omega) (by omega) t
    show (ofBits 8 fun j => swapped (i == 1) (exampleLine i (8 * ((t + 3) / 4) + j))) =
      ofBits 8 fun j => swapped (i == 1) (exampleLine i (8 * countIn (fun t => t % 4 == 0) 0 t + j))
    rw [h]
  · have h := count_mod 4 0 (by omega) (by omega) t
    have h' := count_mod 5 0 (by omega) (by omega) t
    have ht : (t % 5 == 0) = true := ht
    rw [beq_iff_eq] at ht
    show 10 * countIn (fun t => t % 5 == 0) 0 t ≤ 8 * countIn (fun t => t % 4 == 0) 0 t + 30 ∧
      8 * countIn (fun t => t % 4 == 0) 0 t ≤ 10 * countIn (fun t => t % 5 == 0) 0 t + 40
    omega

end Verif.Props
