import Verif.Spec.Receiver
import Verif.Props.CharSync
import Verif.Props.ChanSync
import Verif.Props.Analysis
import Verif.Props.Wer

/-!
# C80, C81, C82, C102, C109: the receiver as a whole
-/

namespace Verif.Props

open Spec.Stream Spec.Tmds Spec.Serial Spec.Receiver Verif.VideoOut Verif.Receiver

/-- The bits of lane `i` at the receiver: the words of the transmitter's encoder after `k i` bits of
anything. -/
def laneBits (x : Nat → Phy) (k : Nat → Nat) (lead : Nat → Nat → Bool) (i : Nat) : Nat → Bool :=
  serialise (k i) (lead i) (encoderOut fun u => lane i (x u))

/-- The receiver at clock `t`, starting with registers `s0`, when the serial line of lane `i` carries
the bits `bits i`. -/
def rxOn (s0 : Receiver.State) (bits : Nat → Nat → Bool) (t : Nat) : Receiver.State :=
  trace Receiver.step s0 (fun u =>
    ⟨deserialised (bits 0) u, deserialised (bits 1) u, deserialised (bits 2) u⟩) t

/-- The receiver at clock `t`, starting with registers `s0`, on a transmitter's lanes. -/
def rxFrom (s0 : Receiver.State) (x : Nat → Phy) (k : Nat → Nat) (lead : Nat → Nat → Bool)
    (t : Nat) : Receiver.State :=
  rxOn s0 (laneBits x k lead) t

/-- The receiver at clock `t` after reset. -/
def rxState (x : Nat → Phy) (k : Nat → Nat) (lead : Nat → Nat → Bool) (t : Nat) : Receiver.State :=
  rxFrom Receiver.reset x k lead t

/-! ### One lane -/

/-- A lane at clock `t`, starting with registers `l0`. -/
def laneFrom (l0 : Lane) (bits : Nat → Bool) (t : Nat) : Lane :=
  trace Lane.step l0 (deserialised bits) t

/-- A lane at clock `t` after reset. -/
abbrev laneState (bits : Nat → Bool) (t : Nat) : Lane := laneFrom Lane.reset bits t

theorem lane_charsync (l0 : Lane) (bits : Nat → Bool) (t : Nat) :
    (laneFrom l0 bits t).charsync = charSyncFrom 8 l0.charsync bits t := by
  induction t with
  | zero => rfl
  | succ t ih =>
    show CharSync.step 8 (laneFrom l0 bits t).charsync _ = _
    rw [ih]; rfl

theorem lane_wordAt (k : Nat) (lead : Nat → Bool) (w : Nat → BitVec 10) (n : Nat) :
    wordAt (serialise k lead w) (k % 10 + 10 * (n + k / 10)) = w n := by
  rw [show k % 10 + 10 * (n + k / 10) = k + 10 * n by omega]
  exact CharSync.wordAt_serialise k lead _ n

/-- The word sent for clock `n` of a lane with inputs `i`. -/
def sentWord (i : Nat → Encoder.In) (n : Nat) : BitVec 10 := encoderOut i (n + 4)

/-- The word received for clock `n` on a lane that arrives with a delay of `k` bits. -/
def receivedWord (bits : Nat → Bool) (k n : Nat) : BitVec 10 := wordAt bits (k + 10 * (n + 4))

/-- A lane on which, from clock `n0` on, transmission errors hit pixels only: blanking arrives intact;
a damaged pixel does not look like blanking; and of any seven consecutive words three in a row arrive
intact.  Nothing is said about the bits received before. -/
structure OnlyPixelErrors (i : Nat → Encoder.In) (k : Nat) (bits : Nat → Bool) (n0 : Nat) : Prop where
  blanking : ∀ n, n0 ≤ n → (i n).de = false → receivedWord bits k n = sentWord i n
  pixels : ∀ n, n0 ≤ n → (i n).de = true → receivedWord bits k n ∉ tokens
  rare : ∀ n, n0 ≤ n → ∃ m, n ≤ m ∧ m ≤ n + 4 ∧
    ∀ u, u < 3 → receivedWord bits k (m + u) = sentWord i (m + u)

/-- A lane that arrives intact from clock `n0` on. -/
theorem intact_lane (i : Nat → Encoder.In) (k : Nat) (bits : Nat → Bool) (n0 : Nat)
    (h : ∀ n, n0 ≤ n → receivedWord bits k n = sentWord i n) : OnlyPixelErrors i k bits n0 where
  blanking := fun n hn _ => h n hn
  pixels := fun n hn hd => by rw [h n hn]; exact (C03_data_words i n hd).1
  rare := fun n hn => ⟨n, Nat.le_refl _, by omega, fun u _ => h (n + u) (by omega)⟩

/-- The three lanes agree that clock `n` is a blanking clock, or that it is an active one. -/
def LanesAgree (x : Nat → Phy) (k : Nat → Nat) (bits : Nat → Nat → Bool) (n : Nat) : Prop :=
  ∀ i, i < 3 → (receivedWord (bits i) (k i) n ∈ tokens ↔ (x n).de = false)

theorem decodeByte_eq (w : BitVec 10) : Decoding.dataOf w = decodeByte w := by
  revert w; decide +kernel

/-- A lane on which a receiver can find and keep the word boundary, whatever the words mean: ten control
words from clock `n0` on, and from then on three TMDS words in a row among any seven. -/
structure LaneWords (k : Nat) (bits : Nat → Bool) (n0 : Nat) : Prop where
  training : ∀ n, n0 ≤ n → n ≤ n0 + 9 → receivedWord bits k n ∈ tokens
  often : TmdsOften (receivedWord bits k) n0

theorem blanking_token {i : Nat → Encoder.In} {k : Nat} {bits : Nat → Bool} {n : Nat}
    (h : receivedWord bits k n = sentWord i n) (hd : (i n).de = false) :
    receivedWord bits k n ∈ tokens := by
  rw [h]
  exact List.mem_of_getElem? (C03_control_words i _ hd)

/-- A lane on which, from clock `n0` on, transmission errors do not confuse pixels and blanking: a
control word arrives as some control word, and a pixel as something that is not a control word; of any
seven consecutive words there are three in a row in which no pixel is damaged. -/
structure KindErrors (i : Nat → Encoder.In) (k : Nat) (bits : Nat → Bool) (n0 : Nat) : Prop where
  blanking : ∀ n, n0 ≤ n → (i n).de = false → receivedWord bits k n ∈ tokens
  pixels : ∀ n, n0 ≤ n → (i n).de = true → receivedWord bits k n ∉ tokens
  rare : ∀ n, n0 ≤ n → ∃ m, n ≤ m ∧ m ≤ n + 4 ∧
    ∀ u, u < 3 → (i (m + u)).de = true → receivedWord bits k (m + u) = sentWord i (m + u)

theorem OnlyPixelErrors.kind {i : Nat → Encoder.In} {k : Nat} {bits : Nat → Bool} {n0 : Nat}
    (h : OnlyPixelErrors i k bits n0) : KindErrors i k bits n0 where
  blanking := fun n hn hd => blanking_token (h.blanking n hn hd) hd
  pixels := h.pixels
  rare := fun n hn => by
    obtain ⟨m, h1, h2, h3⟩ := h.rare n hn
    exact ⟨m, h1, h2, fun u hu _ => h3 u hu⟩

theorem KindErrors.lane {i : Nat → Encoder.In} {k : Nat} {bits : Nat → Bool} {n0 : Nat}
    (h : KindErrors i k bits n0) (hblank : ∀ n, n0 ≤ n → n ≤ n0 + 9 → (i n).de = false)
    (hiso : NoIsolatedBlanking i n0) : LaneWords k bits n0 where
  training := fun n h1 h2 => h.blanking n h1 (hblank n h1 h2)
  often := fun n hn => by
    obtain ⟨m, h1, h2, h3⟩ := h.rare n hn
    have htok := h.blanking
    have good : ∀ u, u < 3 → TmdsAt (receivedWord bits k) (m + u) := by
      intro u hu
      cases hd : (i (m + u)).de
      · left
        refine ⟨htok _ (by omega) hd, ?_⟩
        by_cases h0 : m + u = n0
        · exact .inr (htok _ (by omega) (hblank _ (by omega) (by omega)))
        · rcases hiso (m + u - 1) (by omega)
            (by rw [show m + u - 1 + 1 = m + u by omega]; exact hd) with h | h
          · exact .inl ⟨by omega, htok _ (by omega) h⟩
          · exact .inr (htok _ (by omega) (by rw [show m + u + 1 = m + u - 1 + 2 by omega]; exact h))
      · right
        rw [h3 u hu hd]
        exact (C03_data_words i _ hd).2.2
    exact ⟨m, h1, h2, good 0 (by omega), good 1 (by omega), good 2 (by omega)⟩

theorem OnlyPixelErrors.lane {i : Nat → Encoder.In} {k : Nat} {bits : Nat → Bool} {n0 : Nat}
    (h : OnlyPixelErrors i k bits n0) (hblank : ∀ n, n0 ≤ n → n ≤ n0 + 9 → (i n).de = false)
    (hiso : NoIsolatedBlanking i n0) : LaneWords k bits n0 := h.kind.lane hblank hiso

theorem intact_serialise (i : Nat → Encoder.In) (k : Nat) (lead : Nat → Bool) (n : Nat) :
    receivedWord (serialise k lead (encoderOut i)) k n = sentWord i n :=
  CharSync.wordAt_serialise k lead _ _

/-- The character synchroniser after ten control words. -/
theorem lane_lock_errors (l0 : Lane) (hl0 : l0.charsync.control_counter ≤ 7)
    (k : Nat) (bits : Nat → Bool) (n0 : Nat) (he : LaneWords k bits n0) (t : Nat)
    (ht : n0 + 4 + k / 10 + 8 + 2 ≤ t) :
    let s := laneFrom l0 bits
    (s (t + 1)).charsync.synced = true ∧ (s (t + 1)).charsync.word_sel = k % 10 ∧
    (s (t + 2)).charsync.data = wordAt bits (k % 10 + 10 * t) := by
  have hw : ∀ n, n0 + 4 + k / 10 ≤ n →
      wordAt bits (k % 10 + 10 * n) = receivedWord bits k (n - 4 - k / 10) := by
    intro n hn
    unfold receivedWord
    congr 1
    omega
  intro s
  simp only [s, lane_charsync]
  refine C109_alignment 8 l0.charsync hl0 bits (k % 10) (n0 + 4 + k / 10) (Nat.mod_lt _ (by omega))
    (by omega) (fun n h1 h2 => ?_) (fun n hn => ?_) t ht
  · rw [hw n h1]
    exact he.training _ (by omega) (by omega)
  · obtain ⟨m, h1, h2, h3⟩ := he.often (n - 4 - k / 10) (by omega)
    have move : ∀ u, n0 ≤ u → TmdsAt (receivedWord bits k) u →
        TmdsAt (fun n => wordAt bits (k % 10 + 10 * n)) (u + 4 + k / 10) := by
      intro u hu h
      have e : ∀ v, wordAt bits (k % 10 + 10 * (v + 4 + k / 10)) = receivedWord bits k v := by
        intro v
        unfold receivedWord
        congr 1
        omega
      rcases h with ⟨h1, h2⟩ | h
      · refine .inl ⟨?_, h2.imp (fun h => ⟨by omega, ?_⟩) (fun h => ?_)⟩
        · show wordAt _ _ ∈ _; rw [e]; exact h1
        · show wordAt _ (k % 10 + 10 * (u + 4 + k / 10 - 1)) ∈ _
          rw [show u + 4 + k / 10 - 1 = u - 1 + 4 + k / 10 by omega, e]; exact h.2
        · show wordAt _ (k % 10 + 10 * (u + 4 + k / 10 + 1)) ∈ _
          rw [show u + 4 + k / 10 + 1 = u + 1 + 4 + k / 10 by omega, e]; exact h
      · refine .inr ?_
        show transitionsBelow (wordAt _ _) 10 ≤ 5
        rw [e]; exact h
    refine ⟨m + 4 + k / 10, by omega, by omega, move m (by omega) h3.1, ?_, ?_⟩
    · rw [show m + 4 + k / 10 + 1 = m + 1 + 4 + k / 10 by omega]
      exact move _ (by omega) h3.2.1
    · rw [show m + 4 + k / 10 + 2 = m + 2 + 4 + k / 10 by omega]
      exact move _ (by omega) h3.2.2

/-- The character synchroniser of an intact lane. -/
theorem lane_lock (l0 : Lane) (hl0 : l0.charsync.control_counter ≤ 7) (i : Nat → Encoder.In) (k : Nat) (lead : Nat → Bool) (n0 : Nat)
    (hblank : ∀ n, n0 ≤ n → n ≤ n0 + 9 → (i n).de = false)
    (hiso : NoIsolatedBlanking i n0) (t : Nat) (ht : n0 + 4 + k / 10 + 8 + 2 ≤ t) :
    let s := laneFrom l0 (serialise k lead (encoderOut i))
    (s (t + 1)).charsync.synced = true ∧ (s (t + 1)).charsync.word_sel = k % 10 ∧
    (s (t + 2)).charsync.data =
      wordAt (serialise k lead (encoderOut i)) (k % 10 + 10 * t) :=
  lane_lock_errors l0 hl0 k _ n0
    ((intact_lane i k _ n0 fun n _ => intact_serialise i k lead n).lane hblank hiso) t ht

/-- From the first word after ten control words on, the character synchroniser delivers the words that
arrive. -/
theorem lane_aligned_errors (l0 : Lane) (hl0 : l0.charsync.control_counter ≤ 7)
    (k : Nat) (bits : Nat → Bool) (n0 : Nat) (he : LaneWords k bits n0) (m : Nat)
    (hm : n0 + 10 ≤ m) :
    (laneFrom l0 bits (m + 6 + k / 10)).charsync.data = receivedWord bits k m ∧
    (laneFrom l0 bits (m + 6 + k / 10)).charsync.synced = true := by
  have key := lane_lock_errors l0 hl0 k bits n0 he
  obtain ⟨-, -, h1⟩ := key (m + 4 + k / 10) (by omega)
  obtain ⟨h2, -⟩ := key (m + 5 + k / 10) (by omega)
  constructor
  · rw [show m + 6 + k / 10 = m + 4 + k / 10 + 2 by omega, h1]
    unfold receivedWord
    congr 1
    omega
  · rw [show m + 6 + k / 10 = m + 5 + k / 10 + 1 by omega, h2]

/-- From the first word after ten clocks of blanking on, the character synchroniser of an intact lane
delivers the words that were sent. -/
theorem lane_aligned (l0 : Lane) (hl0 : l0.charsync.control_counter ≤ 7) (i : Nat → Encoder.In) (k : Nat) (lead : Nat → Bool) (n0 : Nat)
    (hblank : ∀ n, n0 ≤ n → n ≤ n0 + 9 → (i n).de = false)
    (hiso : NoIsolatedBlanking i n0) (m : Nat) (hm : n0 + 10 ≤ m) :
    (laneFrom l0 (serialise k lead (encoderOut i)) (m + 6 + k / 10)).charsync.data =
      encoderOut i (m + 4) ∧
    (laneFrom l0 (serialise k lead (encoderOut i)) (m + 6 + k / 10)).charsync.synced = true := by
  have h := lane_aligned_errors l0 hl0 k _ n0
    ((intact_lane i k _ n0 fun n _ => intact_serialise i k lead n).lane hblank hiso) m hm
  rw [intact_serialise] at h
  exact h

/-- What a lane delivers, from the first word after ten control words on. -/
theorem lane_word (l0 : Lane) (hl0 : l0.charsync.control_counter ≤ 7) (k : Nat)
    (bits : Nat → Bool) (n0 : Nat) (he : LaneWords k bits n0) (m : Nat) (hm : n0 + 10 ≤ m) :
    let s := (laneFrom l0 bits (m + 7 + k / 10)).decod
    s.valid_o = true ∧ (s.de = true ↔ receivedWord bits k m ∉ tokens) ∧
    s.d = decodeByte (receivedWord bits k m) ∧
    (receivedWord bits k m ∈ tokens → s.c = controlBits (receivedWord bits k m)) ∧
    (receivedWord bits k m ∉ tokens → s.c = (laneFrom l0 bits (m + 6 + k / 10)).decod.c) := by
  intro s
  obtain ⟨hd, hv⟩ := lane_aligned_errors l0 hl0 k bits n0 he m hm
  have hs : s = Decoding.step (laneFrom l0 bits (m + 6 + k / 10)).decod
      ⟨true, receivedWord bits k m⟩ := by
    show (laneFrom l0 _ (m + 7 + k / 10)).decod = _
    rw [show m + 7 + k / 10 = m + 6 + k / 10 + 1 by omega]
    show Decoding.step _ ⟨_, _⟩ = _
    rw [← hd, ← hv]; rfl
  rw [hs]
  have htok : receivedWord bits k m ∈ tokens → ∃ c : BitVec 2,
      receivedWord bits k m = Encoder.controlToken c ∧ controlBits (receivedWord bits k m) = c := by
    generalize receivedWord bits k m = w
    revert w
    decide +kernel
  refine ⟨rfl, ⟨fun h ht => ?_, fun h => (Decoding.step_data _ true _ h).1⟩,
    decodeByte_eq _, fun ht => ?_,
    fun h => (Decoding.step_data _ true _ h).2⟩
  · obtain ⟨c, hc, -⟩ := htok ht
    rw [hc, (Decoding.step_token _ true c).1] at h
    exact absurd h (by decide)
  · obtain ⟨c, hc, hb⟩ := htok ht
    rw [hb, hc]
    exact (Decoding.step_token _ true c).2

/-! ### The whole receiver -/

section

variable (s0 : Receiver.State) (bits : Nat → Nat → Bool) (k : Nat → Nat)

theorem rx_lane0 (t : Nat) :
    (rxOn s0 bits t).lane0 = laneFrom s0.lane0 (bits 0) t := by
  induction t with
  | zero => rfl
  | succ t ih => show Lane.step (rxOn s0 bits t).lane0 _ = _; rw [ih]; rfl

theorem rx_lane1 (t : Nat) :
    (rxOn s0 bits t).lane1 = laneFrom s0.lane1 (bits 1) t := by
  induction t with
  | zero => rfl
  | succ t ih => show Lane.step (rxOn s0 bits t).lane1 _ = _; rw [ih]; rfl

theorem rx_lane2 (t : Nat) :
    (rxOn s0 bits t).lane2 = laneFrom s0.lane2 (bits 2) t := by
  induction t with
  | zero => rfl
  | succ t ih => show Lane.step (rxOn s0 bits t).lane2 _ = _; rw [ih]; rfl

theorem lane_de (i : Nat) (p : Phy) : (lane i p).de = p.de := by
  unfold lane; split <;> rfl

/-- The lanes of a receiver. -/
def laneIx (s : Receiver.State) (i : Nat) : Lane :=
  match i with
  | 0 => s.lane0
  | 1 => s.lane1
  | _ => s.lane2

theorem laneIx_counter {s : Receiver.State} (h : Registers s) (i : Nat) :
    (laneIx s i).charsync.control_counter ≤ 7 := by
  unfold laneIx
  split
  · exact h.counter0
  · exact h.counter1
  · exact h.counter2

/-- `chan_synced` after a clock in which the channels agree on data-enable. -/
theorem chan_synced_step (y : ChanSync.In) (hv : y.valid_i = true) (c : ChanSync.State) (d : Bool)
    (hd : ∀ i, i < 3 → (ChanSync.dataOut c i).de = d) (h : d = false ∨ c.chan_synced = true) :
    (ChanSync.step 3 8 c y).chan_synced = true := by
  have h0 := hd 0 (by omega)
  have h1 := hd 1 (by omega)
  have h2 := hd 2 (by omega)
  simp only [ChanSync.step, ChanSync.someControl, ChanSync.allControl, ChanSync.isControl, hv,
    List.range, List.range.loop, List.any_cons, List.any_nil, List.all_cons, List.all_nil, h0, h1, h2]
  cases d <;> simp at h ⊢
  exact h

/-- What is shown of the word with index `m` on channel `i`. -/
def chanWord (i m : Nat) : ChanSync.Word :=
  (laneFrom (laneIx s0 (min i 2)) (bits (min i 2)) (m + 7 + k (min i 2) / 10)).word

variable {s0 bits k} {x : Nat → Phy} (hs0 : Registers s0) {n0 f g : Nat}
  (he : ∀ i, i < 3 → LaneWords (k i) (bits i) n0)

include hs0 he in
theorem chan_word (i m : Nat) (hm : n0 + 10 ≤ m) :
    let w := receivedWord (bits (min i 2)) (k (min i 2)) m
    let s := (laneFrom (laneIx s0 (min i 2)) (bits (min i 2)) (m + 7 + k (min i 2) / 10)).decod
    s.valid_o = true ∧ (s.de = true ↔ w ∉ tokens) ∧ s.d = decodeByte w ∧
    (w ∈ tokens → s.c = controlBits w) ∧
    (w ∉ tokens → s.c = (laneFrom (laneIx s0 (min i 2)) (bits (min i 2))
        (m + 6 + k (min i 2) / 10)).decod.c) :=
  lane_word _ (laneIx_counter hs0 (min i 2)) (k (min i 2)) _ n0 (he _ (by omega)) m hm

include hs0 he in
theorem chan_word_de (i m : Nat) (hm : n0 + 10 ≤ m) (ha : LanesAgree x k bits m) :
    (chanWord s0 bits k i m).de = (x m).de := by
  have h := (chan_word hs0 he i m hm).2.1
  have h2 := ha (min i 2) (by omega)
  show (laneFrom _ _ _).decod.de = _
  cases hx : (x m).de
  · rw [← Bool.not_eq_true, h]
    exact fun hn => hn (h2.2 hx)
  · rw [h]
    intro hn
    rw [h2.1 hn] at hx
    exact absurd hx (by decide)

include hs0 he in
/-- The state of the channel synchroniser. -/
theorem rx_chan_synced (tr : Training x n0 f g)
    (hskew : ∀ i j, i < 3 → j < 3 → k i ≤ k j + 70)
    (hbad : ∀ m, n0 + 10 ≤ m → m < g + 15 → LanesAgree x k bits m) :
    ∃ T, (∀ i, i < 3 → g + k i / 10 + 1 ≤ T ∧ T ≤ g + k i / 10 + 22) ∧
      ∀ j, (∀ m, n0 + 10 ≤ m → m < g + j → LanesAgree x k bits m) →
        (∀ i, i < 3 → ChanSync.dataOut (rxOn s0 bits (T + j)).chan i = chanWord s0 bits k i (g + j)) ∧
        (0 < j → (rxOn s0 bits (T + j)).chan.chan_synced = true) ∧
        (rxOn s0 bits (T + j)).lane0.decod.valid_o = true ∧
        (rxOn s0 bits (T + j)).lane1.decod.valid_o = true ∧
        (rxOn s0 bits (T + j)).lane2.decod.valid_o = true := by
  obtain ⟨Q, hQ, ⟨jq, hjq, hQe⟩⟩ : ∃ Q, (∀ i, i < 3 → k i / 10 ≤ Q) ∧ ∃ j, j < 3 ∧ Q = k j / 10 := by
    refine ⟨max (k 0 / 10) (max (k 1 / 10) (k 2 / 10)), fun i hi => ?_, ?_⟩
    · have : i = 0 ∨ i = 1 ∨ i = 2 := by omega
      rcases this with rfl | rfl | rfl <;> omega
    · rcases Nat.le_total (k 0 / 10) (max (k 1 / 10) (k 2 / 10)) with h | h
      · rcases Nat.le_total (k 1 / 10) (k 2 / 10) with h' | h'
        · exact ⟨2, by omega, by omega⟩
        · exact ⟨1, by omega, by omega⟩
      · exact ⟨0, by omega, by omega⟩
  have hq7 : ∀ i, i < 3 → Q ≤ k i / 10 + 7 := by
    intro i hi
    have := hskew jq i hjq hi
    omega
  have hl := tr.later
  have hlo := tr.long
  let a : Nat → Nat := fun i => Q - k (min i 2) / 10
  have ha7 : ∀ i, a i ≤ 7 := by
    intro i
    have := hq7 (min i 2) (by omega)
    show Q - _ ≤ 7
    omega
  -- the words that would be seen without bad clocks, by a source that starts at clock `n0 + 17 + Q`
  let S : Spec.ChanSync.Source :=
    { w := fun i n => { chanWord s0 bits k i (n0 + 10 + n) with de := (x (n0 + 10 + n)).de }
      de := fun n => (x (n0 + 10 + n)).de
      a := a
      common := fun _ _ => rfl }
  let y : Nat → ChanSync.In := fun u => chanIn (rxOn s0 bits (n0 + 17 + Q + u))
  have hy : ∀ u i, i < 3 → (y u).data_in i = chanWord s0 bits k i (n0 + 10 + (u + a i)) := by
    intro u i hi
    have hw : chanWord s0 bits k i (n0 + 10 + (u + a i)) =
        (laneFrom (laneIx s0 i) (bits i) (n0 + 17 + Q + u)).word := by
      have h1 := hQ i hi
      have h2 : min i 2 = i := by omega
      show (laneFrom _ _ (n0 + 10 + (u + (Q - k (min i 2) / 10)) + 7 + _)).word = _
      rw [h2]
      congr 2
      omega
    rw [hw]
    have : i = 0 ∨ i = 1 ∨ i = 2 := by omega
    rcases this with rfl | rfl | rfl
    · show (rxOn s0 bits _).lane0.word = _; rw [rx_lane0]; rfl
    · show (rxOn s0 bits _).lane1.word = _; rw [rx_lane1]; rfl
    · show (rxOn s0 bits _).lane2.word = _; rw [rx_lane2]; rfl
  have hv : ∀ u i, i < 3 →
      (laneFrom (laneIx s0 i) (bits i) (n0 + 17 + Q + u)).decod.valid_o = true := by
    intro u i hi
    have h1 := hQ i hi
    have h2 : min i 2 = i := by omega
    have := (chan_word hs0 he i (n0 + 10 + (u + (Q - k i / 10))) (by omega)).1
    rw [h2, show n0 + 10 + (u + (Q - k i / 10)) + 7 + k i / 10 = n0 + 17 + Q + u by omega] at this
    exact this
  have hv0 : ∀ u, (rxOn s0 bits (n0 + 17 + Q + u)).lane0.decod.valid_o = true :=
    fun u => by rw [rx_lane0]; exact hv u 0 (by omega)
  have hv1 : ∀ u, (rxOn s0 bits (n0 + 17 + Q + u)).lane1.decod.valid_o = true :=
    fun u => by rw [rx_lane1]; exact hv u 1 (by omega)
  have hv2 : ∀ u, (rxOn s0 bits (n0 + 17 + Q + u)).lane2.decod.valid_o = true :=
    fun u => by rw [rx_lane2]; exact hv u 2 (by omega)
  have hyv : ∀ u, (y u).valid_i = true := by
    intro u
    show ((rxOn s0 bits _).lane0.decod.valid_o && (rxOn s0 bits _).lane1.decod.valid_o &&
      (rxOn s0 bits _).lane2.decod.valid_o) = true
    rw [hv0, hv1, hv2]; rfl
  have hchan : ∀ u, (rxOn s0 bits (n0 + 17 + Q + u)).chan =
      trace (ChanSync.step 3 8) (rxOn s0 bits (n0 + 17 + Q)).chan y u := by
    intro u
    induction u with
    | zero => rfl
    | succ u ih =>
      show ChanSync.step 3 8 (rxOn s0 bits (n0 + 17 + Q + u)).chan (y u) = _
      rw [ih]; rfl
  have hrange : ∀ t, Spec.ChanSync.InRange 3 8 (rxOn s0 bits t).chan := by
    intro t
    have e : (rxOn s0 bits t).chan =
        trace (ChanSync.step 3 8) s0.chan (fun u => chanIn (rxOn s0 bits u)) t := by
      induction t with
      | zero => rfl
      | succ t ih =>
        show ChanSync.step 3 8 (rxOn s0 bits t).chan (chanIn _) = _
        rw [ih]; rfl
    rw [e]
    exact ChanSync.inRange hs0.pointers t
  have hde : ∀ i m, n0 + 10 ≤ m → LanesAgree x k bits m → (chanWord s0 bits k i m).de = (x m).de :=
    fun i m hm hb => chan_word_de hs0 he i m hm hb
  obtain ⟨ts, h1, h2, h3, hal⟩ := chan_stabilises 3 8 7 (by omega)
    (rxOn s0 bits (n0 + 17 + Q)).chan (hrange _) S (fun _ => true)
    (fun i _ => ha7 i) (by omega) (f - (n0 + 10)) (g - (n0 + 10)) (by omega) (by omega)
    (by
      show (x (n0 + 10 + (f - (n0 + 10) - 1))).de = false
      rw [show n0 + 10 + (f - (n0 + 10) - 1) = f - 1 by omega]
      exact tr.before)
    (fun n h1 h2 => tr.active _ (by omega) (by omega))
    (by
      show (x (n0 + 10 + (g - (n0 + 10)))).de = false
      rw [show n0 + 10 + (g - (n0 + 10)) = g by omega]
      exact tr.ends)
  -- up to clock `ts` both runs agree
  have hsame : ∀ u, u ≤ ts → ∀ i, i < 3 →
      (trace (ChanSync.step 3 8) (rxOn s0 bits (n0 + 17 + Q)).chan y u).buf i =
      (Spec.ChanSync.chanSync 3 8 (rxOn s0 bits (n0 + 17 + Q)).chan S (fun _ => true) u).buf i := by
    intro u
    induction u with
    | zero => intro _ i _; rfl
    | succ u ih =>
      intro hu i hi
      have ih := ih (by omega)
      have hre : ChanSync.re 3 (trace (ChanSync.step 3 8) (rxOn s0 bits (n0 + 17 + Q)).chan y u) i =
          ChanSync.re 3 (Spec.ChanSync.chanSync 3 8 (rxOn s0 bits (n0 + 17 + Q)).chan S
            (fun _ => true) u) i := by
        have hi' : ∀ i, i < 3 → ChanSync.isControl
            (trace (ChanSync.step 3 8) (rxOn s0 bits (n0 + 17 + Q)).chan y u) i =
            ChanSync.isControl (Spec.ChanSync.chanSync 3 8 (rxOn s0 bits (n0 + 17 + Q)).chan S
              (fun _ => true) u) i := by
          intro i hi
          unfold ChanSync.isControl ChanSync.dataOut
          rw [ih i hi]
        unfold ChanSync.re ChanSync.allControl
        rw [hi' i hi]
        congr 1
        simp only [List.range, List.range.loop, List.all_cons, List.all_nil]
        rw [hi' 0 (by omega), hi' 1 (by omega), hi' 2 (by omega)]
      have hin : (y u).data_in i = (S.input (fun _ => true) u).data_in i := by
        rw [hy u i hi]
        show _ = ({ chanWord s0 bits k i (n0 + 10 + (u + a i)) with
          de := (x (n0 + 10 + (u + a i))).de } : ChanSync.Word)
        rw [← hde i (n0 + 10 + (u + a i)) (by omega) (hbad _ (by omega) (by
          have := ha7 i
          omega))]
      show ChanSync.Buffer.step 8 _ _ _ = ChanSync.Buffer.step 8 _ _ _
      rw [ih i hi, hre, hin]
  have key := fun j => ChanSync.aligned_raw (hrange (n0 + 17 + Q)) (x := y) (w := fun i n =>
      chanWord s0 bits k i (n0 + 10 + n)) (a := a) (fun u i hi => hy u i hi) ts (g - (n0 + 10)) h3
    (fun i hi => by rw [hsame ts (Nat.le_refl _) i hi]; exact hal i hi)
    (fun m => (x (n0 + 10 + m)).de) j
  have show' : ∀ j, (∀ m, n0 + 10 ≤ m → m < g + j → LanesAgree x k bits m) → ∀ i, i < 3 →
      ChanSync.dataOut (rxOn s0 bits (n0 + 17 + Q + ts + j)).chan i =
        chanWord s0 bits k i (g + j) := by
    intro j hb i hi
    rw [show n0 + 17 + Q + ts + j = n0 + 17 + Q + (ts + j) by omega, hchan]
    rw [(key j fun m h1 h2 i hi => hde i _ (by omega) (hb _ (by omega) (by omega))).2 i hi]
    show chanWord s0 bits k i (n0 + 10 + (g - (n0 + 10) + j)) = _
    congr 1
    omega
  refine ⟨n0 + 17 + Q + ts, fun i hi => ?_, fun j hb => ⟨show' j hb, fun hj => ?_, ?_⟩⟩
  · have := hQ i hi
    have := hq7 i hi
    omega
  · obtain ⟨j, rfl⟩ : ∃ u, j = u + 1 := ⟨j - 1, by omega⟩
    clear hj
    induction j with
    | zero =>
      refine chan_synced_step (y ts) (hyv ts) (rxOn s0 bits (n0 + 17 + Q + ts + 0)).chan (x g).de
        (fun i hi => ?_) (.inl tr.ends)
      rw [show' 0 (fun m h0 hm => hb m h0 (by omega)) i hi]
      exact hde i _ (by omega) (hb _ (by omega) (by omega))
    | succ j ih =>
      refine chan_synced_step (chanIn (rxOn s0 bits (n0 + 17 + Q + ts + (j + 1))))
        (by
          have := hyv (ts + (j + 1))
          rwa [show y (ts + (j + 1)) = chanIn (rxOn s0 bits (n0 + 17 + Q + ts + (j + 1))) by
            show chanIn (rxOn s0 bits (n0 + 17 + Q + (ts + (j + 1)))) = _
            rw [show n0 + 17 + Q + (ts + (j + 1)) = n0 + 17 + Q + ts + (j + 1) by omega]] at this)
        (rxOn s0 bits (n0 + 17 + Q + ts + (j + 1))).chan
        (x (g + (j + 1))).de (fun i hi => ?_) (.inr (ih fun m h0 hm => hb m h0 (by omega)))
      rw [show' (j + 1) (fun m h0 hm => hb m h0 (by omega)) i hi]
      exact hde i _ (by omega) (hb _ (by omega) (by omega))
  · rw [show n0 + 17 + Q + ts + j = n0 + 17 + Q + (ts + j) by omega]
    exact ⟨hv0 _, hv1 _, hv2 _⟩

end

theorem controlBits_sent (i : Nat → Encoder.In) (n : Nat) (hd : (i n).de = false) :
    controlBits (sentWord i n) = (i n).c := by
  have h : ∀ c : BitVec 2, (tokens[c.toNat]?).map controlBits = some c := by decide
  have h2 := h (i n).c
  rw [C03_control_words i n hd] at h2
  exact Option.some.inj h2

theorem kind_words {x : Nat → Phy} {k : Nat → Nat} {bits : Nat → Nat → Bool} {n0 f g : Nat}
    (he : ∀ i, i < 3 → KindErrors (fun u => lane i (x u)) (k i) (bits i) n0)
    (tr : Training x n0 f g) (i : Nat) (hi : i < 3) : LaneWords (k i) (bits i) n0 :=
  (he i hi).lane (fun n h1 h2 => by rw [lane_de]; exact tr.blank n h1 h2) fun n h1 h2 => by
    simp only [lane_de] at h2 ⊢
    exact tr.iso n h1 h2

theorem kind_agree {x : Nat → Phy} {k : Nat → Nat} {bits : Nat → Nat → Bool} {n0 : Nat}
    (he : ∀ i, i < 3 → KindErrors (fun u => lane i (x u)) (k i) (bits i) n0)
    (n : Nat) (hn : n0 ≤ n) : LanesAgree x k bits n := by
  intro i hi
  constructor
  · intro ht
    cases hd : (x n).de
    · rfl
    · exact absurd ht ((he i hi).pixels n hn (by rw [lane_de]; exact hd))
  · intro hd
    exact (he i hi).blanking n hn (by rw [lane_de]; exact hd)

theorem intact_kind (x : Nat → Phy) (k : Nat → Nat) (lead : Nat → Nat → Bool) (n0 : Nat) (i : Nat)
    (_ : i < 3) : KindErrors (fun u => lane i (x u)) (k i) (laneBits x k lead i) n0 :=
  (intact_lane _ _ _ n0 fun n _ => intact_serialise _ _ _ n).kind

/-- With intact lanes the channels are synchronised for good. -/
theorem rx_intact_synced {s0 : Receiver.State} (hs0 : Registers s0) {x : Nat → Phy} {k : Nat → Nat}
    (lead : Nat → Nat → Bool) {n0 f g : Nat} (tr : Training x n0 f g)
    (hskew : ∀ i j, i < 3 → j < 3 → k i ≤ k j + 70) :
    ∃ T, ∀ j, (rxFrom s0 x k lead (T + j + 1)).chan.chan_synced = true := by
  have he := intact_kind x k lead n0
  obtain ⟨T, -, hd⟩ := rx_chan_synced hs0 (kind_words he tr) tr hskew
    (fun m h _ => kind_agree he m (by omega))
  exact ⟨T, fun j => (hd (j + 1) fun m h _ => kind_agree he m (by omega)).2.1 (by omega)⟩

/-- What the receiver shows of words that arrive, up to the first clock `E` at which the lanes do not agree
on blanking. -/
theorem received_until (s0 : Receiver.State) (hs0 : Registers s0) (x : Nat → Phy)
    (k : Nat → Nat) (bits : Nat → Nat → Bool) (n0 f g : Nat)
    (he : ∀ i, i < 3 → LaneWords (k i) (bits i) n0)
    (hbad : ∀ n, n0 + 10 ≤ n → n < g + 15 → LanesAgree x k bits n)
    (tr : Training x n0 f g) (hskew : ∀ i j, i < 3 → j < 3 → k i ≤ k j + 70) :
    ∃ L, (∀ i, i < 3 → k i / 10 + 2 ≤ L ∧ L ≤ k i / 10 + 23) ∧
      ∀ E, (∀ n, n0 + 10 ≤ n → n < E → LanesAgree x k bits n) →
      let word := fun i n => receivedWord (bits i) (k i) n
      let out := fun n => (rxOn s0 bits (n + L)).pol
      (∀ n, g ≤ n → n < E →
        (g < n → (out n).valid_o = true) ∧ Analysis.SyncPolarity.de (out n) = (x n).de ∧
        (out n).r = decodeByte (word 2 n) ∧ (out n).g = decodeByte (word 1 n) ∧
        (out n).b = decodeByte (word 0 n)) ∧
      (∀ e j, g ≤ e → e + 1 + j < E → LineEnd x e → (∀ u, u < j → ¬ LineEnd x (e + 1 + u)) →
        (x (e + 1 + j)).de = false →
        Analysis.SyncPolarity.hsync (out (e + 1 + j)) =
          ((controlBits (word 0 (e + 1 + j))).getLsbD 0 ^^ (controlBits (word 0 (e + 1))).getLsbD 0) ∧
        Analysis.SyncPolarity.vsync (out (e + 1 + j)) =
          ((controlBits (word 0 (e + 1 + j))).getLsbD 1 ^^ (controlBits (word 0 (e + 1))).getLsbD 1)) ∧
      (∀ n, g ≤ n → n + 1 < E → (x (n + 1)).de = true →
        Analysis.SyncPolarity.hsync (out (n + 1)) = Analysis.SyncPolarity.hsync (out n) ∧
        Analysis.SyncPolarity.vsync (out (n + 1)) = Analysis.SyncPolarity.vsync (out n)) := by
  obtain ⟨T, hT, hd⟩ := rx_chan_synced hs0 he tr hskew hbad
  have hT0 := hT 0 (by omega)
  have hn0 : n0 + 10 ≤ g := by have := tr.later; have := tr.long; omega
  refine ⟨T + 1 - g, fun i hi => by have := hT i hi; omega, ?_⟩
  intro E hagree word out
  have hs : ∀ j, g + (j + 1) ≤ E → (rxOn s0 bits (T + j + 1)).chan.chan_synced = true :=
    fun j hj => (hd (j + 1) fun m h _ => hagree m h (by omega)).2.1 (by omega)
  have hd : ∀ j i, g + j ≤ E → i < 3 → ChanSync.dataOut (rxOn s0 bits (T + j)).chan i =
      chanWord s0 bits k i (g + j) := fun j i hj => (hd j fun m h _ => hagree m h (by omega)).1 i
  -- inputs of the polarity block
  have hin : ∀ j, g + j ≤ E → Verif.Receiver.polIn (rxOn s0 bits (T + j)) = Analysis.SyncPolarity.dviIn
      (rxOn s0 bits (T + j)).chan.chan_synced (chanWord s0 bits k 0 (g + j))
      (chanWord s0 bits k 1 (g + j)) (chanWord s0 bits k 2 (g + j)) := by
    intro j hj
    unfold Verif.Receiver.polIn
    rw [hd j 0 hj (by omega), hd j 1 hj (by omega), hd j 2 hj (by omega)]
  have hout : ∀ j, out (g + j) = Analysis.SyncPolarity.step (rxOn s0 bits (T + j)).pol
      (Verif.Receiver.polIn (rxOn s0 bits (T + j))) := by
    intro j
    show (rxOn s0 bits (g + j + (T + 1 - g))).pol = _
    rw [show g + j + (T + 1 - g) = T + j + 1 by omega]
    rfl
  have hpol : ∀ j, (rxOn s0 bits (T + j)).pol =
      trace Analysis.SyncPolarity.step (rxOn s0 bits T).pol
        (fun u => Verif.Receiver.polIn (rxOn s0 bits (T + u))) j := by
    intro j
    induction j with
    | zero => rfl
    | succ j ih =>
      show Analysis.SyncPolarity.step (rxOn s0 bits (T + j)).pol _ = _
      rw [ih]; rfl
  have hde : ∀ j, g + j < E → (Verif.Receiver.polIn (rxOn s0 bits (T + j))).de_int = (x (g + j)).de := by
    intro j hj
    rw [hin j (by omega)]
    exact chan_word_de hs0 he 0 (g + j) (by omega) (hagree _ (by omega) hj)
  have hc : ∀ j, g + j < E → (x (g + j)).de = false →
      (Verif.Receiver.polIn (rxOn s0 bits (T + j))).data_in0.c = controlBits (word 0 (g + j)) := by
    intro j hj h
    rw [hin j (by omega)]
    exact (chan_word hs0 he 0 (g + j) (by omega)).2.2.2.1 ((hagree _ (by omega) hj 0 (by omega)).2 h)
  have hchold : ∀ j, g + (j + 1) < E → (x (g + (j + 1))).de = true →
      (Verif.Receiver.polIn (rxOn s0 bits (T + (j + 1)))).data_in0.c =
        (Verif.Receiver.polIn (rxOn s0 bits (T + j))).data_in0.c := by
    intro j hj h
    rw [hin (j + 1) (by omega), hin j (by omega)]
    have := (chan_word hs0 he 0 (g + (j + 1)) (by omega)).2.2.2.2 (fun ht => by
      rw [(hagree _ (by omega) hj 0 (by omega)).1 ht] at h
      exact absurd h (by decide))
    rw [show g + (j + 1) + 6 = g + j + 7 by omega] at this
    exact this
  refine ⟨fun n hn hE => ?_, fun e j he' hE hend hno hb => ?_, fun n hn hE ha => ?_⟩
  · obtain ⟨j, rfl⟩ : ∃ j, n = g + j := ⟨n - g, by omega⟩
    refine ⟨fun h => ?_, ?_, ?_⟩
    · rw [hout]
      show (rxOn s0 bits (T + j)).chan.chan_synced = true
      obtain ⟨i, rfl⟩ : ∃ i, j = i + 1 := ⟨j - 1, by omega⟩
      exact hs i (by omega)
    · rw [hout]; exact hde j hE
    · rw [hout, hin j (by omega)]
      exact ⟨(chan_word hs0 he 2 (g + j) (by omega)).2.2.1,
        (chan_word hs0 he 1 (g + j) (by omega)).2.2.1, (chan_word hs0 he 0 (g + j) (by omega)).2.2.1⟩
  · obtain ⟨i, rfl⟩ : ∃ i, e = g + i := ⟨e - g, by omega⟩
    have hv := C10_value (rxOn s0 bits T).pol
      (fun u => Verif.Receiver.polIn (rxOn s0 bits (T + u))) i j
      ⟨by rw [hde i (by omega)]; exact hend.1, by rw [hde (i + 1) (by omega)]; exact hend.2⟩
      (fun u hu => by
        rintro ⟨h1, h2⟩
        rw [hde _ (by omega)] at h1 h2
        exact hno u hu ⟨by rw [← h1]; congr 2; omega, by rw [← h2]; congr 2; omega⟩)
    simp only [← hpol] at hv
    have e1 : out (g + i + 1 + j) = (rxOn s0 bits (T + (i + 1 + j + 1))).pol := by
      show (rxOn s0 bits (g + i + 1 + j + (T + 1 - g))).pol = _
      congr 2; omega
    rw [e1, hv.1, hv.2, hc (i + 1 + j) (by omega) (by rw [← hb]; congr 2; omega),
      hc (i + 1) (by omega) (by rw [← hend.2]; congr 2)]
    rw [show g + (i + 1 + j) = g + i + 1 + j by omega, show g + (i + 1) = g + i + 1 by omega]
    exact ⟨rfl, rfl⟩
  · obtain ⟨j, rfl⟩ : ∃ j, n = g + j := ⟨n - g, by omega⟩
    have key : (out (g + j + 1)).c_out = (out (g + j)).c_out := by
      rw [show g + j + 1 = g + (j + 1) by omega, hout, hout]
      have h1 := hchold j (by omega) ha
      have h2 := hde (j + 1) (by omega)
      rw [show g + (j + 1) = g + j + 1 by omega, ha] at h2
      show (if _ && !(Verif.Receiver.polIn (rxOn s0 bits (T + (j + 1)))).de_int then 0 else _ ^^^
        (Analysis.SyncPolarity.step (rxOn s0 bits (T + j)).pol
          (Verif.Receiver.polIn (rxOn s0 bits (T + j)))).c_polarity) = _
      rw [h2, h1]
      simp only [Bool.not_true, Bool.and_false, Bool.false_eq_true, if_false,
        Analysis.SyncPolarity.step]
      split
      · exact BitVec.xor_self
      · rfl
    simp only [Analysis.SyncPolarity.hsync, Analysis.SyncPolarity.vsync, key, and_self]

/-- **C112** What the receiver shows of words that arrive.  The word boundary can be found and kept
(`LaneWords`), and from the eleventh clock on the three lanes agree on which clocks are blanking; nothing
else is assumed of the words.  After the next complete line of at least 15 pixels (which ends before
clock `g`) there is a constant latency `L` such that for every clock `n` from `g` on the outputs at clock
`n + L` show the data-enable of clock `n` and the colours encoded by the three words; in blanking clocks
the syncs encoded by the word of lane 0, relative to those of the first clock after the last line; in
active clocks the syncs before. -/
theorem C112_received (s0 : Receiver.State) (hs0 : Registers s0) (x : Nat → Phy)
    (k : Nat → Nat) (bits : Nat → Nat → Bool) (n0 f g : Nat)
    (he : ∀ i, i < 3 → LaneWords (k i) (bits i) n0)
    (hagree : ∀ n, n0 + 10 ≤ n → LanesAgree x k bits n)
    (tr : Training x n0 f g) (hskew : ∀ i j, i < 3 → j < 3 → k i ≤ k j + 70) :
    ∃ L, (∀ i, i < 3 → k i / 10 + 2 ≤ L ∧ L ≤ k i / 10 + 23) ∧
      let word := fun i n => receivedWord (bits i) (k i) n
      let out := fun n => (rxOn s0 bits (n + L)).pol
      (∀ n, g ≤ n →
        (g < n → (out n).valid_o = true) ∧ Analysis.SyncPolarity.de (out n) = (x n).de ∧
        (out n).r = decodeByte (word 2 n) ∧ (out n).g = decodeByte (word 1 n) ∧
        (out n).b = decodeByte (word 0 n)) ∧
      (∀ e j, g ≤ e → LineEnd x e → (∀ u, u < j → ¬ LineEnd x (e + 1 + u)) →
        (x (e + 1 + j)).de = false →
        Analysis.SyncPolarity.hsync (out (e + 1 + j)) =
          ((controlBits (word 0 (e + 1 + j))).getLsbD 0 ^^ (controlBits (word 0 (e + 1))).getLsbD 0) ∧
        Analysis.SyncPolarity.vsync (out (e + 1 + j)) =
          ((controlBits (word 0 (e + 1 + j))).getLsbD 1 ^^ (controlBits (word 0 (e + 1))).getLsbD 1)) ∧
      (∀ n, g ≤ n → (x (n + 1)).de = true →
        Analysis.SyncPolarity.hsync (out (n + 1)) = Analysis.SyncPolarity.hsync (out n) ∧
        Analysis.SyncPolarity.vsync (out (n + 1)) = Analysis.SyncPolarity.vsync (out n)) := by
  obtain ⟨L, hL, h⟩ := received_until s0 hs0 x k bits n0 f g he (fun n hn _ => hagree n hn) tr hskew
  have h := fun E => h E fun n hn _ => hagree n hn
  exact ⟨L, hL, fun n hn => (h (n + 1)).1 n hn (by omega),
    fun e j hg => (h (e + 1 + j + 1)).2.1 e j hg (by omega),
    fun n hn => (h (n + 2)).2.2 n hn (by omega)⟩

/-- What is shown when errors hit pixels only. -/
theorem received_pixels (s0 : Receiver.State) (hs0 : Registers s0) (x : Nat → Phy)
    (k : Nat → Nat) (bits : Nat → Nat → Bool) (n0 f g : Nat)
    (he : ∀ i, i < 3 → OnlyPixelErrors (fun u => lane i (x u)) (k i) (bits i) n0)
    (tr : Training x n0 f g) (hskew : ∀ i j, i < 3 → j < 3 → k i ≤ k j + 70) :
    ∃ L, (∀ i, i < 3 → k i / 10 + 2 ≤ L ∧ L ≤ k i / 10 + 23) ∧
      let out := fun n => (rxOn s0 bits (n + L)).pol
      (∀ n, g ≤ n →
        (g < n → (out n).valid_o = true) ∧ Analysis.SyncPolarity.de (out n) = (x n).de ∧
        (out n).r = decodeByte (receivedWord (bits 2) (k 2) n) ∧
        (out n).g = decodeByte (receivedWord (bits 1) (k 1) n) ∧
        (out n).b = decodeByte (receivedWord (bits 0) (k 0) n)) ∧
      (∀ e j, g ≤ e → LineEnd x e → (∀ u, u < j → ¬ LineEnd x (e + 1 + u)) →
        (x (e + 1 + j)).de = false →
        Analysis.SyncPolarity.hsync (out (e + 1 + j)) =
          ((x (e + 1 + j)).hsync ^^ (x (e + 1)).hsync) ∧
        Analysis.SyncPolarity.vsync (out (e + 1 + j)) =
          ((x (e + 1 + j)).vsync ^^ (x (e + 1)).vsync)) ∧
      (∀ n, g ≤ n → (x (n + 1)).de = true →
        Analysis.SyncPolarity.hsync (out (n + 1)) = Analysis.SyncPolarity.hsync (out n) ∧
        Analysis.SyncPolarity.vsync (out (n + 1)) = Analysis.SyncPolarity.vsync (out n)) := by
  have hkind := fun i hi => (he i hi).kind
  have hagree := kind_agree hkind
  obtain ⟨L, hL, h1, h2, h3⟩ := C112_received s0 hs0 x k bits n0 f g (kind_words hkind tr)
    (fun n hn => hagree n (by omega)) tr hskew
  have hn0 : n0 + 10 ≤ g := by have := tr.later; have := tr.long; omega
  refine ⟨L, hL, h1, fun e j hge hend hno hb => ?_, h3⟩
  have hc : ∀ n, n0 ≤ n → (x n).de = false → controlBits (receivedWord (bits 0) (k 0) n) =
      BitVec.ofBool (x n).vsync ++ BitVec.ofBool (x n).hsync := by
    intro n hn hd
    rw [(he 0 (by omega)).blanking n hn hd]
    exact controlBits_sent (fun u => lane 0 (x u)) n hd
  have hbits : ∀ h v : Bool, (BitVec.ofBool v ++ BitVec.ofBool h).getLsbD 0 = h ∧
      (BitVec.ofBool v ++ BitVec.ofBool h).getLsbD 1 = v := by decide
  obtain ⟨a, b⟩ := h2 e j hge hend hno hb
  rw [a, b, hc _ (by omega) hb, hc _ (by omega) hend.2, (hbits _ _).1, (hbits _ _).1, (hbits _ _).2,
    (hbits _ _).2]
  exact ⟨rfl, rfl⟩

theorem decode_sent (i : Nat → Encoder.In) (n : Nat) (hd : (i n).de = true) :
    decodeByte (sentWord i n) = (i n).d := by
  rw [← decodeByte_eq]
  exact (decode_step ⟨0, 0, 0, false, false⟩ true i n).2.1 hd

/-- **C109** Transmission errors stay where they are.  A transmitter sends `x`; the three lanes arrive
with delays of any number of bits, at most 70 bits apart.  Anything at all arrives before clock `n0`;
from then on errors hit pixels only (`OnlyPixelErrors`).  After ten blanking clocks and the next
complete line of at least 15 pixels (which ends before clock `g`) there is a constant latency `L` such
that for every clock `n` from `g` on the receiver's outputs at clock `n + L` show the data-enable of
`x n` and, in active clocks, every colour of `x n` whose word arrived intact; the syncs are those of
C102, and the outputs are flagged valid from `g + 1` on. -/
theorem C109_pixels (s0 : Receiver.State) (hs0 : Registers s0) (x : Nat → Phy)
    (k : Nat → Nat) (bits : Nat → Nat → Bool) (n0 f g : Nat)
    (he : ∀ i, i < 3 → OnlyPixelErrors (fun u => lane i (x u)) (k i) (bits i) n0)
    (tr : Training x n0 f g) (hskew : ∀ i j, i < 3 → j < 3 → k i ≤ k j + 70) :
    ∃ L, (∀ i, i < 3 → k i / 10 + 2 ≤ L ∧ L ≤ k i / 10 + 23) ∧
      let out := fun n => (rxOn s0 bits (n + L)).pol
      (∀ n, g ≤ n →
        (g < n → (out n).valid_o = true) ∧ Analysis.SyncPolarity.de (out n) = (x n).de ∧
        ((x n).de = true →
          (receivedWord (bits 2) (k 2) n = sentWord (fun u => lane 2 (x u)) n → (out n).r = (x n).r) ∧
          (receivedWord (bits 1) (k 1) n = sentWord (fun u => lane 1 (x u)) n → (out n).g = (x n).g) ∧
          (receivedWord (bits 0) (k 0) n = sentWord (fun u => lane 0 (x u)) n → (out n).b = (x n).b))) ∧
      (∀ e j, g ≤ e → LineEnd x e → (∀ u, u < j → ¬ LineEnd x (e + 1 + u)) →
        (x (e + 1 + j)).de = false →
        Analysis.SyncPolarity.hsync (out (e + 1 + j)) =
          ((x (e + 1 + j)).hsync ^^ (x (e + 1)).hsync) ∧
        Analysis.SyncPolarity.vsync (out (e + 1 + j)) =
          ((x (e + 1 + j)).vsync ^^ (x (e + 1)).vsync)) ∧
      (∀ n, g ≤ n → (x (n + 1)).de = true →
        Analysis.SyncPolarity.hsync (out (n + 1)) = Analysis.SyncPolarity.hsync (out n) ∧
        Analysis.SyncPolarity.vsync (out (n + 1)) = Analysis.SyncPolarity.vsync (out n)) := by
  obtain ⟨L, hL, h1, h2⟩ := received_pixels s0 hs0 x k bits n0 f g he tr hskew
  refine ⟨L, hL, fun n hn => ?_, h2⟩
  obtain ⟨a, b, r, g', b'⟩ := h1 n hn
  have dec : ∀ i, (lane i (x n)).de = true →
      receivedWord (bits i) (k i) n = sentWord (fun u => lane i (x u)) n →
      decodeByte (receivedWord (bits i) (k i) n) = (lane i (x n)).d := by
    intro i hd hw
    rw [hw]
    exact decode_sent (fun u => lane i (x u)) n hd
  exact ⟨a, b, fun hd => ⟨fun hw => r.trans (dec 2 hd hw), fun hw => g'.trans (dec 1 hd hw),
    fun hw => b'.trans (dec 0 hd hw)⟩⟩

/-- **C102** The receiver locks from any state and then reproduces the video.  A transmitter sends `x`; the three
lanes arrive with delays of any number of bits, at most 70 bits apart, and start with anything; the
registers and buffer memories of the receiver contain anything at the start.  After the first ten blanking clocks in a row and the next complete line of at least 15 pixels (which
ends before clock `g`) there is a constant latency `L` such that for every clock `n` from `g` on:
the receiver's outputs at clock `n + L` show the data-enable and, in active clocks, the colour of
`x n`; in blanking clocks the syncs of `x n` relative to those at the end of the last line (C10); in
active clocks unchanged syncs; and the outputs are flagged valid from `g + 1` on. -/
theorem C102_locks (s0 : Receiver.State) (hs0 : Registers s0) (x : Nat → Phy)
    (k : Nat → Nat) (lead : Nat → Nat → Bool) (n0 f g : Nat)
    (tr : Training x n0 f g) (hskew : ∀ i j, i < 3 → j < 3 → k i ≤ k j + 70) :
    ∃ L, (∀ i, i < 3 → k i / 10 + 2 ≤ L ∧ L ≤ k i / 10 + 23) ∧
      let out := fun n => (rxFrom s0 x k lead (n + L)).pol
      (∀ n, g ≤ n →
        (g < n → (out n).valid_o = true) ∧ Analysis.SyncPolarity.de (out n) = (x n).de ∧
        ((x n).de = true → (out n).r = (x n).r ∧ (out n).g = (x n).g ∧ (out n).b = (x n).b)) ∧
      (∀ e j, g ≤ e → LineEnd x e → (∀ u, u < j → ¬ LineEnd x (e + 1 + u)) →
        (x (e + 1 + j)).de = false →
        Analysis.SyncPolarity.hsync (out (e + 1 + j)) =
          ((x (e + 1 + j)).hsync ^^ (x (e + 1)).hsync) ∧
        Analysis.SyncPolarity.vsync (out (e + 1 + j)) =
          ((x (e + 1 + j)).vsync ^^ (x (e + 1)).vsync)) ∧
      (∀ n, g ≤ n → (x (n + 1)).de = true →
        Analysis.SyncPolarity.hsync (out (n + 1)) = Analysis.SyncPolarity.hsync (out n) ∧
        Analysis.SyncPolarity.vsync (out (n + 1)) = Analysis.SyncPolarity.vsync (out n)) := by
  obtain ⟨L, hL, h1, h2, h3⟩ := C109_pixels s0 hs0 x k (laneBits x k lead) n0 f g
    (fun _ _ => intact_lane _ _ _ _ fun n _ => intact_serialise _ _ _ n) tr hskew
  refine ⟨L, hL, fun n hn => ?_, h2, h3⟩
  obtain ⟨a, b, c⟩ := h1 n hn
  exact ⟨a, b, fun hd => ⟨(c hd).1 (intact_serialise _ _ _ n), (c hd).2.1 (intact_serialise _ _ _ n),
    (c hd).2.2 (intact_serialise _ _ _ n)⟩⟩

/-- What is shown of standard video timings when errors hit pixels only; data-enable is right from
clock `g` on. -/
theorem received_video_de (s0 : Receiver.State) (hs0 : Registers s0) (x : Nat → Phy)
    (k : Nat → Nat) (bits : Nat → Nat → Bool) (n0 f g : Nat)
    (hbits : ∀ i, i < 3 → OnlyPixelErrors (fun u => lane i (x u)) (k i) (bits i) n0)
    (tr : Training x n0 f g) (hskew : ∀ i j, i < 3 → j < 3 → k i ≤ k j + 70)
    (ph pv : Bool) (e : Nat) (he : g ≤ e) (std : StandardSyncs x ph pv e) :
    ∃ L, (∀ i, i < 3 → k i / 10 + 2 ≤ L ∧ L ≤ k i / 10 + 23) ∧
      (∀ n, g ≤ n → Analysis.SyncPolarity.de (rxOn s0 bits (n + L)).pol = (x n).de) ∧ ∀ n, e < n →
      let out := (rxOn s0 bits (n + L)).pol
      out.valid_o = true ∧ Analysis.SyncPolarity.de out = (x n).de ∧
      (out.r = decodeByte (receivedWord (bits 2) (k 2) n) ∧
        out.g = decodeByte (receivedWord (bits 1) (k 1) n) ∧
        out.b = decodeByte (receivedWord (bits 0) (k 0) n)) ∧
      Analysis.SyncPolarity.hsync out = ((x n).hsync ^^ ph) ∧
      Analysis.SyncPolarity.vsync out = ((x n).vsync ^^ pv) := by
  obtain ⟨L, hL, h1, h2, h3⟩ := received_pixels s0 hs0 x k bits n0 f g hbits tr hskew
  refine ⟨L, hL, fun n hn => (h1 n hn).2.1, fun n hn => ?_⟩
  obtain ⟨ha, hb, hc⟩ := h1 n (by omega)
  refine ⟨ha (by omega), hb, hc, ?_⟩
  -- the last line end
  have last : ∀ j, ∃ e' i, e ≤ e' ∧ e' + i = e + j ∧ LineEnd x e' ∧
      ∀ u, u < i → ¬ LineEnd x (e' + 1 + u) := by
    intro j
    induction j with
    | zero => exact ⟨e, 0, Nat.le_refl _, rfl, std.ends, fun u hu => absurd hu (Nat.not_lt_zero _)⟩
    | succ j ih =>
      obtain ⟨e', i, g1, g2, g3, g4⟩ := ih
      by_cases hl : LineEnd x (e' + 1 + i)
      · exact ⟨e + (j + 1), 0, by omega, rfl, by rw [show e + (j + 1) = e' + 1 + i by omega]; exact hl,
          fun u hu => absurd hu (Nat.not_lt_zero _)⟩
      · refine ⟨e', i + 1, g1, by omega, g3, fun u hu => ?_⟩
        rcases Nat.lt_succ_iff_lt_or_eq.mp hu with h | h
        · exact g4 u h
        · rw [h]; exact hl
  obtain ⟨j, rfl⟩ : ∃ j, n = e + 1 + j := ⟨n - e - 1, by omega⟩
  clear ha hb hc hn
  induction j with
  | zero =>
    have := h2 e 0 he std.ends (fun u hu => absurd hu (Nat.not_lt_zero _)) std.ends.2
    rw [this.1, this.2, (std.idle e (Nat.le_refl _) std.ends).1,
      (std.idle e (Nat.le_refl _) std.ends).2]
    exact ⟨rfl, rfl⟩
  | succ j ih =>
    cases hd : (x (e + 1 + (j + 1))).de
    · obtain ⟨e', i, g1, g2, g3, g4⟩ := last (j + 1)
      have := h2 e' i (by omega) g3 g4 (by
        rw [← hd]; congr 2; omega)
      rw [show e' + 1 + i = e + 1 + (j + 1) by omega, (std.idle e' g1 g3).1,
        (std.idle e' g1 g3).2] at this
      exact this
    · have := h3 (e + 1 + j) (by omega) hd
      have hh := std.hold (e + 1 + j) (by omega) hd
      rw [show e + 1 + (j + 1) = e + 1 + j + 1 by omega, this.1, this.2, ih.1, ih.2, hh.1, hh.2]
      exact ⟨rfl, rfl⟩

/-- What is shown of standard video timings when errors hit pixels only. -/
theorem received_video (s0 : Receiver.State) (hs0 : Registers s0) (x : Nat → Phy)
    (k : Nat → Nat) (bits : Nat → Nat → Bool) (n0 f g : Nat)
    (hbits : ∀ i, i < 3 → OnlyPixelErrors (fun u => lane i (x u)) (k i) (bits i) n0)
    (tr : Training x n0 f g) (hskew : ∀ i j, i < 3 → j < 3 → k i ≤ k j + 70)
    (ph pv : Bool) (e : Nat) (he : g ≤ e) (std : StandardSyncs x ph pv e) :
    ∃ L, (∀ i, i < 3 → k i / 10 + 2 ≤ L ∧ L ≤ k i / 10 + 23) ∧ ∀ n, e < n →
      let out := (rxOn s0 bits (n + L)).pol
      out.valid_o = true ∧ Analysis.SyncPolarity.de out = (x n).de ∧
      (out.r = decodeByte (receivedWord (bits 2) (k 2) n) ∧
        out.g = decodeByte (receivedWord (bits 1) (k 1) n) ∧
        out.b = decodeByte (receivedWord (bits 0) (k 0) n)) ∧
      Analysis.SyncPolarity.hsync out = ((x n).hsync ^^ ph) ∧
      Analysis.SyncPolarity.vsync out = ((x n).vsync ^^ pv) := by
  obtain ⟨L, hL, -, h⟩ := received_video_de s0 hs0 x k bits n0 f g hbits tr hskew ph pv e he std
  exact ⟨L, hL, h⟩

/-- **C109** For standard video timings: from the end of any line after lock the receiver's outputs are
the transmitter's video with the syncs made active-high, except for the colours whose words were
damaged. -/
theorem C109_video (s0 : Receiver.State) (hs0 : Registers s0) (x : Nat → Phy)
    (k : Nat → Nat) (bits : Nat → Nat → Bool) (n0 f g : Nat)
    (hbits : ∀ i, i < 3 → OnlyPixelErrors (fun u => lane i (x u)) (k i) (bits i) n0)
    (tr : Training x n0 f g) (hskew : ∀ i j, i < 3 → j < 3 → k i ≤ k j + 70)
    (ph pv : Bool) (e : Nat) (he : g ≤ e) (std : StandardSyncs x ph pv e) :
    ∃ L, (∀ i, i < 3 → k i / 10 + 2 ≤ L ∧ L ≤ k i / 10 + 23) ∧ ∀ n, e < n →
      let out := (rxOn s0 bits (n + L)).pol
      out.valid_o = true ∧ Analysis.SyncPolarity.de out = (x n).de ∧
      ((x n).de = true →
        (receivedWord (bits 2) (k 2) n = sentWord (fun u => lane 2 (x u)) n → out.r = (x n).r) ∧
        (receivedWord (bits 1) (k 1) n = sentWord (fun u => lane 1 (x u)) n → out.g = (x n).g) ∧
        (receivedWord (bits 0) (k 0) n = sentWord (fun u => lane 0 (x u)) n → out.b = (x n).b)) ∧
      Analysis.SyncPolarity.hsync out = ((x n).hsync ^^ ph) ∧
      Analysis.SyncPolarity.vsync out = ((x n).vsync ^^ pv) := by
  obtain ⟨L, hL, h⟩ := received_video s0 hs0 x k bits n0 f g hbits tr hskew ph pv e he std
  refine ⟨L, hL, fun n hn => ?_⟩
  obtain ⟨a, b, ⟨r, g', b'⟩, c⟩ := h n hn
  have dec : ∀ i, (lane i (x n)).de = true →
      receivedWord (bits i) (k i) n = sentWord (fun u => lane i (x u)) n →
      decodeByte (receivedWord (bits i) (k i) n) = (lane i (x n)).d := by
    intro i hd hw
    rw [hw]
    exact decode_sent (fun u => lane i (x u)) n hd
  exact ⟨a, b, fun hd => ⟨fun hw => r.trans (dec 2 hd hw), fun hw => g'.trans (dec 1 hd hw),
    fun hw => b'.trans (dec 0 hd hw)⟩, c⟩

/-- A resolution detector that is fed with the video `x`, `L` clocks late, measures `x`. -/
theorem resolution_follows (x : Nat → Phy) (pv : Bool) (e L : Nat) (res : Nat → Analysis.Resolution.State)
    (z : Nat → Analysis.Resolution.In) (hstep : ∀ u, res (u + 1) = Analysis.Resolution.step 11 (res u) (z u))
    (hv : ∀ n, e < n → (z (n + L)).valid_i = true ∧ (z (n + L)).de = (x n).de ∧
      (z (n + L)).vsync = ((x n).vsync ^^ pv)) :
    (∀ b n j, e < b → 0 < n → (x b).de = false → (∀ u, u < n → (x (b + 1 + u)).de = true) →
      (x (b + 1 + n)).de = false → (∀ u, u < j → ¬ LineEnd x (b + 1 + n + u)) →
      (res (b + 1 + n + j + (L + 1))).hcounter_st = n % 2 ^ 11) ∧
    (∀ b n j, e < b → FrameSync x pv b = true → (∀ u, u < n → FrameSync x pv (b + 1 + u) = false) →
      FrameSync x pv (b + 1 + n) = true →
      (∀ u, u < j → FrameSync x pv (b + 1 + n + 1 + u) = false) →
      (res (b + 1 + n + 1 + j + (L + 1))).vcounter_st = countIn (lineEnd x) (b + 1) n % 2 ^ 11) := by
  let y : Nat → Analysis.Resolution.In := fun u => z (e + 1 + u + L)
  have hres : ∀ u, res (e + 1 + u + L) =
      trace (Analysis.Resolution.step 11) (res (e + 1 + L)) y u := by
    intro u
    induction u with
    | zero => rfl
    | succ u ih =>
      rw [show e + 1 + (u + 1) + L = e + 1 + u + L + 1 by omega, hstep, ih]
      rfl
  have yd : ∀ u, (y u).de = (x (e + 1 + u)).de := fun u => (hv (e + 1 + u) (by omega)).2.1
  have yv : ∀ u, (y u).valid_i = true := fun u => (hv (e + 1 + u) (by omega)).1
  have ys : ∀ u, (y u).vsync = ((x (e + 1 + u)).vsync ^^ pv) :=
    fun u => (hv (e + 1 + u) (by omega)).2.2
  have yr : ∀ u, Verif.Props.VsyncRises y u = FrameSync x pv (e + 1 + u) := by
    intro u
    unfold Verif.Props.VsyncRises FrameSync
    rw [ys, ys, show e + 1 + (u + 1) = e + 1 + u + 1 by omega]
    cases (x (e + 1 + u)).vsync <;> cases (x (e + 1 + u + 1)).vsync <;> cases pv <;> rfl
  constructor
  · intro b n j hb hn h0 h1 h2 hno
    obtain ⟨t, rfl⟩ : ∃ t, b = e + 1 + t := ⟨b - e - 1, by omega⟩
    have := Verif.Props.C11_hres (nbits := 11) (res (e + 1 + L)) y t n j hn
      (by rw [yd]; exact h0)
      (fun u hu => ⟨by
        rw [yd, show e + 1 + (t + 1 + u) = e + 1 + t + 1 + u by omega]; exact h1 u hu, yv _⟩)
      (by rw [yd, show e + 1 + (t + 1 + n) = e + 1 + t + 1 + n by omega]; exact h2)
      (fun _ _ => yv _)
      (fun u hu => by
        rw [yd, yd, show e + 1 + (t + 1 + n + u) = e + 1 + t + 1 + n + u by omega,
          show e + 1 + (t + 1 + n + u + 1) = e + 1 + t + 1 + n + u + 1 by omega]
        exact hno u hu)
    rw [← hres] at this
    rw [← this]
    congr 2; omega
  · intro b n j hb hr1 hno hr2 hno2
    obtain ⟨t, rfl⟩ : ∃ t, b = e + 1 + t := ⟨b - e - 1, by omega⟩
    have := Verif.Props.C12_vres (nbits := 11) (res (e + 1 + L)) y t n j
      (by rw [yr]; exact hr1) (yv _)
      (fun u hu => by
        rw [yr, show e + 1 + (t + 1 + u) = e + 1 + t + 1 + u by omega]; exact hno u hu)
      (by rw [yr, show e + 1 + (t + 1 + n) = e + 1 + t + 1 + n by omega]; exact hr2)
      (fun _ _ => yv _)
      (fun u hu => by
        rw [yr, show e + 1 + (t + 1 + n + 1 + u) = e + 1 + t + 1 + n + 1 + u by omega]
        exact hno2 u hu)
    rw [← hres] at this
    have hc : ∀ m, countIn (Verif.Props.LineEnds y) (t + 1) m =
        countIn (lineEnd x) (e + 1 + t + 1) m := by
      intro m
      induction m with
      | zero => rfl
      | succ m ih =>
        simp only [countIn]
        rw [ih]
        unfold Verif.Props.LineEnds lineEnd
        rw [yd, yd, show e + 1 + (t + 1 + m) = e + 1 + t + 1 + m by omega,
          show e + 1 + (t + 1 + m + 1) = e + 1 + t + 1 + m + 1 by omega]
    rw [← hc, ← this]
    congr 2; omega

/-- **C109** Errors in pixels do not disturb the measured resolution (C102). -/
theorem C109_resolution (s0 : Receiver.State) (hs0 : Registers s0) (x : Nat → Phy)
    (k : Nat → Nat) (bits : Nat → Nat → Bool) (n0 f g : Nat)
    (hbits : ∀ i, i < 3 → OnlyPixelErrors (fun u => lane i (x u)) (k i) (bits i) n0)
    (tr : Training x n0 f g) (hskew : ∀ i j, i < 3 → j < 3 → k i ≤ k j + 70)
    (ph pv : Bool) (e : Nat) (he : g ≤ e) (std : StandardSyncs x ph pv e) :
    ∃ L, (∀ i, i < 3 → k i / 10 + 3 ≤ L ∧ L ≤ k i / 10 + 24) ∧
      (∀ b n j, e < b → 0 < n → (x b).de = false → (∀ u, u < n → (x (b + 1 + u)).de = true) →
        (x (b + 1 + n)).de = false → (∀ u, u < j → ¬ LineEnd x (b + 1 + n + u)) →
        (rxOn s0 bits (b + 1 + n + j + L)).res.hcounter_st = n % 2 ^ 11) ∧
      (∀ b n j, e < b → FrameSync x pv b = true → (∀ u, u < n → FrameSync x pv (b + 1 + u) = false) →
        FrameSync x pv (b + 1 + n) = true →
        (∀ u, u < j → FrameSync x pv (b + 1 + n + 1 + u) = false) →
        (rxOn s0 bits (b + 1 + n + 1 + j + L)).res.vcounter_st =
          countIn (lineEnd x) (b + 1) n % 2 ^ 11) := by
  obtain ⟨L, hL, hv⟩ := C109_video s0 hs0 x k bits n0 f g hbits tr hskew ph pv e he std
  exact ⟨L + 1, fun i hi => by have := hL i hi; omega, resolution_follows x pv e L
    (fun u => (rxOn s0 bits u).res) (fun u => resIn (rxOn s0 bits u)) (fun _ => rfl)
    fun n hn => ⟨(hv n hn).1, (hv n hn).2.1, (hv n hn).2.2.2.2⟩⟩

/-- **C102** For standard video timings, whatever the polarity of the syncs: from the end of any line
after lock the receiver's outputs are the transmitter's video with the syncs made active-high. -/
theorem C102_video (s0 : Receiver.State) (hs0 : Registers s0) (x : Nat → Phy)
    (k : Nat → Nat) (lead : Nat → Nat → Bool) (n0 f g : Nat)
    (tr : Training x n0 f g) (hskew : ∀ i j, i < 3 → j < 3 → k i ≤ k j + 70)
    (ph pv : Bool) (e : Nat) (he : g ≤ e) (std : StandardSyncs x ph pv e) :
    ∃ L, (∀ i, i < 3 → k i / 10 + 2 ≤ L ∧ L ≤ k i / 10 + 23) ∧ ∀ n, e < n →
      let out := (rxFrom s0 x k lead (n + L)).pol
      out.valid_o = true ∧ Analysis.SyncPolarity.de out = (x n).de ∧
      ((x n).de = true → out.r = (x n).r ∧ out.g = (x n).g ∧ out.b = (x n).b) ∧
      Analysis.SyncPolarity.hsync out = ((x n).hsync ^^ ph) ∧
      Analysis.SyncPolarity.vsync out = ((x n).vsync ^^ pv) := by
  obtain ⟨L, hL, h⟩ := C109_video s0 hs0 x k (laneBits x k lead) n0 f g
    (fun _ _ => intact_lane _ _ _ _ fun n _ => intact_serialise _ _ _ n) tr hskew ph pv e he std
  refine ⟨L, hL, fun n hn => ?_⟩
  obtain ⟨h1, h2, h3, h4⟩ := h n hn
  exact ⟨h1, h2, fun hd => ⟨(h3 hd).1 (intact_serialise _ _ _ n), (h3 hd).2.1 (intact_serialise _ _ _ n),
    (h3 hd).2.2 (intact_serialise _ _ _ n)⟩, h4⟩

/-- **C102** From any state, the receiver reports the resolution that is being sent: after a line of `n` pixels the
horizontal resolution is `n` until the next line ends, and after two starts of the vertical sync
pulse the vertical resolution is the number of lines between them until the next start (both modulo
2^11). -/
theorem C102_resolution (s0 : Receiver.State) (hs0 : Registers s0) (x : Nat → Phy)
    (k : Nat → Nat) (lead : Nat → Nat → Bool) (n0 f g : Nat)
    (tr : Training x n0 f g) (hskew : ∀ i j, i < 3 → j < 3 → k i ≤ k j + 70)
    (ph pv : Bool) (e : Nat) (he : g ≤ e) (std : StandardSyncs x ph pv e) :
    ∃ L, (∀ i, i < 3 → k i / 10 + 3 ≤ L ∧ L ≤ k i / 10 + 24) ∧
      (∀ b n j, e < b → 0 < n → (x b).de = false → (∀ u, u < n → (x (b + 1 + u)).de = true) →
        (x (b + 1 + n)).de = false → (∀ u, u < j → ¬ LineEnd x (b + 1 + n + u)) →
        (rxFrom s0 x k lead (b + 1 + n + j + L)).res.hcounter_st = n % 2 ^ 11) ∧
      (∀ b n j, e < b → FrameSync x pv b = true → (∀ u, u < n → FrameSync x pv (b + 1 + u) = false) →
        FrameSync x pv (b + 1 + n) = true →
        (∀ u, u < j → FrameSync x pv (b + 1 + n + 1 + u) = false) →
        (rxFrom s0 x k lead (b + 1 + n + 1 + j + L)).res.vcounter_st =
          countIn (lineEnd x) (b + 1) n % 2 ^ 11) :=
  C109_resolution s0 hs0 x k (laneBits x k lead) n0 f g
    (fun _ _ => intact_lane _ _ _ _ fun n _ => intact_serialise _ _ _ n) tr hskew ph pv e he std

/-- The condition `Registers` holds in every state that follows one in which it holds. -/
theorem C102_registers (s0 : Receiver.State) (hs0 : Registers s0) (raw : Nat → Receiver.In) (t : Nat) :
    Registers (trace Receiver.step s0 raw t) := by
  have cnt : ∀ (s : CharSync.State) (w : BitVec 10), (CharSync.step 8 s w).control_counter ≤ 7 := by
    intro s w
    have hb : 2 ^ bitsFor (8 - 1) = 8 := by decide
    simp only [CharSync.step]
    split
    · split
      · exact Nat.zero_le _
      · have := Nat.mod_lt (s.control_counter + 1) (show 0 < 8 by decide)
        rw [hb]; omega
    · exact Nat.zero_le _
  refine trace_inv Registers hs0 (fun s x h => ?_) t
  exact
    { counter0 := cnt _ _
      counter1 := cnt _ _
      counter2 := cnt _ _
      pointers := by
        have := ChanSync.inRange (x := fun _ => chanIn s) h.pointers 1
        exact this }

theorem reset_registers : Registers Receiver.reset where
  counter0 := Nat.zero_le _
  counter1 := Nat.zero_le _
  counter2 := Nat.zero_le _
  pointers := fun _ _ => ⟨Nat.zero_lt_succ _, Nat.zero_lt_succ _⟩

/-- **C102** A change of source: a receiver that has been fed anything whatever for `T` clocks since
reset (another source, a disconnected cable), and from then on a transmitter's lanes, reproduces the
transmitter's video, with the latency and after the training that C80 requires after reset. -/
theorem C102_switch (raw : Nat → Receiver.In) (T : Nat) (x : Nat → Phy) (k : Nat → Nat)
    (lead : Nat → Nat → Bool) (n0 f g : Nat)
    (hraw : ∀ u, raw (T + u) = ⟨deserialised (laneBits x k lead 0) u,
      deserialised (laneBits x k lead 1) u, deserialised (laneBits x k lead 2) u⟩)
    (tr : Training x n0 f g) (hskew : ∀ i j, i < 3 → j < 3 → k i ≤ k j + 70)
    (ph pv : Bool) (e : Nat) (he : g ≤ e) (std : StandardSyncs x ph pv e) :
    ∃ L, (∀ i, i < 3 → k i / 10 + 2 ≤ L ∧ L ≤ k i / 10 + 23) ∧ ∀ n, e < n →
      let out := (trace Receiver.step Receiver.reset raw (T + (n + L))).pol
      out.valid_o = true ∧ Analysis.SyncPolarity.de out = (x n).de ∧
      ((x n).de = true → out.r = (x n).r ∧ out.g = (x n).g ∧ out.b = (x n).b) ∧
      Analysis.SyncPolarity.hsync out = ((x n).hsync ^^ ph) ∧
      Analysis.SyncPolarity.vsync out = ((x n).vsync ^^ pv) := by
  obtain ⟨L, hL, h⟩ := C102_video _ (C102_registers _ reset_registers raw T) x k lead n0 f g tr hskew
    ph pv e he std
  refine ⟨L, hL, fun n hn => ?_⟩
  have h := h n hn
  have eq : rxFrom (trace Receiver.step Receiver.reset raw T) x k lead (n + L) =
      trace Receiver.step Receiver.reset raw (T + (n + L)) := by
    rw [trace_add]
    unfold rxFrom rxOn
    congr 1
    funext u
    exact (hraw u).symm
  rw [eq] at h
  exact h

/-- **C80** After reset the receiver locks and then reproduces the video (`C102_locks`). -/
theorem C80_locks (x : Nat → Phy) (k : Nat → Nat) (lead : Nat → Nat → Bool) (n0 f g : Nat)
    (tr : Training x n0 f g) (hskew : ∀ i j, i < 3 → j < 3 → k i ≤ k j + 70) :
    ∃ L, (∀ i, i < 3 → k i / 10 + 2 ≤ L ∧ L ≤ k i / 10 + 23) ∧
      let out := fun n => (rxState x k lead (n + L)).pol
      (∀ n, g ≤ n →
        (g < n → (out n).valid_o = true) ∧ Analysis.SyncPolarity.de (out n) = (x n).de ∧
        ((x n).de = true → (out n).r = (x n).r ∧ (out n).g = (x n).g ∧ (out n).b = (x n).b)) ∧
      (∀ e j, g ≤ e → LineEnd x e → (∀ u, u < j → ¬ LineEnd x (e + 1 + u)) →
        (x (e + 1 + j)).de = false →
        Analysis.SyncPolarity.hsync (out (e + 1 + j)) =
          ((x (e + 1 + j)).hsync ^^ (x (e + 1)).hsync) ∧
        Analysis.SyncPolarity.vsync (out (e + 1 + j)) =
          ((x (e + 1 + j)).vsync ^^ (x (e + 1)).vsync)) ∧
      (∀ n, g ≤ n → (x (n + 1)).de = true →
        Analysis.SyncPolarity.hsync (out (n + 1)) = Analysis.SyncPolarity.hsync (out n) ∧
        Analysis.SyncPolarity.vsync (out (n + 1)) = Analysis.SyncPolarity.vsync (out n)) :=
  C102_locks Receiver.reset reset_registers x k lead n0 f g tr hskew

/-- **C80** For standard video timings, whatever the polarity of the syncs: from the end of any line
after lock the outputs of a receiver that started from reset are the transmitter's video with the syncs
made active-high. -/
theorem C80_video (x : Nat → Phy) (k : Nat → Nat) (lead : Nat → Nat → Bool) (n0 f g : Nat)
    (tr : Training x n0 f g) (hskew : ∀ i j, i < 3 → j < 3 → k i ≤ k j + 70)
    (ph pv : Bool) (e : Nat) (he : g ≤ e) (std : StandardSyncs x ph pv e) :
    ∃ L, (∀ i, i < 3 → k i / 10 + 2 ≤ L ∧ L ≤ k i / 10 + 23) ∧ ∀ n, e < n →
      let out := (rxState x k lead (n + L)).pol
      out.valid_o = true ∧ Analysis.SyncPolarity.de out = (x n).de ∧
      ((x n).de = true → out.r = (x n).r ∧ out.g = (x n).g ∧ out.b = (x n).b) ∧
      Analysis.SyncPolarity.hsync out = ((x n).hsync ^^ ph) ∧
      Analysis.SyncPolarity.vsync out = ((x n).vsync ^^ pv) :=
  C102_video Receiver.reset reset_registers x k lead n0 f g tr hskew ph pv e he std

/-- **C81** A receiver that started from reset reports the resolution that is being sent: after a
line of `n` pixels the horizontal resolution is `n` until the next line ends, and after two starts of
the vertical sync pulse the vertical resolution is the number of lines between them until the next
start (both modulo 2^11). -/
theorem C81_resolution (x : Nat → Phy) (k : Nat → Nat) (lead : Nat → Nat → Bool) (n0 f g : Nat)
    (tr : Training x n0 f g) (hskew : ∀ i j, i < 3 → j < 3 → k i ≤ k j + 70)
    (ph pv : Bool) (e : Nat) (he : g ≤ e) (std : StandardSyncs x ph pv e) :
    ∃ L, (∀ i, i < 3 → k i / 10 + 3 ≤ L ∧ L ≤ k i / 10 + 24) ∧
      (∀ b n j, e < b → 0 < n → (x b).de = false → (∀ u, u < n → (x (b + 1 + u)).de = true) →
        (x (b + 1 + n)).de = false → (∀ u, u < j → ¬ LineEnd x (b + 1 + n + u)) →
        (rxState x k lead (b + 1 + n + j + L)).res.hcounter_st = n % 2 ^ 11) ∧
      (∀ b n j, e < b → FrameSync x pv b = true → (∀ u, u < n → FrameSync x pv (b + 1 + u) = false) →
        FrameSync x pv (b + 1 + n) = true →
        (∀ u, u < j → FrameSync x pv (b + 1 + n + 1 + u) = false) →
        (rxState x k lead (b + 1 + n + 1 + j + L)).res.vcounter_st =
          countIn (lineEnd x) (b + 1) n % 2 ^ 11) :=
  C102_resolution Receiver.reset reset_registers x k lead n0 f g tr hskew ph pv e he std

/-- The word error counter of one lane. -/
theorem lane_no_errors (x : Nat → Phy) (k : Nat → Nat) (lead : Nat → Nat → Bool) (n0 : Nat)
    (hblank : ∀ n, n0 ≤ n → n ≤ n0 + 9 → (x n).de = false)
    (hiso : ∀ n, n0 ≤ n → (x (n + 1)).de = false → (x n).de = false ∨ (x (n + 2)).de = false)
    (m t i : Nat) (hm : n0 + 18 + k i / 10 ≤ m * 2 ^ 24)
    (h1 : (m + 1) * 2 ^ 24 < t) :
    (laneState (laneBits x k lead i) t).wer.wer_counter_r = 0 := by
  have hw : ∀ t, (laneState (laneBits x k lead i) t).wer = trace (Wer.step 24) Wer.reset
      (fun u => (laneState (laneBits x k lead i) u).charsync.data) t := by
    intro t
    induction t with
    | zero => rfl
    | succ t ih =>
      show Wer.step 24 (laneState (laneBits x k lead i) t).wer _ = _
      rw [ih]; rfl
  rw [hw]
  refine wer_zero 24 _ (n0 + 16 + k i / 10) m t (fun n hn => ?_) (by omega) h1
  have := (lane_aligned Lane.reset (Nat.zero_le _) (fun u => lane i (x u)) (k i) (lead i) n0
    (fun n h1 h2 => by rw [lane_de]; exact hblank n h1 h2)
    (fun n h1 h2 => by
      simp only [lane_de] at h2 ⊢
      exact hiso n h1 h2) (n - 6 - k i / 10) (by omega)).1
  rw [show n - 6 - k i / 10 + 6 + k i / 10 = n by omega] at this
  show isErrorWord (laneState (serialise (k i) (lead i) _) n).charsync.data = false
  rw [this]
  exact encoder_no_error _ _

/-- **C82** Once the lanes are aligned, the word error counters read zero: every count latched over a
period of 2^24 clocks that begins after the ten blanking clocks have been received is zero, on all
three lanes. -/
theorem C82_no_errors (x : Nat → Phy) (k : Nat → Nat) (lead : Nat → Nat → Bool) (n0 : Nat)
    (hblank : ∀ n, n0 ≤ n → n ≤ n0 + 9 → (x n).de = false)
    (hiso : ∀ n, n0 ≤ n → (x (n + 1)).de = false → (x n).de = false ∨ (x (n + 2)).de = false)
    (m t : Nat) (hm : ∀ i, i < 3 → n0 + 18 + k i / 10 ≤ m * 2 ^ 24) (ht : (m + 1) * 2 ^ 24 < t) :
    let s := rxState x k lead t
    s.lane0.wer.wer_counter_r = 0 ∧ s.lane1.wer.wer_counter_r = 0 ∧
      s.lane2.wer.wer_counter_r = 0 := by
  simp only [rxState, rxFrom, rx_lane0, rx_lane1, rx_lane2]
  exact ⟨lane_no_errors x k lead n0 hblank hiso m t 0 (hm 0 (by omega)) ht,
    lane_no_errors x k lead n0 hblank hiso m t 1 (hm 1 (by omega)) ht,
    lane_no_errors x k lead n0 hblank hiso m t 2 (hm 2 (by omega)) ht⟩

/-- **C102** From any state, the word error counters of all three lanes read zero two periods of 2^24
clocks after the ten blanking clocks have been received, and from then on. -/
theorem C102_no_errors (s0 : Receiver.State) (hs0 : Registers s0) (x : Nat → Phy) (k : Nat → Nat)
    (lead : Nat → Nat → Bool) (n0 : Nat)
    (hblank : ∀ n, n0 ≤ n → n ≤ n0 + 9 → (x n).de = false)
    (hiso : ∀ n, n0 ≤ n → (x (n + 1)).de = false → (x n).de = false ∨ (x (n + 2)).de = false)
    (t : Nat) (ht : ∀ i, i < 3 → n0 + 21 + k i / 10 + 2 * 2 ^ 24 ≤ t) :
    let s := rxFrom s0 x k lead t
    s.lane0.wer.wer_counter_r = 0 ∧ s.lane1.wer.wer_counter_r = 0 ∧
      s.lane2.wer.wer_counter_r = 0 := by
  have key : ∀ (l0 : Lane) (_ : l0.charsync.control_counter ≤ 7) (i : Nat) (_ : i < 3),
      (laneFrom l0 (laneBits x k lead i) t).wer.wer_counter_r = 0 := by
    intro l0 hl0 i hi
    have hw : ∀ t, (laneFrom l0 (laneBits x k lead i) t).wer = trace (Wer.step 24) l0.wer
        (fun u => (laneFrom l0 (laneBits x k lead i) u).charsync.data) t := by
      intro t
      induction t with
      | zero => rfl
      | succ t ih =>
        show Wer.step 24 (laneFrom l0 (laneBits x k lead i) t).wer _ = _
        rw [ih]; rfl
    rw [hw]
    refine Wer.any_zero 24 _ _ (n0 + 16 + k i / 10) t (fun n hn => ?_) (by have := ht i hi; omega)
    have := (lane_aligned l0 hl0 (fun u => lane i (x u)) (k i) (lead i) n0
      (fun n h1 h2 => by rw [lane_de]; exact hblank n h1 h2)
      (fun n h1 h2 => by
        simp only [lane_de] at h2 ⊢
        exact hiso n h1 h2) (n - 6 - k i / 10) (by omega)).1
    rw [show n - 6 - k i / 10 + 6 + k i / 10 = n by omega] at this
    show isErrorWord (laneFrom l0 (serialise (k i) (lead i) _) n).charsync.data = false
    rw [this]
    exact encoder_no_error _ _
  simp only [rxFrom, rx_lane0, rx_lane1, rx_lane2]
  exact ⟨key _ hs0.counter0 0 (by omega), key _ hs0.counter1 1 (by omega),
    key _ hs0.counter2 2 (by omega)⟩

/-! ### A concrete case -/

/-- Lines of 28 blanking clocks and 20 pixels, active-low hsync, active-high vsync every five lines;
the lanes arrive 3, 28 and 65 bits late. -/
def rxVideo (n : Nat) : Phy :=
  { de := decide (28 ≤ n % 48), hsync := !decide (5 ≤ n % 48 ∧ n % 48 < 10)
    vsync := decide (195 ≤ n % 240 ∧ n % 240 < 200), r := BitVec.ofNat 8 n
    g := BitVec.ofNat 8 (2 * n), b := BitVec.ofNat 8 (3 * n) }

theorem rxVideo_training : Training rxVideo 0 28 48 where
  blank := fun n _ h => decide_eq_false (by omega)
  iso := fun n _ h => by
    simp only [rxVideo, decide_eq_false_iff_not] at h ⊢
    omega
  later := by omega
  before := rfl
  active := fun n _ _ => decide_eq_true (by omega)
  ends := rfl
  long := by omega

theorem rxVideo_standard : StandardSyncs rxVideo true false 95 where
  ends := ⟨rfl, rfl⟩
  idle := fun n _ h => by
    obtain ⟨h1, h2⟩ := h
    simp only [rxVideo, decide_eq_false_iff_not, decide_eq_true_eq, Bool.not_eq_true'] at h1 h2 ⊢
    omega
  hold := fun n _ h => by
    simp only [rxVideo, decide_eq_true_eq] at h ⊢
    constructor
    · rw [decide_eq_false (by omega), decide_eq_false (by omega)]
    · rw [decide_eq_false (by omega), decide_eq_false (by omega)]

/-- The lane delays of the example. -/
def rxDelay (i : Nat) : Nat := [3, 28, 65].getD i 0

example : ∃ L, ∀ n, 95 < n →
    let out := (rxState rxVideo rxDelay (fun _ _ => true) (n + L)).pol
    out.valid_o = true ∧ Analysis.SyncPolarity.de out = (rxVideo n).de ∧
    ((rxVideo n).de = true → out.r = BitVec.ofNat 8 n) ∧
    Analysis.SyncPolarity.hsync out = ((rxVideo n).hsync ^^ true) := by
  obtain ⟨L, -, h⟩ := C80_video rxVideo rxDelay (fun _ _ => true) 0 28 48 rxVideo_training
    (by
      have : ∀ i, i < 3 → ∀ j, j < 3 → rxDelay i ≤ rxDelay j + 70 := by decide
      exact fun i j hi hj => this i hi j hj) true false 95 (by omega) rxVideo_standard
  exact ⟨L, fun n hn => ⟨(h n hn).1, (h n hn).2.1, fun hd => ((h n hn).2.2.1 hd).1,
    (h n hn).2.2.2.1⟩⟩

/-- A receiver locked to another source (words at offset 7 on all lanes) for 1000 clocks, then switched
to the example. -/
example : ∃ L, ∀ n, 95 < n →
    let raw : Nat → Receiver.In := fun t =>
      if t < 1000 then
        let w := deserialised (serialise 7 (fun _ => false) (encoderOut sampleLine)) t
        ⟨w, w, w⟩
      else ⟨deserialised (laneBits rxVideo rxDelay (fun _ _ => true) 0) (t - 1000),
        deserialised (laneBits rxVideo rxDelay (fun _ _ => true) 1) (t - 1000),
        deserialised (laneBits rxVideo rxDelay (fun _ _ => true) 2) (t - 1000)⟩
    let out := (trace Receiver.step Receiver.reset raw (1000 + (n + L))).pol
    out.valid_o = true ∧ Analysis.SyncPolarity.de out = (rxVideo n).de ∧
    ((rxVideo n).de = true → out.r = BitVec.ofNat 8 n) := by
  obtain ⟨L, -, h⟩ := C102_switch (fun t =>
      if t < 1000 then
        let w := deserialised (serialise 7 (fun _ => false) (encoderOut sampleLine)) t
        ⟨w, w, w⟩
      else ⟨deserialised (laneBits rxVideo rxDelay (fun _ _ => true) 0) (t - 1000),
        deserialised (laneBits rxVideo rxDelay (fun _ _ => true) 1) (t - 1000),
        deserialised (laneBits rxVideo rxDelay (fun _ _ => true) 2) (t - 1000)⟩)
    1000 rxVideo rxDelay (fun _ _ => true) 0 28 48
    (fun u => by
      show (if 1000 + u < 1000 then _ else _) = _
      rw [if_neg (by omega), show 1000 + u - 1000 = u by omega])
    rxVideo_training
    (by
      have : ∀ i, i < 3 → ∀ j, j < 3 → rxDelay i ≤ rxDelay j + 70 := by decide
      exact fun i j hi hj => this i hi j hj) true false 95 (by omega) rxVideo_standard
  exact ⟨L, fun n hn => ⟨(h n hn).1, (h n hn).2.1, fun hd => ((h n hn).2.2.1 hd).1⟩⟩

/-- The measurements of C81 on it: 20 pixels per line, 5 lines per frame. -/
example : ∃ L, (rxState rxVideo rxDelay (fun _ _ => true) (48 * 5 + L)).res.hcounter_st = 20 ∧
    (rxState rxVideo rxDelay (fun _ _ => true) (195 + 240 + L)).res.vcounter_st = 5 := by
  obtain ⟨L, -, h, h'⟩ := C81_resolution rxVideo rxDelay (fun _ _ => true) 0 28 48 rxVideo_training
    (by
      have : ∀ i, i < 3 → ∀ j, j < 3 → rxDelay i ≤ rxDelay j + 70 := by decide
      exact fun i j hi hj => this i hi j hj) true false 95 (by omega) rxVideo_standard
  refine ⟨L, h 219 20 0 (by omega) (by omega) rfl (fun u hu => decide_eq_true (by omega)) rfl
    (fun u hu => absurd hu (Nat.not_lt_zero _)), ?_⟩
  have h2 := h' 194 239 0 (by omega) (by decide +kernel) (fun u hu => ?_) (by decide +kernel)
    (fun u hu => absurd hu (Nat.not_lt_zero _))
  · have e : countIn (lineEnd rxVideo) (194 + 1) 239 = 5 := by decide +kernel
    rw [e] at h2
    exact h2
  · simp only [FrameSync, rxVideo]
    rw [Bool.and_eq_false_iff]
    by_cases hu' : u < 4
    · left
      rw [decide_eq_true (by omega)]; rfl
    · right
      rw [decide_eq_false (by omega)]; rfl

end Verif.Props
